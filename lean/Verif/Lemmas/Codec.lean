import Verif.Spec.CommitLog
/-!
# Reading back what was written: the records of the commit log
-/
namespace Fave
namespace Log

theorem le_length (k n : Nat) : (le k n).length = k := by
  induction k generalizing n with
  | zero => rfl
  | succ k ih => simp [le, ih]

theorem unle_le (k n : Nat) : unle (le k n) = n % 256 ^ k := by
  induction k generalizing n with
  | zero => simp [le, unle, Nat.mod_one]
  | succ k ih =>
    simp only [le, unle, ih, UInt8.toNat_ofNat']
    rw [Nat.pow_succ 256 k, Nat.mul_comm (256 ^ k) 256, Nat.mod_mul]

theorem unle_le_of_lt {k n : Nat} (h : n < 256 ^ k) : unle (le k n) = n := by
  rw [unle_le, Nat.mod_eq_of_lt h]

theorem readFull_append {n : Nat} {b : Bytes} (h : b.length = n) (r : Bytes) : readFull n (b ++ r) = .ok (b, r) := by
  subst h
  simp [readFull]

theorem readFull_zero (r : Bytes) : readFull 0 r = .ok ([], r) := by simp [readFull]

/-- end of file inside a field -/
def IsEof (e : RErr) : Prop := e = .eof ∨ e = .unexpected

theorem readFull_short {n : Nat} {b : Bytes} (h : b.length < n) : ∃ e, readFull n b = .error e ∧ IsEof e := by
  unfold readFull
  rw [if_neg (by omega)]
  by_cases hb : b.isEmpty = true
  · exact ⟨.eof, by rw [if_pos hb], .inl rfl⟩
  · exact ⟨.unexpected, by rw [if_neg hb], .inr rfl⟩

theorem readNum_le {k n : Nat} (h : n < 256 ^ k) (r : Bytes) : readNum k (le k n ++ r) = .ok (n, r) := by
  simp only [readNum, readFull_append (le_length k n), unle_le_of_lt h]

theorem readNum_short {n : Nat} {b : Bytes} (h : b.length < n) : ∃ e, readNum n b = .error e ∧ IsEof e := by
  obtain ⟨e, he, h2⟩ := readFull_short h
  exact ⟨e, by simp only [readNum, he], h2⟩

theorem words_leWords (ts : List Nat) (h : ∀ t ∈ ts, t < 2 ^ 64) : words ts.length (leWords ts) = ts := by
  induction ts with
  | nil => rfl
  | cons t ts ih =>
    have h1 : unle (le 8 t) = t := unle_le_of_lt (by have := h t (by simp); omega)
    simp only [List.length_cons, words, leWords, List.flatMap_cons]
    rw [List.take_left' (le_length 8 t), List.drop_left' (le_length 8 t), h1]
    exact congrArg _ (ih fun x hx => h x (by simp [hx]))

theorem leWords_length (ts : List Nat) : (leWords ts).length = 8 * ts.length := by
  induction ts with
  | nil => rfl
  | cons t ts ih =>
    have : leWords (t :: ts) = le 8 t ++ leWords ts := rfl
    rw [this, List.length_append, ih, le_length, List.length_cons]; omega

theorem readWords_leWords (ts : List Nat) (h : ∀ t ∈ ts, t < 2 ^ 64) (r : Bytes) :
    readWords ts.length (leWords ts ++ r) = .ok (ts, r) := by
  simp only [readWords, readFull_append (leWords_length ts), words_leWords ts h]

theorem readWords_short {n : Nat} {b : Bytes} (h : b.length < 8 * n) : ∃ e, readWords n b = .error e ∧ IsEof e := by
  obtain ⟨e, he, h2⟩ := readFull_short h
  exact ⟨e, by simp only [readWords, he], h2⟩

theorem readHeader_le {s l n : Nat} (hs : s < 2 ^ 64) (hl : l < 2 ^ 16) (hn : n < 2 ^ 16) (r : Bytes) :
    readHeader (le 8 s ++ le 2 l ++ le 2 n ++ r) = .ok ((s, l, n), r) := by
  have hlen : (le 8 s ++ le 2 l ++ le 2 n).length = 12 := by simp [le_length]
  unfold readHeader
  rw [readFull_append hlen]
  have e1 : (le 8 s ++ le 2 l ++ le 2 n).take 8 = le 8 s := by
    rw [List.append_assoc, List.take_left' (le_length 8 s)]
  have e2 : (le 8 s ++ le 2 l ++ le 2 n).drop 8 = le 2 l ++ le 2 n := by
    rw [List.append_assoc, List.drop_left' (le_length 8 s)]
  have e3 : (le 8 s ++ le 2 l ++ le 2 n).drop 10 = le 2 n := by
    rw [List.drop_left' (by simp [le_length])]
  simp only [e1, e2, e3, List.take_left' (le_length 2 l), List.take_of_length_le (Nat.le_of_eq (le_length 2 n)),
    unle_le_of_lt (show s < 256 ^ 8 by omega), unle_le_of_lt (show l < 256 ^ 2 by omega),
    unle_le_of_lt (show n < 256 ^ 2 by omega)]

theorem readNums_ok {k : Nat} {xs : List Nat} (h : ∀ x ∈ xs, x < 256 ^ k) (r : Bytes) :
    readNums k xs.length (xs.flatMap (le k) ++ r) = .ok (xs, r) := by
  induction xs with
  | nil => rfl
  | cons x xs ih =>
    simp only [List.length_cons, readNums, List.flatMap_cons, List.append_assoc, readNum_le (h x (by simp)),
      ih fun y hy => h y (by simp [hy])]

theorem readTile_ok {fs : List Nat} {seg dist : Nat} (hf : fs.length = 6) (h : ∀ f ∈ fs, f < 2 ^ 64) (hs : seg < 2 ^ 16)
    (hd : dist < 2 ^ 8) (r : Bytes) : readTile (encodeEncoder (.tile fs seg dist) ++ r) = .ok (.tile fs seg dist, r) := by
  have h1 := readNums_ok (k := 8) (xs := fs) (fun x hx => by have := h x hx; omega)
  rw [hf] at h1
  simp only [readTile, encodeEncoder, leWords, List.append_assoc, h1, readNum_le (show seg < 256 ^ 2 by omega),
    readNum_le (show dist < 256 ^ 1 by omega)]

theorem readCenters_ok {ds : Nat} {cs : List (List Nat)} (h : ∀ c ∈ cs, c.length = ds ∧ ∀ x ∈ c, x < 2 ^ 32) (r : Bytes) :
    readCenters ds cs.length (cs.flatMap (fun c => c.flatMap (le 4)) ++ r) = .ok (cs, r) := by
  induction cs with
  | nil => rfl
  | cons c cs ih =>
    have h1 := readNums_ok (k := 4) (xs := c) (fun x hx => by have := (h c (by simp)).2 x hx; omega)
    rw [(h c (by simp)).1] at h1
    simp only [List.length_cons, readCenters, List.flatMap_cons, List.append_assoc, h1,
      ih fun y hy => h y (by simp [hy])]

theorem readEncoders_ok (d pq : PQData) (es : List Encoder) (i : Nat) (r : Bytes)
    (hd : pq.dims = d.dims ∧ pq.enc = d.enc ∧ pq.ks = d.ks ∧ pq.m = d.m)
    (h : ∀ j e, es[j]? = some e → encoderOk d (i + j) e) :
    readEncoders pq i es.length (es.flatMap encodeEncoder ++ r) = ({ pq with encoders := pq.encoders ++ es }, .ok r) := by
  induction es generalizing pq i with
  | nil => simp [readEncoders]
  | cons e es ih =>
    have he := h 0 e rfl
    have hread : (if pq.enc = 0 then readTile (encodeEncoder e ++ (es.flatMap encodeEncoder ++ r))
        else readKMeans pq i (encodeEncoder e ++ (es.flatMap encodeEncoder ++ r))) =
        .ok (e, es.flatMap encodeEncoder ++ r) := by
      cases e with
      | tile fs seg dist =>
        obtain ⟨h0, h1, h2, h3, h4⟩ := he
        rw [if_pos (by rw [hd.2.1]; exact h0)]
        exact readTile_ok h1 h2 h3 h4 _
      | kmeans ks ds j cs =>
        obtain ⟨h0, h1, h2, h3, h4, h5⟩ := he
        rw [if_neg (by rw [hd.2.1]; omega)]
        have := readCenters_ok h5 (es.flatMap encodeEncoder ++ r)
        rw [h4] at this
        simp only [readKMeans, hd.1, hd.2.2.1, hd.2.2.2, encodeEncoder, this]
        simp only [h1, h2, h3, Nat.add_zero]
    simp only [List.length_cons, readEncoders, List.flatMap_cons, List.append_assoc, hread]
    rw [ih { pq with encoders := pq.encoders ++ [e] } (i + 1) (by exact hd) (fun j e' hj => by
      have := h (j + 1) e' (by simpa using hj)
      rw [Nat.add_assoc, Nat.add_comm 1 j]; exact this)]
    simp

/-- the switch over the type byte, one equation per type -/
theorem readRecord_tags (maxLen : Nat) (keep : Bool) (st : LogState) (bs : Bytes) :
    readRecord maxLen keep 0 st bs = readNode maxLen st bs ∧
    readRecord maxLen keep 1 st bs = readEP st bs ∧
    readRecord maxLen keep 2 st bs = readLink maxLen st bs ∧
    readRecord maxLen keep 3 st bs = readLinks maxLen keep st bs ∧
    readRecord maxLen keep 4 st bs = readAddTombstone st bs ∧
    readRecord maxLen keep 5 st bs = readRemoveTombstone st bs ∧
    readRecord maxLen keep 6 st bs = readClearLinks st bs ∧
    readRecord maxLen keep 7 st bs = readDeleteNode st bs ∧
    readRecord maxLen keep 8 st bs = (resetState st, .ok (0, bs)) ∧
    readRecord maxLen keep 9 st bs = readClearLinksAtLevel keep st bs ∧
    readRecord maxLen keep 10 st bs = readAddLinks maxLen st bs ∧
    readRecord maxLen keep 11 st bs = readPQ st bs := by
  refine ⟨?_, ?_, ?_, ?_, ?_, ?_, ?_, ?_, ?_, ?_, ?_, ?_⟩ <;> unfold readRecord <;> rfl

/-- one operation applied to the reader's state: what a record does once it is read completely -/
def applyOp (maxLen : Nat) (keep : Bool) (st : LogState) : LogOp → Except RErr LogState
  | .addNode id l => putNode maxLen st id l
  | .setEntryPoint id l => .ok { st with ep := id, level := l, epChanged := true }
  | .addLink s l t => setLinks maxLen st s l (fun x => x ++ [t])
  | .replaceLinks s l ts =>
    match setLinks maxLen st s l (fun _ => ts) with
    | .error e => .error e
    | .ok st => .ok (if keep then markReplaced st s l else st)
  | .addTombstone id => .ok (putTomb st id)
  | .removeTombstone id => .ok (dropTomb st id)
  | .clearLinks id => clearNode st id
  | .deleteNode id => dropNode st id
  | .resetIndex => .ok (resetState st)
  | .clearLinksAtLevel id l => clearLevel keep st id l
  | .addLinks s l ts => setLinks maxLen st s l (fun x => x ++ ts)
  | .addPQ d => .ok { st with pq := d, compressed := true }

/-- bytes the reader counts for an operation (without the type byte) -/
def LogOp.counted : LogOp → Nat
  | .addPQ _ => 9
  | op => op.payload.length

/-- a record read completely -/
theorem readRecord_encode (maxLen : Nat) (keep : Bool) (st : LogState) (op : LogOp) (hr : op.InRange) (r : Bytes) :
    (∀ st', applyOp maxLen keep st op = .ok st' →
      readRecord maxLen keep op.tag st (op.payload ++ r) = (st', .ok (op.counted, r))) ∧
    (∀ e, applyOp maxLen keep st op = .error e →
      (readRecord maxLen keep op.tag st (op.payload ++ r)).2 = .error e) := by
  cases op with
  | addNode id l =>
    simp only [LogOp.InRange] at hr
    have : readRecord maxLen keep (LogOp.addNode id l).tag st ((LogOp.addNode id l).payload ++ r) =
        match putNode maxLen st id l with
        | .error e => (st, .error e)
        | .ok st => (st, .ok (10, r)) := by
      refine (readRecord_tags maxLen keep st _).1.trans ?_
      simp only [readNode, LogOp.payload, List.append_assoc, readNum_le (show id < 256 ^ 8 by omega),
        readNum_le (show l < 256 ^ 2 by omega)]
      cases putNode maxLen st id l <;> rfl
    rw [this]
    refine ⟨fun st' h => ?_, fun e h => ?_⟩ <;> simp only [applyOp] at h <;> simp [h, LogOp.counted, LogOp.payload, le_length]
  | setEntryPoint id l =>
    simp only [LogOp.InRange] at hr
    have : readRecord maxLen keep (LogOp.setEntryPoint id l).tag st ((LogOp.setEntryPoint id l).payload ++ r) =
        ({ st with ep := id, level := l, epChanged := true }, .ok (10, r)) := by
      refine (readRecord_tags maxLen keep st _).2.1.trans ?_
      simp only [readEP, LogOp.payload, List.append_assoc, readNum_le (show id < 256 ^ 8 by omega),
        readNum_le (show l < 256 ^ 2 by omega)]
    rw [this]
    refine ⟨fun st' h => ?_, fun e h => ?_⟩ <;> simp only [applyOp] at h <;> cases h
    simp [LogOp.counted, LogOp.payload, le_length]
  | addLink s l t =>
    simp only [LogOp.InRange] at hr
    have : readRecord maxLen keep (LogOp.addLink s l t).tag st ((LogOp.addLink s l t).payload ++ r) =
        match setLinks maxLen st s l (fun x => x ++ [t]) with
        | .error e => (st, .error e)
        | .ok st => (st, .ok (18, r)) := by
      refine (readRecord_tags maxLen keep st _).2.2.1.trans ?_
      simp only [readLink, LogOp.payload, List.append_assoc, readNum_le (show s < 256 ^ 8 by omega),
        readNum_le (show l < 256 ^ 2 by omega), readNum_le (show t < 256 ^ 8 by omega)]
      cases setLinks maxLen st s l (fun x => x ++ [t]) <;> rfl
    rw [this]
    refine ⟨fun st' h => ?_, fun e h => ?_⟩ <;> simp only [applyOp] at h <;> simp [h, LogOp.counted, LogOp.payload, le_length]
  | replaceLinks s l ts =>
    simp only [LogOp.InRange] at hr
    have : readRecord maxLen keep (LogOp.replaceLinks s l ts).tag st ((LogOp.replaceLinks s l ts).payload ++ r) =
        match setLinks maxLen st s l (fun _ => ts) with
        | .error e => (st, .error e)
        | .ok st => ((if keep then markReplaced st s l else st), .ok (12 + ts.length * 8, r)) := by
      refine (readRecord_tags maxLen keep st _).2.2.2.1.trans ?_
      have hh := readHeader_le hr.1 hr.2.1 hr.2.2.1 (leWords ts ++ r)
      simp only [List.append_assoc] at hh
      simp only [readLinks, LogOp.payload, List.append_assoc, hh, readWords_leWords ts hr.2.2.2]
      cases setLinks maxLen st s l (fun _ => ts) <;> rfl
    rw [this]
    refine ⟨fun st' h => ?_, fun e h => ?_⟩ <;> simp only [applyOp] at h <;> revert h <;>
      cases setLinks maxLen st s l (fun _ => ts)
    · simp
    · simp [LogOp.counted, LogOp.payload, le_length, leWords_length]; intro h; exact ⟨h, by omega⟩
    · simp
    · simp
  | addTombstone id =>
    simp only [LogOp.InRange] at hr
    have : readRecord maxLen keep (LogOp.addTombstone id).tag st ((LogOp.addTombstone id).payload ++ r) =
        (putTomb st id, .ok (8, r)) := by
      refine (readRecord_tags maxLen keep st _).2.2.2.2.1.trans ?_
      simp only [readAddTombstone, LogOp.payload, readNum_le (show id < 256 ^ 8 by omega)]
    rw [this]
    refine ⟨fun st' h => ?_, fun e h => ?_⟩ <;> simp only [applyOp] at h <;> cases h
    simp [LogOp.counted, LogOp.payload, le_length]
  | removeTombstone id =>
    simp only [LogOp.InRange] at hr
    have : readRecord maxLen keep (LogOp.removeTombstone id).tag st ((LogOp.removeTombstone id).payload ++ r) =
        (dropTomb st id, .ok (8, r)) := by
      refine (readRecord_tags maxLen keep st _).2.2.2.2.2.1.trans ?_
      simp only [readRemoveTombstone, LogOp.payload, readNum_le (show id < 256 ^ 8 by omega)]
    rw [this]
    refine ⟨fun st' h => ?_, fun e h => ?_⟩ <;> simp only [applyOp] at h <;> cases h
    simp [LogOp.counted, LogOp.payload, le_length]
  | clearLinks id =>
    simp only [LogOp.InRange] at hr
    have : readRecord maxLen keep (LogOp.clearLinks id).tag st ((LogOp.clearLinks id).payload ++ r) =
        match clearNode st id with
        | .error e => (st, .error e)
        | .ok st => (st, .ok (8, r)) := by
      refine (readRecord_tags maxLen keep st _).2.2.2.2.2.2.1.trans ?_
      simp only [readClearLinks, LogOp.payload, readNum_le (show id < 256 ^ 8 by omega)]
      cases clearNode st id <;> rfl
    rw [this]
    refine ⟨fun st' h => ?_, fun e h => ?_⟩ <;> simp only [applyOp] at h <;> simp [h, LogOp.counted, LogOp.payload, le_length]
  | deleteNode id =>
    simp only [LogOp.InRange] at hr
    have : readRecord maxLen keep (LogOp.deleteNode id).tag st ((LogOp.deleteNode id).payload ++ r) =
        match dropNode st id with
        | .error e => (st, .error e)
        | .ok st => (st, .ok (8, r)) := by
      refine (readRecord_tags maxLen keep st _).2.2.2.2.2.2.2.1.trans ?_
      simp only [readDeleteNode, LogOp.payload, readNum_le (show id < 256 ^ 8 by omega)]
      cases dropNode st id <;> rfl
    rw [this]
    refine ⟨fun st' h => ?_, fun e h => ?_⟩ <;> simp only [applyOp] at h <;> simp [h, LogOp.counted, LogOp.payload, le_length]
  | resetIndex =>
    have : readRecord maxLen keep LogOp.resetIndex.tag st (LogOp.resetIndex.payload ++ r) = (resetState st, .ok (0, r)) :=
      (readRecord_tags maxLen keep st _).2.2.2.2.2.2.2.2.1
    rw [this]
    refine ⟨fun st' h => ?_, fun e h => ?_⟩ <;> simp only [applyOp] at h <;> cases h
    simp [LogOp.counted, LogOp.payload]
  | clearLinksAtLevel id l =>
    simp only [LogOp.InRange] at hr
    have : readRecord maxLen keep (LogOp.clearLinksAtLevel id l).tag st ((LogOp.clearLinksAtLevel id l).payload ++ r) =
        match clearLevel keep st id l with
        | .error e => (st, .error e)
        | .ok st => (st, .ok (10, r)) := by
      refine (readRecord_tags maxLen keep st _).2.2.2.2.2.2.2.2.2.1.trans ?_
      simp only [readClearLinksAtLevel, LogOp.payload, List.append_assoc, readNum_le (show id < 256 ^ 8 by omega),
        readNum_le (show l < 256 ^ 2 by omega)]
      cases clearLevel keep st id l <;> rfl
    rw [this]
    refine ⟨fun st' h => ?_, fun e h => ?_⟩ <;> simp only [applyOp] at h <;> simp [h, LogOp.counted, LogOp.payload, le_length]
  | addLinks s l ts =>
    simp only [LogOp.InRange] at hr
    have : readRecord maxLen keep (LogOp.addLinks s l ts).tag st ((LogOp.addLinks s l ts).payload ++ r) =
        match setLinks maxLen st s l (fun x => x ++ ts) with
        | .error e => (st, .error e)
        | .ok st => (st, .ok (12 + ts.length * 8, r)) := by
      refine (readRecord_tags maxLen keep st _).2.2.2.2.2.2.2.2.2.2.1.trans ?_
      have hh := readHeader_le hr.1 hr.2.1 hr.2.2.1 (leWords ts ++ r)
      simp only [List.append_assoc] at hh
      simp only [readAddLinks, LogOp.payload, List.append_assoc, hh, readWords_leWords ts hr.2.2.2]
      cases setLinks maxLen st s l (fun x => x ++ ts) <;> rfl
    rw [this]
    refine ⟨fun st' h => ?_, fun e h => ?_⟩ <;> simp only [applyOp] at h <;>
      simp [h, LogOp.counted, LogOp.payload, le_length, leWords_length]
    omega
  | addPQ d =>
    obtain ⟨h1, h2, h3, h4, h5, h6, h7⟩ := hr
    have : readRecord maxLen keep (LogOp.addPQ d).tag st ((LogOp.addPQ d).payload ++ r) =
        ({ st with pq := d, compressed := true }, .ok (9, r)) := by
      refine (readRecord_tags maxLen keep st _).2.2.2.2.2.2.2.2.2.2.2.trans ?_
      have hu : (if d.useBits = true then 1 else 0 : Nat) < 256 ^ 1 := by split <;> omega
      simp only [readPQ, LogOp.payload, List.append_assoc, readNum_le (show d.dims < 256 ^ 2 by omega),
        readNum_le (show d.enc < 256 ^ 1 by omega), readNum_le (show d.ks < 256 ^ 2 by omega),
        readNum_le (show d.m < 256 ^ 2 by omega), readNum_le (show d.dist < 256 ^ 1 by omega), readNum_le hu, if_pos h2]
      have h8 := readEncoders_ok d
        ⟨d.dims, d.enc, d.ks, d.m, d.dist, (if d.useBits = true then 1 else 0 : Nat) != 0, []⟩ d.encoders 0 r ⟨rfl, rfl, rfl, rfl⟩
        (fun j e hj => by rw [Nat.zero_add]; exact h7 j e hj)
      rw [h6] at h8
      rw [h8]
      have hb : ((if d.useBits = true then 1 else 0 : Nat) != 0) = d.useBits := by cases d.useBits <;> rfl
      simp only [hb, List.nil_append]
    rw [this]
    refine ⟨fun st' h => ?_, fun e h => ?_⟩ <;> simp only [applyOp] at h <;> cases h
    simp [LogOp.counted]

end Log
end Fave

import Verif.Lemmas.LogMono
/-!
# The encoding of the commit log loses nothing: a decoder
-/
namespace Fave
namespace Log

/-- reads two numbers -/
def two (f : Nat → Nat → LogOp) (k1 k2 : Nat) (bs : Bytes) : Option (LogOp × Bytes) :=
  match readNum k1 bs with
  | .error _ => none
  | .ok (a, bs) =>
    match readNum k2 bs with
    | .error _ => none
    | .ok (b, bs) => some (f a b, bs)

/-- reads one number -/
def one (f : Nat → LogOp) (bs : Bytes) : Option (LogOp × Bytes) :=
  match readNum 8 bs with
  | .error _ => none
  | .ok (a, bs) => some (f a, bs)

/-- reads a header and a list -/
def listOp (f : Nat → Nat → List Nat → LogOp) (bs : Bytes) : Option (LogOp × Bytes) :=
  match readHeader bs with
  | .error _ => none
  | .ok ((s, l, n), bs) =>
    match readWords n bs with
    | .error _ => none
    | .ok (ts, bs) => some (f s l ts, bs)

/-- reads a link -/
def linkOp (bs : Bytes) : Option (LogOp × Bytes) :=
  match readNum 8 bs with
  | .error _ => none
  | .ok (a, bs) =>
    match readNum 2 bs with
    | .error _ => none
    | .ok (b, bs) =>
      match readNum 8 bs with
      | .error _ => none
      | .ok (c, bs) => some (.addLink a b c, bs)

/-- reads quantisation data by means of the reader of the model -/
def pqOp (bs : Bytes) : Option (LogOp × Bytes) :=
  match readPQ fresh bs with
  | (_, .error _) => none
  | (st, .ok (_, bs)) => some (.addPQ st.pq, bs)

/-- one operation -/
def decodeOp : Bytes → Option (LogOp × Bytes)
  | [] => none
  | t :: bs =>
    if t = 0 then two .addNode 8 2 bs
    else if t = 1 then two .setEntryPoint 8 2 bs
    else if t = 2 then linkOp bs
    else if t = 3 then listOp .replaceLinks bs
    else if t = 4 then one .addTombstone bs
    else if t = 5 then one .removeTombstone bs
    else if t = 6 then one .clearLinks bs
    else if t = 7 then one .deleteNode bs
    else if t = 8 then some (.resetIndex, bs)
    else if t = 9 then two .clearLinksAtLevel 8 2 bs
    else if t = 10 then listOp .addLinks bs
    else pqOp bs

theorem two_ok (f : Nat → Nat → LogOp) {k1 k2 a b : Nat} (ha : a < 256 ^ k1) (hb : b < 256 ^ k2) (r : Bytes) :
    two f k1 k2 (le k1 a ++ le k2 b ++ r) = some (f a b, r) := by
  simp only [two, List.append_assoc, readNum_le ha, readNum_le hb]

theorem one_ok (f : Nat → LogOp) {a : Nat} (ha : a < 256 ^ 8) (r : Bytes) : one f (le 8 a ++ r) = some (f a, r) := by
  simp only [one, readNum_le ha]

theorem listOp_ok (f : Nat → Nat → List Nat → LogOp) {s l : Nat} {ts : List Nat} (hs : s < 2 ^ 64) (hl : l < 2 ^ 16)
    (hn : ts.length < 2 ^ 16) (ht : ∀ t ∈ ts, t < 2 ^ 64) (r : Bytes) :
    listOp f (le 8 s ++ le 2 l ++ le 2 ts.length ++ leWords ts ++ r) = some (f s l ts, r) := by
  have hh := readHeader_le hs hl hn (leWords ts ++ r)
  simp only [List.append_assoc] at hh
  simp only [listOp, List.append_assoc, hh, readWords_leWords ts ht]

theorem decode_encode (op : LogOp) (hr : op.InRange) (r : Bytes) : decodeOp (op.encode ++ r) = some (op, r) := by
  cases op with
  | addNode id l => exact two_ok LogOp.addNode (k1 := 8) (k2 := 2) (a := id) (b := l) (by have := hr.1; omega) (by have := hr.2; omega) r
  | setEntryPoint id l => exact two_ok LogOp.setEntryPoint (k1 := 8) (k2 := 2) (a := id) (b := l) (by have := hr.1; omega) (by have := hr.2; omega) r
  | addLink s l t =>
    simp only [LogOp.InRange] at hr
    show linkOp ((LogOp.addLink s l t).payload ++ r) = _
    simp only [linkOp, LogOp.payload, List.append_assoc, readNum_le (show s < 256 ^ 8 by omega),
      readNum_le (show l < 256 ^ 2 by omega), readNum_le (show t < 256 ^ 8 by omega)]
  | replaceLinks s l ts => exact listOp_ok LogOp.replaceLinks hr.1 hr.2.1 hr.2.2.1 hr.2.2.2 r
  | addTombstone id => exact one_ok LogOp.addTombstone (by simp only [LogOp.InRange] at hr; omega) r
  | removeTombstone id => exact one_ok LogOp.removeTombstone (by simp only [LogOp.InRange] at hr; omega) r
  | clearLinks id => exact one_ok LogOp.clearLinks (by simp only [LogOp.InRange] at hr; omega) r
  | deleteNode id => exact one_ok LogOp.deleteNode (by simp only [LogOp.InRange] at hr; omega) r
  | resetIndex => rfl
  | clearLinksAtLevel id l => exact two_ok LogOp.clearLinksAtLevel (k1 := 8) (k2 := 2) (a := id) (b := l) (by have := hr.1; omega) (by have := hr.2; omega) r
  | addLinks s l ts => exact listOp_ok LogOp.addLinks hr.1 hr.2.1 hr.2.2.1 hr.2.2.2 r
  | addPQ d =>
    have h := (readRecord_encode 0 false fresh (.addPQ d) hr r).1 _ rfl
    have h2 : readPQ fresh ((LogOp.addPQ d).payload ++ r) = _ :=
      ((readRecord_tags 0 false fresh _).2.2.2.2.2.2.2.2.2.2.2).symm.trans h
    have h3 : decodeOp ((LogOp.addPQ d).encode ++ r) = pqOp ((LogOp.addPQ d).payload ++ r) := by
      simp only [LogOp.encode, LogOp.tag, List.cons_append, decodeOp]
      simp (decide := true) only [if_false]
    rw [h3]
    simp only [pqOp, h2]

/-- different sequences of operations have different bytes -/
theorem encodeAll_injective {a b : List LogOp} (ha : ∀ op ∈ a, op.InRange) (hb : ∀ op ∈ b, op.InRange)
    (h : encodeAll a = encodeAll b) : a = b := by
  induction a generalizing b with
  | nil =>
    cases b with
    | nil => rfl
    | cons o b => simp [encodeAll, LogOp.encode] at h
  | cons x a ih =>
    cases b with
    | nil => simp [encodeAll, LogOp.encode] at h
    | cons y b =>
      have h1 := decode_encode x (ha x (by simp)) (encodeAll a)
      have h2 := decode_encode y (hb y (by simp)) (encodeAll b)
      have h3 : x.encode ++ encodeAll a = y.encode ++ encodeAll b := h
      rw [h3, h2] at h1
      injection h1 with h1
      injection h1 with e1 e2
      rw [← e1, ih (fun o ho => ha o (by simp [ho])) (fun o ho => hb o (by simp [ho])) e2.symm]

/-- where a cut falls: between two operations or inside one -/
theorem cut_cases (ops : List LogOp) (k : Nat) :
    ∃ done rest, ops = done ++ rest ∧
      (((encodeAll ops).take k = encodeAll done ∧ (rest = [] ∨ k = (encodeAll done).length)) ∨
       (∃ op rest' p s, rest = op :: rest' ∧ s ≠ [] ∧ p ++ s = op.payload ∧
         (encodeAll ops).take k = encodeAll done ++ op.tag :: p ∧ k = (encodeAll done).length + 1 + p.length)) := by
  induction ops generalizing k with
  | nil => exact ⟨[], [], rfl, .inl ⟨by simp [encodeAll], .inl rfl⟩⟩
  | cons op ops ih =>
    by_cases h0 : k = 0
    · subst h0
      exact ⟨[], op :: ops, rfl, .inl ⟨by simp [encodeAll], .inr rfl⟩⟩
    · by_cases hk : k < 1 + op.payload.length
      · refine ⟨[], op :: ops, rfl, .inr ⟨op, ops, op.payload.take (k - 1), op.payload.drop (k - 1), rfl, ?_,
          List.take_append_drop _ _, ?_, ?_⟩⟩
        · simp; omega
        · rw [encodeAll_cons]
          obtain ⟨j, rfl⟩ : ∃ j, k = j + 1 := ⟨k - 1, by omega⟩
          simp only [List.take_succ_cons, encodeAll, List.flatMap_nil, List.nil_append, Nat.add_sub_cancel]
          rw [List.take_append_of_le_length (by omega)]
        · simp [encodeAll]; omega
      · obtain ⟨done, rest, h1, h2⟩ := ih (k - (1 + op.payload.length))
        have ht : (encodeAll (op :: ops)).take k = op.encode ++ (encodeAll ops).take (k - (1 + op.payload.length)) := by
          show (op.encode ++ encodeAll ops).take k = _
          have hl : op.encode.length = 1 + op.payload.length := by simp [LogOp.encode]; omega
          rw [List.take_append, List.take_of_length_le (by omega), hl]
        have hd : (encodeAll (op :: done)).length = 1 + op.payload.length + (encodeAll done).length := by
          rw [encodeAll_cons]; simp; omega
        refine ⟨op :: done, rest, by rw [h1]; rfl, ?_⟩
        rcases h2 with ⟨h2, h3⟩ | ⟨o, rest', p, s, h3, h4, h5, h6, h7⟩
        · left
          refine ⟨by rw [ht, h2]; rfl, ?_⟩
          rcases h3 with h3 | h3
          · exact .inl h3
          · right; rw [hd]; omega
        · right
          refine ⟨o, rest', p, s, h3, h4, h5, ?_, ?_⟩
          · rw [ht, h6]; show _ = op.encode ++ encodeAll done ++ _; rw [List.append_assoc]
          · rw [hd]; omega

end Log
end Fave

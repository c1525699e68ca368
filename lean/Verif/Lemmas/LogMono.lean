import Verif.Lemmas.LogSem
/-!
# Reading a cut file

Every reader of the commit log either reports the end of the file or does exactly what it would do if more bytes followed.
-/
namespace Fave
namespace Log

/-- a reader that, unless it meets the end of the file, does not look beyond what it consumes -/
def Mono {α : Type} (f : Bytes → Except RErr (α × Bytes)) : Prop :=
  ∀ p s, (∃ e, f p = .error e ∧ IsEof e) ∨ (∃ a r, f p = .ok (a, r) ∧ f (p ++ s) = .ok (a, r ++ s)) ∨
    (∃ e, f p = .error e ∧ f (p ++ s) = .error e)

theorem mono_readFull (n : Nat) : Mono (readFull n) := by
  intro p s
  by_cases h : n ≤ p.length
  · right; left
    refine ⟨p.take n, p.drop n, by simp [readFull, h], ?_⟩
    have h' : n ≤ (p ++ s).length := by rw [List.length_append]; omega
    simp only [readFull, if_pos h', List.take_append_of_le_length h, List.drop_append_of_le_length h]
  · exact .inl (readFull_short (by omega))

/-- one step of a reader: the next field is cut, or read, or unreadable -/
macro "step" t:term:max x:ident r:ident : tactic =>
  `(tactic| (
    rcases $t:term with ⟨e, h1, h2⟩ | ⟨$x:ident, $r:ident, h1, h2⟩ | ⟨e, h1, h2⟩
    · exact .inl ⟨e, by simp only [h1], h2⟩
    rotate_left
    · exact .inr (.inr ⟨e, by simp only [h1], by simp only [h2]⟩)
    simp only [h1, h2]))

theorem mono_readNum (n : Nat) : Mono (readNum n) := by
  intro p s
  unfold readNum
  step (mono_readFull n p s) a r
  exact .inr (.inl ⟨_, _, rfl, rfl⟩)

theorem mono_readWords (n : Nat) : Mono (readWords n) := by
  intro p s
  unfold readWords
  step (mono_readFull (8 * n) p s) a r
  exact .inr (.inl ⟨_, _, rfl, rfl⟩)

theorem mono_readHeader : Mono readHeader := by
  intro p s
  unfold readHeader
  step (mono_readFull 12 p s) a r
  exact .inr (.inl ⟨_, _, rfl, rfl⟩)

theorem mono_readNums (k n : Nat) : Mono (readNums k n) := by
  induction n with
  | zero => exact fun p s => .inr (.inl ⟨[], p, rfl, rfl⟩)
  | succ n ih =>
    intro p s
    simp only [readNums]
    step (mono_readNum k p s) a r
    step (ih r s) b r2
    exact .inr (.inl ⟨_, _, rfl, rfl⟩)

theorem mono_readTile : Mono readTile := by
  intro p s
  unfold readTile
  step (mono_readNums 8 6 p s) a r
  step (mono_readNum 2 r s) b r2
  step (mono_readNum 1 r2 s) c r3
  exact .inr (.inl ⟨_, _, rfl, rfl⟩)

theorem mono_readCenters (ds n : Nat) : Mono (readCenters ds n) := by
  induction n with
  | zero => exact fun p s => .inr (.inl ⟨[], p, rfl, rfl⟩)
  | succ n ih =>
    intro p s
    simp only [readCenters]
    step (mono_readNums 4 ds p s) a r
    step (ih r s) b r2
    exact .inr (.inl ⟨_, _, rfl, rfl⟩)

theorem mono_readKMeans (pq : PQData) (i : Nat) : Mono (readKMeans pq i) := by
  intro p s
  unfold readKMeans
  step (mono_readCenters (pq.dims / pq.m) pq.ks p s) a r
  exact .inr (.inl ⟨_, _, rfl, rfl⟩)

/-- the same for readers of whole records -/
def OutMono (g : Bytes → Out) : Prop :=
  ∀ p s, (∃ e, (g p).2 = .error e ∧ IsEof e) ∨
    (∃ st n r, g p = (st, .ok (n, r)) ∧ g (p ++ s) = (st, .ok (n, r ++ s))) ∨
    (∃ e, (g p).2 = .error e ∧ (g (p ++ s)).2 = .error e)

theorem outMono_encoders (st : LogState) (pq : PQData) (i n : Nat) :
    OutMono (fun bs => match readEncoders pq i n bs with
      | (pq, .error e) => ({ st with pq := pq }, .error e)
      | (pq, .ok bs) => ({ st with pq := pq, compressed := true }, .ok (9, bs))) := by
  induction n generalizing pq i with
  | zero => intro p s; exact .inr (.inl ⟨_, 9, p, rfl, rfl⟩)
  | succ n ih =>
    intro p s
    have hm : Mono (fun bs => if pq.enc = 0 then readTile bs else readKMeans pq i bs) := by
      by_cases h : pq.enc = 0
      · simp only [if_pos h]; exact mono_readTile
      · simp only [if_neg h]; exact mono_readKMeans pq i
    simp only [readEncoders]
    rcases hm p s with ⟨e, h1, h2⟩ | ⟨a, r, h1, h2⟩ | ⟨e, h1, h2⟩
    · exact .inl ⟨e, by simp only [h1], h2⟩
    · simp only [h1, h2]
      exact ih _ _ r s
    · exact .inr (.inr ⟨e, by simp only [h1], by simp only [h2]⟩)

theorem outMono_record (maxLen : Nat) (keep : Bool) (st : LogState) (op : LogOp) :
    OutMono (readRecord maxLen keep op.tag st) := by
  have ht := readRecord_tags maxLen keep st
  cases op with
  | addNode id l =>
    have : readRecord maxLen keep (LogOp.addNode id l).tag st = readNode maxLen st := funext fun bs => (ht bs).1
    rw [this]
    intro p s
    unfold readNode
    step (mono_readNum 8 p s) a r
    step (mono_readNum 2 r s) b r2
    cases putNode maxLen st a b
    · exact .inr (.inr ⟨_, rfl, rfl⟩)
    · exact .inr (.inl ⟨_, _, _, rfl, rfl⟩)
  | setEntryPoint id l =>
    have : readRecord maxLen keep (LogOp.setEntryPoint id l).tag st = readEP st := funext fun bs => (ht bs).2.1
    rw [this]
    intro p s
    unfold readEP
    step (mono_readNum 8 p s) a r
    step (mono_readNum 2 r s) b r2
    exact .inr (.inl ⟨_, _, _, rfl, rfl⟩)
  | addLink x l t =>
    have : readRecord maxLen keep (LogOp.addLink x l t).tag st = readLink maxLen st := funext fun bs => (ht bs).2.2.1
    rw [this]
    intro p s
    unfold readLink
    step (mono_readNum 8 p s) a r
    step (mono_readNum 2 r s) b r2
    step (mono_readNum 8 r2 s) c r3
    cases setLinks maxLen st a b (fun l => l ++ [c])
    · exact .inr (.inr ⟨_, rfl, rfl⟩)
    · exact .inr (.inl ⟨_, _, _, rfl, rfl⟩)
  | replaceLinks x l ts =>
    have : readRecord maxLen keep (LogOp.replaceLinks x l ts).tag st = readLinks maxLen keep st := funext fun bs => (ht bs).2.2.2.1
    rw [this]
    intro p s
    unfold readLinks
    step (mono_readHeader p s) a r
    step (mono_readWords a.2.2 r s) b r2
    cases setLinks maxLen st a.1 a.2.1 (fun _ => b)
    · exact .inr (.inr ⟨_, rfl, rfl⟩)
    · exact .inr (.inl ⟨_, _, _, rfl, rfl⟩)
  | addTombstone id =>
    have : readRecord maxLen keep (LogOp.addTombstone id).tag st = readAddTombstone st := funext fun bs => (ht bs).2.2.2.2.1
    rw [this]
    intro p s
    unfold readAddTombstone
    step (mono_readNum 8 p s) a r
    exact .inr (.inl ⟨_, _, _, rfl, rfl⟩)
  | removeTombstone id =>
    have : readRecord maxLen keep (LogOp.removeTombstone id).tag st = readRemoveTombstone st := funext fun bs => (ht bs).2.2.2.2.2.1
    rw [this]
    intro p s
    unfold readRemoveTombstone
    step (mono_readNum 8 p s) a r
    exact .inr (.inl ⟨_, _, _, rfl, rfl⟩)
  | clearLinks id =>
    have : readRecord maxLen keep (LogOp.clearLinks id).tag st = readClearLinks st := funext fun bs => (ht bs).2.2.2.2.2.2.1
    rw [this]
    intro p s
    unfold readClearLinks
    step (mono_readNum 8 p s) a r
    cases clearNode st a
    · exact .inr (.inr ⟨_, rfl, rfl⟩)
    · exact .inr (.inl ⟨_, _, _, rfl, rfl⟩)
  | deleteNode id =>
    have : readRecord maxLen keep (LogOp.deleteNode id).tag st = readDeleteNode st := funext fun bs => (ht bs).2.2.2.2.2.2.2.1
    rw [this]
    intro p s
    unfold readDeleteNode
    step (mono_readNum 8 p s) a r
    cases dropNode st a
    · exact .inr (.inr ⟨_, rfl, rfl⟩)
    · exact .inr (.inl ⟨_, _, _, rfl, rfl⟩)
  | resetIndex =>
    have : readRecord maxLen keep LogOp.resetIndex.tag st = fun bs => (resetState st, .ok (0, bs)) := funext fun bs => (ht bs).2.2.2.2.2.2.2.2.1
    rw [this]
    intro p s
    exact .inr (.inl ⟨_, _, _, rfl, rfl⟩)
  | clearLinksAtLevel id l =>
    have : readRecord maxLen keep (LogOp.clearLinksAtLevel id l).tag st = readClearLinksAtLevel keep st := funext fun bs => (ht bs).2.2.2.2.2.2.2.2.2.1
    rw [this]
    intro p s
    unfold readClearLinksAtLevel
    step (mono_readNum 8 p s) a r
    step (mono_readNum 2 r s) b r2
    cases clearLevel keep st a b
    · exact .inr (.inr ⟨_, rfl, rfl⟩)
    · exact .inr (.inl ⟨_, _, _, rfl, rfl⟩)
  | addLinks x l ts =>
    have : readRecord maxLen keep (LogOp.addLinks x l ts).tag st = readAddLinks maxLen st := funext fun bs => (ht bs).2.2.2.2.2.2.2.2.2.2.1
    rw [this]
    intro p s
    unfold readAddLinks
    step (mono_readHeader p s) a r
    step (mono_readWords a.2.2 r s) b r2
    cases setLinks maxLen st a.1 a.2.1 (fun l => l ++ b)
    · exact .inr (.inr ⟨_, rfl, rfl⟩)
    · exact .inr (.inl ⟨_, _, _, rfl, rfl⟩)
  | addPQ d =>
    have : readRecord maxLen keep (LogOp.addPQ d).tag st = readPQ st := funext fun bs => (ht bs).2.2.2.2.2.2.2.2.2.2.2
    rw [this]
    intro p s
    unfold readPQ
    step (mono_readNum 2 p s) a r
    step (mono_readNum 1 r s) b r2
    step (mono_readNum 2 r2 s) c r3
    step (mono_readNum 2 r3 s) d r4
    step (mono_readNum 1 r4 s) f r5
    step (mono_readNum 1 r5 s) g r6
    by_cases h : b = 0 ∨ b = 1
    · simp only [if_pos h]
      exact outMono_encoders st _ _ _ r6 s
    · simp only [if_neg h]
      exact .inr (.inr ⟨_, rfl, rfl⟩)

/-- a record cut short: the end of the file is reported -/
theorem readRecord_torn {maxLen : Nat} {keep : Bool} {st st' : LogState} {op : LogOp} (hr : op.InRange)
    (ha : applyOp maxLen keep st op = .ok st') {p s : Bytes} (hp : p ++ s = op.payload) (hs : s ≠ []) :
    ∃ e, (readRecord maxLen keep op.tag st p).2 = .error e ∧ IsEof e := by
  have hfull := (readRecord_encode maxLen keep st op hr []).1 st' ha
  rw [List.append_nil] at hfull
  rcases outMono_record maxLen keep st op p s with h | ⟨st2, n, r, -, h2⟩ | ⟨e, -, h2⟩
  · exact h
  · rw [hp, hfull] at h2
    cases r <;> cases s <;> simp_all
  · rw [hp, hfull] at h2; cases h2

/-- what a cut record leaves behind: nothing, except that a cut change of the search start resets it and a cut quantisation
record overwrites the quantisation data -/
theorem readRecord_torn_state {maxLen : Nat} {keep : Bool} {st : LogState} {op : LogOp} {p : Bytes} {e : RErr}
    (h : (readRecord maxLen keep op.tag st p).2 = .error e) :
    (readRecord maxLen keep op.tag st p).1 =
      match op with
      | .setEntryPoint .. => { st with ep := 0, level := 0, epChanged := true }
      | .addPQ _ => { st with pq := (readRecord maxLen keep op.tag st p).1.pq }
      | _ => st := by
  have ht := readRecord_tags maxLen keep st p
  cases op with
  | addNode id l =>
    have e1 : readRecord maxLen keep (LogOp.addNode id l).tag st p = readNode maxLen st p := ht.1
    rw [e1] at h ⊢
    revert h; unfold readNode
    cases readNum 8 p with
    | error e => intro _; rfl
    | ok x =>
      dsimp only
      cases readNum 2 x.2 with
      | error e => intro _; rfl
      | ok y =>
        dsimp only
        cases putNode maxLen st x.1 y.1 with
        | error e => intro _; rfl
        | ok z => intro h; cases h
  | setEntryPoint id l =>
    have e1 : readRecord maxLen keep (LogOp.setEntryPoint id l).tag st p = readEP st p := ht.2.1
    rw [e1] at h ⊢
    revert h; unfold readEP
    cases readNum 8 p with
    | error e => intro _; rfl
    | ok x =>
      dsimp only
      cases readNum 2 x.2 with
      | error e => intro _; rfl
      | ok y => intro h; cases h
  | addLink s l t =>
    have e1 : readRecord maxLen keep (LogOp.addLink s l t).tag st p = readLink maxLen st p := ht.2.2.1
    rw [e1] at h ⊢
    revert h; unfold readLink
    cases readNum 8 p with
    | error e => intro _; rfl
    | ok x =>
      dsimp only
      cases readNum 2 x.2 with
      | error e => intro _; rfl
      | ok y =>
        dsimp only
        cases readNum 8 y.2 with
        | error e => intro _; rfl
        | ok z =>
          dsimp only
          cases setLinks maxLen st x.1 y.1 (fun l => l ++ [z.1]) with
          | error e => intro _; rfl
          | ok w => intro h; cases h
  | replaceLinks s l ts =>
    have e1 : readRecord maxLen keep (LogOp.replaceLinks s l ts).tag st p = readLinks maxLen keep st p := ht.2.2.2.1
    rw [e1] at h ⊢
    revert h; unfold readLinks
    cases readHeader p with
    | error e => intro _; rfl
    | ok x =>
      obtain ⟨⟨x1, x2, x3⟩, r⟩ := x
      dsimp only
      cases readWords x3 r with
      | error e => intro _; rfl
      | ok y =>
        dsimp only
        cases setLinks maxLen st x1 x2 (fun _ => y.1) with
        | error e => intro _; rfl
        | ok w => intro h; cases h
  | addTombstone id =>
    have e1 : readRecord maxLen keep (LogOp.addTombstone id).tag st p = readAddTombstone st p := ht.2.2.2.2.1
    rw [e1] at h ⊢
    revert h; unfold readAddTombstone
    cases readNum 8 p with
    | error e => intro _; rfl
    | ok x => intro h; cases h
  | removeTombstone id =>
    have e1 : readRecord maxLen keep (LogOp.removeTombstone id).tag st p = readRemoveTombstone st p := ht.2.2.2.2.2.1
    rw [e1] at h ⊢
    revert h; unfold readRemoveTombstone
    cases readNum 8 p with
    | error e => intro _; rfl
    | ok x => intro h; cases h
  | clearLinks id =>
    have e1 : readRecord maxLen keep (LogOp.clearLinks id).tag st p = readClearLinks st p := ht.2.2.2.2.2.2.1
    rw [e1] at h ⊢
    revert h; unfold readClearLinks
    cases readNum 8 p with
    | error e => intro _; rfl
    | ok x =>
      dsimp only
      cases clearNode st x.1 with
      | error e => intro _; rfl
      | ok y => intro h; cases h
  | deleteNode id =>
    have e1 : readRecord maxLen keep (LogOp.deleteNode id).tag st p = readDeleteNode st p := ht.2.2.2.2.2.2.2.1
    rw [e1] at h ⊢
    revert h; unfold readDeleteNode
    cases readNum 8 p with
    | error e => intro _; rfl
    | ok x =>
      dsimp only
      cases dropNode st x.1 with
      | error e => intro _; rfl
      | ok y => intro h; cases h
  | resetIndex =>
    have e1 : readRecord maxLen keep LogOp.resetIndex.tag st p = (resetState st, .ok (0, p)) := ht.2.2.2.2.2.2.2.2.1
    rw [e1] at h; cases h
  | clearLinksAtLevel id l =>
    have e1 : readRecord maxLen keep (LogOp.clearLinksAtLevel id l).tag st p = readClearLinksAtLevel keep st p :=
      ht.2.2.2.2.2.2.2.2.2.1
    rw [e1] at h ⊢
    revert h; unfold readClearLinksAtLevel
    cases readNum 8 p with
    | error e => intro _; rfl
    | ok x =>
      dsimp only
      cases readNum 2 x.2 with
      | error e => intro _; rfl
      | ok y =>
        dsimp only
        cases clearLevel keep st x.1 y.1 with
        | error e => intro _; rfl
        | ok z => intro h; cases h
  | addLinks s l ts =>
    have e1 : readRecord maxLen keep (LogOp.addLinks s l ts).tag st p = readAddLinks maxLen st p :=
      ht.2.2.2.2.2.2.2.2.2.2.1
    rw [e1] at h ⊢
    revert h; unfold readAddLinks
    cases readHeader p with
    | error e => intro _; rfl
    | ok x =>
      obtain ⟨⟨x1, x2, x3⟩, r⟩ := x
      dsimp only
      cases readWords x3 r with
      | error e => intro _; rfl
      | ok y =>
        dsimp only
        cases setLinks maxLen st x1 x2 (fun l => l ++ y.1) with
        | error e => intro _; rfl
        | ok w => intro h; cases h
  | addPQ d =>
    have e1 : readRecord maxLen keep (LogOp.addPQ d).tag st p = readPQ st p := ht.2.2.2.2.2.2.2.2.2.2.2
    show _ = { st with pq := _ }
    rw [e1] at h ⊢
    revert h; unfold readPQ
    cases readNum 2 p with
    | error e => intro _; rfl
    | ok a =>
      dsimp only
      cases readNum 1 a.2 with
      | error e => intro _; rfl
      | ok b =>
        dsimp only
        cases readNum 2 b.2 with
        | error e => intro _; rfl
        | ok c =>
          dsimp only
          cases readNum 2 c.2 with
          | error e => intro _; rfl
          | ok d =>
            dsimp only
            cases readNum 1 d.2 with
            | error e => intro _; rfl
            | ok f =>
              dsimp only
              cases readNum 1 f.2 with
              | error e => intro _; rfl
              | ok g =>
                dsimp only
                by_cases hb : b.1 = 0 ∨ b.1 = 1
                · rw [if_pos hb]
                  generalize readEncoders _ _ _ _ = z
                  obtain ⟨q, z⟩ := z
                  cases z with
                  | error e => intro _; rfl
                  | ok z => intro h; cases h
                · rw [if_neg hb]; intro _; rfl

end Log
end Fave

import Verif.Lemmas.WeaveSolo
/-!
# Running additions and flushes step by step

Used for witnesses and examples: a schedule says whose turn it is; searches are undisturbed.
-/
namespace Fave.Weave
variable {V D : Type} [Dist D]
open Index Queue

/-- the next step of addition `x`, if it can take one -/
def advance (P : Params V D) (J : Nat → Job V D) (s : St V) (x : Nat) : Option (St V) :=
  match s.pc x with
  | .idle => match s.ix.get x with | none => some (s.at x s.ix (.snap s.ix.entry s.ix.maxLayer)) | some _ => none
  | .snap e m => if x < P.cacheSize then some (s.at x (s.ix.put (newNode x (J x).q (J x).level)) (.published e m)) else none
  | .published e m =>
    match findBest P s.ix (J x).sched (J x).q (J x).level m e with
    | .ok ep => some (s.at x s.ix (.layers (Nat.min (J x).level m + 1) ep))
    | .error _ => none
  | .layers 0 _ =>
    match s.ix.get x with
    | some v => some (s.at x (if s.ix.maxLayer < (J x).level
        then { s.ix.put { v with maint := false } with entry := x, maxLayer := (J x).level }
        else s.ix.put { v with maint := false }) (.ended none))
    | none => none
  | .layers (l + 1) ep =>
    match chooseAt P (J x) x s.ix ep l with
    | .ok r => some (s.at x s.ix (.chosen l r.2 r.1))
    | .error _ => none
  | .chosen l ep nbs =>
    match s.ix.get x with
    | some v => if l < v.conns.length then some (s.at x (s.ix.put (setConns v l nbs)) (.linking l ep nbs)) else none
    | none => none
  | .linking l ep [] => some (s.at x s.ix (.layers l ep))
  | .linking l ep (nb :: todo) => some (s.at x (connectNeighbor P (J x).vo x l s.ix nb).1
        (match (connectNeighbor P (J x).vo x l s.ix nb).2 with | none => .linking l ep todo | some e => .ended (some e)))
  | .ended _ => none

theorem advance_step {P : Params V D} {J : Nat → Job V D} {s s' : St V} {x : Nat} (h : advance P J s x = some s') :
    Step P J (undisturbed P J) false s s' := by
  unfold advance at h
  split at h
  · rename_i hp
    split at h
    · rename_i hg; cases h; exact .snap x hp hg (fun hh => by cases hh)
    · cases h
  · rename_i e m hp
    split at h
    · rename_i hx; cases h; exact .publish x e m hp hx
    · cases h
  · rename_i e m hp
    split at h
    · rename_i ep hf; cases h; exact .descend x e m ep hp hf
    · cases h
  · rename_i ep hp
    split at h
    · rename_i v hv; cases h; exact .finish x ep v hp hv
    · cases h
  · rename_i l ep hp
    split at h
    · rename_i r hc; cases h; exact .choose x l ep r.2 r.1 hp hc
    · cases h
  · rename_i l ep nbs hp
    split at h
    · rename_i v hv
      split at h
      · rename_i hl; cases h; exact .set x l ep nbs v hp hv hl
      · cases h
    · cases h
  · rename_i l ep hp; cases h; exact .next x l ep hp
  · rename_i l ep nb todo hp; cases h; exact .connect x l ep nb todo hp
  · cases h

/-- the next step of flush `f`, which stores the count `n` at the end -/
def fadvance (n : Nat) (s : St V) (f : Nat) : Option (St V) :=
  match s.fc f with
  | .idle => some (s.fat f s.ix (.keys s.ix.cache.keys))
  | .keys [] => some (s.fat f { s.ix with kvEntry := some s.ix.entry, kvCount := some n } .ended)
  | .keys (id :: todo) =>
    match s.ix.cache.get id with
    | none => some (s.fat f s.ix (.keys todo))
    | some v => if v.committed = true then some (s.fat f s.ix (.keys todo)) else some (s.fat f s.ix (.encoded v todo))
  | .encoded v todo => some (s.fat f { s.ix with kv := s.ix.kv.put v.id { v with committed := false } } (.stored v.id todo))
  | .stored id todo =>
    match s.ix.cache.get id with
    | some v => some (s.fat f (s.ix.put { v with committed := true }) (.keys todo))
    | none => none
  | .ended => none

theorem fadvance_step {P : Params V D} {J : Nat → Job V D} {sees : Sees V} {n : Nat} {s s' : St V} {f : Nat} (h : fadvance n s f = some s') :
    Step P J sees false s s' := by
  unfold fadvance at h
  split at h
  · rename_i hp; cases h; exact .flush f _ hp (fun hh => by cases hh) (fun _ hid => hid)
  · rename_i hp; cases h; exact .flushEnd f n hp
  · rename_i id todo hp
    split at h
    · rename_i hg; cases h
      exact .skip f id todo hp (fun v hv => by rw [hg] at hv; cases hv)
    · rename_i v hg
      split at h
      · rename_i hc; cases h
        exact .skip f id todo hp (fun w hw => by rw [hg] at hw; cases hw; exact hc)
      · rename_i hc; cases h
        exact .encode f id todo v hp hg (by simpa using hc)
  · rename_i v todo hp; cases h; exact .store f todo v hp
  · rename_i id todo hp
    split at h
    · rename_i v hv; cases h; exact .commit f id todo v hp hv
    · cases h
  · cases h

/-- whose turn it is -/
inductive Turn where
  | add (x : Nat)
  | flush (f : Nat)

/-- a schedule -/
def run (P : Params V D) (J : Nat → Job V D) (n : Nat) : List Turn → St V → Option (St V)
  | [], s => some s
  | .add x :: ts, s => (advance P J s x).bind (run P J n ts)
  | .flush f :: ts, s => (fadvance n s f).bind (run P J n ts)

theorem run_reach {P : Params V D} {J : Nat → Job V D} {n : Nat} {ix0 : Index V} (ts : List Turn) {s s' : St V}
    (h0 : Reach P J (undisturbed P J) false ix0 s) (h : run P J n ts s = some s') : Reach P J (undisturbed P J) false ix0 s' := by
  induction ts generalizing s with
  | nil => cases h; exact h0
  | cons t ts ih =>
    cases t with
    | add x =>
      obtain ⟨s1, h1, h2⟩ := Option.bind_eq_some_iff.mp h
      exact ih (h0.step (advance_step h1)) h2
    | flush f =>
      obtain ⟨s1, h1, h2⟩ := Option.bind_eq_some_iff.mp h
      exact ih (h0.step (fadvance_step h1)) h2

theorem advance_pc {P : Params V D} {J : Nat → Job V D} {s s' : St V} {x y : Nat} (h : advance P J s x = some s') (hy : y ≠ x) :
    s'.pc y = s.pc y := by
  have key : ∀ ix p, (s.at x ix p).pc y = s.pc y := fun ix p => by simp [St.at, hy]
  unfold advance at h
  split at h
  · split at h
    · cases h; exact key _ _
    · cases h
  · split at h
    · cases h; exact key _ _
    · cases h
  · split at h
    · cases h; exact key _ _
    · cases h
  · split at h
    · cases h; exact key _ _
    · cases h
  · split at h
    · cases h; exact key _ _
    · cases h
  · split at h
    · split at h
      · cases h; exact key _ _
      · cases h
    · cases h
  · cases h; exact key _ _
  · cases h; exact key _ _
  · cases h

theorem fadvance_pc {n : Nat} {s s' : St V} {f : Nat} (h : fadvance n s f = some s') : s'.pc = s.pc := by
  unfold fadvance at h
  split at h
  · cases h; rfl
  · cases h; rfl
  · split at h
    · cases h; rfl
    · split at h <;> (cases h; rfl)
  · cases h; rfl
  · split at h
    · cases h; rfl
    · cases h
  · cases h

/-- additions that never have a turn do not move -/
theorem run_pc {P : Params V D} {J : Nat → Job V D} {n : Nat} (ts : List Turn) {s s' : St V} (h : run P J n ts s = some s') {y : Nat}
    (hy : ∀ t ∈ ts, match t with | .add x => y ≠ x | .flush _ => True) : s'.pc y = s.pc y := by
  induction ts generalizing s with
  | nil => cases h; rfl
  | cons t ts ih =>
    have hts := fun t ht => hy t (List.mem_cons_of_mem _ ht)
    cases t with
    | add x =>
      obtain ⟨s1, h1, h2⟩ := Option.bind_eq_some_iff.mp h
      have h3 : y ≠ x := hy (.add x) (by simp)
      exact (ih h2 hts).trans (advance_pc h1 h3)
    | flush f =>
      obtain ⟨s1, h1, h2⟩ := Option.bind_eq_some_iff.mp h
      rw [ih h2 hts, fadvance_pc h1]

/-- where an addition is, for looking at -/
def Pc.isDone : Pc → Bool
  | .ended none => true
  | _ => false

theorem Pc.isDone_iff {p : Pc} : p.isDone = true ↔ p = .ended none := by
  cases p with
  | ended e => cases e <;> simp [Pc.isDone]
  | _ => simp [Pc.isDone]

end Fave.Weave

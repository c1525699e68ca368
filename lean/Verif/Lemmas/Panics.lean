import Verif.Model.Panics
import Verif.Lemmas.Locks
/-!
# Lemmas about panics and locks
-/
namespace Fave.Panics
open Locks

/-- the function without the places -/
def Code.erase : Code → Prog
  | .plain p => p
  | .risk _ c => c.erase
  | .seq c d => .seq c.erase d.erase
  | .alt c d => .alt c.erase d.erase
  | .loop c => .loop c.erase
  | .hold k w _ c => .hold k w c.erase

/-- no place at which it panics -/
def Code.calm : Code → Bool
  | .plain _ => true
  | .risk _ _ => false
  | .seq c d => c.calm && d.calm
  | .alt c d => c.calm && d.calm
  | .loop c => c.calm
  | .hold _ _ _ c => c.calm

/-- every section is inside sections of lower rank only, and those that are not deferred do not panic -/
def Code.ok : Nat → Code → Bool
  | r, .plain p => p.ok r
  | r, .risk _ c => c.ok r
  | r, .seq c d => c.ok r && d.ok r
  | r, .alt c d => c.ok r && d.ok r
  | r, .loop c => c.ok r
  | r, .hold k _ d c => decide (r ≤ k.rank) && (d || c.calm) && c.ok (k.rank + 1)

/-! ## Without a panic -/

theorem rounds_none {f : List Nat → Option Nat → List Act × List Nat × End} {g : List Nat → List Act × List Nat}
    (H : ∀ cs, f cs none = ((g cs).1, (g cs).2, .done none)) (n : Nat) :
    ∀ cs, rounds f n cs none = ((times g n cs).1, (times g n cs).2, .done none) := by
  induction n with
  | zero => intro cs; rfl
  | succ n ih => intro cs; simp only [rounds, H, ih, times]

theorem walk_none (o : Nat) (c : Code) : ∀ env cs, c.walk o env cs none = ((c.erase.walk o env cs).1, (c.erase.walk o env cs).2, .done none) := by
  induction c with
  | plain p => intro env cs; rfl
  | risk s c ih => intro env cs; simpa only [Code.walk, pass, Code.erase] using ih env cs
  | seq c d ihc ihd => intro env cs; simp only [Code.walk, Code.erase, Prog.walk, ihc, ihd]
  | alt c d ihc ihd =>
    intro env cs
    simp only [Code.walk, Code.erase, Prog.walk, ihc, ihd]
    split <;> rfl
  | loop c ih => intro env cs; simp only [Code.walk, Code.erase, Prog.walk]; exact rounds_none (ih env) _ _
  | hold k w d c ih => intro env cs; simp only [Code.walk, Code.erase, Prog.walk, ih, givesBack, if_true]

theorem erase_code (damaged : Bool) (op : Op) : (code damaged op).erase = op.prog := by
  cases damaged <;> cases op <;> rfl

/-! ## A part that does not panic -/

theorem rounds_calm {f : List Nat → Option Nat → List Act × List Nat × End} (H : ∀ cs m, (f cs m).2.2 = .done m) (n : Nat) :
    ∀ cs m, (rounds f n cs m).2.2 = .done m := by
  induction n with
  | zero => intro cs m; rfl
  | succ n ih =>
    intro cs m
    have h := H cs m
    simp only [rounds]
    rcases hf : f cs m with ⟨a, cs', e⟩
    rw [hf] at h
    subst h
    exact ih _ _

theorem walk_calm (o : Nat) (c : Code) : c.calm = true → ∀ env cs m, (c.walk o env cs m).2.2 = .done m := by
  induction c with
  | plain p => intro _ env cs m; rfl
  | risk s c ih => intro h; cases h
  | seq c d ihc ihd =>
    intro h env cs m
    simp only [Code.calm, Bool.and_eq_true] at h
    have h1 := ihc h.1 env cs m
    simp only [Code.walk]
    rcases hf : c.walk o env cs m with ⟨a, cs', e⟩
    rw [hf] at h1
    subst h1
    exact ihd h.2 _ _ _
  | alt c d ihc ihd =>
    intro h env cs m
    simp only [Code.calm, Bool.and_eq_true] at h
    simp only [Code.walk]
    split
    · exact ihc h.1 _ _ _
    · exact ihd h.2 _ _ _
  | loop c ih => intro h env cs m; exact rounds_calm (ih h env) _ _ _
  | hold k w d c ih => intro h env cs m; exact ih h _ _ _

/-! ## Deferred sections -/

theorem ordered_rounds {f : List Nat → Option Nat → List Act × List Nat × End} {h : List (Lock × Bool)}
    (H : ∀ cs m rest, Ordered h rest → Ordered h ((f cs m).1 ++ rest)) (n : Nat) :
    ∀ cs m rest, Ordered h rest → Ordered h ((rounds f n cs m).1 ++ rest) := by
  induction n with
  | zero => intro cs m rest hr; simpa [rounds] using hr
  | succ n ih =>
    intro cs m rest hr
    have h1 := H cs m
    simp only [rounds]
    rcases hf : f cs m with ⟨a, cs', e⟩
    rw [hf] at h1
    cases e with
    | panic s => exact h1 _ hr
    | done m' => simp only [List.append_assoc]; exact h1 _ (ih _ _ _ hr)

/-- the path through such a function is ordered, also if it panics -/
theorem ordered_code (o : Nat) (c : Code) : ∀ (r : Nat), c.ok r = true → ∀ (env : Kind → Option Nat) (cs : List Nat) (m : Option Nat)
    (h : List (Lock × Bool)) (rest : List Act), (∀ x ∈ h, x.1.kind.rank < r) → Ordered h rest → Ordered h ((c.walk o env cs m).1 ++ rest) := by
  induction c with
  | plain p => intro r hok env cs m h rest hh hr; exact ordered_walk o p r hok env cs h rest hh hr
  | risk s c ih =>
    intro r hok env cs m h rest hh hr
    simp only [Code.walk]
    cases pass s m with
    | panic s => simpa using hr
    | done m' => exact ih r hok env cs m' h rest hh hr
  | seq c d ihc ihd =>
    intro r hok env cs m h rest hh hr
    simp only [Code.ok, Bool.and_eq_true] at hok
    have h1 := fun rest => ihc r hok.1 env cs m h rest hh
    simp only [Code.walk]
    rcases hf : c.walk o env cs m with ⟨a, cs', e⟩
    rw [hf] at h1
    cases e with
    | panic s => exact h1 _ hr
    | done m' => simp only [List.append_assoc]; exact h1 _ (ihd r hok.2 _ _ _ h _ hh hr)
  | alt c d ihc ihd =>
    intro r hok env cs m h rest hh hr
    simp only [Code.ok, Bool.and_eq_true] at hok
    simp only [Code.walk]
    split
    · exact ihc r hok.1 _ _ _ h _ hh hr
    · exact ihd r hok.2 _ _ _ h _ hh hr
  | loop c ih =>
    intro r hok env cs m h rest hh hr
    exact ordered_rounds (fun cs m rest => ih r hok env cs m h rest hh) _ _ _ _ hr
  | hold k w d c ih =>
    intro r hok env cs m h rest hh hr
    simp only [Code.ok, Bool.and_eq_true, decide_eq_true_eq, Bool.or_eq_true] at hok
    have hb : givesBack d (c.walk o (within env k (cs.headD 0)) (if k.many then cs.tail else cs) m).2.2 = true := by
      rcases hok.1.2 with rfl | hc
      · cases (c.walk o (within env k (cs.headD 0)) (if k.many then cs.tail else cs) m).2.2 <;> rfl
      · rw [walk_calm o c hc]; rfl
    simp only [Code.walk, hb, if_true, List.cons_append, List.append_assoc, Ordered, List.nil_append]
    refine ⟨fun x hx => by rw [kind_lockOf]; have := hh x hx; omega, ?_⟩
    refine ih _ hok.2 _ _ _ _ _ ?_ ?_
    · intro x hx
      rcases List.mem_cons.mp hx with rfl | hx
      · simp [kind_lockOf]
      · have := hh x hx; omega
    · simp only [Ordered, List.mem_cons, true_or, true_and]
      simpa using hr

theorem code_ok (op : Op) (h : op.fails = false) : (code false op).ok 0 = true := by
  cases op <;> first | decide +kernel | simp [Op.fails] at h

theorem call_ordered {damaged : Nat → Bool} {c : Call} (hd : damaged c.coll = false) (h : c.op.fails = false) : Ordered [] (c.path damaged).1 := by
  have := ordered_code c.coll (code false c.op) 0 (code_ok _ h) (fun _ => none) c.choices c.panics [] [] (by simp) rfl
  rw [List.append_nil] at this
  rw [Call.path, hd]
  exact this

theorem allGood_begin {damaged : Nat → Bool} {calls : List Call} (hd : ∀ c ∈ calls, damaged c.coll = false) (h : ∀ c ∈ calls, c.op.fails = false) :
    AllGood (begin damaged calls) := by
  intro t ht
  simp only [begin, List.mem_map] at ht
  obtain ⟨c, hc, rfl⟩ := ht
  exact good_start (call_ordered (hd c hc) (h c hc))

theorem left_begin (damaged : Nat → Bool) (calls : List Call) : left (begin damaged calls) = (calls.map fun c => cost (c.path damaged).1).sum := by
  simp only [left, begin, List.map_map]
  congr 1

/-! ## What is left locked -/

theorem held_at_end {damaged : Nat → Bool} {calls : List Call} {is : List Nat} {s : List Thread} (hr : run (begin damaged calls) is = some s)
    {i : Nat} {c : Call} (h : calls[i]? = some c) {t : Thread} (hi : s[i]? = some t) (he : t.todo = []) :
    t.held = leftover (c.path damaged).1 [] := by
  have hb : (begin damaged calls)[i]? = some (Thread.start (c.path damaged).1) := by simp [begin, h]
  obtain ⟨t', h1, h2⟩ := leftover_run hr i _ hb
  rw [hi, Option.some.injEq] at h1
  subst h1
  rw [he] at h2
  exact h2

/-- the sections that are not deferred do not panic, or are those in which the layers of a vertex are read -/
def Code.shaped : Code → Bool
  | .plain p => p.ok 0
  | .risk s c => s != .noLayer && c.shaped
  | .seq c d => c.shaped && d.shaped
  | .alt c d => c.shaped && d.shaped
  | .loop c => c.shaped
  | .hold k _ true c => k != .vertex && c.shaped
  | .hold k w false c => k == .vertex && w && (match c with
    | .plain p => p.ok 0
    | .risk s (.plain p) => s == .noLayer && p.ok 0
    | _ => false)

/-- what such a function keeps: nothing, or the lock of a vertex if the layer was missing -/
def Kept (o : Nat) (e : End) (h h' : List (Lock × Bool)) : Prop :=
  if e = .panic .noLayer then ∃ i, h' = (⟨.vertex, o, i⟩, true) :: h else h' = h

theorem kept_rounds {o : Nat} {f : List Nat → Option Nat → List Act × List Nat × End}
    (H : ∀ cs m h, Kept o (f cs m).2.2 h (leftover (f cs m).1 h)) (n : Nat) :
    ∀ cs m h, Kept o (rounds f n cs m).2.2 h (leftover (rounds f n cs m).1 h) := by
  induction n with
  | zero => intro cs m h; simp [rounds, Kept, leftover]
  | succ n ih =>
    intro cs m h
    have h1 := H cs m h
    simp only [rounds]
    rcases hf : f cs m with ⟨a, cs', e⟩
    rw [hf] at h1
    cases e with
    | panic s => exact h1
    | done m' =>
      have : leftover a h = h := by simpa [Kept] using h1
      simp only [leftover_append, this]
      exact ih _ _ _

theorem prog_ok_mono (p : Prog) : ∀ r r', r' ≤ r → p.ok r = true → p.ok r' = true := by
  induction p with
  | skip => intros; rfl
  | acc f w => intros; rfl
  | keep k w => intro r r' _ h; cases h
  | seq p q ihp ihq => intro r r' hr h; simp only [Prog.ok, Bool.and_eq_true] at *; exact ⟨ihp _ _ hr h.1, ihq _ _ hr h.2⟩
  | alt p q ihp ihq => intro r r' hr h; simp only [Prog.ok, Bool.and_eq_true] at *; exact ⟨ihp _ _ hr h.1, ihq _ _ hr h.2⟩
  | loop p ih => intro r r' hr h; exact ih _ _ hr h
  | hold k w p ih => intro r r' hr h; simp only [Prog.ok, Bool.and_eq_true, decide_eq_true_eq] at *; exact ⟨by omega, h.2⟩
  | cross k k' p ih =>
    intro r r' hr h
    simp only [Prog.ok, Bool.and_eq_true, decide_eq_true_eq] at *
    exact ⟨⟨by omega, h.1.2⟩, h.2⟩

theorem kept_code (o : Nat) (c : Code) : c.shaped = true → ∀ env cs m h,
    Kept o (c.walk o env cs m).2.2 h (leftover (c.walk o env cs m).1 h) := by
  induction c with
  | plain p => intro hs env cs m h; simpa [Code.walk, Kept] using leftover_walk o p 0 hs env cs h
  | risk s c ih =>
    intro hs env cs m h
    simp only [Code.shaped, Bool.and_eq_true, bne_iff_ne, ne_eq] at hs
    simp only [Code.walk]
    cases hp : pass s m with
    | panic s' =>
      have : s' = s := by
        cases m with
        | none => cases hp
        | some n => cases n <;> simp [pass] at hp; exact hp.symm
      subst this
      simp [Kept, hs.1, leftover]
    | done m' => exact ih hs.2 env cs m' h
  | seq c d ihc ihd =>
    intro hs env cs m h
    simp only [Code.shaped, Bool.and_eq_true] at hs
    have h1 := ihc hs.1 env cs m h
    simp only [Code.walk]
    rcases hf : c.walk o env cs m with ⟨a, cs', e⟩
    rw [hf] at h1
    cases e with
    | panic s => exact h1
    | done m' =>
      have : leftover a h = h := by simpa [Kept] using h1
      simp only [leftover_append, this]
      exact ihd hs.2 _ _ _ _
  | alt c d ihc ihd =>
    intro hs env cs m h
    simp only [Code.shaped, Bool.and_eq_true] at hs
    simp only [Code.walk]
    split
    · exact ihc hs.1 _ _ _ _
    · exact ihd hs.2 _ _ _ _
  | loop c ih => intro hs env cs m h; exact kept_rounds (ih hs env) _ _ _ _
  | hold k w d c ih =>
    intro hs env cs m h
    cases d with
    | true =>
      simp only [Code.shaped, Bool.and_eq_true, bne_iff_ne, ne_eq] at hs
      have hb : ∀ e, givesBack true e = true := fun e => by cases e <;> rfl
      have h1 := ih hs.2 (within env k (cs.headD 0)) (if k.many then cs.tail else cs) m ((lockOf o k (cs.headD 0), w) :: h)
      simp only [Code.walk, hb, if_true, List.cons_append, leftover, leftover_append]
      revert h1
      generalize c.walk o (within env k (cs.headD 0)) (if k.many then cs.tail else cs) m = x
      intro h1
      unfold Kept at h1 ⊢
      split at h1
      · rename_i he
        rw [if_pos he]
        obtain ⟨i, hi⟩ := h1
        refine ⟨i, ?_⟩
        rw [hi, List.erase_cons_tail, List.erase_cons_head]
        simp only [beq_iff_eq, Prod.mk.injEq, not_and]
        intro e
        exact absurd (congrArg Lock.kind e).symm hs.1
      · rename_i he
        rw [if_neg he, h1, List.erase_cons_head]
    | false =>
      cases c with
      | plain p =>
        simp only [Code.shaped, Bool.and_eq_true] at hs
        simp [Code.walk, givesBack, leftover, leftover_append, leftover_walk o p 0 hs.2, Kept]
      | risk s c =>
        cases c with
        | plain p =>
          simp only [Code.shaped, Bool.and_eq_true, beq_iff_eq] at hs
          obtain ⟨⟨rfl, rfl⟩, rfl, hp⟩ := hs
          cases m with
          | none => simp [Code.walk, pass, givesBack, leftover, leftover_append, leftover_walk o p 0 hp, Kept]
          | some n =>
            cases n with
            | zero =>
              refine ⟨cs.headD 0, ?_⟩
              simp [Code.walk, pass, givesBack, leftover, lockOf, Kind.ofProcess, Kind.many]
            | succ n => simp [Code.walk, pass, givesBack, leftover, leftover_append, leftover_walk o p 0 hp, Kept]
        | _ => simp [Code.shaped] at hs
      | _ => simp [Code.shaped] at hs

theorem code_shaped (damaged : Bool) (op : Op) (h : op.fails = false) : (code damaged op).shaped = true := by
  cases damaged <;> cases op <;> first | decide +kernel | simp [Op.fails] at h

theorem call_kept {damaged : Nat → Bool} {c : Call} (h : c.op.fails = false) : Kept c.coll (c.path damaged).2.2 [] (leftover (c.path damaged).1 []) :=
  kept_code c.coll _ (code_shaped (damaged c.coll) c.op h) _ _ _ _

end Fave.Panics

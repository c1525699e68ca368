import Verif.Lemmas.Panics
/-!
# Lemmas about panics: what goes on beside a lock that is never given back
-/
namespace Fave.Panics
open Locks

/-! ## The order of the locks -/

/-- every section is inside sections of lower rank only -/
def Code.ranked : Nat → Code → Bool
  | r, .plain p => p.ok r
  | r, .risk _ c => c.ranked r
  | r, .seq c d => c.ranked r && d.ranked r
  | r, .alt c d => c.ranked r && d.ranked r
  | r, .loop c => c.ranked r
  | r, .hold k _ _ c => decide (r ≤ k.rank) && c.ranked (k.rank + 1)

/-- the path is ordered, but for the lock of a vertex if the layer was missing -/
def Nearly (o : Nat) (e : End) (h : List (Lock × Bool)) (a : List Act) : Prop :=
  if e = .panic .noLayer then ∃ i, ∀ rest, Ordered ((⟨.vertex, o, i⟩, true) :: h) rest → Ordered h (a ++ rest)
  else ∀ rest, Ordered h rest → Ordered h (a ++ rest)

theorem nearly_rounds {o : Nat} {h : List (Lock × Bool)} {f : List Nat → Option Nat → List Act × List Nat × End}
    (H : ∀ cs m, Nearly o (f cs m).2.2 h (f cs m).1) (n : Nat) :
    ∀ cs m, Nearly o (rounds f n cs m).2.2 h (rounds f n cs m).1 := by
  induction n with
  | zero => intro cs m; simp [rounds, Nearly]
  | succ n ih =>
    intro cs m
    have h1 := H cs m
    simp only [rounds]
    rcases hf : f cs m with ⟨a, cs', e⟩
    rw [hf] at h1
    cases e with
    | panic s => exact h1
    | done m' =>
      have h1' : ∀ rest, Ordered h rest → Ordered h (a ++ rest) := by simpa [Nearly] using h1
      have h2 := ih cs' m'
      unfold Nearly at h2 ⊢
      dsimp only
      split
      · rename_i he
        rw [if_pos he] at h2
        obtain ⟨i, hi⟩ := h2
        exact ⟨i, fun rest hr => by rw [List.append_assoc]; exact h1' _ (hi rest hr)⟩
      · rename_i he
        rw [if_neg he] at h2
        exact fun rest hr => by rw [List.append_assoc]; exact h1' _ (h2 rest hr)

theorem nearly_code (o : Nat) (c : Code) : ∀ r, c.ranked r = true → c.shaped = true → ∀ env cs m h, (∀ x ∈ h, x.1.kind.rank < r) →
    Nearly o (c.walk o env cs m).2.2 h (c.walk o env cs m).1 := by
  induction c with
  | plain p =>
    intro r hk _ env cs m h hh
    simp only [Code.walk, Nearly, reduceCtorEq, if_false]
    exact fun rest hr => ordered_walk o p r hk env cs h rest hh hr
  | risk s c ih =>
    intro r hk hs env cs m h hh
    simp only [Code.shaped, Bool.and_eq_true, bne_iff_ne, ne_eq] at hs
    cases m with
    | none => exact ih r hk hs.2 env cs none h hh
    | some n =>
      cases n with
      | zero => simp [Code.walk, pass, Nearly, hs.1]
      | succ n => exact ih r hk hs.2 env cs (some n) h hh
  | seq c d ihc ihd =>
    intro r hk hs env cs m h hh
    simp only [Code.shaped, Bool.and_eq_true] at hs
    simp only [Code.ranked, Bool.and_eq_true] at hk
    have h1 := ihc r hk.1 hs.1 env cs m h hh
    simp only [Code.walk]
    rcases hf : c.walk o env cs m with ⟨a, cs', e⟩
    rw [hf] at h1
    cases e with
    | panic s => exact h1
    | done m' =>
      have h1' : ∀ rest, Ordered h rest → Ordered h (a ++ rest) := by simpa [Nearly] using h1
      have h2 := ihd r hk.2 hs.2 env cs' m' h hh
      unfold Nearly at h2 ⊢
      dsimp only
      split
      · rename_i he
        rw [if_pos he] at h2
        obtain ⟨i, hi⟩ := h2
        exact ⟨i, fun rest hr => by rw [List.append_assoc]; exact h1' _ (hi rest hr)⟩
      · rename_i he
        rw [if_neg he] at h2
        exact fun rest hr => by rw [List.append_assoc]; exact h1' _ (h2 rest hr)
  | alt c d ihc ihd =>
    intro r hk hs env cs m h hh
    simp only [Code.shaped, Bool.and_eq_true] at hs
    simp only [Code.ranked, Bool.and_eq_true] at hk
    simp only [Code.walk]
    split
    · exact ihc r hk.1 hs.1 _ _ _ _ hh
    · exact ihd r hk.2 hs.2 _ _ _ _ hh
  | loop c ih => intro r hk hs env cs m h hh; exact nearly_rounds (fun cs m => ih r hk hs env cs m h hh) _ _ _
  | hold k w d c ih =>
    intro r hk hs env cs m h hh
    simp only [Code.ranked, Bool.and_eq_true, decide_eq_true_eq] at hk
    have hup : ∀ x ∈ h, x.1.kind.rank < (lockOf o k (cs.headD 0)).kind.rank := fun x hx => by
      rw [kind_lockOf]; have := hh x hx; omega
    have hh' : ∀ x ∈ (lockOf o k (cs.headD 0), w) :: h, x.1.kind.rank < k.rank + 1 := by
      intro x hx
      rcases List.mem_cons.mp hx with rfl | hx
      · simp [kind_lockOf]
      · have := hh x hx; omega
    cases d with
    | true =>
      simp only [Code.shaped, Bool.and_eq_true, bne_iff_ne, ne_eq] at hs
      have hb : ∀ e, givesBack true e = true := fun e => by cases e <;> rfl
      have h1 := ih _ hk.2 hs.2 (within env k (cs.headD 0)) (if k.many then cs.tail else cs) m _ hh'
      simp only [Code.walk, hb, if_true, List.cons_append]
      revert h1
      generalize c.walk o (within env k (cs.headD 0)) (if k.many then cs.tail else cs) m = x
      intro h1
      unfold Nearly at h1 ⊢
      split at h1
      · rename_i he
        rw [if_pos he]
        obtain ⟨i, hi⟩ := h1
        refine ⟨i, fun rest hr => ?_⟩
        simp only [List.cons_append, List.append_assoc, Ordered]
        refine ⟨hup, hi _ ?_⟩
        simp only [List.nil_append, Ordered, List.mem_cons, true_or, or_true, true_and]
        rw [List.erase_cons_tail, List.erase_cons_head]
        · exact hr
        · simp only [beq_iff_eq, Prod.mk.injEq, not_and]
          intro e
          exact absurd (congrArg Lock.kind e).symm hs.1
      · rename_i he
        rw [if_neg he]
        intro rest hr
        simp only [List.cons_append, List.append_assoc, Ordered]
        refine ⟨hup, h1 _ ?_⟩
        simp only [List.nil_append, Ordered, List.mem_cons, true_or, true_and, List.erase_cons_head]
        exact hr
    | false =>
      have plainly : ∀ (p : Prog) env' cs', p.ok (k.rank + 1) = true → ∀ rest, Ordered h rest →
          Ordered h (Act.take (lockOf o k (cs.headD 0)) w :: (p.walk o env' cs').1 ++ [Act.give (lockOf o k (cs.headD 0)) w] ++ rest) := by
        intro p env' cs' hp rest hr
        simp only [List.cons_append, List.append_assoc, Ordered]
        refine ⟨hup, ordered_walk o p _ hp _ _ _ _ hh' ?_⟩
        simp only [List.nil_append, Ordered, List.mem_cons, true_or, true_and, List.erase_cons_head]
        exact hr
      cases c with
      | plain p =>
        simp only [Code.walk, givesBack, if_true, Nearly, reduceCtorEq, if_false]
        exact plainly p _ _ hk.2
      | risk s c =>
        cases c with
        | plain p =>
          simp only [Code.shaped, Bool.and_eq_true, beq_iff_eq] at hs
          obtain ⟨⟨rfl, rfl⟩, rfl, hp⟩ := hs
          cases m with
          | none =>
            simp only [Code.walk, pass, givesBack, if_true, Nearly, reduceCtorEq, if_false]
            exact plainly p _ _ hk.2
          | some n =>
            cases n with
            | zero =>
              refine ⟨cs.headD 0, fun rest hr => ?_⟩
              exact ⟨hup, hr⟩
            | succ n =>
              simp only [Code.walk, pass, givesBack, if_true, Nearly, reduceCtorEq, if_false]
              exact plainly p _ _ hk.2
        | _ => simp [Code.shaped] at hs
      | _ => simp [Code.shaped] at hs

theorem code_ranked (damaged : Bool) (op : Op) (h : op.fails = false) : (code damaged op).ranked 0 = true := by
  cases damaged <;> cases op <;> first | decide +kernel | simp [Op.fails] at h

/-! ## Locks of the process and of a collection -/

/-- only locks of the process and of collection `o` are taken, and while a lock of the process is held only such locks -/
def Apart (o : Nat) : List (Lock × Bool) → List Act → Prop
  | _, [] => True
  | h, .take l w :: r => (l.kind.ofProcess = true ∨ l.owner = o ∧ ∀ x ∈ h, x.1.kind.ofProcess = false) ∧ Apart o ((l, w) :: h) r
  | h, .give l w :: r => Apart o (h.erase (l, w)) r
  | h, .acc _ _ :: r => Apart o h r

/-- inside a section of the process there are only sections of the process -/
def apartProg : Bool → Prog → Bool
  | _, .skip => true
  | b, .seq p q => apartProg b p && apartProg b q
  | b, .alt p q => apartProg b p && apartProg b q
  | b, .loop p => apartProg b p
  | b, .hold k _ p => (!b || k.ofProcess) && apartProg (b || k.ofProcess) p
  | b, .cross k₁ k₂ p => !b && !k₁.ofProcess && !k₂.ofProcess && decide (k₁ ≠ k₂) && apartProg false p
  | _, .keep _ _ => false
  | _, .acc _ _ => true

def Code.apart : Bool → Code → Bool
  | b, .plain p => apartProg b p
  | b, .risk _ c => c.apart b
  | b, .seq c d => c.apart b && d.apart b
  | b, .alt c d => c.apart b && d.apart b
  | b, .loop c => c.apart b
  | b, .hold k _ _ c => (!b || k.ofProcess) && c.apart (b || k.ofProcess)

/-- outside the sections of the process, no lock of the process is held -/
def Outside (b : Bool) (h : List (Lock × Bool)) : Prop := b = false → ∀ x ∈ h, x.1.kind.ofProcess = false

theorem outside_hold {b : Bool} {h : List (Lock × Bool)} (ho : Outside b h) (o : Nat) (k : Kind) (i : Nat) (w : Bool) :
    Outside (b || k.ofProcess) ((lockOf o k i, w) :: h) := by
  intro hb x hx
  simp only [Bool.or_eq_false_iff] at hb
  rcases List.mem_cons.mp hx with rfl | hx
  · exact hb.2
  · exact ho hb.1 x hx

theorem take_apart {b : Bool} {h : List (Lock × Bool)} (ho : Outside b h) (o : Nat) (k : Kind) (i : Nat) (hk : (!b || k.ofProcess) = true) :
    (lockOf o k i).kind.ofProcess = true ∨ (lockOf o k i).owner = o ∧ ∀ x ∈ h, x.1.kind.ofProcess = false := by
  by_cases hp : k.ofProcess = true
  · exact .inl hp
  · rw [Bool.not_eq_true] at hp
    rw [hp, Bool.or_false, Bool.not_eq_true'] at hk
    exact .inr ⟨by simp [lockOf, hp], ho hk⟩

theorem apart_times {o : Nat} {f : List Nat → List Act × List Nat} {h : List (Lock × Bool)}
    (H : ∀ cs rest, Apart o h rest → Apart o h ((f cs).1 ++ rest)) (n : Nat) :
    ∀ cs rest, Apart o h rest → Apart o h ((times f n cs).1 ++ rest) := by
  induction n with
  | zero => intro cs rest hr; simpa [times] using hr
  | succ n ih =>
    intro cs rest hr
    simp only [times, List.append_assoc]
    exact H _ _ (ih _ _ hr)

theorem apart_walk (o : Nat) (p : Prog) : ∀ b, apartProg b p = true → ∀ env cs h rest, Outside b h → Apart o h rest →
    Apart o h ((p.walk o env cs).1 ++ rest) := by
  induction p with
  | skip => intro b _ env cs h rest _ hr; simpa [Prog.walk] using hr
  | acc f w => intro b _ env cs h rest _ hr; simpa [Prog.walk, Apart] using hr
  | keep k w => intro b hk; cases hk
  | seq p q ihp ihq =>
    intro b hk env cs h rest ho hr
    simp only [apartProg, Bool.and_eq_true] at hk
    simp only [Prog.walk, List.append_assoc]
    exact ihp b hk.1 _ _ h _ ho (ihq b hk.2 _ _ h _ ho hr)
  | alt p q ihp ihq =>
    intro b hk env cs h rest ho hr
    simp only [apartProg, Bool.and_eq_true] at hk
    simp only [Prog.walk]
    split
    · exact ihp b hk.1 _ _ h _ ho hr
    · exact ihq b hk.2 _ _ h _ ho hr
  | loop p ih =>
    intro b hk env cs h rest ho hr
    simp only [Prog.walk]
    exact apart_times (fun cs rest => ih b hk env cs h rest ho) _ _ _ hr
  | hold k w p ih =>
    intro b hk env cs h rest ho hr
    simp only [apartProg, Bool.and_eq_true] at hk
    simp only [Prog.walk, List.cons_append, List.append_assoc, Apart, List.nil_append]
    refine ⟨take_apart ho o k _ hk.1, ih _ hk.2 _ _ _ _ (outside_hold ho o k _ w) ?_⟩
    simp only [Apart, List.erase_cons_head]
    exact hr
  | cross k₁ k₂ p ih =>
    intro b hk env cs h rest ho hr
    simp only [apartProg, Bool.and_eq_true, Bool.not_eq_true', decide_eq_true_eq] at hk
    obtain ⟨⟨⟨⟨hb, h1⟩, h2⟩, hne⟩, hp⟩ := hk
    simp only [Prog.walk, List.cons_append, List.append_assoc, Apart, List.nil_append]
    have ho1 := outside_hold ho o k₁ 0 true
    rw [hb, h1] at ho1
    have ho2 := outside_hold ho1 o k₂ 0 true
    refine ⟨take_apart ho o k₁ _ (by simp [hb]), take_apart ho1 o k₂ _ (by simp), ih _ hp _ _ _ _ (by simpa [h2] using ho2) ?_⟩
    simp only [Apart]
    rw [List.erase_cons_tail, List.erase_cons_head, List.erase_cons_head]
    · exact hr
    · simp only [beq_iff_eq, Prod.mk.injEq, not_and]
      intro e
      exact absurd (congrArg Lock.kind e).symm hne

/-- only locks are given back -/
def Gives : List Act → Prop
  | [] => True
  | .give _ _ :: r => Gives r
  | _ => False

theorem apart_gives (o : Nat) (a : List Act) : Gives a → ∀ h, Apart o h a := by
  induction a with
  | nil => intros; trivial
  | cons x a ih =>
    intro hg h
    cases x with
    | give l w => exact ih hg _
    | take l w => exact hg.elim
    | acc c w => exact hg.elim

/-- the rest after such a part -/
def Follows (o : Nat) (e : End) (h : List (Lock × Bool)) (a : List Act) : Prop :=
  match e with
  | .panic _ => ∀ rest, Gives rest → Apart o h (a ++ rest)
  | .done _ => ∀ rest, Apart o h rest → Apart o h (a ++ rest)

theorem follows_append {o : Nat} {h : List (Lock × Bool)} {a b : List Act} {e : End}
    (h1 : ∀ rest, Apart o h rest → Apart o h (a ++ rest)) (h2 : Follows o e h b) : Follows o e h (a ++ b) := by
  cases e with
  | panic s => intro rest hr; rw [List.append_assoc]; exact h1 _ (h2 rest hr)
  | done m => intro rest hr; rw [List.append_assoc]; exact h1 _ (h2 rest hr)

theorem follows_rounds {o : Nat} {h : List (Lock × Bool)} {f : List Nat → Option Nat → List Act × List Nat × End}
    (H : ∀ cs m, Follows o (f cs m).2.2 h (f cs m).1) (n : Nat) :
    ∀ cs m, Follows o (rounds f n cs m).2.2 h (rounds f n cs m).1 := by
  induction n with
  | zero => intro cs m rest hr; exact hr
  | succ n ih =>
    intro cs m
    have h1 := H cs m
    simp only [rounds]
    rcases hf : f cs m with ⟨a, cs', e⟩
    rw [hf] at h1
    cases e with
    | panic s => exact h1
    | done m' => exact follows_append h1 (ih cs' m')

theorem follows_code (o : Nat) (c : Code) : ∀ b, c.apart b = true → ∀ env cs m h, Outside b h →
    Follows o (c.walk o env cs m).2.2 h (c.walk o env cs m).1 := by
  induction c with
  | plain p => intro b hk env cs m h ho rest hr; exact apart_walk o p b hk env cs h rest ho hr
  | risk s c ih =>
    intro b hk env cs m h ho
    cases m with
    | none => exact ih b hk env cs none h ho
    | some n =>
      cases n with
      | zero => intro rest hr; exact apart_gives o _ hr h
      | succ n => exact ih b hk env cs (some n) h ho
  | seq c d ihc ihd =>
    intro b hk env cs m h ho
    simp only [Code.apart, Bool.and_eq_true] at hk
    have h1 := ihc b hk.1 env cs m h ho
    simp only [Code.walk]
    rcases hf : c.walk o env cs m with ⟨a, cs', e⟩
    rw [hf] at h1
    cases e with
    | panic s => exact h1
    | done m' => exact follows_append h1 (ihd b hk.2 env cs' m' h ho)
  | alt c d ihc ihd =>
    intro b hk env cs m h ho
    simp only [Code.apart, Bool.and_eq_true] at hk
    simp only [Code.walk]
    split
    · exact ihc b hk.1 _ _ _ _ ho
    · exact ihd b hk.2 _ _ _ _ ho
  | loop c ih => intro b hk env cs m h ho; exact follows_rounds (fun cs m => ih b hk env cs m h ho) _ _ _
  | hold k w d c ih =>
    intro b hk env cs m h ho
    simp only [Code.apart, Bool.and_eq_true] at hk
    have h1 := ih _ hk.2 (within env k (cs.headD 0)) (if k.many then cs.tail else cs) m _ (outside_hold ho o k (cs.headD 0) w)
    have ht := take_apart ho o k (cs.headD 0) hk.1
    simp only [Code.walk]
    revert h1
    generalize c.walk o (within env k (cs.headD 0)) (if k.many then cs.tail else cs) m = x
    obtain ⟨a, cs', e⟩ := x
    intro h1
    cases e with
    | panic s =>
      intro rest hr
      simp only [List.cons_append, List.append_assoc]
      refine ⟨ht, h1 _ ?_⟩
      cases d
      · exact hr
      · exact hr
    | done m' =>
      intro rest hr
      simp only [givesBack, if_true, List.cons_append, List.append_assoc]
      refine ⟨ht, h1 _ ?_⟩
      simp only [List.nil_append, Apart, List.erase_cons_head]
      exact hr

theorem code_apart (damaged : Bool) (op : Op) (h : op.fails = false) : (code damaged op).apart false = true := by
  cases damaged <;> cases op <;> first | decide +kernel | simp [Op.fails] at h

theorem call_apart {damaged : Nat → Bool} {c : Call} (h : c.op.fails = false) : Apart c.coll [] (c.path damaged).1 := by
  have := follows_code c.coll _ false (code_apart (damaged c.coll) c.op h) (fun _ => none) c.choices c.panics [] (fun _ => by simp)
  change Follows _ (c.path damaged).2.2 _ (c.path damaged).1 at this
  cases he : (c.path damaged).2.2 with
  | panic s => rw [he] at this; simpa using this [] trivial
  | done m => rw [he] at this; simpa using this [] trivial

/-! ## The machine -/

/-- a goroutine busy with collection `o`: ordered but for one lock of a vertex of a damaged collection -/
structure Fair (damaged : Nat → Bool) (o : Nat) (t : Thread) : Prop where
  waits : t.waiting = true → ∃ l r, t.todo = .take l true :: r
  order : Ordered t.held t.todo ∨ damaged o = true ∧ ∃ i, Ordered t.held (t.todo ++ [.give ⟨.vertex, o, i⟩ true])
  apart : Apart o t.held t.todo
  own : ∀ x ∈ t.held, x.1.kind.ofProcess = true ∨ x.1.owner = o

def AllFair (damaged : Nat → Bool) (s : List Thread) : Prop := ∀ t ∈ s, ∃ o, Fair damaged o t

theorem fair_start {damaged : Nat → Bool} {c : Call} (h : c.op.fails = false) : Fair damaged c.coll (Thread.start (c.path damaged).1) := by
  refine ⟨(fun e => by cases e), ?_, call_apart h, fun x hx => by cases hx⟩
  cases hd : damaged c.coll with
  | false => exact .inl (call_ordered hd h)
  | true =>
    have := nearly_code c.coll _ 0 (code_ranked (damaged c.coll) c.op h) (code_shaped (damaged c.coll) c.op h) (fun _ => none) c.choices c.panics [] (by simp)
    change Nearly _ (c.path damaged).2.2 _ (c.path damaged).1 at this
    unfold Nearly at this
    split at this
    · obtain ⟨i, hi⟩ := this
      exact .inr ⟨rfl, i, hi _ ⟨by simp, by simp [Ordered]⟩⟩
    · have h1 := this [] rfl
      rw [List.append_nil] at h1
      exact .inl h1

theorem allFair_begin {damaged : Nat → Bool} {calls : List Call} (h : ∀ c ∈ calls, c.op.fails = false) : AllFair damaged (begin damaged calls) := by
  intro t ht
  simp only [begin, List.mem_map] at ht
  obtain ⟨c, hc, rfl⟩ := ht
  exact ⟨c.coll, fair_start (h c hc)⟩

theorem fair_take {damaged : Nat → Bool} {o : Nat} {l : Lock} {w : Bool} {r : List Act} {held : List (Lock × Bool)} {b : Bool}
    (h : Fair damaged o ⟨.take l w :: r, held, b⟩) : Fair damaged o ⟨r, (l, w) :: held, false⟩ := by
  obtain ⟨-, ho, ha, hw⟩ := h
  refine ⟨(fun e => by cases e), ho.imp (·.2) (fun h => ⟨h.1, h.2.imp fun _ h => h.2⟩), ha.2, fun x hx => ?_⟩
  rcases List.mem_cons.mp hx with rfl | hx
  · exact ha.1.imp id (·.1)
  · exact hw x hx

theorem fair_step {damaged : Nat → Bool} {o : Nat} {all : List Thread} {t t' : Thread} (h : Fair damaged o t) (hs : t.step all = some t') :
    Fair damaged o t' := by
  obtain ⟨todo, held, waiting⟩ := t
  cases todo with
  | nil => simp [Thread.step] at hs
  | cons a r =>
    cases a with
    | give l w =>
      simp only [Thread.step, Option.some.injEq] at hs
      subst hs
      obtain ⟨-, ho, ha, hw⟩ := h
      exact ⟨(fun e => by cases e), ho.imp (·.2) (fun h => ⟨h.1, h.2.imp fun _ h => h.2⟩), ha, fun x hx => hw x (List.mem_of_mem_erase hx)⟩
    | acc c w =>
      simp only [Thread.step, Option.some.injEq] at hs
      subst hs
      obtain ⟨-, ho, ha, hw⟩ := h
      exact ⟨(fun e => by cases e), ho, ha, hw⟩
    | take l w =>
      cases w with
      | false =>
        simp only [Thread.step] at hs
        split at hs
        · cases hs
        · simp only [Option.some.injEq] at hs
          subst hs
          exact fair_take h
      | true =>
        simp only [Thread.step] at hs
        split at hs
        · split at hs
          · cases hs
          · simp only [Option.some.injEq] at hs
            subst hs
            exact fair_take h
        · split at hs
          · cases hs
          · simp only [Option.some.injEq] at hs
            subst hs
            exact ⟨fun _ => ⟨l, r, rfl⟩, h.order, h.apart, h.own⟩

theorem allFair_step {damaged : Nat → Bool} {s s' : List Thread} {i : Nat} (h : AllFair damaged s) (hs : step s i = some s') : AllFair damaged s' := by
  obtain ⟨t, t', hi, ht, rfl⟩ := step_some hs
  intro u hu
  rcases List.mem_or_eq_of_mem_set hu with hu | rfl
  · exact h u hu
  · obtain ⟨o, ho⟩ := h t (List.mem_of_getElem? hi)
    exact ⟨o, fair_step ho ht⟩

/-- a lock that does not belong to a damaged collection -/
def Free (damaged : Nat → Bool) (l : Lock) : Prop := l.kind.ofProcess = true ∨ damaged l.owner = false

/-- who holds such a lock can go on, or wants such a lock of a higher rank -/
theorem fair_goes_or_wants {damaged : Nat → Bool} {o : Nat} {s : List Thread} {t : Thread} (hg : Fair damaged o t) {l : Lock} {w : Bool}
    (hh : (l, w) ∈ t.held) (hl : Free damaged l) :
    (∃ t', t.step s = some t') ∨ ∃ l' w' r, t.todo = .take l' w' :: r ∧ l.kind.rank < l'.kind.rank ∧ Free damaged l' := by
  obtain ⟨todo, held, waiting⟩ := t
  obtain ⟨-, ho, ha, hw⟩ := hg
  cases todo with
  | nil =>
    rcases ho with ho | ⟨hd, i, ho⟩
    · simp only [Ordered] at ho; subst ho; simp at hh
    · simp only [List.nil_append, Ordered] at ho
      obtain ⟨hm, he⟩ := ho
      have : held = [(⟨.vertex, o, i⟩, true)] := by
        cases held with
        | nil => cases hm
        | cons x xs =>
          by_cases e : x = (⟨.vertex, o, i⟩, true)
          · subst e
            rw [List.erase_cons_head] at he
            rw [he]
          · rw [List.erase_cons_tail (by simpa using e)] at he
            cases he
      rw [this] at hh
      simp only [List.mem_singleton, Prod.mk.injEq] at hh
      rw [hh.1] at hl
      rcases hl with hl | hl
      · cases hl
      · rw [hd] at hl; cases hl
  | cons a r =>
    cases a with
    | give l' w' => exact .inl ⟨_, rfl⟩
    | acc c w' => exact .inl ⟨_, rfl⟩
    | take l' w' =>
      refine .inr ⟨l', w', r, rfl, ?_, ?_⟩
      · rcases ho with ho | ⟨-, i, ho⟩
        · exact ho.1 _ hh
        · exact ho.1 _ hh
      · rcases ha.1 with hp | ⟨h1, h2⟩
        · exact .inl hp
        · have hn := h2 _ hh
          refine .inr ?_
          rcases hl with hl | hl
          · rw [hn] at hl; cases hl
          · rcases hw _ hh with hp | he
            · rw [hn] at hp; cases hp
            · rw [h1, ← he]; exact hl

theorem free_goes {damaged : Nat → Bool} {s : List Thread} (hg : AllFair damaged s) : ∀ (n : Nat) (t : Thread), t ∈ s → ∀ (l : Lock) (w : Bool) (r : List Act),
    t.todo = .take l w :: r → Free damaged l → 15 - l.kind.rank = n → ∃ i s', step s i = some s' := by
  intro n
  induction n using Nat.strongRecOn with
  | _ n ih =>
    intro t ht l w r htd hfree hn
    have holder : ∀ u ∈ s, ∀ w', (l, w') ∈ u.held → ∃ i s', step s i = some s' := by
      intro u hu w' hh
      obtain ⟨o, ho⟩ := hg u hu
      rcases fair_goes_or_wants (s := s) ho hh hfree with ⟨u', h⟩ | ⟨l', w'', r', h, hlt, hf⟩
      · exact can_go hu h
      · have := rank_le l'.kind
        exact ih (15 - l'.kind.rank) (by omega) u hu l' w'' r' h hf rfl
    have writer : ∀ u ∈ s, u.waiting = true → ∀ r', u.todo = .take l true :: r' → ∃ i s', step s i = some s' := by
      intro u hu hw r' htd'
      cases hst : u.step s with
      | some u' => exact can_go hu hst
      | none =>
        simp only [Thread.step, htd', hw, if_true] at hst
        split at hst
        · rename_i hany
          obtain ⟨x, hx, hxh⟩ := List.any_eq_true.mp hany
          simp only [Thread.holds, Bool.or_eq_true, List.contains_iff_mem] at hxh
          rcases hxh with hxh | hxh
          · exact holder x hx _ hxh
          · exact holder x hx _ hxh
        · cases hst
    have writes : s.any (·.writes l) = true → ∃ i s', step s i = some s' := by
      intro hany
      obtain ⟨x, hx, hxw⟩ := List.any_eq_true.mp hany
      simp only [Thread.writes, Bool.or_eq_true, Bool.and_eq_true, List.contains_iff_mem, beq_iff_eq] at hxw
      rcases hxw with hxw | ⟨hxw, hxt⟩
      · exact holder x hx _ hxw
      · cases hxd : x.todo with
        | nil => simp [hxd] at hxt
        | cons a r' =>
          simp only [hxd, List.head?_cons, Option.some.injEq] at hxt
          subst hxt
          exact writer x hx hxw r' hxd
    cases hst : t.step s with
    | some t' => exact can_go ht hst
    | none =>
      cases w with
      | false =>
        simp only [Thread.step, htd] at hst
        split at hst
        · exact writes ‹_›
        · cases hst
      | true =>
        cases hw : t.waiting with
        | true => exact writer t ht hw r htd
        | false =>
          simp only [Thread.step, htd, hw] at hst
          split at hst
          · rename_i h; cases h
          · split at hst
            · exact writes ‹_›
            · cases hst

/-- a goroutine that takes no lock of a damaged collection -/
def Safe (damaged : Nat → Bool) (t : Thread) : Prop := ∀ l w, Act.take l w ∈ t.todo → Free damaged l

theorem safe_goes {damaged : Nat → Bool} {s : List Thread} (hg : AllFair damaged s) {t : Thread} (ht : t ∈ s) (hf : Safe damaged t) (hne : t.todo ≠ []) :
    ∃ i s', step s i = some s' := by
  cases htd : t.todo with
  | nil => exact absurd htd hne
  | cons a r =>
    cases a with
    | give l w => exact can_go ht (t' := ⟨r, t.held.erase (l, w), false⟩) (by simp [Thread.step, htd])
    | acc c w => exact can_go ht (t' := ⟨r, t.held, false⟩) (by simp [Thread.step, htd])
    | take l w => exact free_goes hg _ t ht l w r htd (hf l w (by rw [htd]; exact List.mem_cons_self ..)) rfl

theorem safe_step {damaged : Nat → Bool} {all : List Thread} {t t' : Thread} (h : Safe damaged t) (hs : t.step all = some t') : Safe damaged t' := by
  obtain ⟨todo, held, waiting⟩ := t
  have sub : t'.todo = todo ∨ ∃ a, todo = a :: t'.todo := by
    cases todo with
    | nil => simp [Thread.step] at hs
    | cons a r =>
      cases a with
      | give l w => simp only [Thread.step, Option.some.injEq] at hs; subst hs; exact .inr ⟨_, rfl⟩
      | acc c w => simp only [Thread.step, Option.some.injEq] at hs; subst hs; exact .inr ⟨_, rfl⟩
      | take l w =>
        cases w with
        | false =>
          simp only [Thread.step] at hs
          split at hs
          · cases hs
          · simp only [Option.some.injEq] at hs; subst hs; exact .inr ⟨_, rfl⟩
        | true =>
          simp only [Thread.step] at hs
          split at hs
          · split at hs
            · cases hs
            · simp only [Option.some.injEq] at hs; subst hs; exact .inr ⟨_, rfl⟩
          · split at hs
            · cases hs
            · simp only [Option.some.injEq] at hs; subst hs; exact .inl rfl
  intro l w hm
  rcases sub with e | ⟨a, e⟩
  · exact h l w (e ▸ hm)
  · exact h l w (by rw [show (Thread.mk todo held waiting).todo = todo from rfl, e]; exact List.mem_cons_of_mem _ hm)

theorem fair_left_step {damaged : Nat → Bool} {o : Nat} {all : List Thread} {t t' : Thread} (hg : Fair damaged o t) (hs : t.step all = some t') :
    t'.left + 1 ≤ t.left := by
  obtain ⟨todo, held, waiting⟩ := t
  have hw := hg.waits
  cases todo with
  | nil => simp [Thread.step] at hs
  | cons a r =>
    cases a with
    | give l w =>
      simp only [Thread.step, Option.some.injEq] at hs
      subst hs
      cases waiting with
      | true => obtain ⟨l', r', h⟩ := hw rfl; cases h
      | false => simp [Thread.left, cost]; omega
    | acc c w =>
      simp only [Thread.step, Option.some.injEq] at hs
      subst hs
      cases waiting with
      | true => obtain ⟨l', r', h⟩ := hw rfl; cases h
      | false => simp [Thread.left, cost]; omega
    | take l w =>
      cases w with
      | false =>
        simp only [Thread.step] at hs
        split at hs
        · cases hs
        · simp only [Option.some.injEq] at hs
          subst hs
          cases waiting with
          | true => obtain ⟨l', r', h⟩ := hw rfl; cases h
          | false => simp [Thread.left, cost]; omega
      | true =>
        simp only [Thread.step] at hs
        split at hs
        · rename_i hwt
          split at hs
          · cases hs
          · simp only [Option.some.injEq] at hs
            subst hs
            simp [Thread.left, cost, hwt]; omega
        · rename_i hwt
          split at hs
          · cases hs
          · simp only [Option.some.injEq] at hs
            subst hs
            simp only [Bool.not_eq_true] at hwt
            simp [Thread.left, cost, hwt]; omega

theorem fair_left {damaged : Nat → Bool} {s s' : List Thread} {i : Nat} (h : AllFair damaged s) (hs : step s i = some s') : left s' + 1 ≤ left s := by
  obtain ⟨t, t', hi, ht, rfl⟩ := step_some hs
  obtain ⟨o, ho⟩ := h t (List.mem_of_getElem? hi)
  unfold left
  rw [List.map_set]
  exact sum_set (a := t.left) (by simp [hi]) (fair_left_step ho ht)

/-- what does not take a lock of a damaged collection, in every state -/
def SafeAt (damaged : Nat → Bool) (s : List Thread) (i : Nat) : Prop := ∀ t, s[i]? = some t → Safe damaged t

theorem safeAt_step {damaged : Nat → Bool} {s s' : List Thread} {i k : Nat} (h : SafeAt damaged s i) (hs : step s k = some s') : SafeAt damaged s' i := by
  obtain ⟨t, t', hk, ht, rfl⟩ := step_some hs
  intro u hu
  by_cases e : i = k
  · subst e
    have hlt : i < s.length := (List.getElem?_eq_some_iff.mp hk).1
    simp only [List.getElem?_set_self hlt, Option.some.injEq] at hu
    subst hu
    exact safe_step (h t hk) ht
  · rw [List.getElem?_set_ne (fun h => e h.symm)] at hu
    exact h u hu

theorem fair_run {damaged : Nat → Bool} {is : List Nat} : ∀ {s s' : List Thread}, AllFair damaged s → run s is = some s' →
    AllFair damaged s' ∧ (∀ i, SafeAt damaged s i → SafeAt damaged s' i) ∧ left s' + is.length ≤ left s := by
  induction is with
  | nil =>
    intro s s' h hr
    simp only [run, Option.some.injEq] at hr
    subst hr
    exact ⟨h, fun _ h => h, by simp⟩
  | cons i is ih =>
    intro s s' h hr
    simp only [run] at hr
    cases hs : step s i with
    | none => rw [hs] at hr; cases hr
    | some s1 =>
      rw [hs] at hr
      obtain ⟨h1, h2, h3⟩ := ih (allFair_step h hs) hr
      refine ⟨h1, fun j hj => h2 j (safeAt_step hj hs), ?_⟩
      have := fair_left h hs
      simp only [List.length_cons]
      omega

theorem fair_ends {damaged : Nat → Bool} {n : Nat} : ∀ {s : List Thread}, AllFair damaged s → left s ≤ n →
    ∃ is s', run s is = some s' ∧ ∀ i, SafeAt damaged s i → ∀ t, s'[i]? = some t → t.todo = [] := by
  induction n with
  | zero =>
    intro s hg hl
    refine ⟨[], s, rfl, fun i hi t ht => ?_⟩
    by_cases he : t.todo = []
    · exact he
    · obtain ⟨k, s', hs⟩ := safe_goes hg (List.mem_of_getElem? ht) (hi t ht) he
      have := fair_left hg hs
      omega
  | succ n ih =>
    intro s hg hl
    by_cases hall : ∀ i, SafeAt damaged s i → ∀ t, s[i]? = some t → t.todo = []
    · exact ⟨[], s, rfl, hall⟩
    · simp only [Classical.not_forall] at hall
      obtain ⟨i, hi, t, ht, hne⟩ := hall
      obtain ⟨k, s', hs⟩ := safe_goes hg (List.mem_of_getElem? ht) (hi t ht) hne
      have := fair_left hg hs
      obtain ⟨is, s'', h1, h2⟩ := ih (allFair_step hg hs) (by omega)
      exact ⟨k :: is, s'', by simp [run, hs, h1], fun j hj => h2 j (safeAt_step hj hs)⟩

/-! ## Calls that do not take a lock of a damaged collection -/

theorem apart_takes {o : Nat} (a : List Act) : ∀ h, Apart o h a → ∀ l w, Act.take l w ∈ a → l.kind.ofProcess = true ∨ l.owner = o := by
  induction a with
  | nil => intro h _ l w hm; cases hm
  | cons x a ih =>
    intro h ha l w hm
    cases x with
    | give l' w' =>
      rcases List.mem_cons.mp hm with e | hm
      · cases e
      · exact ih _ ha l w hm
    | acc c w' =>
      rcases List.mem_cons.mp hm with e | hm
      · cases e
      · exact ih _ ha l w hm
    | take l' w' =>
      rcases List.mem_cons.mp hm with e | hm
      · cases e
        exact ha.1.imp id (·.1)
      · exact ih _ ha.2 l w hm

/-- all sections are of the process -/
def processOnly : Prog → Bool
  | .skip => true
  | .seq p q => processOnly p && processOnly q
  | .alt p q => processOnly p && processOnly q
  | .loop p => processOnly p
  | .hold k _ p => k.ofProcess && processOnly p
  | .cross _ _ _ => false
  | .keep _ _ => false
  | .acc _ _ => true

theorem processOnly_times {f : List Nat → List Act × List Nat} (H : ∀ cs l w, Act.take l w ∈ (f cs).1 → l.kind.ofProcess = true) (n : Nat) :
    ∀ cs l w, Act.take l w ∈ (times f n cs).1 → l.kind.ofProcess = true := by
  induction n with
  | zero => intro cs l w hm; cases hm
  | succ n ih =>
    intro cs l w hm
    simp only [times, List.mem_append] at hm
    rcases hm with hm | hm
    · exact H _ _ _ hm
    · exact ih _ _ _ hm

theorem processOnly_walk (o : Nat) (p : Prog) : processOnly p = true → ∀ env cs l w, Act.take l w ∈ (p.walk o env cs).1 → l.kind.ofProcess = true := by
  induction p with
  | skip => intro _ env cs l w hm; cases hm
  | acc f w' =>
    intro _ env cs l w hm
    simp [Prog.walk] at hm
  | keep k w' => intro h; cases h
  | cross k k' p ih => intro h; cases h
  | seq p q ihp ihq =>
    intro h env cs l w hm
    simp only [processOnly, Bool.and_eq_true] at h
    simp only [Prog.walk, List.mem_append] at hm
    rcases hm with hm | hm
    · exact ihp h.1 _ _ _ _ hm
    · exact ihq h.2 _ _ _ _ hm
  | alt p q ihp ihq =>
    intro h env cs l w hm
    simp only [processOnly, Bool.and_eq_true] at h
    simp only [Prog.walk] at hm
    split at hm
    · exact ihp h.1 _ _ _ _ hm
    · exact ihq h.2 _ _ _ _ hm
  | loop p ih =>
    intro h env cs l w hm
    exact processOnly_times (fun cs l w => ih h env cs l w) _ _ _ _ hm
  | hold k w' p ih =>
    intro h env cs l w hm
    simp only [processOnly, Bool.and_eq_true] at h
    simp only [Prog.walk, List.cons_append, List.mem_cons, List.mem_append, List.not_mem_nil, or_false, reduceCtorEq] at hm
    rcases hm with e | hm
    · cases e; exact h.1
    · exact ih h.2 _ _ _ _ hm

theorem safe_begin {damaged : Nat → Bool} {calls : List Call} {i : Nat} {c : Call} (h : calls[i]? = some c) (hf : c.op.fails = false)
    (hs : damaged c.coll = false ∨ c.op ∈ [Op.login, .openPod, .collections, .create, .drop, .getDocument]) : SafeAt damaged (begin damaged calls) i := by
  intro t ht
  have : t = Thread.start (c.path damaged).1 := by simpa [begin, h] using ht.symm
  subst this
  intro l w hm
  rcases hs with hs | hs
  · rcases apart_takes _ _ (call_apart hf) l w hm with hp | e
    · exact .inl hp
    · exact .inr (by rw [e]; exact hs)
  · refine .inl ?_
    obtain ⟨op, o, cs, m⟩ := c
    simp only [List.mem_cons, List.not_mem_nil, or_false] at hs
    rcases hs with rfl | rfl | rfl | rfl | rfl | rfl
    · exact processOnly_walk o Locks.login (by decide +kernel) (fun _ => none) cs l w hm
    · exact processOnly_walk o Locks.openPod (by decide +kernel) (fun _ => none) cs l w hm
    · exact processOnly_walk o Locks.collections (by decide +kernel) (fun _ => none) cs l w hm
    · exact processOnly_walk o Locks.clientTable (by decide +kernel) (fun _ => none) cs l w hm
    · exact processOnly_walk o Locks.clientTable (by decide +kernel) (fun _ => none) cs l w hm
    · exact processOnly_walk o Locks.getDocument (by decide +kernel) (fun _ => none) cs l w hm

end Fave.Panics

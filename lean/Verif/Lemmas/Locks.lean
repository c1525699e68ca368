import Verif.Spec.Locks
/-!
# Lemmas about locks
-/
namespace Fave.Locks

/-- the order in which the locks are taken -/
def Kind.rank : Kind → Nat
  | .client => 0 | .table => 1 | .compress => 2 | .delIns => 3 | .delete => 4 | .once => 5 | .reset => 6 | .graph => 7 | .vertex => 8
  | .shard => 9 | .dims => 10 | .tomb => 11 | .visited => 12 | .pool => 13 | .nds => 14 | .log => 15

theorem rank_le (k : Kind) : k.rank ≤ 15 := by cases k <;> decide

/-- locks are taken in order and all given back -/
def Ordered : List (Lock × Bool) → List Act → Prop
  | h, [] => h = []
  | h, .take l w :: r => (∀ x ∈ h, x.1.kind.rank < l.kind.rank) ∧ Ordered ((l, w) :: h) r
  | h, .give l w :: r => (l, w) ∈ h ∧ Ordered (h.erase (l, w)) r
  | h, .acc _ _ :: r => Ordered h r

/-- every section of the program is inside sections of lower rank only -/
def Prog.ok : Nat → Prog → Bool
  | _, .skip => true
  | r, .seq p q => p.ok r && q.ok r
  | r, .alt p q => p.ok r && q.ok r
  | r, .loop p => p.ok r
  | r, .hold k _ p => decide (r ≤ k.rank) && p.ok (k.rank + 1)
  | r, .cross k₁ k₂ p => decide (r ≤ k₁.rank) && decide (k₁.rank < k₂.rank) && p.ok (k₂.rank + 1)
  | _, .keep _ _ => false
  | _, .acc _ _ => true

theorem kind_lockOf (o : Nat) (k : Kind) (i : Nat) : (lockOf o k i).kind = k := rfl

theorem ordered_times {f : List Nat → List Act × List Nat} {h : List (Lock × Bool)}
    (H : ∀ cs rest, Ordered h rest → Ordered h ((f cs).1 ++ rest)) (n : Nat) :
    ∀ cs rest, Ordered h rest → Ordered h ((times f n cs).1 ++ rest) := by
  induction n with
  | zero => intro cs rest hr; simpa [times] using hr
  | succ n ih =>
    intro cs rest hr
    simp only [times, List.append_assoc]
    exact H _ _ (ih _ _ hr)

/-- the path through a good program is ordered -/
theorem ordered_walk (o : Nat) (p : Prog) : ∀ (r : Nat), p.ok r = true → ∀ (env : Kind → Option Nat) (cs : List Nat) (h : List (Lock × Bool)) (rest : List Act),
    (∀ x ∈ h, x.1.kind.rank < r) → Ordered h rest → Ordered h ((p.walk o env cs).1 ++ rest) := by
  induction p with
  | skip => intro r _ env cs h rest _ hr; simpa [Prog.walk] using hr
  | seq p q ihp ihq =>
    intro r hok env cs h rest hh hr
    simp only [Prog.ok, Bool.and_eq_true] at hok
    simp only [Prog.walk, List.append_assoc]
    exact ihp r hok.1 _ _ h _ hh (ihq r hok.2 _ _ h _ hh hr)
  | alt p q ihp ihq =>
    intro r hok env cs h rest hh hr
    simp only [Prog.ok, Bool.and_eq_true] at hok
    simp only [Prog.walk]
    split
    · exact ihp r hok.1 _ _ h _ hh hr
    · exact ihq r hok.2 _ _ h _ hh hr
  | loop p ih =>
    intro r hok env cs h rest hh hr
    simp only [Prog.ok] at hok
    simp only [Prog.walk]
    exact ordered_times (fun cs rest => ih r hok env cs h rest hh) _ _ _ hr
  | hold k w p ih =>
    intro r hok env cs h rest hh hr
    simp only [Prog.ok, Bool.and_eq_true, decide_eq_true_eq] at hok
    simp only [Prog.walk, List.cons_append, List.append_assoc, Ordered, List.nil_append]
    refine ⟨fun x hx => by rw [kind_lockOf]; have := hh x hx; omega, ?_⟩
    refine ih _ hok.2 _ _ _ _ ?_ ?_
    · intro x hx
      rcases List.mem_cons.mp hx with rfl | hx
      · simp [kind_lockOf]
      · have := hh x hx; omega
    · simp only [Ordered, List.mem_cons, true_or, true_and]
      simpa using hr
  | cross k₁ k₂ p ih =>
    intro r hok env cs h rest hh hr
    simp only [Prog.ok, Bool.and_eq_true, decide_eq_true_eq] at hok
    simp only [Prog.walk, List.cons_append, List.append_assoc, Ordered, List.nil_append]
    refine ⟨fun x hx => by rw [kind_lockOf]; have := hh x hx; omega, ?_, ?_⟩
    · intro x hx
      rcases List.mem_cons.mp hx with rfl | hx
      · simpa [kind_lockOf] using hok.1.2
      · have := hh x hx; rw [kind_lockOf]; omega
    · refine ih _ hok.2 _ _ _ _ ?_ ?_
      · intro x hx
        rcases List.mem_cons.mp hx with rfl | hx
        · simp [kind_lockOf]
        · rcases List.mem_cons.mp hx with rfl | hx
          · simp only [kind_lockOf]; omega
          · have := hh x hx; omega
      · have hne : (lockOf o k₂ 0, true) ≠ (lockOf o k₁ 0, true) := by
          intro e
          have : k₂ = k₁ := by simpa [lockOf] using congrArg (fun x : Lock × Bool => x.1.kind) e
          rw [this] at hok; omega
        have e1 : ((lockOf o k₂ 0, true) :: (lockOf o k₁ 0, true) :: h).erase (lockOf o k₁ 0, true)
            = (lockOf o k₂ 0, true) :: h := by
          rw [List.erase_cons_tail (by simpa using hne), List.erase_cons_head]
        refine ⟨by simp, ?_⟩
        rw [e1]
        exact ⟨by simp, by simpa using hr⟩
  | keep k w => intro r hok; simp [Prog.ok] at hok
  | acc f w =>
    intro r _ env cs h rest _ hr
    simpa [Prog.walk, Ordered] using hr

theorem ordered_path (o : Nat) (p : Prog) (r : Nat) (hok : p.ok r = true) (cs : List Nat) (h : List (Lock × Bool)) (rest : List Act)
    (hh : ∀ x ∈ h, x.1.kind.rank < r) (hr : Ordered h rest) : Ordered h ((p.path o cs).1 ++ rest) :=
  ordered_walk o p r hok _ cs h rest hh hr

/-! ## The calls -/

theorem op_ok (op : Op) (h : op.fails = false) : op.prog.ok 0 = true := by
  cases op <;> first | decide +kernel | simp [Op.fails] at h

theorem op_ordered {op : Op} (h : op.fails = false) (o : Nat) (cs : List Nat) : Ordered [] (op.prog.path o cs).1 := by
  have := ordered_path o op.prog 0 (op_ok op h) cs [] [] (by simp) rfl
  simpa using this

/-! ## Waiting -/

/-- every goroutine is on an ordered path, and one that waits waits for a lock to write -/
def Good (t : Thread) : Prop :=
  Ordered t.held t.todo ∧ (t.waiting = true → ∃ l r, t.todo = .take l true :: r)

def AllGood (s : List Thread) : Prop := ∀ t ∈ s, Good t

theorem good_start {p : List Act} (h : Ordered [] p) : Good (Thread.start p) := ⟨h, fun e => by cases e⟩

theorem good_step {all : List Thread} {t t' : Thread} (h : Good t) (hs : t.step all = some t') : Good t' := by
  obtain ⟨todo, held, waiting⟩ := t
  obtain ⟨ho, hw⟩ := h
  cases todo with
  | nil => simp [Thread.step] at hs
  | cons a r =>
    cases a with
    | give l w =>
      simp only [Thread.step, Option.some.injEq] at hs
      subst hs
      exact ⟨ho.2, fun e => by cases e⟩
    | acc c w =>
      simp only [Thread.step, Option.some.injEq] at hs
      subst hs
      exact ⟨ho, fun e => by cases e⟩
    | take l w =>
      cases w with
      | false =>
        simp only [Thread.step] at hs
        split at hs
        · cases hs
        · simp only [Option.some.injEq] at hs
          subst hs
          exact ⟨ho.2, fun e => by cases e⟩
      | true =>
        simp only [Thread.step] at hs
        split at hs
        · split at hs
          · cases hs
          · simp only [Option.some.injEq] at hs
            subst hs
            exact ⟨ho.2, fun e => by cases e⟩
        · split at hs
          · cases hs
          · simp only [Option.some.injEq] at hs
            subst hs
            exact ⟨ho, fun _ => ⟨l, r, rfl⟩⟩

theorem step_some {s s' : List Thread} {i : Nat} (h : step s i = some s') :
    ∃ t t', s[i]? = some t ∧ t.step s = some t' ∧ s' = s.set i t' := by
  unfold step at h
  cases hi : s[i]? with
  | none => rw [hi] at h; cases h
  | some t =>
    rw [hi] at h
    cases ht : t.step s with
    | none => simp [ht] at h
    | some t' =>
      simp only [ht, Option.map_some, Option.some.injEq] at h
      exact ⟨t, t', rfl, ht, h.symm⟩

theorem allGood_step {s s' : List Thread} {i : Nat} (h : AllGood s) (hs : step s i = some s') : AllGood s' := by
  obtain ⟨t, t', hi, ht, rfl⟩ := step_some hs
  intro u hu
  rcases List.mem_or_eq_of_mem_set hu with hu | rfl
  · exact h u hu
  · exact good_step (h t (List.mem_of_getElem? hi)) ht

theorem allGood_run {is : List Nat} : ∀ {s s' : List Thread}, AllGood s → run s is = some s' → AllGood s' := by
  induction is with
  | nil => intro s s' h hr; simp only [run, Option.some.injEq] at hr; exact hr ▸ h
  | cons i is ih =>
    intro s s' h hr
    simp only [run] at hr
    cases hs : step s i with
    | none => rw [hs] at hr; cases hr
    | some s1 => rw [hs] at hr; exact ih (allGood_step h hs) hr

/-- a goroutine at the head of its path can go on, or wants a lock of a rank above all it holds -/
theorem can_go {s : List Thread} {t : Thread} (hm : t ∈ s) {t' : Thread} (h : t.step s = some t') : ∃ i s', step s i = some s' := by
  obtain ⟨i, hi⟩ := List.mem_iff_getElem?.mp hm
  exact ⟨i, s.set i t', by simp [step, hi, h]⟩

/-- what holds a good goroutine up -/
theorem goes_or_wants {s : List Thread} {t : Thread} (hg : Good t) {l : Lock} {w : Bool} (hh : (l, w) ∈ t.held) :
    (∃ t', t.step s = some t') ∨ ∃ l' w' r, t.todo = .take l' w' :: r ∧ l.kind.rank < l'.kind.rank := by
  obtain ⟨todo, held, waiting⟩ := t
  obtain ⟨ho, -⟩ := hg
  cases todo with
  | nil => simp only [Ordered] at ho; subst ho; simp at hh
  | cons a r =>
    cases a with
    | give l' w' => exact .inl ⟨_, rfl⟩
    | acc c w' => exact .inl ⟨_, rfl⟩
    | take l' w' => exact .inr ⟨l', w', r, rfl, ho.1 _ hh⟩

theorem some_goes {s : List Thread} (hg : AllGood s) : ∀ (n : Nat) (t : Thread), t ∈ s → ∀ (l : Lock) (w : Bool) (r : List Act),
    t.todo = .take l w :: r → 15 - l.kind.rank = n → ∃ i s', step s i = some s' := by
  intro n
  induction n using Nat.strongRecOn with
  | _ n ih =>
    intro t ht l w r htd hn
    -- somebody who holds `l` lets us go on
    have holder : ∀ u ∈ s, ∀ w', (l, w') ∈ u.held → ∃ i s', step s i = some s' := by
      intro u hu w' hh
      rcases goes_or_wants (s := s) (hg u hu) hh with ⟨u', h⟩ | ⟨l', w'', r', h, hlt⟩
      · exact can_go hu h
      · have := rank_le l'.kind
        exact ih (15 - l'.kind.rank) (by omega) u hu l' w'' r' h rfl
    -- somebody who has announced itself lets us go on
    have writer : ∀ u ∈ s, u.waiting = true → ∀ r', u.todo = .take l true :: r' → ∃ i s', step s i = some s' := by
      intro u hu hw r' htd'
      cases hst : u.step s with
      | some u' => exact can_go hu hst
      | none =>
        simp only [Thread.step, htd', hw, if_true] at hst
        split at hst
        · rename_i hany
          obtain ⟨x, hx, hxh⟩ := List.any_eq_true.mp hany
          simp only [Thread.holds, Bool.or_eq_true, List.contains_iff_mem] at hxh
          rcases hxh with hxh | hxh
          · exact holder x hx _ hxh
          · exact holder x hx _ hxh
        · cases hst
    have writes : s.any (·.writes l) = true → ∃ i s', step s i = some s' := by
      intro hany
      obtain ⟨x, hx, hxw⟩ := List.any_eq_true.mp hany
      simp only [Thread.writes, Bool.or_eq_true, Bool.and_eq_true, List.contains_iff_mem, beq_iff_eq] at hxw
      rcases hxw with hxw | ⟨hxw, hxt⟩
      · exact holder x hx _ hxw
      · cases hxd : x.todo with
        | nil => simp [hxd] at hxt
        | cons a r' =>
          simp only [hxd, List.head?_cons, Option.some.injEq] at hxt
          subst hxt
          exact writer x hx hxw r' hxd
    cases hst : t.step s with
    | some t' => exact can_go ht hst
    | none =>
      cases w with
      | false =>
        simp only [Thread.step, htd] at hst
        split at hst
        · exact writes ‹_›
        · cases hst
      | true =>
        cases hw : t.waiting with
        | true => exact writer t ht hw r htd
        | false =>
          simp only [Thread.step, htd, hw] at hst
          split at hst
          · rename_i h; cases h
          · split at hst
            · exact writes ‹_›
            · cases hst

theorem good_not_stuck {s : List Thread} (hg : AllGood s) (hne : ¬ ended s) : ∃ i s', step s i = some s' := by
  simp only [ended, Classical.not_forall] at hne
  obtain ⟨t, ht, hne⟩ := hne
  cases htd : t.todo with
  | nil => exact absurd htd hne
  | cons a r =>
    cases a with
    | give l w => exact can_go ht (t' := ⟨r, t.held.erase (l, w), false⟩) (by simp [Thread.step, htd])
    | acc c w => exact can_go ht (t' := ⟨r, t.held, false⟩) (by simp [Thread.step, htd])
    | take l w => exact some_goes hg _ t ht l w r htd rfl

/-! ## Counting steps -/

def Thread.left (t : Thread) : Nat := cost t.todo - if t.waiting then 1 else 0

def left (s : List Thread) : Nat := (s.map Thread.left).sum

theorem left_step {all : List Thread} {t t' : Thread} (hg : Good t) (hs : t.step all = some t') : t'.left + 1 ≤ t.left := by
  obtain ⟨todo, held, waiting⟩ := t
  obtain ⟨-, hw⟩ := hg
  cases todo with
  | nil => simp [Thread.step] at hs
  | cons a r =>
    cases a with
    | give l w =>
      simp only [Thread.step, Option.some.injEq] at hs
      subst hs
      cases waiting with
      | true => obtain ⟨l', r', h⟩ := hw rfl; cases h
      | false => simp [Thread.left, cost]; omega
    | acc c w =>
      simp only [Thread.step, Option.some.injEq] at hs
      subst hs
      cases waiting with
      | true => obtain ⟨l', r', h⟩ := hw rfl; cases h
      | false => simp [Thread.left, cost]; omega
    | take l w =>
      cases w with
      | false =>
        simp only [Thread.step] at hs
        split at hs
        · cases hs
        · simp only [Option.some.injEq] at hs
          subst hs
          cases waiting with
          | true => obtain ⟨l', r', h⟩ := hw rfl; cases h
          | false => simp [Thread.left, cost]; omega
      | true =>
        simp only [Thread.step] at hs
        split at hs
        · rename_i hwt
          split at hs
          · cases hs
          · simp only [Option.some.injEq] at hs
            subst hs
            simp [Thread.left, cost, hwt]; omega
        · rename_i hwt
          split at hs
          · cases hs
          · simp only [Option.some.injEq] at hs
            subst hs
            simp only [Bool.not_eq_true] at hwt
            simp [Thread.left, cost, hwt]; omega

theorem sum_set {l : List Nat} {i : Nat} {a b : Nat} (h : l[i]? = some a) (hb : b + 1 ≤ a) : (l.set i b).sum + 1 ≤ l.sum := by
  induction l generalizing i with
  | nil => simp at h
  | cons x xs ih =>
    cases i with
    | zero =>
      simp only [List.getElem?_cons_zero, Option.some.injEq] at h
      subst h
      simp only [List.set_cons_zero, List.sum_cons]; omega
    | succ i =>
      simp only [List.getElem?_cons_succ] at h
      have := ih h
      simp only [List.set_cons_succ, List.sum_cons]; omega

theorem left_after {s s' : List Thread} {i : Nat} (h : AllGood s) (hs : step s i = some s') : left s' + 1 ≤ left s := by
  obtain ⟨t, t', hi, ht, rfl⟩ := step_some hs
  unfold left
  rw [List.map_set]
  exact sum_set (a := t.left) (by simp [hi]) (left_step (h t (List.mem_of_getElem? hi)) ht)

theorem left_run {is : List Nat} : ∀ {s s' : List Thread}, AllGood s → run s is = some s' → left s' + is.length ≤ left s := by
  induction is with
  | nil => intro s s' _ hr; simp only [run, Option.some.injEq] at hr; subst hr; simp
  | cons i is ih =>
    intro s s' h hr
    simp only [run] at hr
    cases hs : step s i with
    | none => rw [hs] at hr; cases hr
    | some s1 =>
      rw [hs] at hr
      have := left_after h hs
      have := ih (allGood_step h hs) hr
      simp only [List.length_cons]; omega

/-! ## Exclusion -/

/-- a lock held for writing is held once -/
def Excl (s : List Thread) : Prop :=
  ∀ (i j : Nat) (t u : Thread) (l : Lock) (w : Bool), s[i]? = some t → s[j]? = some u → (l, true) ∈ t.held → (l, w) ∈ u.held → i = j

/-- two goroutines never both count as the writer of a lock -/
def Excl2 (s : List Thread) : Prop :=
  ∀ (i j : Nat) (t u : Thread) (l : Lock), s[i]? = some t → s[j]? = some u → t.writes l = true → u.writes l = true → i = j

theorem getElem?_set' {s : List Thread} {i j : Nat} {t u v : Thread} (hi : s[i]? = some v) (h : (s.set i t)[j]? = some u) :
    (j = i ∧ u = t) ∨ (j ≠ i ∧ s[j]? = some u) := by
  by_cases e : j = i
  · subst e
    have hlt : j < s.length := (List.getElem?_eq_some_iff.mp hi).1
    simp only [List.getElem?_set, if_true, hlt] at h
    exact .inl ⟨rfl, by simpa using h.symm⟩
  · rw [List.getElem?_set_ne (fun h => e h.symm)] at h
    exact .inr ⟨e, h⟩

theorem mem_writes {t : Thread} {l : Lock} (h : (l, true) ∈ t.held) : t.writes l = true := by
  simp [Thread.writes, h]

theorem any_false {s : List Thread} {f : Thread → Bool} (h : ¬ s.any f = true) {j : Nat} {u : Thread} (hj : s[j]? = some u) : f u = false := by
  simp only [List.any_eq_true, not_exists, not_and, Bool.not_eq_true] at h
  exact h u (List.mem_of_getElem? hj)

/-- what a step may add -/
theorem step_adds {all : List Thread} {t t' : Thread} (hs : t.step all = some t') :
    (∀ l, t'.writes l = true → t.writes l = true ∨ ¬ all.any (·.writes l) = true) ∧
    (∀ l w, (l, w) ∈ t'.held → (l, w) ∈ t.held ∨
      (w = false ∧ ¬ all.any (·.writes l) = true) ∨ (w = true ∧ ¬ all.any (·.holds l) = true ∧ t.writes l = true)) := by
  obtain ⟨todo, held, waiting⟩ := t
  cases todo with
  | nil => simp [Thread.step] at hs
  | cons a r =>
    cases a with
    | give l w =>
      simp only [Thread.step, Option.some.injEq] at hs
      subst hs
      constructor
      · intro l' h
        simp only [Thread.writes, Bool.false_and, Bool.or_false, List.contains_iff_mem] at h
        exact .inl (mem_writes (List.mem_of_mem_erase h))
      · intro l' w' h
        exact .inl (List.mem_of_mem_erase h)
    | acc c w =>
      simp only [Thread.step, Option.some.injEq] at hs
      subst hs
      constructor
      · intro l' h
        simp only [Thread.writes, Bool.false_and, Bool.or_false, List.contains_iff_mem] at h
        exact .inl (mem_writes h)
      · intro l' w' h
        exact .inl h
    | take l w =>
      cases w with
      | false =>
        simp only [Thread.step] at hs
        split at hs
        · cases hs
        · rename_i hany
          simp only [Option.some.injEq] at hs
          subst hs
          constructor
          · intro l' h
            simp only [Thread.writes, Bool.false_and, Bool.or_false, List.contains_iff_mem, List.mem_cons, Prod.mk.injEq] at h
            rcases h with ⟨_, h⟩ | h
            · cases h
            · exact .inl (mem_writes h)
          · intro l' w' h
            rcases List.mem_cons.mp h with h | h
            · cases h; exact .inr (.inl ⟨rfl, hany⟩)
            · exact .inl h
      | true =>
        simp only [Thread.step] at hs
        split at hs
        · rename_i hwt
          split at hs
          · cases hs
          · rename_i hany
            simp only [Option.some.injEq] at hs
            subst hs
            have hl : (Thread.mk (.take l true :: r) held waiting).writes l = true := by simp [Thread.writes, hwt]
            constructor
            · intro l' h
              simp only [Thread.writes, Bool.false_and, Bool.or_false, List.contains_iff_mem, List.mem_cons, Prod.mk.injEq] at h
              rcases h with ⟨rfl, _⟩ | h
              · exact .inl hl
              · exact .inl (mem_writes h)
            · intro l' w' h
              rcases List.mem_cons.mp h with h | h
              · cases h; exact .inr (.inr ⟨rfl, hany, hl⟩)
              · exact .inl h
        · split at hs
          · cases hs
          · rename_i hany
            simp only [Option.some.injEq] at hs
            subst hs
            constructor
            · intro l' h
              simp only [Thread.writes, Bool.true_and, Bool.or_eq_true, List.contains_iff_mem, List.head?_cons, beq_iff_eq,
                Option.some.injEq, Act.take.injEq, and_true] at h
              rcases h with h | rfl
              · exact .inl (mem_writes h)
              · exact .inr hany
            · intro l' w' h
              exact .inl h

theorem excl_step {s s' : List Thread} {i : Nat} (h : Excl s) (h2 : Excl2 s) (hs : step s i = some s') : Excl s' ∧ Excl2 s' := by
  obtain ⟨t, t', hi, ht, rfl⟩ := step_some hs
  obtain ⟨hA, hB⟩ := step_adds ht
  -- somebody else, seen from the goroutine that has stepped
  have one : ∀ j u l, j ≠ i → s[j]? = some u → t'.writes l = true → u.writes l = true → False := by
    intro j u l hne hj h1 h3
    rcases hA l h1 with h1 | h1
    · exact hne (h2 j i u t l hj hi h3 h1)
    · have := any_false h1 hj; simp [h3] at this
  have two : ∀ j u l w w', j ≠ i → s[j]? = some u → (l, w) ∈ t'.held → (l, w') ∈ u.held → (w || w') = true → False := by
    intro j u l w w' hne hj h1 h3 hw
    rcases hB l w h1 with h1 | ⟨rfl, h5⟩ | ⟨rfl, h5, h4⟩
    · cases w with
      | true => exact hne (h i j t u l w' hi hj h1 h3).symm
      | false =>
        cases w' with
        | true => exact hne (h j i u t l false hj hi h3 h1)
        | false => cases hw
    · cases w' with
      | true => have := any_false h5 hj; simp [mem_writes h3] at this
      | false => cases hw
    · have := any_false h5 hj
      cases w' <;> simp [Thread.holds, h3] at this
  constructor
  · intro a b x y l w ha hb hx hy
    rcases getElem?_set' hi ha with ⟨ea, ex⟩ | ⟨hna, ha'⟩ <;> rcases getElem?_set' hi hb with ⟨eb, ey⟩ | ⟨hnb, hb'⟩
    · rw [ea, eb]
    · subst ex; exact (two b y l true w hnb hb' hx hy rfl).elim
    · subst ey; exact (two a x l w true hna ha' hy hx (by simp)).elim
    · exact h a b x y l w ha' hb' hx hy
  · intro a b x y l ha hb hx hy
    rcases getElem?_set' hi ha with ⟨ea, ex⟩ | ⟨hna, ha'⟩ <;> rcases getElem?_set' hi hb with ⟨eb, ey⟩ | ⟨hnb, hb'⟩
    · rw [ea, eb]
    · subst ex; exact (one b y l hnb hb' hx hy).elim
    · subst ey; exact (one a x l hna ha' hy hx).elim
    · exact h2 a b x y l ha' hb' hx hy

theorem excl_run {is : List Nat} : ∀ {s s' : List Thread}, Excl s → Excl2 s → run s is = some s' → Excl s' ∧ Excl2 s' := by
  induction is with
  | nil => intro s s' h h2 hr; simp only [run, Option.some.injEq] at hr; exact hr ▸ ⟨h, h2⟩
  | cons i is ih =>
    intro s s' h h2 hr
    simp only [run] at hr
    cases hs : step s i with
    | none => rw [hs] at hr; cases hr
    | some s1 => rw [hs] at hr; exact ih (excl_step h h2 hs).1 (excl_step h h2 hs).2 hr

/-! ## Locks that are never given back -/

theorem conflict_blocks {s : List Thread} {j : Nat} {u t : Thread} {l : Lock} {w w' : Bool} {r : List Act}
    (hj : s[j]? = some u) (hu : (l, w') ∈ u.held) (hc : (w || w') = true) (ht : t.todo = .take l w :: r) :
    ∀ t', t.step s = some t' → t'.todo = t.todo ∧ t'.held = t.held := by
  intro t' hs
  cases w with
  | false =>
    cases w' with
    | false => cases hc
    | true =>
      simp only [Thread.step, ht] at hs
      split at hs
      · cases hs
      · rename_i h; have := any_false h hj; simp [mem_writes hu] at this
  | true =>
    simp only [Thread.step, ht] at hs
    split at hs
    · split at hs
      · cases hs
      · rename_i h
        have := any_false h hj
        cases w' <;> simp [Thread.holds, hu] at this
    · split at hs
      · cases hs
      · simp only [Option.some.injEq] at hs
        subst hs; exact ⟨ht.symm, rfl⟩

/-- the step of a frozen goroutine changes nothing but that it waits -/
theorem frozen_same {s : List Thread} {i : Nat} (h : Frozen s i) {t t' : Thread} (hi : s[i]? = some t) (hs : t.step s = some t') :
    t'.todo = t.todo ∧ t'.held = t.held := by
  cases h with
  | ended _ t0 h0 he => rw [h0] at hi; cases hi; simp [Thread.step, he] at hs
  | waits _ j t0 u l w w' r h0 ht hj hu hc hf =>
    rw [h0] at hi; cases hi
    exact conflict_blocks hj hu hc ht t' hs

theorem frozen_step {s s' : List Thread} {k : Nat} (hs : step s k = some s') {i : Nat} (h : Frozen s i) :
    Frozen s' i ∧ ∀ t, s[i]? = some t → ∃ t', s'[i]? = some t' ∧ t'.todo = t.todo ∧ t'.held = t.held := by
  obtain ⟨x, x', hk, hx, rfl⟩ := step_some hs
  have same : ∀ i, Frozen s i → ∀ t, s[i]? = some t → ∃ t', (s.set k x')[i]? = some t' ∧ t'.todo = t.todo ∧ t'.held = t.held := by
    intro i hf t hi
    by_cases e : i = k
    · subst e
      rw [hk] at hi; cases hi
      have hlt : i < s.length := (List.getElem?_eq_some_iff.mp hk).1
      exact ⟨x', by simp [hlt], frozen_same hf hk hx⟩
    · exact ⟨t, by rw [List.getElem?_set_ne (fun h => e h.symm)]; exact hi, rfl, rfl⟩
  refine ⟨?_, same i h⟩
  induction h with
  | ended i t hi he =>
    obtain ⟨t', h1, h2, _⟩ := same i (.ended i t hi he) t hi
    exact .ended i t' h1 (h2.trans he)
  | waits i j t u l w w' r hi ht hj hu hc hf ih =>
    obtain ⟨t', h1, h2, _⟩ := same i (.waits i j t u l w w' r hi ht hj hu hc hf) t hi
    obtain ⟨u', h4, _, h6⟩ := same j hf u hj
    exact .waits i j t' u' l w w' r h1 (h2.trans ht) h4 (h6 ▸ hu) hc ih

theorem frozen_run {is : List Nat} : ∀ {s s' : List Thread}, run s is = some s' → ∀ {i : Nat}, Frozen s i →
    Frozen s' i ∧ ∀ t, s[i]? = some t → ∃ t', s'[i]? = some t' ∧ t'.todo = t.todo ∧ t'.held = t.held := by
  induction is with
  | nil =>
    intro s s' hr i hf
    simp only [run, Option.some.injEq] at hr; subst hr
    exact ⟨hf, fun t ht => ⟨t, ht, rfl, rfl⟩⟩
  | cons k is ih =>
    intro s s' hr i hf
    simp only [run] at hr
    cases hs : step s k with
    | none => rw [hs] at hr; cases hr
    | some s1 =>
      rw [hs] at hr
      obtain ⟨h1, h2⟩ := frozen_step hs hf
      obtain ⟨h3, h4⟩ := ih hr h1
      refine ⟨h3, fun t ht => ?_⟩
      obtain ⟨t1, a, b, c⟩ := h2 t ht
      obtain ⟨t2, a2, b2, c2⟩ := h4 t1 a
      exact ⟨t2, a2, b2.trans b, c2.trans c⟩

/-- a lock held by a frozen goroutine is not taken by others -/
theorem frozen_keeps {s s' : List Thread} {k : Nat} (hs : step s k = some s') {i : Nat} (h : Frozen s i) {u : Thread} {l : Lock} {w' : Bool}
    (hi : s[i]? = some u) (hu : (l, w') ∈ u.held) {j : Nat} {t : Thread} {w : Bool} (hj : s[j]? = some t) (hm : Act.take l w ∈ t.todo)
    (hc : (w || w') = true) : ∃ t', s'[j]? = some t' ∧ Act.take l w ∈ t'.todo := by
  obtain ⟨x, x', hk, hx, rfl⟩ := step_some hs
  by_cases e : j = k
  · subst e
    rw [hk, Option.some.injEq] at hj
    rw [← hj] at hm
    have hlt : j < s.length := (List.getElem?_eq_some_iff.mp hk).1
    refine ⟨x', by simp [hlt], ?_⟩
    cases htd : x.todo with
    | nil => simp [htd] at hm
    | cons a r =>
      by_cases ha : a = .take l w
      · subst ha
        rw [(conflict_blocks hi hu hc htd x' hx).1]
        exact hm
      · have hr : Act.take l w ∈ r := by
          rw [htd] at hm
          rcases List.mem_cons.mp hm with h | h
          · exact absurd h.symm ha
          · exact h
        cases a with
        | give l1 w1 =>
          simp only [Thread.step, htd, Option.some.injEq] at hx
          subst hx; exact hr
        | acc c1 w1 =>
          simp only [Thread.step, htd, Option.some.injEq] at hx
          subst hx; exact hr
        | take l1 w1 =>
          cases w1 with
          | false =>
            simp only [Thread.step, htd] at hx
            split at hx
            · cases hx
            · simp only [Option.some.injEq] at hx; subst hx; exact hr
          | true =>
            simp only [Thread.step, htd] at hx
            split at hx
            · split at hx
              · cases hx
              · simp only [Option.some.injEq] at hx; subst hx; exact hr
            · split at hx
              · cases hx
              · simp only [Option.some.injEq] at hx; subst hx; exact List.mem_cons_of_mem _ hr
  · exact ⟨t, by rw [List.getElem?_set_ne (fun h => e h.symm)]; exact hj, hm⟩

theorem frozen_keeps_run {is : List Nat} : ∀ {s s' : List Thread}, run s is = some s' → ∀ {i : Nat}, Frozen s i →
    ∀ {u : Thread} {l : Lock} {w' : Bool}, s[i]? = some u → (l, w') ∈ u.held → ∀ {j : Nat} {t : Thread} {w : Bool}, s[j]? = some t →
      Act.take l w ∈ t.todo → (w || w') = true → ∃ t', s'[j]? = some t' ∧ Act.take l w ∈ t'.todo := by
  induction is with
  | nil =>
    intro s s' hr i _ u l w' _ _ j t w hj hm _
    simp only [run, Option.some.injEq] at hr; subst hr
    exact ⟨t, hj, hm⟩
  | cons k is ih =>
    intro s s' hr i hf u l w' hi hu j t w hj hm hc
    simp only [run] at hr
    cases hs : step s k with
    | none => rw [hs] at hr; cases hr
    | some s1 =>
      rw [hs] at hr
      obtain ⟨h1, h2⟩ := frozen_step hs hf
      obtain ⟨u1, a, _, c⟩ := h2 u hi
      obtain ⟨t1, b, d⟩ := frozen_keeps hs hf hi hu hj hm hc
      exact ih hr h1 a (c ▸ hu) b d hc

/-! ## What is held at the end -/

theorem leftover_append (a b : List Act) : ∀ h, leftover (a ++ b) h = leftover b (leftover a h) := by
  induction a with
  | nil => intro h; rfl
  | cons x a ih => intro h; cases x <;> exact ih _

theorem leftover_times {f : List Nat → List Act × List Nat} (H : ∀ cs h, leftover (f cs).1 h = h) (n : Nat) :
    ∀ cs h, leftover (times f n cs).1 h = h := by
  induction n with
  | zero => intro cs h; rfl
  | succ n ih => intro cs h; simp only [times, leftover_append, H, ih]

/-- the path through a good program gives back what it takes -/
theorem leftover_walk (o : Nat) (p : Prog) : ∀ (r : Nat), p.ok r = true → ∀ (env : Kind → Option Nat) (cs : List Nat) (h : List (Lock × Bool)),
    leftover (p.walk o env cs).1 h = h := by
  induction p with
  | skip => intros; rfl
  | seq p q ihp ihq =>
    intro r hok env cs h
    simp only [Prog.ok, Bool.and_eq_true] at hok
    simp only [Prog.walk, leftover_append, ihp r hok.1, ihq r hok.2]
  | alt p q ihp ihq =>
    intro r hok env cs h
    simp only [Prog.ok, Bool.and_eq_true] at hok
    simp only [Prog.walk]
    split
    · exact ihp r hok.1 _ _ h
    · exact ihq r hok.2 _ _ h
  | loop p ih =>
    intro r hok env cs h
    exact leftover_times (fun cs h => ih r hok env cs h) _ _ _
  | hold k w p ih =>
    intro r hok env cs h
    simp only [Prog.ok, Bool.and_eq_true] at hok
    simp [Prog.walk, leftover, leftover_append, ih _ hok.2]
  | cross k₁ k₂ p ih =>
    intro r hok env cs h
    simp only [Prog.ok, Bool.and_eq_true, decide_eq_true_eq] at hok
    have hne : (lockOf o k₂ 0, true) ≠ (lockOf o k₁ 0, true) := by
      intro e
      have : k₂ = k₁ := by simpa [lockOf] using congrArg (fun x : Lock × Bool => x.1.kind) e
      rw [this] at hok; omega
    simp only [Prog.walk, List.cons_append, leftover, leftover_append, ih _ hok.2]
    rw [List.erase_cons_tail (by simpa using hne), List.erase_cons_head, List.erase_cons_head]
  | keep k w => intro r hok; simp [Prog.ok] at hok
  | acc f w => intros; rfl

theorem leftover_path (o : Nat) (p : Prog) (r : Nat) (hok : p.ok r = true) (cs : List Nat) (h : List (Lock × Bool)) :
    leftover (p.path o cs).1 h = h := leftover_walk o p r hok _ cs h

theorem before_ok : cleanUpBefore.ok 0 = true := by decide +kernel
theorem replace_ok : replaceEntry.ok 0 = true := by decide +kernel
theorem removeOne_ok : (Prog.loop removeOne).ok 0 = true := by decide +kernel
theorem tomb_ok : (Prog.hold .tomb true (wr .tombs)).ok 0 = true := by decide +kernel
theorem entryLoop_ok : (Prog.loop (lookEntry ;; opt (look ;; deleteEntry))).ok 0 = true := by decide +kernel
theorem look_ok : lookEntry.ok 0 = true := by decide +kernel

theorem leftover_seq (o : Nat) (p q : Prog) {r : Nat} (hp : p.ok r = true) (env : Kind → Option Nat) (cs : List Nat)
    (h : List (Lock × Bool)) : leftover ((p ;; q).walk o env cs).1 h = leftover (q.walk o env (p.walk o env cs).2).1 h := by
  simp only [Prog.walk, leftover_append, leftover_walk o p r hp]

theorem leftover_entryFails (o : Nat) (cs : List Nat) :
    leftover (cleanUpEntryFails.path o cs).1 [] = [(lockOf o .graph 0, false)] := by
  have inner : ∀ env cs h, ∃ i,
      leftover ((Prog.loop (lookEntry ;; opt (look ;; deleteEntry)) ;; lookEntry ;; .keep .graph false).walk o env cs).1 h
      = (lockOf o .graph i, false) :: h := by
    intro env cs h
    rw [leftover_seq o _ _ entryLoop_ok, leftover_seq o _ _ look_ok]
    exact ⟨_, rfl⟩
  rw [Prog.path, cleanUpEntryFails, leftover_seq o _ _ before_ok]
  simp only [Prog.walk.eq_5, List.cons_append, leftover, leftover_append]
  generalize (if Kind.reset.many = true then _ else _) = cs'
  generalize within _ _ _ = env
  obtain ⟨i, hi⟩ := inner env cs' [(lockOf o .reset ((cleanUpBefore.walk o (fun _ => none) cs).2.headD 0), true)]
  rw [hi, List.erase_cons_tail (by simp [lockOf])]
  simp [lockOf, Kind.many]

theorem leftover_removeFails (o : Nat) (cs : List Nat) :
    leftover (cleanUpRemoveFails.path o cs).1 [] = [(lockOf o .reset 0, true)] := by
  rw [Prog.path, cleanUpRemoveFails, leftover_seq o _ _ before_ok, leftover_seq o _ _ replace_ok, leftover_seq o _ _ removeOne_ok,
    leftover_seq o _ _ tomb_ok]
  simp [Prog.walk, leftover, lockOf, Kind.many]

/-- what a goroutine will hold at the end does not change -/
theorem leftover_step {all : List Thread} {t t' : Thread} (hs : t.step all = some t') :
    leftover t'.todo t'.held = leftover t.todo t.held := by
  obtain ⟨todo, held, waiting⟩ := t
  cases todo with
  | nil => simp [Thread.step] at hs
  | cons a r =>
    cases a with
    | give l w => simp only [Thread.step, Option.some.injEq] at hs; subst hs; rfl
    | acc c w => simp only [Thread.step, Option.some.injEq] at hs; subst hs; rfl
    | take l w =>
      cases w with
      | false =>
        simp only [Thread.step] at hs
        split at hs
        · cases hs
        · simp only [Option.some.injEq] at hs; subst hs; rfl
      | true =>
        simp only [Thread.step] at hs
        split at hs
        · split at hs
          · cases hs
          · simp only [Option.some.injEq] at hs; subst hs; rfl
        · split at hs
          · cases hs
          · simp only [Option.some.injEq] at hs; subst hs; rfl

theorem leftover_run {is : List Nat} : ∀ {s s' : List Thread}, run s is = some s' → ∀ (i : Nat) (t : Thread), s[i]? = some t →
    ∃ t', s'[i]? = some t' ∧ leftover t'.todo t'.held = leftover t.todo t.held := by
  induction is with
  | nil => intro s s' hr i t hi; simp only [run, Option.some.injEq] at hr; subst hr; exact ⟨t, hi, rfl⟩
  | cons k is ih =>
    intro s s' hr i t hi
    simp only [run] at hr
    cases hs : step s k with
    | none => rw [hs] at hr; cases hr
    | some s1 =>
      rw [hs] at hr
      obtain ⟨x, x', hk, hx, rfl⟩ := step_some hs
      by_cases e : i = k
      · subst e
        rw [hk, Option.some.injEq] at hi
        have hlt : i < s.length := (List.getElem?_eq_some_iff.mp hk).1
        obtain ⟨t', h1, h2⟩ := ih hr i x' (by simp [hlt])
        exact ⟨t', h1, by rw [h2, leftover_step hx, hi]⟩
      · obtain ⟨t', h1, h2⟩ := ih hr i t (by rw [List.getElem?_set_ne (fun h => e h.symm)]; exact hi)
        exact ⟨t', h1, h2⟩

theorem begin_getElem {calls : List (Op × Nat × List Nat)} {i : Nat} {op : Op} {o : Nat} {cs : List Nat}
    (h : calls[i]? = some (op, o, cs)) : (begin calls)[i]? = some (Thread.start (op.prog.path o cs).1) := by
  simp [begin, h]

/-- a call that has ended holds what its path leaves -/
theorem held_at_end {calls : List (Op × Nat × List Nat)} {is : List Nat} {s : List Thread} (hr : run (begin calls) is = some s)
    {i : Nat} {op : Op} {o : Nat} {cs : List Nat} (h : calls[i]? = some (op, o, cs)) {t : Thread} (hi : s[i]? = some t)
    (he : t.todo = []) : t.held = leftover (op.prog.path o cs).1 [] := by
  obtain ⟨t', h1, h2⟩ := leftover_run hr i _ (begin_getElem h)
  rw [hi, Option.some.injEq] at h1
  subst h1
  rw [he] at h2
  exact h2

theorem allGood_begin {calls : List (Op × Nat × List Nat)} (h : ∀ c ∈ calls, c.1.fails = false) : AllGood (begin calls) := by
  intro t ht
  simp only [begin, List.mem_map] at ht
  obtain ⟨c, hc, rfl⟩ := ht
  exact good_start (op_ordered (h c hc) _ _)

theorem excl_begin (calls : List (Op × Nat × List Nat)) : Excl (begin calls) ∧ Excl2 (begin calls) := by
  have none : ∀ (i : Nat) (t : Thread), (begin calls)[i]? = some t → t.held = [] ∧ t.waiting = false := by
    intro i t h
    have := List.mem_of_getElem? h
    simp only [begin, List.mem_map] at this
    obtain ⟨c, -, rfl⟩ := this
    exact ⟨rfl, rfl⟩
  refine ⟨(fun i j t u l w hi hj ht => absurd ht (by simp [(none i t hi).1])), fun i j t u l hi hj ht => ?_⟩
  have := none i t hi
  simp [Thread.writes, this] at ht

theorem left_begin (calls : List (Op × Nat × List Nat)) :
    left (begin calls) = (calls.map fun c => cost (c.1.prog.path c.2.1 c.2.2).1).sum := by
  simp only [left, begin, List.map_map]
  congr 1

/-- every clean-up begins by taking the reset lock -/
theorem cleanUp_begins (o : Nat) (cs : List Nat) {op : Op} (h : op = .cleanUp ∨ op = .cleanUpEntryFails ∨ op = .cleanUpRemoveFails) :
    ∃ r, (op.prog.path o cs).1 = .take (lockOf o .reset 0) true :: r := by
  rcases h with rfl | rfl | rfl <;>
    simp [Op.prog, cleanUp, cleanUpEntryFails, cleanUpRemoveFails, cleanUpBefore, Prog.path, Prog.walk, lockOf, Kind.many]

theorem run_append {a : List Nat} : ∀ {s : List Thread} {b : List Nat}, run s (a ++ b) = (run s a).bind (run · b) := by
  induction a with
  | nil => intros; rfl
  | cons i a ih =>
    intro s b
    simp only [List.cons_append, run]
    cases step s i with
    | none => rfl
    | some s1 => exact ih

/-- from a good state all can be brought to an end -/
theorem good_ends {n : Nat} : ∀ {s : List Thread}, AllGood s → left s ≤ n → ∃ is s', run s is = some s' ∧ ended s' := by
  induction n with
  | zero =>
    intro s hg hl
    by_cases he : ended s
    · exact ⟨[], s, rfl, he⟩
    · obtain ⟨i, s', hs⟩ := good_not_stuck hg he
      have := left_after hg hs
      omega
  | succ n ih =>
    intro s hg hl
    by_cases he : ended s
    · exact ⟨[], s, rfl, he⟩
    · obtain ⟨i, s', hs⟩ := good_not_stuck hg he
      have := left_after hg hs
      obtain ⟨is, s2, h1, h2⟩ := ih (allGood_step hg hs) (by omega)
      exact ⟨i :: is, s2, by simp [run, hs, h1], h2⟩

end Fave.Locks

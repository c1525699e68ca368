import Verif.Lemmas.Locks
import Verif.Spec.Races
/-!
# Lemmas about accesses: which locks are held at which access
-/
namespace Fave.Locks

/-- an access of a program with the locks around it that belong to the memory it means -/
structure Use where
  field : Field
  write : Bool
  held : List (Kind × Bool)
  deriving DecidableEq, Repr

/-- two accesses to the same memory by functions with this lock around mean the same lock -/
def tied (f : Field) (k : Kind) : Bool := (!f.ofProcess || k.ofProcess) && (!k.many || f.per == some k)

/-- the accesses of a program inside sections -/
def Prog.uses : Prog → List (Kind × Bool) → List Use
  | .skip, _ => []
  | .seq p q, h => p.uses h ++ q.uses h
  | .alt p q, h => p.uses h ++ q.uses h
  | .loop p, h => p.uses h
  | .hold k w p, h => p.uses ((k, w) :: h.filter (·.1 ≠ k))
  | .cross k₁ k₂ p, h => p.uses ((if k₁.many then [] else [(k₁, true)]) ++ (if k₂.many then [] else [(k₂, true)]) ++ h)
  | .keep _ _, _ => []
  | .acc f w, h => [⟨f, w, h.filter (tied f ·.1)⟩]

/-- the lock of this kind that belongs to the memory -/
def lockFor (c : Cell) (k : Kind) : Lock := lockOf c.owner k c.idx

/-- every access of the path is one of `us`, with its locks held -/
def Covered (us : List Use) : List (Lock × Bool) → List Act → Prop
  | _, [] => True
  | h, .take l w :: r => Covered us ((l, w) :: h) r
  | h, .give l w :: r => Covered us (h.erase (l, w)) r
  | h, .acc c w :: r =>
    (∃ u ∈ us, u.field = c.field ∧ u.write = w ∧ ∀ x ∈ u.held, (lockFor c x.1, x.2) ∈ h) ∧ Covered us h r

theorem covered_append {us : List Use} (a : List Act) : ∀ {h : List (Lock × Bool)} {b : List Act},
    Covered us h (a ++ b) ↔ Covered us h a ∧ Covered us (leftover a h) b := by
  induction a with
  | nil => intro h b; simp [Covered, leftover]
  | cons x a ih =>
    intro h b
    cases x with
    | take l w => exact ih
    | give l w => exact ih
    | acc c w =>
      simp only [List.cons_append, Covered, leftover]
      rw [ih, and_assoc]

theorem covered_mono {us vs : List Use} (hs : ∀ u ∈ us, u ∈ vs) (a : List Act) : ∀ {h : List (Lock × Bool)},
    Covered us h a → Covered vs h a := by
  induction a with
  | nil => intros; trivial
  | cons x a ih =>
    intro h hc
    cases x with
    | take l w => exact ih hc
    | give l w => exact ih hc
    | acc c w =>
      obtain ⟨⟨u, hu, h1⟩, h2⟩ := hc
      exact ⟨⟨u, hs u hu, h1⟩, ih h2⟩

theorem count_times {f : List Nat → List Act × List Nat} {x : Lock × Bool}
    (H : ∀ cs h, h.count x ≤ (leftover (f cs).1 h).count x) (n : Nat) :
    ∀ cs h, h.count x ≤ (leftover (times f n cs).1 h).count x := by
  induction n with
  | zero => intro cs h; exact Nat.le_refl _
  | succ n ih =>
    intro cs h
    simp only [times, leftover_append]
    exact Nat.le_trans (H _ _) (ih _ _)

/-- a program gives back nothing that it has not taken -/
theorem count_walk (o : Nat) (x : Lock × Bool) (p : Prog) : ∀ (env : Kind → Option Nat) (cs : List Nat) (h : List (Lock × Bool)),
    h.count x ≤ (leftover (p.walk o env cs).1 h).count x := by
  induction p with
  | skip => intros; exact Nat.le_refl _
  | seq p q ihp ihq =>
    intro env cs h
    simp only [Prog.walk, leftover_append]
    exact Nat.le_trans (ihp _ _ _) (ihq _ _ _)
  | alt p q ihp ihq =>
    intro env cs h
    simp only [Prog.walk]
    split
    · exact ihp _ _ _
    · exact ihq _ _ _
  | loop p ih =>
    intro env cs h
    exact count_times (fun cs h => ih env cs h) _ _ _
  | hold k w p ih =>
    intro env cs h
    simp only [Prog.walk, List.cons_append, leftover, leftover_append]
    have := ih (within env k (cs.headD 0)) (if k.many then cs.tail else cs) ((lockOf o k (cs.headD 0), w) :: h)
    rw [List.count_cons] at this
    rw [List.count_erase]
    split at this <;> split <;> simp_all <;> omega
  | cross k₁ k₂ p ih =>
    intro env cs h
    simp only [Prog.walk, List.cons_append, leftover, leftover_append]
    have := ih env cs ((lockOf o k₂ 0, true) :: (lockOf o k₁ 0, true) :: h)
    rw [List.count_cons, List.count_cons] at this
    rw [List.count_erase, List.count_erase]
    generalize hA : (if ((lockOf o k₁ 0, true) == x) = true then 1 else 0) = A at this
    generalize hB : (if ((lockOf o k₂ 0, true) == x) = true then 1 else 0) = B at this
    omega
  | keep k w =>
    intro env cs h
    simp only [Prog.walk, leftover]
    exact List.count_le_count_cons
  | acc f w => intros; exact Nat.le_refl _

theorem mem_walk (o : Nat) {x : Lock × Bool} (p : Prog) (env : Kind → Option Nat) (cs : List Nat) {h : List (Lock × Bool)} (hx : x ∈ h) :
    x ∈ leftover (p.walk o env cs).1 h := by
  have := count_walk o x p env cs h
  have h1 : 0 < h.count x := List.count_pos_iff.mpr hx
  exact List.count_pos_iff.mp (by omega)

/-- the sections that the program is in are those of the locks held -/
def Has (o : Nat) (env : Kind → Option Nat) (h : List (Kind × Bool)) (held : List (Lock × Bool)) : Prop :=
  ∀ x ∈ h, (lockOf o x.1 ((env x.1).getD 0), x.2) ∈ held ∧ (x.1.many = true → (env x.1).isSome = true)

theorem has_mono {o : Nat} {env : Kind → Option Nat} {h : List (Kind × Bool)} {a b : List (Lock × Bool)} (hh : Has o env h a)
    (hs : ∀ x, x ∈ a → x ∈ b) : Has o env h b := fun x hx => ⟨hs _ (hh x hx).1, (hh x hx).2⟩

theorem lockOf_few (o : Nat) {k : Kind} (h : k.many = false) (i j : Nat) : lockOf o k i = lockOf o k j := by simp [lockOf, h]

theorem covered_times {us : List Use} {f : List Nat → List Act × List Nat} {o : Nat} {env : Kind → Option Nat} {h : List (Kind × Bool)}
    (H : ∀ cs held, Has o env h held → Covered us held (f cs).1) (H2 : ∀ cs held x, x ∈ held → x ∈ leftover (f cs).1 held) (n : Nat) :
    ∀ cs held, Has o env h held → Covered us held (times f n cs).1 := by
  induction n with
  | zero => intros; trivial
  | succ n ih =>
    intro cs held hh
    simp only [times]
    rw [covered_append]
    exact ⟨H _ _ hh, ih _ _ (has_mono hh (H2 _ _))⟩

theorem covered_walk (o : Nat) (p : Prog) : ∀ (env : Kind → Option Nat) (cs : List Nat) (h : List (Kind × Bool)) (held : List (Lock × Bool)),
    Has o env h held → Covered (p.uses h) held (p.walk o env cs).1 := by
  induction p with
  | skip => intros; trivial
  | seq p q ihp ihq =>
    intro env cs h held hh
    simp only [Prog.walk, Prog.uses]
    rw [covered_append]
    exact ⟨covered_mono (fun u hu => List.mem_append_left _ hu) _ (ihp _ _ _ _ hh),
      covered_mono (fun u hu => List.mem_append_right _ hu) _ (ihq _ _ _ _ (has_mono hh fun x hx => mem_walk o p _ _ hx))⟩
  | alt p q ihp ihq =>
    intro env cs h held hh
    simp only [Prog.walk, Prog.uses]
    split
    · exact covered_mono (fun u hu => List.mem_append_left _ hu) _ (ihp _ _ _ _ hh)
    · exact covered_mono (fun u hu => List.mem_append_right _ hu) _ (ihq _ _ _ _ hh)
  | loop p ih =>
    intro env cs h held hh
    exact covered_times (fun cs held hh => ih env cs h held hh) (fun cs held x hx => mem_walk o p _ _ hx) _ _ _ hh
  | hold k w p ih =>
    intro env cs h held hh
    simp only [Prog.walk, Prog.uses, List.cons_append, Covered]
    rw [covered_append]
    refine ⟨ih _ _ _ _ ?_, trivial⟩
    intro x hx
    rcases List.mem_cons.mp hx with rfl | hx
    · exact ⟨by simp [within], fun _ => by simp [within]⟩
    · simp only [ne_eq, List.mem_filter, decide_eq_true_eq] at hx
      have := hh x hx.1
      simp only [within, if_neg hx.2]
      exact ⟨List.mem_cons_of_mem _ this.1, this.2⟩
  | cross k₁ k₂ p ih =>
    intro env cs h held hh
    simp only [Prog.walk, Prog.uses, List.cons_append, Covered]
    rw [covered_append]
    refine ⟨ih _ _ _ _ ?_, trivial⟩
    intro x hx
    rcases List.mem_append.mp hx with hx | hx
    · rcases List.mem_append.mp hx with hx | hx
      · split at hx
        · cases hx
        · rename_i hm
          simp only [List.mem_singleton] at hx
          subst hx
          exact ⟨by simp [lockOf_few o (Bool.eq_false_iff.mpr hm) _ 0], fun e => absurd e hm⟩
      · split at hx
        · cases hx
        · rename_i hm
          simp only [List.mem_singleton] at hx
          subst hx
          exact ⟨by simp [lockOf_few o (Bool.eq_false_iff.mpr hm) _ 0], fun e => absurd e hm⟩
    · exact ⟨List.mem_cons_of_mem _ (List.mem_cons_of_mem _ (hh x hx).1), (hh x hx).2⟩
  | keep k w => intros; trivial
  | acc f w =>
    intro env cs h held hh
    simp only [Prog.walk, Prog.uses, Covered, and_true, List.mem_singleton]
    refine ⟨_, rfl, rfl, rfl, fun x hx => ?_⟩
    simp only [List.mem_filter, tied, Bool.and_eq_true, Bool.or_eq_true, Bool.not_eq_true', beq_iff_eq] at hx
    obtain ⟨hx, hp, hm⟩ := hx
    obtain ⟨h1, h2⟩ := hh x hx
    have e : lockFor (cellOf o f (f.which env cs).1) x.1 = lockOf o x.1 ((env x.1).getD 0) := by
      cases hmany : x.1.many with
      | false =>
        simp only [lockFor, lockOf, cellOf, hmany]
        cases hf : f.ofProcess with
        | false => simp
        | true =>
          rcases hp with hp | hp
          · rw [hf] at hp; cases hp
          · simp [hp]
      | true =>
        rcases hm with hm | hm
        · rw [hmany] at hm; cases hm
        · have hs := h2 hmany
          obtain ⟨i, hi⟩ := Option.isSome_iff_exists.mp hs
          have hw : (f.which env cs).1 = i := by simp [Field.which, hm, hi]
          rw [hw]
          simp only [lockFor, lockOf, cellOf, hmany, hm, hi]
          cases hf : f.ofProcess with
          | false => simp
          | true =>
            rcases hp with hp | hp
            · rw [hf] at hp; cases hp
            · simp [hp]
    rw [e]; exact h1

theorem covered_path (o : Nat) (p : Prog) (cs : List Nat) : Covered (p.uses []) [] (p.path o cs).1 :=
  covered_walk o p _ cs [] [] (fun x hx => by cases hx)

/-! ## Along a run -/

theorem covered_step {us : List Use} {all : List Thread} {t t' : Thread} (h : Covered us t.held t.todo) (hs : t.step all = some t') :
    Covered us t'.held t'.todo := by
  obtain ⟨todo, held, waiting⟩ := t
  cases todo with
  | nil => simp [Thread.step] at hs
  | cons a r =>
    cases a with
    | give l w => simp only [Thread.step, Option.some.injEq] at hs; subst hs; exact h
    | acc c w => simp only [Thread.step, Option.some.injEq] at hs; subst hs; exact h.2
    | take l w =>
      cases w with
      | false =>
        simp only [Thread.step] at hs
        split at hs
        · cases hs
        · simp only [Option.some.injEq] at hs; subst hs; exact h
      | true =>
        simp only [Thread.step] at hs
        split at hs
        · split at hs
          · cases hs
          · simp only [Option.some.injEq] at hs; subst hs; exact h
        · split at hs
          · cases hs
          · simp only [Option.some.injEq] at hs; subst hs; exact h

theorem covered_run {is : List Nat} : ∀ {s s' : List Thread}, run s is = some s' → ∀ {us : Nat → List Use},
    (∀ i t, s[i]? = some t → Covered (us i) t.held t.todo) → ∀ i t, s'[i]? = some t → Covered (us i) t.held t.todo := by
  induction is with
  | nil => intro s s' hr us h; simp only [run, Option.some.injEq] at hr; subst hr; exact h
  | cons k is ih =>
    intro s s' hr us h
    simp only [run] at hr
    cases hs : step s k with
    | none => rw [hs] at hr; cases hr
    | some s1 =>
      rw [hs] at hr
      refine ih hr ?_
      obtain ⟨x, x', hk, hx, rfl⟩ := step_some hs
      intro i t hi
      rcases getElem?_set' hk hi with ⟨rfl, rfl⟩ | ⟨_, hi⟩
      · exact covered_step (h _ _ hk) hx
      · exact h i t hi

theorem run_length {is : List Nat} : ∀ {s s' : List Thread}, run s is = some s' → s'.length = s.length := by
  induction is with
  | nil => intro s s' hr; simp only [run, Option.some.injEq] at hr; subst hr; rfl
  | cons k is ih =>
    intro s s' hr
    simp only [run] at hr
    cases hs : step s k with
    | none => rw [hs] at hr; cases hr
    | some s1 =>
      rw [hs] at hr
      obtain ⟨x, x', hk, hx, rfl⟩ := step_some hs
      rw [ih hr, List.length_set]

/-- the memory that a call for collection `o` uses belongs to that collection or to the process -/
def Act.mine (o : Nat) : Act → Prop
  | .acc c _ => c.owner = if c.field.ofProcess then 0 else o
  | _ => True

theorem mine_times {o : Nat} {f : List Nat → List Act × List Nat} (hf : ∀ cs, ∀ x ∈ (f cs).1, x.mine o) (n : Nat) :
    ∀ cs, ∀ x ∈ (times f n cs).1, x.mine o := by
  induction n with
  | zero => intro cs x hx; simp [times] at hx
  | succ n ih =>
    intro cs x hx
    simp only [times, List.mem_append] at hx
    exact hx.elim (hf _ x) (ih _ x)

theorem mine_walk (o : Nat) (p : Prog) : ∀ (env : Kind → Option Nat) (cs : List Nat), ∀ x ∈ (p.walk o env cs).1, x.mine o := by
  induction p with
  | skip => intro env cs x hx; simp [Prog.walk] at hx
  | seq p q ihp ihq =>
    intro env cs x hx
    simp only [Prog.walk, List.mem_append] at hx
    exact hx.elim (ihp _ _ x) (ihq _ _ x)
  | alt p q ihp ihq =>
    intro env cs x hx
    simp only [Prog.walk] at hx
    split at hx
    · exact ihp _ _ x hx
    · exact ihq _ _ x hx
  | loop p ih =>
    intro env cs x hx
    simp only [Prog.walk] at hx
    exact mine_times (ih env) _ _ x hx
  | hold k w p ih =>
    intro env cs x hx
    simp only [Prog.walk, List.mem_cons, List.mem_append, List.not_mem_nil, or_false] at hx
    rcases hx with (rfl | hx) | rfl
    · trivial
    · exact ih _ _ x hx
    · trivial
  | cross k₁ k₂ p ih =>
    intro env cs x hx
    simp only [Prog.walk, List.mem_cons, List.mem_append, List.not_mem_nil, or_false] at hx
    rcases hx with (rfl | rfl | hx) | rfl | rfl
    · trivial
    · trivial
    · exact ih _ _ x hx
    · trivial
    · trivial
  | keep k w =>
    intro env cs x hx
    simp only [Prog.walk, List.mem_singleton] at hx
    subst hx; trivial
  | acc f w =>
    intro env cs x hx
    simp only [Prog.walk, List.mem_singleton] at hx
    subst hx
    rfl

/-- a step takes nothing new on -/
theorem mine_run {is : List Nat} : ∀ {s s' : List Thread}, run s is = some s' → ∀ {o : Nat → Nat},
    (∀ (k : Nat) (t : Thread), s[k]? = some t → ∀ x ∈ t.todo, x.mine (o k)) →
    ∀ (k : Nat) (t : Thread), s'[k]? = some t → ∀ x ∈ t.todo, x.mine (o k) := by
  induction is with
  | nil =>
    intro s s' h o hs
    simp only [run, Option.some.injEq] at h
    subst h
    exact hs
  | cons i is ih =>
    intro s s' h o hs
    simp only [run] at h
    split at h
    · simp at h
    · rename_i s1 h1
      refine ih h (fun k t hk => ?_)
      obtain ⟨y, y', hy, hy', rfl⟩ := step_some h1
      rw [List.getElem?_set] at hk
      split at hk
      · rename_i hik
        subst hik
        split at hk
        · simp only [Option.some.injEq] at hk
          subst hk
          intro x hx
          refine hs _ y hy x ?_
          unfold Thread.step at hy'
          split at hy'
          · simp at hy'
          all_goals rename_i he
          · simp only [Option.some.injEq] at hy'; subst hy'; rw [he]; exact List.mem_cons_of_mem _ hx
          · simp only [Option.some.injEq] at hy'; subst hy'; rw [he]; exact List.mem_cons_of_mem _ hx
          · split at hy'
            · simp at hy'
            · simp only [Option.some.injEq] at hy'; subst hy'; rw [he]; exact List.mem_cons_of_mem _ hx
          · split at hy'
            · split at hy'
              · simp at hy'
              · simp only [Option.some.injEq] at hy'; subst hy'; rw [he]; exact List.mem_cons_of_mem _ hx
            · split at hy'
              · simp at hy'
              · simp only [Option.some.injEq] at hy'; subst hy'; exact hx
        · simp at hk
      · exact hs k t hk

/-- what the `i`-th call is about to use belongs to its collection or to the process -/
theorem uses_mine {calls : List (Op × Nat × List Nat)} {is : List Nat} {s : List Thread} (hr : run (begin calls) is = some s) {i : Nat}
    {c : Cell} {w : Bool} (h : uses s i c w) {a : Op × Nat × List Nat} (ha : calls[i]? = some a) :
    c.owner = if c.field.ofProcess then 0 else a.2.1 := by
  obtain ⟨t, ht, hh⟩ := h
  have := mine_run hr (o := fun k => ((calls[k]?).map (·.2.1)).getD 0) (fun k t hk => by
    simp only [begin, List.getElem?_map] at hk
    cases hc : calls[k]? with
    | none => simp [hc] at hk
    | some b =>
      simp only [hc, Option.map_some, Option.some.injEq] at hk
      subst hk
      exact mine_walk _ _ _ _) i t ht (.acc c w) (List.mem_of_mem_head? hh)
  simpa [Act.mine, ha] using this

/-- the locks around the two accesses do not exclude each other -/
def clash (u v : Use) : Bool :=
  u.field == v.field && (u.write || v.write) && !(u.held.any fun x => v.held.any fun y => x.1 == y.1 && (x.2 || y.2))

/-- a race is between two accesses of the two calls whose locks do not exclude each other -/
theorem race_clash {calls : List (Op × Nat × List Nat)} {is : List Nat} {s : List Thread} (hr : run (begin calls) is = some s) {i j : Nat}
    {c : Cell} (h : Race s i j c) : ∃ a b, calls[i]? = some a ∧ calls[j]? = some b ∧ ∃ u ∈ a.1.prog.uses [], ∃ v ∈ b.1.prog.uses [],
      u.field = c.field ∧ clash u v = true := by
  obtain ⟨hne, w, w', ⟨t, hi, ht⟩, ⟨t', hj, ht'⟩, hw⟩ := h
  have hlen := run_length hr
  have hli : i < calls.length := by
    have := (List.getElem?_eq_some_iff.mp hi).1
    simpa [hlen, begin] using this
  have hlj : j < calls.length := by
    have := (List.getElem?_eq_some_iff.mp hj).1
    simpa [hlen, begin] using this
  have cov : ∀ k (hk : k < calls.length), ∀ x, s[k]? = some x → Covered (calls[k].1.prog.uses []) x.held x.todo := by
    intro k hk x hx
    have := covered_run hr (us := fun k => match calls[k]? with | some a => a.1.prog.uses [] | none => []) (fun k y hy => by
      simp only [begin, List.getElem?_map] at hy
      cases hc : calls[k]? with
      | none => simp [hc] at hy
      | some a =>
        simp only [hc, Option.map_some, Option.some.injEq] at hy
        subst hy
        exact covered_path _ _ _) k x hx
    simpa [List.getElem?_eq_getElem hk] using this
  have hci := cov i hli t hi
  have hcj := cov j hlj t' hj
  obtain ⟨todo, held, wt⟩ := t
  obtain ⟨todo', held', wt'⟩ := t'
  cases todo with
  | nil => simp at ht
  | cons a r =>
    cases todo' with
    | nil => simp at ht'
    | cons a' r' =>
      simp only [List.head?_cons, Option.some.injEq] at ht ht'
      subst ht; subst ht'
      obtain ⟨⟨u, hu, hu1, hu2, hu3⟩, -⟩ := hci
      obtain ⟨⟨v, hv, hv1, hv2, hv3⟩, -⟩ := hcj
      refine ⟨_, _, List.getElem?_eq_getElem hli, List.getElem?_eq_getElem hlj, u, hu, v, hv, hu1, ?_⟩
      simp only [clash, hu1, hv1, hu2, hv2, beq_self_eq_true, Bool.true_and, hw]
      rw [Bool.not_eq_true', Bool.eq_false_iff]
      intro hany
      obtain ⟨x, hx, hxy⟩ := List.any_eq_true.mp hany
      obtain ⟨y, hy, hxy⟩ := List.any_eq_true.mp hxy
      simp only [Bool.and_eq_true, beq_iff_eq] at hxy
      have h1 := hu3 x hx
      have h2 := hv3 y hy
      rw [← hxy.1] at h2
      have hex := (excl_run (excl_begin calls).1 (excl_begin calls).2 hr).1
      cases hx2 : x.2 with
      | true => rw [hx2] at h1; exact hne (hex i j _ _ _ _ hi hj h1 h2)
      | false =>
        have hy2 : y.2 = true := by simpa [hx2] using hxy.2
        rw [hy2] at h2
        exact hne (hex j i _ _ _ _ hj hi h2 h1).symm

end Fave.Locks

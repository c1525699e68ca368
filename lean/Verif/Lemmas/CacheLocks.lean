import Verif.Spec.CacheLocks
/-!
# Lemmas about the locks of a vector cache
-/
namespace Fave.CacheLocks

/-- takes all locks -/
def Agent.all? : Agent → Option (List Stage)
  | .grow (.all l) | .drop (.all l) | .watcher (.all l) => some l
  | _ => none

theorem stage_all {a : Agent} {l : List Stage} (h : a.all? = some l) (k : Nat) : a.stage k = l[k]?.getD .idle := by
  cases a with
  | small k' w st => cases h
  | grow st => cases st <;> simp_all [Agent.all?, Agent.stage]
  | drop st => cases st <;> simp_all [Agent.all?, Agent.stage]
  | watcher st => cases st <;> simp_all [Agent.all?, Agent.stage]

theorem reads_all {a : Agent} {l : List Stage} (h : a.all? = some l) (k : Nat) : a.reads k = false := by
  cases a <;> first | rfl | cases h

/-- only somebody small or somebody who takes all has to do with a lock -/
theorem writes_cases {a : Agent} {k : Nat} (h : a.writes k = true) :
    (∃ st, a = .small k true st ∧ (st = .waits ∨ st = .held)) ∨ ∃ l, a.all? = some l ∧ (l[k]? = some .waits ∨ l[k]? = some .held) := by
  have wide : ∀ l : List Stage, ((l[k]?.getD .idle == .waits) || (l[k]?.getD .idle == .held)) = true →
      l[k]? = some .waits ∨ l[k]? = some .held := by
    intro l h
    cases hk : l[k]? with
    | none => rw [hk] at h; exact absurd h (by decide)
    | some st => rw [hk] at h; cases st <;> simp_all
  cases a with
  | small k' w st =>
    left
    cases w with
    | false => exact absurd h (by simp [Agent.writes, Agent.stage])
    | true =>
      simp only [Agent.writes, Agent.stage] at h
      by_cases e : k' = k
      · subst e; cases st <;> simp_all
      · simp [e] at h
  | grow st =>
    cases st with
    | all l => exact .inr ⟨l, rfl, wide l h⟩
    | _ => exact absurd h (by simp [Agent.writes, Agent.stage])
  | drop st =>
    cases st with
    | all l => exact .inr ⟨l, rfl, wide l h⟩
    | _ => exact absurd h (by simp [Agent.writes, Agent.stage])
  | watcher st =>
    cases st with
    | all l => exact .inr ⟨l, rfl, wide l h⟩
    | _ => exact absurd h (by simp [Agent.writes, Agent.stage])

theorem held_cases {a : Agent} {k : Nat} (h : (a.stage k == .held) = true) :
    a = .small k true .held ∨ ∃ l, a.all? = some l ∧ l[k]? = some .held := by
  have hw : a.writes k = true := by simp [Agent.writes, h]
  simp only [beq_iff_eq] at h
  rcases writes_cases hw with ⟨st, rfl, h1⟩ | ⟨l, h1, h2⟩
  · left
    simp only [Agent.stage, if_true] at h
    rw [h]
  · right
    rw [stage_all h1] at h
    refine ⟨l, h1, ?_⟩
    rcases h2 with h2 | h2 <;> simp_all

theorem reads_cases {a : Agent} {k : Nat} (h : a.reads k = true) : a = .small k false .held := by
  cases a with
  | small k' w st => cases w <;> cases st <;> simp_all [Agent.reads]
  | _ => cases h

theorem maintains_all {a : Agent} (h : a.maintains = true) : ∃ l, a.all? = some l := by
  cases a with
  | small => cases h
  | grow st => cases st <;> simp_all [Agent.maintains, Agent.all?]
  | drop st => cases h
  | watcher st => cases st <;> simp_all [Agent.maintains, Agent.all?]

/-! ## Somebody can go on -/

/-- an inner step is possible -/
def Moves (n : Nat) (s : List Agent) : Prop := ∃ e s', e.inner = true ∧ step n s e = some s'

theorem moves_go {n : Nat} {s : List Agent} {a a' : Agent} (hm : a ∈ s) (h : a.go n s = some a') : Moves n s := by
  obtain ⟨i, hi⟩ := List.mem_iff_getElem?.mp hm
  exact ⟨.go i, s.set i a', rfl, by simp [step, hi, h]⟩

theorem moves_lock {n : Nat} {s : List Agent} {a : Agent} {l : List Stage} {k : Nat} {st st' : Stage} (hm : a ∈ s) (ha : a.all? = some l)
    (hk : l[k]? = some st) (h : advance s k st = some st') : Moves n s := by
  obtain ⟨i, hi⟩ := List.mem_iff_getElem?.mp hm
  refine ⟨.lock i k, ?_⟩
  cases a with
  | small => cases ha
  | grow w =>
    cases w <;> simp only [Agent.all?, Option.some.injEq, reduceCtorEq] at ha
    subst ha
    exact ⟨_, rfl, by simp only [step, hi, Option.bind_some, Agent.lock, hk, h, Option.map_some]; rfl⟩
  | drop w =>
    cases w <;> simp only [Agent.all?, Option.some.injEq, reduceCtorEq] at ha
    subst ha
    exact ⟨_, rfl, by simp only [step, hi, Option.bind_some, Agent.lock, hk, h, Option.map_some]; rfl⟩
  | watcher w =>
    cases w <;> simp only [Agent.all?, Option.some.injEq, reduceCtorEq] at ha
    subst ha
    exact ⟨_, rfl, by simp only [step, hi, Option.bind_some, Agent.lock, hk, h, Option.map_some]; rfl⟩

/-- at most one agent takes all locks, and none of its locks is given back before the others -/
structure OneWide (s : List Agent) : Prop where
  one : ∀ a ∈ s, ∀ b ∈ s, ∀ l l', a.all? = some l → b.all? = some l' → l = l'
  valid : ∀ a ∈ s, ∀ l, a.all? = some l → Stage.over ∉ l

theorem held_moves {n : Nat} {s : List Agent} {k : Nat} {w : Bool} (h : Agent.small k w .held ∈ s) : Moves n s :=
  moves_go h (a' := .small k w .over) rfl

/-- a writer that has announced itself goes on, or somebody does, unless one who takes all holds its lock -/
theorem waits_moves {n : Nat} {s : List Agent} {k : Nat} (h : Agent.small k true .waits ∈ s)
    (hno : ∀ a ∈ s, ∀ l, a.all? = some l → l[k]? ≠ some .held) : Moves n s := by
  cases hg : (Agent.small k true .waits).go n s with
  | some a' => exact moves_go h hg
  | none =>
    simp only [Agent.go, advance, Option.map_eq_none_iff, ite_eq_left_iff, reduceCtorEq, imp_false, Classical.not_not,
      Bool.or_eq_true, List.any_eq_true] at hg
    rcases hg with ⟨x, hx, hr⟩ | ⟨x, hx, hr⟩
    · exact held_moves (reads_cases hr ▸ hx)
    · rcases held_cases hr with e | ⟨l, h1, h2⟩
      · exact held_moves (e ▸ hx)
      · exact absurd h2 (hno x hx l h1)

theorem wide_moves {n : Nat} {s : List Agent} (ho : OneWide s) {a : Agent} (ha : a ∈ s) {l : List Stage} (hl : a.all? = some l) :
    Moves n s := by
  by_cases hall : l.all (· == .held) = true
  · have : ∃ a', a.go n s = some a' := by
      cases a with
      | small => cases hl
      | grow w =>
        cases w <;> simp only [Agent.all?, Option.some.injEq, reduceCtorEq] at hl
        subst hl
        exact ⟨_, if_pos hall⟩
      | drop w =>
        cases w <;> simp only [Agent.all?, Option.some.injEq, reduceCtorEq] at hl
        subst hl
        exact ⟨_, if_pos hall⟩
      | watcher w =>
        cases w <;> simp only [Agent.all?, Option.some.injEq, reduceCtorEq] at hl
        subst hl
        exact ⟨_, if_pos hall⟩
    obtain ⟨a', h⟩ := this
    exact moves_go ha h
  · simp only [List.all_eq_true, beq_iff_eq, Classical.not_forall] at hall
    obtain ⟨st, hst, hne⟩ := hall
    obtain ⟨k, hk⟩ := List.mem_iff_getElem?.mp hst
    cases hadv : advance s k st with
    | some st' => exact moves_lock ha hl hk hadv
    | none =>
      cases st with
      | held => exact absurd rfl hne
      | over => exact absurd hst (ho.valid a ha l hl)
      | idle =>
        simp only [advance, ite_eq_left_iff, reduceCtorEq, imp_false, Classical.not_not, List.any_eq_true] at hadv
        obtain ⟨x, hx, hw⟩ := hadv
        rcases writes_cases hw with ⟨st, rfl, rfl | rfl⟩ | ⟨l', h1, h2⟩
        · refine waits_moves hx fun b hb l' hl' h => ?_
          rw [ho.one b hb a ha l' l hl' hl, hk] at h
          cases h
        · exact held_moves hx
        · rw [ho.one x hx a ha l' l h1 hl, hk] at h2
          rcases h2 with h2 | h2 <;> cases h2
      | waits =>
        simp only [advance, ite_eq_left_iff, reduceCtorEq, imp_false, Classical.not_not, Bool.or_eq_true, List.any_eq_true] at hadv
        rcases hadv with ⟨x, hx, hr⟩ | ⟨x, hx, hr⟩
        · exact held_moves (reads_cases hr ▸ hx)
        · rcases held_cases hr with e | ⟨l', h1, h2⟩
          · exact held_moves (e ▸ hx)
          · rw [ho.one x hx a ha l' l h1 hl, hk] at h2
            cases h2

theorem small_moves {n : Nat} {s : List Agent} (ho : OneWide s) {k : Nat} {w : Bool} {st : Stage} (h : Agent.small k w st ∈ s)
    (hne : st ≠ .over) : Moves n s := by
  have writer : ∀ x ∈ s, x.writes k = true → Moves n s := by
    intro x hx hw
    rcases writes_cases hw with ⟨st, rfl, rfl | rfl⟩ | ⟨l', h1, _⟩
    · by_cases hh : ∃ a ∈ s, ∃ l, a.all? = some l
      · obtain ⟨a, ha, l, hl⟩ := hh
        exact wide_moves ho ha hl
      · exact waits_moves hx fun a ha l hl => absurd ⟨a, ha, l, hl⟩ hh
    · exact held_moves hx
    · exact wide_moves ho hx h1
  have holder : ∀ x ∈ s, (x.stage k == .held) = true → Moves n s := fun x hx hw =>
    writer x hx (by simp [Agent.writes, hw])
  cases hg : (Agent.small k w st).go n s with
  | some a' => exact moves_go h hg
  | none =>
    cases st with
    | over => exact absurd rfl hne
    | held => cases hg
    | idle =>
      cases w with
      | true =>
        simp only [Agent.go, advance, if_true, Option.map_eq_none_iff, ite_eq_left_iff, reduceCtorEq, imp_false, Classical.not_not,
          List.any_eq_true] at hg
        obtain ⟨x, hx, hw⟩ := hg
        exact writer x hx hw
      | false =>
        simp only [Agent.go, Bool.false_eq_true, if_false, ite_eq_left_iff, reduceCtorEq, imp_false, Classical.not_not,
          List.any_eq_true] at hg
        obtain ⟨x, hx, hw⟩ := hg
        exact writer x hx hw
    | waits =>
      simp only [Agent.go, advance, Option.map_eq_none_iff, ite_eq_left_iff, reduceCtorEq, imp_false, Classical.not_not,
        Bool.or_eq_true, List.any_eq_true] at hg
      rcases hg with ⟨x, hx, hr⟩ | ⟨x, hx, hr⟩
      · exact held_moves (reads_cases hr ▸ hx)
      · exact holder x hx hr

/-- who asks for the maintenance lock goes on, or somebody does -/
theorem want_moves {n : Nat} {s : List Agent} (ho : OneWide s) {a a' : Agent} (ha : a ∈ s)
    (h : a.go n s = if s.any Agent.maintains then none else some a') : Moves n s := by
  by_cases hm : s.any Agent.maintains = true
  · obtain ⟨x, hx, hxm⟩ := List.any_eq_true.mp hm
    obtain ⟨l, hl⟩ := maintains_all hxm
    exact wide_moves ho hx hl
  · exact moves_go ha (a' := a') (h.trans (by simp [hm]))

/-- with at most one who takes all locks, somebody can go on unless a `drop` waits for the watcher or all is quiet -/
theorem some_moves {n : Nat} {s : List Agent} (ho : OneWide s) {a : Agent} (ha : a ∈ s) (hi : a.idle = false) (hs : a ≠ .drop .send)
    (hw : a ≠ .grow .want ∧ a ≠ .grow .send ∧ a ≠ .drop .want ∧ a ≠ .watcher .send) : Moves n s := by
  cases a with
  | small k w st =>
    cases st with
    | over => cases hi
    | _ => exact small_moves ho ha (by simp)
  | grow st =>
    cases st with
    | rest => exact want_moves ho ha (a' := .grow (.begin n)) rfl
    | want => exact absurd rfl hw.1
    | all l => exact wide_moves ho ha rfl
    | send => exact absurd rfl hw.2.1
    | over => cases hi
  | drop st =>
    cases st with
    | rest => exact moves_go ha (a' := .drop (.begin n)) rfl
    | want => exact absurd rfl hw.2.2.1
    | all l => exact wide_moves ho ha rfl
    | send => exact absurd rfl hs
    | over => cases hi
  | watcher st =>
    cases st with
    | rest => cases hi
    | want => exact want_moves ho ha (a' := .watcher (.begin n)) rfl
    | all l => exact wide_moves ho ha rfl
    | send => exact absurd rfl hw.2.2.2
    | over => cases hi

end Fave.CacheLocks

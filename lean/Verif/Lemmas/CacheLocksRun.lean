import Verif.Lemmas.CacheLocks
/-!
# Runs of a vector cache's locks
-/
namespace Fave.CacheLocks

/-- the three who take all locks -/
inductive Who where
  | grow | drop | watcher
  deriving DecidableEq

def Who.agent : Who → Wide → Agent
  | .grow, st => .grow st
  | .drop, st => .drop st
  | .watcher, st => .watcher st

/-- one agent's step -/
inductive Move (n : Nat) (s : List Agent) : Agent → Agent → Prop where
  | ask (k : Nat) : ¬ s.any (·.writes k) = true → Move n s (.small k true .idle) (.small k true .waits)
  | read (k : Nat) : ¬ s.any (·.writes k) = true → Move n s (.small k false .idle) (.small k false .held)
  | take (k : Nat) (w : Bool) : ¬ s.any (·.reads k) = true → ¬ s.any (·.stage k == .held) = true →
      Move n s (.small k w .waits) (.small k w .held)
  | give (k : Nat) (w : Bool) : Move n s (.small k w .held) (.small k w .over)
  | grow : ¬ s.any Agent.maintains = true → Move n s (.grow .rest) (.grow (.begin n))
  | watch : ¬ s.any Agent.maintains = true → Move n s (.watcher .want) (.watcher (.begin n))
  | drop : Move n s (.drop .rest) (.drop (.begin n))
  | grown (l : List Stage) : l.all (· == .held) = true → Move n s (.grow (.all l)) (.grow .over)
  | watched (l : List Stage) : l.all (· == .held) = true → Move n s (.watcher (.all l)) (.watcher .rest)
  | dropped (l : List Stage) : l.all (· == .held) = true → Move n s (.drop (.all l)) (.drop .send)
  | lock (x : Who) (l : List Stage) (k : Nat) (st st' : Stage) : l[k]? = some st → advance s k st = some st' →
      Move n s (x.agent (.all l)) (x.agent (.all (l.set k st')))
  | tick : Move n s (.watcher .rest) (.watcher .want)

theorem move_go {n : Nat} {s : List Agent} {a a' : Agent} (h : a.go n s = some a') : Move n s a a' := by
  cases a with
  | small k w st =>
    cases st with
    | idle =>
      cases w with
      | true =>
        simp only [Agent.go, advance, if_true] at h
        split at h
        · cases h
        · rename_i hw; cases h; exact .ask k hw
      | false =>
        simp only [Agent.go, Bool.false_eq_true, if_false] at h
        split at h
        · cases h
        · rename_i hw; cases h; exact .read k hw
    | waits =>
      simp only [Agent.go, advance] at h
      split at h
      · cases h
      · rename_i hw
        cases h
        simp only [Bool.or_eq_true, not_or] at hw
        exact .take k w hw.1 hw.2
    | held => cases h; exact .give k w
    | over => cases h
  | grow st =>
    cases st with
    | rest =>
      simp only [Agent.go] at h
      split at h
      · cases h
      · rename_i hw; cases h; exact .grow hw
    | all l =>
      simp only [Agent.go] at h
      split at h
      · rename_i hw; cases h; exact .grown l hw
      · cases h
    | _ => cases h
  | drop st =>
    cases st with
    | rest => cases h; exact .drop
    | all l =>
      simp only [Agent.go] at h
      split at h
      · rename_i hw; cases h; exact .dropped l hw
      · cases h
    | _ => cases h
  | watcher st =>
    cases st with
    | want =>
      simp only [Agent.go] at h
      split at h
      · cases h
      · rename_i hw; cases h; exact .watch hw
    | all l =>
      simp only [Agent.go] at h
      split at h
      · rename_i hw; cases h; exact .watched l hw
      · cases h
    | _ => cases h

theorem move_lock {n : Nat} {s : List Agent} {k : Nat} {a a' : Agent} (h : a.lock s k = some a') : Move n s a a' := by
  have aux : ∀ (x : Who) (l : List Stage), ((l[k]?).bind fun st => (advance s k st).map fun st' => x.agent (.all (l.set k st'))) = some a' →
      Move n s (x.agent (.all l)) a' := by
    intro x l h
    cases hk : l[k]? with
    | none => rw [hk] at h; cases h
    | some st =>
      rw [hk, Option.bind_some] at h
      cases ha : advance s k st with
      | none => rw [ha] at h; cases h
      | some st' =>
        rw [ha] at h
        simp only [Option.map_some, Option.some.injEq] at h
        subst h
        exact .lock x l k st st' hk ha
  cases a with
  | small => cases h
  | grow st => cases st <;> first | cases h; done | exact aux .grow _ h
  | drop st => cases st <;> first | cases h; done | exact aux .drop _ h
  | watcher st => cases st <;> first | cases h; done | exact aux .watcher _ h

/-- every step is one agent's step, an idle tick, or the end of a `drop` -/
theorem step_cases {n : Nat} {s s' : List Agent} {e : Ev} (h : step n s e = some s') :
    (∃ (i : Nat) (a a' : Agent), s[i]? = some a ∧ Move n s a a' ∧ s' = s.set i a' ∧ (a = .watcher .rest → e.full = true)) ∨
    (s' = s ∧ e.inner = false ∧ e.full = false) ∨
    ∃ i j : Nat, e = .cancel i j ∧ s[i]? = some (.drop .send) ∧ s[j]? = some (.watcher .rest) ∧
      s' = (s.set i (.drop .over)).set j (.watcher .over) := by
  cases e with
  | go i =>
    left
    simp only [step] at h
    cases hi : s[i]? with
    | none => rw [hi] at h; cases h
    | some a =>
      rw [hi, Option.bind_some] at h
      cases ha : a.go n s with
      | none => rw [ha] at h; cases h
      | some a' =>
        rw [ha] at h
        simp only [Option.map_some, Option.some.injEq] at h
        exact ⟨i, a, a', hi, move_go ha, h.symm, fun e => by subst e; cases ha⟩
  | lock i k =>
    left
    simp only [step] at h
    cases hi : s[i]? with
    | none => rw [hi] at h; cases h
    | some a =>
      rw [hi, Option.bind_some] at h
      cases ha : a.lock s k with
      | none => rw [ha] at h; cases h
      | some a' =>
        rw [ha] at h
        simp only [Option.map_some, Option.some.injEq] at h
        exact ⟨i, a, a', hi, move_lock ha, h.symm, fun e => by subst e; cases ha⟩
  | tick i full =>
    simp only [step] at h
    split at h
    · rename_i hi
      cases full with
      | true =>
        simp only [if_true, Option.some.injEq] at h
        exact .inl ⟨i, _, _, hi, .tick, h.symm, fun _ => rfl⟩
      | false =>
        simp only [Bool.false_eq_true, if_false, Option.some.injEq] at h
        exact .inr (.inl ⟨h.symm, rfl, rfl⟩)
    · cases h
  | cancel i j =>
    right; right
    simp only [step] at h
    split at h
    · rename_i hi hj
      simp only [Option.some.injEq] at h
      exact ⟨i, j, rfl, hi, hj, h.symm⟩
    · cases h

/-! ## The invariant -/

/-- states an agent can be in -/
def Agent.legal : Agent → Bool
  | .grow .want | .grow .send | .drop .want | .watcher .send => false
  | .grow (.all l) | .drop (.all l) | .watcher (.all l) => l.all (· != .over)
  | .small _ false .waits => false
  | _ => true

/-- which kind of agent -/
def Agent.sort : Agent → Nat
  | .small _ _ _ => 0
  | .grow _ => 1
  | .drop _ => 2
  | .watcher _ => 3

theorem move_sort {n : Nat} {s : List Agent} {a a' : Agent} (h : Move n s a a') : a'.sort = a.sort := by
  cases h with
  | lock x l k st st' h1 h2 => cases x <;> rfl
  | _ => rfl

theorem advance_not_over {s : List Agent} {k : Nat} {st st' : Stage} (h : advance s k st = some st') : st' ≠ .over := by
  cases st <;> simp only [advance] at h
  · split at h
    · cases h
    · cases h; decide
  · split at h
    · cases h
    · cases h; decide
  · cases h
  · cases h

theorem move_legal {n : Nat} {s : List Agent} {a a' : Agent} (hl : a.legal = true) (h : Move n s a a') : a'.legal = true := by
  have hb : (List.replicate n Stage.idle).all (· != .over) = true := by
    simp only [List.all_eq_true]; intro x hx; rw [(List.mem_replicate.mp hx).2]; rfl
  cases h with
  | take k w => cases w <;> first | rfl | cases hl
  | grow => exact hb
  | watch => exact hb
  | drop => exact hb
  | lock x l k st st' h1 h2 =>
    have : (l.set k st').all (· != .over) = true := by
      have hl' : l.all (· != .over) = true := by cases x <;> exact hl
      simp only [List.all_eq_true] at hl' ⊢
      intro y hy
      rcases List.mem_or_eq_of_mem_set hy with hy | rfl
      · exact hl' y hy
      · simpa using advance_not_over h2
    cases x <;> exact this
  | give k w => cases w <;> rfl
  | _ => rfl

/-- two agents never both hold a lock where one writes, and never both maintain; `drop` ends together with the watcher, which comes first -/
structure Inv (s : List Agent) : Prop where
  legal : ∀ (i : Nat) (a : Agent), s[i]? = some a → a.legal = true
  first : ∀ (i : Nat) (a : Agent), s[i]? = some a → (a.sort = 3 ↔ i = 0)
  maint : ∀ (i j : Nat) (a b : Agent), s[i]? = some a → s[j]? = some b → a.maintains = true → b.maintains = true → i = j
  write : ∀ (i j : Nat) (a b : Agent) (k : Nat), s[i]? = some a → s[j]? = some b → a.writes k = true → b.writes k = true → i = j
  readers : ∀ (i j : Nat) (a b : Agent) (k : Nat), s[i]? = some a → s[j]? = some b → a.has k = true → b.reads k = true → False
  drops : ∀ i : Nat, s[i]? = some (.drop .over) → s[0]? = some (.watcher .over)
  once : ∀ i j : Nat, s[i]? = some (.drop .over) → s[j]? = some (.drop .over) → i = j
  gone : s[0]? = some (.watcher .over) → ∃ i : Nat, s[i]? = some (.drop .over)

theorem get_set {s : List Agent} {i j : Nat} {t u v : Agent} (hi : s[i]? = some v) (h : (s.set i t)[j]? = some u) :
    (j = i ∧ u = t) ∨ (j ≠ i ∧ s[j]? = some u) := by
  by_cases e : j = i
  · subst e
    have hlt : j < s.length := (List.getElem?_eq_some_iff.mp hi).1
    simp only [List.getElem?_set, if_true, hlt] at h
    exact .inl ⟨rfl, by simpa using h.symm⟩
  · rw [List.getElem?_set_ne (fun h => e h.symm)] at h
    exact .inr ⟨e, h⟩

theorem any_false {s : List Agent} {f : Agent → Bool} (h : ¬ s.any f = true) {j : Nat} {u : Agent} (hj : s[j]? = some u) : f u = false := by
  simp only [List.any_eq_true, not_exists, not_and, Bool.not_eq_true] at h
  exact h u (List.mem_of_getElem? hj)

theorem stage_who (x : Who) (l : List Stage) (k : Nat) : (x.agent (.all l)).stage k = l[k]?.getD .idle := by cases x <;> rfl

theorem advance_some {s : List Agent} {k : Nat} {st st' : Stage} (h : advance s k st = some st') :
    (st = .idle ∧ st' = .waits ∧ ¬ s.any (·.writes k) = true) ∨
    (st = .waits ∧ st' = .held ∧ ¬ s.any (·.reads k) = true ∧ ¬ s.any (·.stage k == .held) = true) := by
  cases st <;> simp only [advance] at h
  · split at h
    · cases h
    · cases h; exact .inl ⟨rfl, rfl, ‹_›⟩
  · split at h
    · cases h
    · rename_i hw
      simp only [Bool.or_eq_true, not_or] at hw
      cases h; exact .inr ⟨rfl, rfl, hw⟩
  · cases h
  · cases h

/-- what a step adds as a writer -/
theorem move_writes {n : Nat} {s : List Agent} {a a' : Agent} (h : Move n s a a') (k : Nat) (hw : a'.writes k = true) :
    a.writes k = true ∨ ¬ s.any (·.writes k) = true := by
  have hb : ∀ x : Who, (x.agent (.begin n)).writes k = false := by
    intro x
    simp only [Agent.writes, Wide.begin, stage_who]
    cases hr : (List.replicate n Stage.idle)[k]? with
    | none => rfl
    | some st => rw [(List.mem_replicate.mp (List.mem_of_getElem? hr)).2]; rfl
  cases h with
  | ask k' hk =>
    by_cases e : k' = k
    · subst e; exact .inr hk
    · simp [Agent.writes, Agent.stage, e] at hw
  | read k' hk => simp [Agent.writes, Agent.stage] at hw
  | take k' w h1 h2 =>
    cases w with
    | false => simp [Agent.writes, Agent.stage] at hw
    | true =>
      by_cases e : k' = k
      · subst e; exact .inl (by simp [Agent.writes, Agent.stage])
      · simp [Agent.writes, Agent.stage, e] at hw
  | give k' w =>
    cases w with
    | false => simp [Agent.writes, Agent.stage] at hw
    | true => by_cases e : k' = k <;> simp [Agent.writes, Agent.stage, e] at hw
  | grow => exact absurd hw (by rw [show Agent.grow (.begin n) = Who.grow.agent (.begin n) from rfl, hb]; decide)
  | watch => exact absurd hw (by rw [show Agent.watcher (.begin n) = Who.watcher.agent (.begin n) from rfl, hb]; decide)
  | drop => exact absurd hw (by rw [show Agent.drop (.begin n) = Who.drop.agent (.begin n) from rfl, hb]; decide)
  | grown l hl => cases hw
  | watched l hl => cases hw
  | dropped l hl => cases hw
  | tick => cases hw
  | lock x l k' st st' h1 h2 =>
    simp only [Agent.writes, stage_who] at hw ⊢
    by_cases e : k' = k
    · subst e
      rcases advance_some h2 with ⟨_, _, h⟩ | ⟨rfl, _, _⟩
      · exact .inr h
      · exact .inl (by simp [h1])
    · rw [List.getElem?_set_ne e] at hw
      exact .inl hw

/-- what a step adds as a holder -/
theorem move_has {n : Nat} {s : List Agent} {a a' : Agent} (h : Move n s a a') (k : Nat) (hw : a'.has k = true) :
    a.has k = true ∨ (¬ s.any (·.reads k) = true ∧ a.reads k = false) := by
  have hnot : ∀ b : Agent, b.writes k = false → b.has k = false := by
    intro b hb
    simp only [Agent.writes, Bool.or_eq_false_iff] at hb
    exact hb.2
  have hb : ∀ x : Who, (x.agent (.begin n)).has k = false := by
    intro x
    simp only [Agent.has, Wide.begin, stage_who]
    cases hr : (List.replicate n Stage.idle)[k]? with
    | none => rfl
    | some st => rw [(List.mem_replicate.mp (List.mem_of_getElem? hr)).2]; rfl
  cases h with
  | ask k' hk => by_cases e : k' = k <;> simp [Agent.has, Agent.stage, e] at hw
  | read k' hk => simp [Agent.has, Agent.stage] at hw
  | take k' w h1 h2 =>
    cases w with
    | false => simp [Agent.has, Agent.stage] at hw
    | true =>
      by_cases e : k' = k
      · subst e; exact .inr ⟨h1, rfl⟩
      · simp [Agent.has, Agent.stage, e] at hw
  | give k' w =>
    cases w with
    | false => simp [Agent.has, Agent.stage] at hw
    | true => by_cases e : k' = k <;> simp [Agent.has, Agent.stage, e] at hw
  | grow => exact absurd hw (by rw [show Agent.grow (.begin n) = Who.grow.agent (.begin n) from rfl, hb]; decide)
  | watch => exact absurd hw (by rw [show Agent.watcher (.begin n) = Who.watcher.agent (.begin n) from rfl, hb]; decide)
  | drop => exact absurd hw (by rw [show Agent.drop (.begin n) = Who.drop.agent (.begin n) from rfl, hb]; decide)
  | grown l hl => cases hw
  | watched l hl => cases hw
  | dropped l hl => cases hw
  | tick => cases hw
  | lock x l k' st st' h1 h2 =>
    simp only [Agent.has, stage_who] at hw ⊢
    by_cases e : k' = k
    · subst e
      rcases advance_some h2 with ⟨_, rfl, _⟩ | ⟨_, _, h, _⟩
      · have hlt := (List.getElem?_eq_some_iff.mp h1).1
        simp [hlt] at hw
      · exact .inr ⟨h, by cases x <;> rfl⟩
    · rw [List.getElem?_set_ne e] at hw
      exact .inl hw

theorem move_reads {n : Nat} {s : List Agent} {a a' : Agent} (h : Move n s a a') (k : Nat) (hw : a'.reads k = true) :
    a.reads k = true ∨ (¬ s.any (·.writes k) = true ∧ a'.has k = false) ∨ a = .small k false .waits := by
  cases h with
  | read k' hk =>
    simp only [Agent.reads, beq_iff_eq] at hw
    subst hw
    exact .inr (.inl ⟨hk, rfl⟩)
  | take k' w h1 h2 =>
    cases w with
    | true => cases hw
    | false =>
      simp only [Agent.reads, beq_iff_eq] at hw
      subst hw; exact .inr (.inr rfl)
  | ask => cases hw
  | give k' w => cases w <;> cases hw
  | lock x => cases x <;> cases hw
  | _ => cases hw

theorem move_maintains {n : Nat} {s : List Agent} {a a' : Agent} (h : Move n s a a') (hm : a'.maintains = true) :
    a.maintains = true ∨ ¬ s.any Agent.maintains = true := by
  cases h with
  | grow hn => exact .inr hn
  | watch hn => exact .inr hn
  | lock x => cases x <;> first | exact .inl rfl | cases hm
  | _ => cases hm

theorem has_writes {a : Agent} {k : Nat} (h : a.has k = true) : a.writes k = true := by
  simp only [Agent.has] at h
  simp [Agent.writes, h]

theorem inv_step {n : Nat} {s s' : List Agent} {e : Ev} (hv : Inv s) (h : step n s e = some s') : Inv s' := by
  rcases step_cases h with ⟨i, a, a', hi, hm, rfl, -⟩ | ⟨rfl, -, -⟩ | ⟨i, j, -, hi, hj, rfl⟩
  · have hover : a' ≠ .drop .over ∧ a ≠ .drop .over ∧ a' ≠ .watcher .over ∧ a ≠ .watcher .over := by
      cases hm with
      | lock x => cases x <;> simp [Who.agent]
      | _ => simp [Wide.begin]
    have hlt : i < s.length := (List.getElem?_eq_some_iff.mp hi).1
    constructor
    · intro j b hj
      rcases get_set hi hj with ⟨_, rfl⟩ | ⟨_, hj⟩
      · exact move_legal (hv.legal i a hi) hm
      · exact hv.legal j b hj
    · intro j b hj
      rcases get_set hi hj with ⟨rfl, rfl⟩ | ⟨_, hj⟩
      · rw [move_sort hm]; exact hv.first j a hi
      · exact hv.first j b hj
    · intro p q b c hp hq hb hc
      rcases get_set hi hp with ⟨ep, eb⟩ | ⟨np, hp'⟩ <;> rcases get_set hi hq with ⟨eq, ec⟩ | ⟨nq, hq'⟩
      · rw [ep, eq]
      · subst eb
        rcases move_maintains hm hb with h1 | h1
        · rw [ep]; exact hv.maint i q a c hi hq' h1 hc
        · have := any_false h1 hq'; simp [hc] at this
      · subst ec
        rcases move_maintains hm hc with h1 | h1
        · rw [eq]; exact hv.maint p i b a hp' hi hb h1
        · have := any_false h1 hp'; simp [hb] at this
      · exact hv.maint p q b c hp' hq' hb hc
    · intro p q b c k hp hq hb hc
      rcases get_set hi hp with ⟨ep, eb⟩ | ⟨np, hp'⟩ <;> rcases get_set hi hq with ⟨eq, ec⟩ | ⟨nq, hq'⟩
      · rw [ep, eq]
      · subst eb
        rcases move_writes hm k hb with h1 | h1
        · rw [ep]; exact hv.write i q a c k hi hq' h1 hc
        · have := any_false h1 hq'; simp [hc] at this
      · subst ec
        rcases move_writes hm k hc with h1 | h1
        · rw [eq]; exact hv.write p i b a k hp' hi hb h1
        · have := any_false h1 hp'; simp [hb] at this
      · exact hv.write p q b c k hp' hq' hb hc
    · intro p q b c k hp hq hb hc
      have hself : a'.has k = true → a'.reads k = true → False := by
        intro h1 h2
        cases a' with
        | small k' w st => cases w <;> cases st <;> simp_all [Agent.has, Agent.reads, Agent.stage]
        | _ => cases h2
      rcases get_set hi hp with ⟨ep, eb⟩ | ⟨np, hp'⟩ <;> rcases get_set hi hq with ⟨eq, ec⟩ | ⟨nq, hq'⟩
      · subst eb; subst ec; exact hself hb hc
      · subst eb
        rcases move_has hm k hb with h1 | ⟨h1, -⟩
        · exact hv.readers i q a c k hi hq' h1 hc
        · have := any_false h1 hq'; simp [hc] at this
      · subst ec
        rcases move_reads hm k hc with h1 | ⟨h1, -⟩ | h1
        · exact hv.readers p i b a k hp' hi hb h1
        · have := any_false h1 hp'; simp [has_writes hb] at this
        · have := hv.legal i a hi; rw [h1] at this; cases this
      · exact hv.readers p q b c k hp' hq' hb hc
    · intro p hp
      rcases get_set hi hp with ⟨_, e⟩ | ⟨_, hp'⟩
      · exact absurd e.symm hover.1
      · have h0 := hv.drops p hp'
        have : i ≠ 0 := by
          intro e; subst e; rw [hi, Option.some.injEq] at h0; exact hover.2.2.2 h0
        rw [List.getElem?_set_ne this]; exact h0
    · intro p q hp hq
      rcases get_set hi hp with ⟨_, e⟩ | ⟨_, hp'⟩
      · exact absurd e.symm hover.1
      · rcases get_set hi hq with ⟨_, e⟩ | ⟨_, hq'⟩
        · exact absurd e.symm hover.1
        · exact hv.once p q hp' hq'
    · intro h0
      rcases get_set hi h0 with ⟨_, e⟩ | ⟨_, h0'⟩
      · exact absurd e.symm hover.2.2.1
      · obtain ⟨p, hp⟩ := hv.gone h0'
        have : i ≠ p := by
          intro e; subst e; rw [hi, Option.some.injEq] at hp; exact hover.2.1 hp
        exact ⟨p, by rw [List.getElem?_set_ne this]; exact hp⟩
  · exact hv
  · have hj0 : j = 0 := (hv.first j _ hj).mp rfl
    subst hj0
    have hi0 : i ≠ 0 := fun e => by subst e; rw [hi] at hj; cases hj
    have hlen : 0 < s.length := (List.getElem?_eq_some_iff.mp hj).1
    have hlti : i < s.length := (List.getElem?_eq_some_iff.mp hi).1
    have hj' : (s.set i (.drop .over))[0]? = some (.watcher .rest) := by rw [List.getElem?_set_ne hi0]; exact hj
    have get : ∀ (p : Nat) (b : Agent), ((s.set i (.drop .over)).set 0 (.watcher .over))[p]? = some b →
        (p = 0 ∧ b = .watcher .over) ∨ (p = i ∧ b = .drop .over) ∨ (p ≠ 0 ∧ p ≠ i ∧ s[p]? = some b) := by
      intro p b hp
      rcases get_set hj' hp with ⟨e, eb⟩ | ⟨np, hp'⟩
      · exact .inl ⟨e, eb⟩
      · rcases get_set hi hp' with ⟨e, eb⟩ | ⟨np', hp''⟩
        · exact .inr (.inl ⟨e, eb⟩)
        · exact .inr (.inr ⟨np, np', hp''⟩)
    have nodrop : ∀ p : Nat, s[p]? ≠ some (.drop .over) := by
      intro p hp
      have := hv.drops p hp
      rw [hj] at this; cases this
    constructor
    · intro p b hp
      rcases get p b hp with ⟨_, rfl⟩ | ⟨_, rfl⟩ | ⟨_, _, h⟩
      · rfl
      · rfl
      · exact hv.legal p b h
    · intro p b hp
      rcases get p b hp with ⟨rfl, rfl⟩ | ⟨rfl, rfl⟩ | ⟨_, _, h⟩
      · simp [Agent.sort]
      · simp [Agent.sort, hi0]
      · exact hv.first p b h
    · intro p q b c hp hq hb hc
      rcases get p b hp with ⟨_, rfl⟩ | ⟨_, rfl⟩ | ⟨_, _, hp'⟩
      · cases hb
      · cases hb
      · rcases get q c hq with ⟨_, rfl⟩ | ⟨_, rfl⟩ | ⟨_, _, hq'⟩
        · cases hc
        · cases hc
        · exact hv.maint p q b c hp' hq' hb hc
    · intro p q b c k hp hq hb hc
      rcases get p b hp with ⟨_, rfl⟩ | ⟨_, rfl⟩ | ⟨_, _, hp'⟩
      · cases hb
      · cases hb
      · rcases get q c hq with ⟨_, rfl⟩ | ⟨_, rfl⟩ | ⟨_, _, hq'⟩
        · cases hc
        · cases hc
        · exact hv.write p q b c k hp' hq' hb hc
    · intro p q b c k hp hq hb hc
      rcases get p b hp with ⟨_, rfl⟩ | ⟨_, rfl⟩ | ⟨_, _, hp'⟩
      · cases hb
      · cases hb
      · rcases get q c hq with ⟨_, rfl⟩ | ⟨_, rfl⟩ | ⟨_, _, hq'⟩
        · cases hc
        · cases hc
        · exact hv.readers p q b c k hp' hq' hb hc
    · intro p hp
      simp [hlen]
    · intro p q hp hq
      rcases get p _ hp with ⟨_, e⟩ | ⟨e1, _⟩ | ⟨_, _, hp'⟩
      · cases e
      · rcases get q _ hq with ⟨_, e⟩ | ⟨e2, _⟩ | ⟨_, _, hq'⟩
        · cases e
        · rw [e1, e2]
        · exact absurd hq' (nodrop q)
      · exact absurd hp' (nodrop p)
    · intro _
      exact ⟨i, by rw [List.getElem?_set_ne (fun h => hi0 h.symm)]; simp [hlti]⟩

theorem inv_run {n : Nat} {es : List Ev} : ∀ {s s' : List Agent}, Inv s → run n s es = some s' → Inv s' := by
  induction es with
  | nil => intro s s' h hr; simp only [run, Option.some.injEq] at hr; exact hr ▸ h
  | cons e es ih =>
    intro s s' h hr
    simp only [run] at hr
    cases hs : step n s e with
    | none => rw [hs] at hr; cases hr
    | some s1 => rw [hs] at hr; exact ih (inv_step h hs) hr

theorem begin_cases {jobs : List Job} {i : Nat} {a : Agent} (h : (begin jobs)[i]? = some a) :
    (i = 0 ∧ a = .watcher .rest) ∨ ∃ m j, i = m + 1 ∧ jobs[m]? = some j ∧ a = j.agent := by
  cases i with
  | zero => simp only [begin, List.getElem?_cons_zero, Option.some.injEq] at h; exact .inl ⟨rfl, h.symm⟩
  | succ m =>
    simp only [begin, List.getElem?_cons_succ, List.getElem?_map, Option.map_eq_some_iff] at h
    obtain ⟨j, h1, h2⟩ := h
    exact .inr ⟨m, j, rfl, h1, h2.symm⟩

theorem agent_calm (j : Job) : j.agent.maintains = false ∧ (∀ k, j.agent.writes k = false) ∧ (∀ k, j.agent.has k = false) ∧
    (∀ k, j.agent.reads k = false) ∧ j.agent ≠ .drop .over ∧ j.agent.sort ≠ 3 ∧ j.agent.legal = true := by
  cases j with
  | small k w =>
    refine ⟨rfl, fun k' => ?_, fun k' => ?_, fun k' => ?_, by simp [Job.agent], by simp [Job.agent, Agent.sort], by cases w <;> rfl⟩
    · cases w with
      | false => rfl
      | true => by_cases e : k = k' <;> simp [Job.agent, Agent.writes, Agent.stage, e]
    · cases w with
      | false => rfl
      | true => by_cases e : k = k' <;> simp [Job.agent, Agent.has, Agent.stage, e]
    · cases w <;> rfl
  | grow => exact ⟨rfl, fun _ => rfl, fun _ => rfl, fun _ => rfl, by simp [Job.agent], by simp [Job.agent, Agent.sort], rfl⟩
  | drop => exact ⟨rfl, fun _ => rfl, fun _ => rfl, fun _ => rfl, by simp [Job.agent], by simp [Job.agent, Agent.sort], rfl⟩

theorem begin_calm {jobs : List Job} {i : Nat} {a : Agent} (h : (begin jobs)[i]? = some a) :
    a.maintains = false ∧ (∀ k, a.writes k = false) ∧ (∀ k, a.has k = false) ∧ (∀ k, a.reads k = false) ∧ a ≠ .drop .over ∧
      a.legal = true := by
  rcases begin_cases h with ⟨_, rfl⟩ | ⟨m, j, _, _, rfl⟩
  · exact ⟨rfl, fun _ => rfl, fun _ => rfl, fun _ => rfl, by simp, rfl⟩
  · have := agent_calm j
    exact ⟨this.1, this.2.1, this.2.2.1, this.2.2.2.1, this.2.2.2.2.1, this.2.2.2.2.2.2⟩

theorem inv_begin (jobs : List Job) : Inv (begin jobs) := by
  constructor
  · intro i a h; exact (begin_calm h).2.2.2.2.2
  · intro i a h
    rcases begin_cases h with ⟨rfl, rfl⟩ | ⟨m, j, rfl, _, rfl⟩
    · simp [Agent.sort]
    · simp [(agent_calm j).2.2.2.2.2.1]
  · intro i j a b hi hj ha; rw [(begin_calm hi).1] at ha; cases ha
  · intro i j a b k hi hj ha; rw [(begin_calm hi).2.1] at ha; cases ha
  · intro i j a b k hi hj ha; rw [(begin_calm hi).2.2.1] at ha; cases ha
  · intro i h; exact absurd rfl (begin_calm h).2.2.2.2.1
  · intro i j h; exact absurd rfl (begin_calm h).2.2.2.2.1
  · intro h; simp [begin] at h

/-! ## Kinds of agents along a run -/

theorem step_sort {n : Nat} {s s' : List Agent} {e : Ev} (h : step n s e = some s') : s'.map Agent.sort = s.map Agent.sort := by
  have aux : ∀ {s : List Agent} {i : Nat} {a a' : Agent}, s[i]? = some a → a'.sort = a.sort → (s.set i a').map Agent.sort = s.map Agent.sort := by
    intro s i a a' hi hs
    apply List.ext_getElem?
    intro j
    rw [List.map_set, List.getElem?_set]
    split
    · rename_i e; subst e
      rw [List.getElem?_map, hi, Option.map_some, hs]
      have := (List.getElem?_eq_some_iff.mp hi).1
      simp [this]
    · rfl
  rcases step_cases h with ⟨i, a, a', hi, hm, rfl, -⟩ | ⟨rfl, -, -⟩ | ⟨i, j, -, hi, hj, rfl⟩
  · exact aux hi (move_sort hm)
  · rfl
  · have hij : i ≠ j := fun e => by subst e; rw [hi] at hj; cases hj
    have hj' : (s.set i (.drop .over))[j]? = some (.watcher .rest) := by rw [List.getElem?_set_ne hij]; exact hj
    rw [aux (a' := .watcher .over) hj' rfl, aux (a' := .drop .over) hi rfl]

theorem run_sort {n : Nat} {es : List Ev} : ∀ {s s' : List Agent}, run n s es = some s' → s'.map Agent.sort = s.map Agent.sort := by
  induction es with
  | nil => intro s s' hr; simp only [run, Option.some.injEq] at hr; rw [hr]
  | cons e es ih =>
    intro s s' hr
    simp only [run] at hr
    cases hs : step n s e with
    | none => rw [hs] at hr; cases hr
    | some s1 => rw [hs] at hr; rw [ih hr, step_sort hs]

theorem sort_at {s s' : List Agent} (h : s'.map Agent.sort = s.map Agent.sort) {i : Nat} {a : Agent} (hi : s'[i]? = some a) :
    ∃ b, s[i]? = some b ∧ b.sort = a.sort := by
  have : (s.map Agent.sort)[i]? = some a.sort := by rw [← h, List.getElem?_map, hi]; rfl
  simpa [List.getElem?_map, Option.map_eq_some_iff] using this

/-- jobs and agents correspond -/
theorem job_at {n : Nat} {jobs : List Job} {es : List Ev} {s : List Agent} (h : run n (begin jobs) es = some s) {i : Nat} {a : Agent}
    (hi : s[i]? = some a) : (i = 0 ∧ a.sort = 3) ∨ ∃ m j, i = m + 1 ∧ jobs[m]? = some j ∧ a.sort = j.agent.sort := by
  obtain ⟨b, hb, hs⟩ := sort_at (run_sort h) hi
  rcases begin_cases hb with ⟨h0, rfl⟩ | ⟨m, j, hm, hj, rfl⟩
  · exact .inl ⟨h0, hs.symm⟩
  · exact .inr ⟨m, j, hm, hj, hs.symm⟩

theorem all_sort {a : Agent} {l : List Stage} (h : a.all? = some l) : a.maintains = true ∨ a.sort = 2 := by
  cases a with
  | small => cases h
  | grow st => cases st <;> first | cases h; done | exact .inl rfl
  | drop st => exact .inr rfl
  | watcher st => cases st <;> first | cases h; done | exact .inl rfl

theorem legal_valid {a : Agent} {l : List Stage} (hl : a.legal = true) (h : a.all? = some l) : Stage.over ∉ l := by
  have : l.all (· != .over) = true := by
    cases a with
    | small => cases h
    | grow st => cases st <;> first | cases h; done | (cases h; exact hl)
    | drop st => cases st <;> first | cases h; done | (cases h; exact hl)
    | watcher st => cases st <;> first | cases h; done | (cases h; exact hl)
  intro hm
  have := List.all_eq_true.mp this _ hm
  cases this

theorem legal_states {a : Agent} (hl : a.legal = true) : a ≠ .grow .want ∧ a ≠ .grow .send ∧ a ≠ .drop .want ∧ a ≠ .watcher .send :=
  ⟨fun e => (by rw [e] at hl; cases hl), fun e => (by rw [e] at hl; cases hl), fun e => (by rw [e] at hl; cases hl),
    fun e => (by rw [e] at hl; cases hl)⟩

/-- without a `drop` only one agent takes all locks -/
theorem no_drop_one {s : List Agent} (hv : Inv s) (hd : ∀ a ∈ s, a.sort ≠ 2) : OneWide s := by
  constructor
  · intro a ha b hb l l' hl hl'
    obtain ⟨i, hi⟩ := List.mem_iff_getElem?.mp ha
    obtain ⟨j, hj⟩ := List.mem_iff_getElem?.mp hb
    rcases all_sort hl with h1 | h1
    · rcases all_sort hl' with h2 | h2
      · have := hv.maint i j a b hi hj h1 h2
        subst this
        rw [hi, Option.some.injEq] at hj
        subst hj
        rw [hl] at hl'
        exact Option.some.inj hl'
      · exact absurd h2 (hd b hb)
    · exact absurd h1 (hd a ha)
  · intro a ha l hl
    obtain ⟨i, hi⟩ := List.mem_iff_getElem?.mp ha
    exact legal_valid (hv.legal i a hi) hl

/-- nobody but one `drop` takes all locks -/
structure Calm (s : List Agent) : Prop where
  rests : ∀ (i : Nat) (a : Agent), s[i]? = some a → a.sort = 3 → a = .watcher .rest ∨ a = .watcher .over
  nogrow : ∀ (i : Nat) (a : Agent), s[i]? = some a → a.sort ≠ 1
  one : ∀ (i j : Nat) (a b : Agent), s[i]? = some a → s[j]? = some b → a.sort = 2 → b.sort = 2 → i = j

theorem calm_step {n : Nat} {s s' : List Agent} {e : Ev} (hc : Calm s) (he : e.full = false) (h : step n s e = some s') : Calm s' := by
  have hs := step_sort h
  refine ⟨?_, ?_, ?_⟩
  · intro j b hj hb
    rcases step_cases h with ⟨i, a, a', hi, hm, rfl, hf⟩ | ⟨rfl, -, -⟩ | ⟨i, j', -, hi, hj', rfl⟩
    · rcases get_set hi hj with ⟨_, rfl⟩ | ⟨_, hj⟩
      · have ha : a.sort = 3 := by rw [← move_sort hm]; exact hb
        rcases hc.rests i a hi ha with rfl | rfl
        · have := hf rfl; rw [he] at this; cases this
        · exfalso
          generalize hx : Agent.watcher Wide.over = x at hm
          cases hm with
          | lock y => cases y <;> cases hx
          | _ => cases hx
      · exact hc.rests j b hj hb
    · exact hc.rests j b hj hb
    · have hij : i ≠ j' := fun e => by subst e; rw [hi] at hj'; cases hj'
      rcases get_set (v := .watcher .rest) (by rw [List.getElem?_set_ne hij]; exact hj') hj with ⟨_, rfl⟩ | ⟨_, hj⟩
      · exact .inr rfl
      · rcases get_set hi hj with ⟨_, rfl⟩ | ⟨_, hj⟩
        · cases hb
        · exact hc.rests j b hj hb
  · intro j b hj
    obtain ⟨c, hc', e⟩ := sort_at hs hj
    rw [← e]; exact hc.nogrow j c hc'
  · intro i j a b hi hj ha hb
    obtain ⟨c, hc', e⟩ := sort_at hs hi
    obtain ⟨d, hd', e'⟩ := sort_at hs hj
    exact hc.one i j c d hc' hd' (e ▸ ha) (e' ▸ hb)

theorem calm_run {n : Nat} {es : List Ev} : ∀ {s s' : List Agent}, Calm s → (∀ e ∈ es, e.full = false) → run n s es = some s' → Calm s' := by
  induction es with
  | nil => intro s s' h _ hr; simp only [run, Option.some.injEq] at hr; exact hr ▸ h
  | cons e es ih =>
    intro s s' h hf hr
    simp only [run] at hr
    cases hs : step n s e with
    | none => rw [hs] at hr; cases hr
    | some s1 => rw [hs] at hr; exact ih (calm_step h (hf e (by simp)) hs) (fun e he => hf e (by simp [he])) hr

theorem calm_one {s : List Agent} (hv : Inv s) (hc : Calm s) : OneWide s := by
  constructor
  · intro a ha b hb l l' hl hl'
    obtain ⟨i, hi⟩ := List.mem_iff_getElem?.mp ha
    obtain ⟨j, hj⟩ := List.mem_iff_getElem?.mp hb
    have sort : ∀ {c : Agent} {p : Nat} {m : List Stage}, s[p]? = some c → c.all? = some m → c.sort = 2 := by
      intro c p m hp hm
      cases c with
      | small => cases hm
      | grow st => exact absurd rfl (hc.nogrow p _ hp)
      | drop st => rfl
      | watcher st => rcases hc.rests p _ hp rfl with e | e <;> (rw [e] at hm; cases hm)
    have := hc.one i j a b hi hj (sort hi hl) (sort hj hl')
    subst this
    rw [hi, Option.some.injEq] at hj
    subst hj
    rw [hl] at hl'
    exact Option.some.inj hl'
  · intro a ha l hl
    obtain ⟨i, hi⟩ := List.mem_iff_getElem?.mp ha
    exact legal_valid (hv.legal i a hi) hl

theorem send_moves {n : Nat} {s : List Agent} (hv : Inv s) (hc : Calm s) {w : Agent} (h0 : s[0]? = some w) {i : Nat} (hi : s[i]? = some (.drop .send)) : Moves n s := by
  rcases hc.rests 0 w h0 ((hv.first 0 w h0).mpr rfl) with rfl | rfl
  · exact ⟨.cancel i 0, (s.set i (.drop .over)).set 0 (.watcher .over), rfl, by simp only [step, hi, h0]⟩
  · obtain ⟨j, hj⟩ := hv.gone h0
    have := hc.one i j _ _ hi hj rfl rfl
    subst this
    rw [hi] at hj; cases hj

/-! ## Every schedule is bounded -/

def Stage.cost : Stage → Nat
  | .idle => 2
  | .waits => 1
  | _ => 0

def stages (l : List Stage) : Nat := (l.map Stage.cost).sum

def Agent.cost (n : Nat) : Agent → Nat
  | .small _ _ .idle => 3
  | .small _ _ .waits => 2
  | .small _ _ .held => 1
  | .small _ _ .over => 0
  | .grow .rest => 2 * n + 2
  | .grow (.all l) => 1 + stages l
  | .drop .rest => 2 * n + 3
  | .drop (.all l) => 2 + stages l
  | .drop .send => 1
  | .watcher .want => 2 * n + 2
  | .watcher (.all l) => 1 + stages l
  | _ => 0

def cost (n : Nat) (s : List Agent) : Nat := (s.map (Agent.cost n)).sum

theorem sum_set {α : Type} (f : α → Nat) : ∀ {l : List α} {i : Nat} {a b : α}, l[i]? = some a →
    ((l.set i b).map f).sum + f a = (l.map f).sum + f b
  | [], i, a, b, h => by simp at h
  | x :: l, 0, a, b, h => by
    simp only [List.getElem?_cons_zero, Option.some.injEq] at h; subst h
    simp only [List.set_cons_zero, List.map_cons, List.sum_cons]; omega
  | x :: l, i + 1, a, b, h => by
    simp only [List.getElem?_cons_succ] at h
    have := sum_set f (b := b) h
    simp only [List.set_cons_succ, List.map_cons, List.sum_cons]; omega

theorem stages_begin (n : Nat) : stages (List.replicate n .idle) = 2 * n := by
  simp [stages, Stage.cost, Nat.mul_comm]

theorem move_cost {n : Nat} {s : List Agent} {a a' : Agent} (h : Move n s a a') : a'.cost n < a.cost n ∨ a = .watcher .rest ∧ a'.cost n = 2 * n + 2 := by
  cases h with
  | grow => left; simp only [Wide.begin, Agent.cost, stages_begin]; omega
  | drop => left; simp only [Wide.begin, Agent.cost, stages_begin]; omega
  | watch => left; simp only [Wide.begin, Agent.cost, stages_begin]; omega
  | grown l => left; simp only [Agent.cost]; omega
  | dropped l => left; simp only [Agent.cost]; omega
  | watched l => left; simp only [Agent.cost]; omega
  | tick => exact .inr ⟨rfl, rfl⟩
  | lock x l k st st' h1 h2 =>
    left
    have := sum_set Stage.cost (b := st') h1
    have h3 : st'.cost < st.cost := by
      rcases advance_some h2 with ⟨rfl, rfl, _⟩ | ⟨rfl, rfl, _⟩ <;> decide
    cases x <;> (simp only [Who.agent, Agent.cost, stages]; omega)
  | _ => left; simp [Agent.cost]

theorem step_cost {n : Nat} {s s' : List Agent} {e : Ev} (h : step n s e = some s') :
    cost n s' + (if e.inner then 1 else 0) ≤ cost n s + (if e.full then 2 * n + 2 else 0) := by
  rcases step_cases h with ⟨i, a, a', hi, hm, rfl, hf⟩ | ⟨rfl, h1, h2⟩ | ⟨i, j, he, hi, hj, rfl⟩
  · have := sum_set (Agent.cost n) (b := a') hi
    simp only [cost]
    rcases move_cost hm with h1 | ⟨h1, h2⟩
    · split <;> omega
    · have h3 : a.cost n = 0 := by rw [h1]; rfl
      rw [hf h1, if_pos rfl]
      have h4 : e.inner = false := by
        have := hf h1
        cases e <;> first | rfl | cases this
      rw [h4]
      simp only [Bool.false_eq_true, if_false]
      omega
  · rw [h1, h2]; simp
  · subst he
    have hij : i ≠ j := fun e => by subst e; rw [hi] at hj; cases hj
    have h1 := sum_set (Agent.cost n) (b := .drop .over) hi
    have h2 := sum_set (Agent.cost n) (l := s.set i (.drop .over)) (i := j) (a := .watcher .rest) (b := .watcher .over)
      (by rw [List.getElem?_set_ne hij]; exact hj)
    simp only [Agent.cost] at h1 h2
    simp only [cost, Ev.inner, Ev.full, Bool.false_eq_true, if_true, if_false]
    omega

theorem run_cost {n : Nat} {es : List Ev} : ∀ {s s' : List Agent}, run n s es = some s' →
    cost n s' + es.countP Ev.inner ≤ cost n s + (2 * n + 2) * es.countP Ev.full := by
  induction es with
  | nil => intro s s' hr; simp only [run, Option.some.injEq] at hr; subst hr; simp
  | cons e es ih =>
    intro s s' hr
    simp only [run] at hr
    cases hs : step n s e with
    | none => rw [hs] at hr; cases hr
    | some s1 =>
      rw [hs] at hr
      have h1 := step_cost hs
      have h2 := ih hr
      simp only [List.countP_cons]
      rw [Nat.mul_add]
      split at h1 <;> split at h1 <;> rename_i a b <;> simp only [a, b, if_true, Bool.false_eq_true, if_false] <;> omega

theorem run_append {n : Nat} {es es' : List Ev} : ∀ {s : List Agent}, run n s (es ++ es') = (run n s es).bind fun s' => run n s' es' := by
  induction es with
  | nil => intro s; rfl
  | cons e es ih =>
    intro s
    simp only [List.cons_append, run]
    cases step n s e with
    | none => rfl
    | some s1 => simpa using ih

/-- whoever can always go on gets to the end -/
theorem ends_of {n : Nat} {P : List Agent → Prop} (hp : ∀ s e s', P s → e.inner = true → step n s e = some s' → P s')
    (hm : ∀ s, P s → quiet s ∨ Moves n s) : ∀ (c : Nat) (s : List Agent), cost n s ≤ c → P s →
    ∃ es s', (∀ e ∈ es, e.inner = true) ∧ run n s es = some s' ∧ quiet s' := by
  intro c
  induction c with
  | zero =>
    intro s hc h
    rcases hm s h with hq | ⟨e, s', he, hs⟩
    · exact ⟨[], s, by simp, rfl, hq⟩
    · have := step_cost hs
      rw [he] at this
      have hf : e.full = false := by cases e <;> first | rfl | cases he
      rw [hf] at this
      simp at this; omega
  | succ c ih =>
    intro s hc h
    rcases hm s h with hq | ⟨e, s', he, hs⟩
    · exact ⟨[], s, by simp, rfl, hq⟩
    · have := step_cost hs
      have hf : e.full = false := by cases e <;> first | rfl | cases he
      rw [he, hf] at this
      simp only [if_true, Bool.false_eq_true, if_false] at this
      obtain ⟨es, s'', h1, h2, h3⟩ := ih s' (by omega) (hp s e s' h he hs)
      refine ⟨e :: es, s'', ?_, ?_, h3⟩
      · intro x hx
        rcases List.mem_cons.mp hx with rfl | hx
        · exact he
        · exact h1 x hx
      · simp only [run, hs]; exact h2

end Fave.CacheLocks

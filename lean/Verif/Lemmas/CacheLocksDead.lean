import Verif.Lemmas.CacheLocksRun
/-!
# Two who take all locks of a vector cache, in different orders
-/
namespace Fave.CacheLocks

theorem lock_step {n : Nat} {s : List Agent} {i k : Nat} {x : Who} {l : List Stage} {st st' : Stage} (hi : s[i]? = some (x.agent (.all l)))
    (hk : l[k]? = some st) (h : advance s k st = some st') : step n s (.lock i k) = some (s.set i (x.agent (.all (l.set k st')))) := by
  simp only [step, hi, Option.bind_some]
  cases x <;> simp [Who.agent, Agent.lock, hk, h]

theorem lock_twice {n : Nat} {s : List Agent} {i k : Nat} {x : Who} {l : List Stage} (hi : s[i]? = some (x.agent (.all l)))
    (hk : l[k]? = some .idle) (hf : ∀ (j : Nat) (b : Agent), s[j]? = some b → b.writes k = false ∧ b.reads k = false) :
    run n s [.lock i k, .lock i k] = some (s.set i (x.agent (.all (l.set k .held)))) := by
  have h1 : advance s k .idle = some .waits := by
    have : ¬ s.any (·.writes k) = true := by
      simp only [List.any_eq_true, not_exists, not_and]
      intro b hb h
      obtain ⟨j, hj⟩ := List.mem_iff_getElem?.mp hb
      rw [(hf j b hj).1] at h; cases h
    simp only [advance]; rw [if_neg this]
  have hlt : i < s.length := (List.getElem?_eq_some_iff.mp hi).1
  have hklt : k < l.length := (List.getElem?_eq_some_iff.mp hk).1
  have hi' : (s.set i (x.agent (.all (l.set k .waits))))[i]? = some (x.agent (.all (l.set k .waits))) := by simp [hlt]
  have hk' : (l.set k .waits)[k]? = some .waits := by simp [hklt]
  have h2 : advance (s.set i (x.agent (.all (l.set k .waits)))) k .waits = some .held := by
    have : ¬ ((s.set i (x.agent (.all (l.set k .waits)))).any (·.reads k) || (s.set i (x.agent (.all (l.set k .waits)))).any (·.stage k == .held)) = true := by
      simp only [Bool.or_eq_true, List.any_eq_true, not_or, not_exists, not_and]
      constructor
      · intro b hb h
        obtain ⟨j, hj⟩ := List.mem_iff_getElem?.mp hb
        rcases get_set hi hj with ⟨_, rfl⟩ | ⟨_, hj⟩
        · cases x <;> cases h
        · rw [(hf j b hj).2] at h; cases h
      · intro b hb h
        obtain ⟨j, hj⟩ := List.mem_iff_getElem?.mp hb
        rcases get_set hi hj with ⟨_, rfl⟩ | ⟨_, hj⟩
        · rw [stage_who, hk'] at h; cases h
        · have := (hf j b hj).1
          rw [has_writes h] at this; cases this
    simp only [advance]; rw [if_neg this]
  simp only [run, lock_step hi hk h1, lock_step hi' hk' h2, List.set_set]

/-- the schedule: `p` takes the first lock, `q` all the others -/
def block (p q : Nat) (m : Nat) : List Ev :=
  [.lock p 0, .lock p 0] ++ (List.range m).flatMap fun k => [.lock q (k + 1), .lock q (k + 1)]

theorem others_run {n : Nat} {s : List Agent} {p q : Nat} {x y : Who} {N : Nat} (hpq : p ≠ q)
    (hp : s[p]? = some (x.agent (.all (.held :: .replicate N .idle)))) (hq : s[q]? = some (y.agent (.all (.replicate (N + 1) .idle))))
    (hf : ∀ (j : Nat) (b : Agent) (k : Nat), s[j]? = some b → j ≠ p → j ≠ q → b.writes k = false ∧ b.reads k = false) :
    ∀ m, m ≤ N → run n s ((List.range m).flatMap fun k => [.lock q (k + 1), .lock q (k + 1)]) =
      some (s.set q (y.agent (.all (.idle :: (.replicate m .held ++ .replicate (N - m) .idle))))) := by
  intro m
  induction m with
  | zero =>
    intro _
    simp only [List.range_zero, List.flatMap_nil, run, Option.some.injEq, List.replicate_zero, List.nil_append, Nat.sub_zero]
    rw [← List.replicate_succ]
    obtain ⟨hlt, he⟩ := List.getElem?_eq_some_iff.mp hq
    rw [← he, List.set_getElem_self]
  | succ m ih =>
    intro hm
    have hlt : q < s.length := (List.getElem?_eq_some_iff.mp hq).1
    rw [List.range_succ, List.flatMap_append, run_append, ih (by omega), Option.bind_some]
    simp only [List.flatMap_cons, List.flatMap_nil, List.append_nil]
    have hN : N - m = (N - (m + 1)) + 1 := by omega
    have hk : (Stage.idle :: (List.replicate m Stage.held ++ List.replicate (N - m) Stage.idle))[m + 1]? = some .idle := by
      rw [List.getElem?_cons_succ, List.getElem?_append_right (by simp), hN]
      simp
    rw [lock_twice (x := y) (by simp [hlt]) hk ?_, List.set_set]
    · congr 4
      rw [List.set_cons_succ, List.set_append_right _ _ (by simp), hN, List.replicate_succ]
      simp only [List.length_replicate, Nat.sub_self, List.set_cons_zero]
      rw [List.replicate_succ', List.append_assoc]
      rfl
    · intro j b hj
      rcases get_set hq hj with ⟨_, rfl⟩ | ⟨nq, hj⟩
      · constructor
        · rw [Agent.writes, stage_who, hk]; rfl
        · cases y <;> rfl
      · by_cases e : j = p
        · subst e
          rw [hp, Option.some.injEq] at hj
          subst hj
          constructor
          · rw [Agent.writes, stage_who, List.getElem?_cons_succ]
            cases hr : (List.replicate N Stage.idle)[m]? with
            | none => rfl
            | some st => rw [(List.mem_replicate.mp (List.mem_of_getElem? hr)).2]; rfl
          · cases x <;> rfl
        · exact hf j b (m + 1) hj e nq

/-- `p` has the first lock, `q` all the others -/
structure Stuck (N p q : Nat) (x y : Who) (s : List Agent) : Prop where
  ne : p ≠ q
  more : 1 ≤ N
  at_p : s[p]? = some (x.agent (.all (.held :: .replicate N .idle)))
  at_q : s[q]? = some (y.agent (.all (.idle :: .replicate N .held)))

theorem block_run {n : Nat} {s : List Agent} {p q : Nat} {x y : Who} {N : Nat} (hN : 1 ≤ N) (hpq : p ≠ q)
    (hp : s[p]? = some (x.agent (.all (.replicate (N + 1) .idle)))) (hq : s[q]? = some (y.agent (.all (.replicate (N + 1) .idle))))
    (hf : ∀ (j : Nat) (b : Agent) (k : Nat), s[j]? = some b → j ≠ p → j ≠ q → b.writes k = false ∧ b.reads k = false) :
    ∃ s', run n s (block p q N) = some s' ∧ Stuck N p q x y s' ∧ ∀ j, j ≠ p → j ≠ q → s'[j]? = s[j]? := by
  have calm : ∀ (z : Who) (k : Nat), (z.agent (.all (.replicate (N + 1) .idle))).writes k = false ∧ (z.agent (.all (.replicate (N + 1) .idle))).reads k = false := by
    intro z k
    constructor
    · rw [Agent.writes, stage_who]
      cases hr : (List.replicate (N + 1) Stage.idle)[k]? with
      | none => rfl
      | some st => rw [(List.mem_replicate.mp (List.mem_of_getElem? hr)).2]; rfl
    · cases z <;> rfl
  have h1 := lock_twice (n := n) (k := 0) hp (by simp) (by
    intro j b hj
    by_cases e : j = p
    · subst e; rw [hp, Option.some.injEq] at hj; subst hj; exact calm x 0
    · by_cases e' : j = q
      · subst e'; rw [hq, Option.some.injEq] at hj; subst hj; exact calm y 0
      · exact hf j b 0 hj e e')
  rw [List.replicate_succ, List.set_cons_zero] at h1
  have hplt : p < s.length := (List.getElem?_eq_some_iff.mp hp).1
  have hqlt : q < s.length := (List.getElem?_eq_some_iff.mp hq).1
  have h2 := others_run (n := n) (s := s.set p (x.agent (.all (.held :: .replicate N .idle)))) (p := p) (q := q) (x := x) (y := y) (N := N) hpq
    (by simp [hplt]) (by rw [List.getElem?_set_ne hpq]; exact hq)
    (by
      intro j b k hj e e'
      rw [List.getElem?_set_ne (fun h => e h.symm)] at hj
      exact hf j b k hj e e') N (Nat.le_refl _)
  refine ⟨(s.set p (x.agent (.all (.held :: .replicate N .idle)))).set q (y.agent (.all (.idle :: .replicate N .held))), ?_, ?_, ?_⟩
  · rw [block, run_append, h1, Option.bind_some, h2]
    simp
  · refine ⟨hpq, hN, ?_, ?_⟩
    · rw [List.getElem?_set_ne (fun h => hpq h.symm)]; simp [hplt]
    · simp [hqlt]
  · intro j e e'
    rw [List.getElem?_set_ne (fun h => e' h.symm), List.getElem?_set_ne (fun h => e h.symm)]

theorem move_all {n : Nat} {s : List Agent} {x : Who} {l : List Stage} {a' : Agent} (h : Move n s (x.agent (.all l)) a') :
    l.all (· == .held) = true ∨ ∃ k st st', l[k]? = some st ∧ advance s k st = some st' := by
  generalize hx : x.agent (.all l) = a at h
  cases h with
  | grown l' hl => cases x <;> cases hx; exact .inl hl
  | watched l' hl => cases x <;> cases hx; exact .inl hl
  | dropped l' hl => cases x <;> cases hx; exact .inl hl
  | lock x' l' k st st' h1 h2 =>
    have : l = l' := by cases x <;> cases x' <;> cases hx <;> rfl
    subst this
    exact .inr ⟨k, st, st', h1, h2⟩
  | _ => cases x <;> cases hx

theorem stuck_writes {N p q : Nat} {x y : Who} {s : List Agent} (h : Stuck N p q x y s) {k : Nat} (hk : k < N + 1) : s.any (·.writes k) = true := by
  simp only [List.any_eq_true]
  cases k with
  | zero =>
    refine ⟨_, List.mem_of_getElem? h.at_p, ?_⟩
    rw [Agent.writes, stage_who]; rfl
  | succ k =>
    refine ⟨_, List.mem_of_getElem? h.at_q, ?_⟩
    rw [Agent.writes, stage_who, List.getElem?_cons_succ]
    have : (List.replicate N Stage.held)[k]? = some .held := by rw [List.getElem?_replicate, if_pos (by omega)]
    rw [this]; rfl

theorem stuck_lists {N p q : Nat} {x y : Who} {s : List Agent} (h : Stuck N p q x y s) {l : List Stage}
    (hl : l = .held :: .replicate N .idle ∨ l = .idle :: .replicate N .held) :
    ¬ (l.all (· == .held) = true) ∧ ∀ k st st', l[k]? = some st → advance s k st ≠ some st' := by
  have hN := h.more
  constructor
  · obtain ⟨M, rfl⟩ : ∃ M, N = M + 1 := ⟨N - 1, by omega⟩
    rcases hl with rfl | rfl <;> simp [List.replicate_succ]
  · intro k st st' hk ha
    have hlen : l.length = N + 1 := by rcases hl with rfl | rfl <;> simp
    have hlt : k < N + 1 := hlen ▸ (List.getElem?_eq_some_iff.mp hk).1
    have hst : st = .held ∨ st = .idle := by
      have hm := List.mem_of_getElem? hk
      rcases hl with rfl | rfl <;> rcases List.mem_cons.mp hm with e | hm <;> simp_all
    rcases advance_some ha with ⟨_, _, h1⟩ | ⟨e, _⟩
    · exact h1 (stuck_writes h hlt)
    · rcases hst with e' | e' <;> (rw [e] at e'; cases e')

theorem stuck_step {n N p q : Nat} {x y : Who} {s s' : List Agent} {e : Ev} (h : Stuck N p q x y s) (hs : step n s e = some s') :
    Stuck N p q x y s' ∧ ∀ (i k : Nat) (w : Bool), s[i]? = some (Agent.small k w .idle) → k < N + 1 → s'[i]? = some (.small k w .idle) := by
  rcases step_cases hs with ⟨i, a, a', hi, hm, rfl, -⟩ | ⟨rfl, -, -⟩ | ⟨i, j, -, hi, hj, rfl⟩
  · have hip : i ≠ p := by
      intro e'; subst e'
      rw [h.at_p, Option.some.injEq] at hi
      subst hi
      have hl := stuck_lists h (.inl rfl)
      rcases move_all hm with h1 | ⟨k, st, st', h1, h2⟩
      · exact hl.1 h1
      · exact hl.2 k st st' h1 h2
    have hiq : i ≠ q := by
      intro e'; subst e'
      rw [h.at_q, Option.some.injEq] at hi
      subst hi
      have hl := stuck_lists h (.inr rfl)
      rcases move_all hm with h1 | ⟨k, st, st', h1, h2⟩
      · exact hl.1 h1
      · exact hl.2 k st st' h1 h2
    refine ⟨⟨h.ne, h.more, by rw [List.getElem?_set_ne hip]; exact h.at_p, by rw [List.getElem?_set_ne hiq]; exact h.at_q⟩, ?_⟩
    intro j k w hj hk
    by_cases e' : i = j
    · exfalso
      subst e'
      rw [hj, Option.some.injEq] at hi
      subst hi
      generalize hx : Agent.small k w .idle = b at hm
      cases hm with
      | ask k' h' => cases hx; exact h' (stuck_writes h hk)
      | read k' h' => cases hx; exact h' (stuck_writes h hk)
      | lock x' => cases x' <;> cases hx
      | _ => cases hx
    · rw [List.getElem?_set_ne e']; exact hj
  · exact ⟨h, fun i k w hi _ => hi⟩
  · have hd : ∀ z : Who, ∀ l, z.agent (.all l) ≠ .drop .send := by intro z l; cases z <;> simp [Who.agent]
    have hw : ∀ z : Who, ∀ l, z.agent (.all l) ≠ .watcher .rest := by intro z l; cases z <;> simp [Who.agent]
    have other : ∀ (m : Nat) (b : Agent), s[m]? = some b → b ≠ .drop .send → b ≠ .watcher .rest →
        ((s.set i (.drop .over)).set j (.watcher .over))[m]? = some b := by
      intro m b hb h1 h2
      have e1 : i ≠ m := fun e => by subst e; rw [hi, Option.some.injEq] at hb; exact h1 hb.symm
      have e2 : j ≠ m := fun e => by subst e; rw [hj, Option.some.injEq] at hb; exact h2 hb.symm
      rw [List.getElem?_set_ne e2, List.getElem?_set_ne e1]; exact hb
    exact ⟨⟨h.ne, h.more, other p _ h.at_p (hd _ _) (hw _ _), other q _ h.at_q (hd _ _) (hw _ _)⟩,
      fun m k w hm _ => other m _ hm (by simp) (by simp)⟩

theorem stuck_run {n N p q : Nat} {x y : Who} {es : List Ev} : ∀ {s s' : List Agent}, Stuck N p q x y s → run n s es = some s' →
    Stuck N p q x y s' ∧ ∀ (i k : Nat) (w : Bool), s[i]? = some (Agent.small k w .idle) → k < N + 1 → s'[i]? = some (.small k w .idle) := by
  induction es with
  | nil => intro s s' h hr; simp only [run, Option.some.injEq] at hr; subst hr; exact ⟨h, fun i k w hi _ => hi⟩
  | cons e es ih =>
    intro s s' h hr
    simp only [run] at hr
    cases hs : step n s e with
    | none => rw [hs] at hr; cases hr
    | some s1 =>
      rw [hs] at hr
      have h1 := stuck_step h hs
      have h2 := ih h1.1 hr
      exact ⟨h2.1, fun i k w hi hk => h2.2 i k w (h1.2 i k w hi hk) hk⟩

/-! ## The claims' hypotheses -/

theorem sort_small (j : Job) : (j.agent.sort = 1 → j = .grow) ∧ (j.agent.sort = 2 → j = .drop) := by
  cases j <;> simp [Job.agent, Agent.sort]

theorem count_one {jobs : List Job} (h : jobs.count .drop ≤ 1) {i j : Nat} (hi : jobs[i]? = some .drop) (hj : jobs[j]? = some .drop) : i = j := by
  induction jobs generalizing i j with
  | nil => simp at hi
  | cons x l ih =>
    rw [List.count_cons] at h
    have pos : ∀ m : Nat, l[m]? = some Job.drop → 0 < l.count .drop := fun m hm => List.count_pos_iff.mpr (List.mem_of_getElem? hm)
    cases i with
    | zero =>
      cases j with
      | zero => rfl
      | succ j =>
        simp only [List.getElem?_cons_zero, Option.some.injEq] at hi
        have := pos j (by simpa using hj)
        simp [hi] at h
        omega
    | succ i =>
      cases j with
      | zero =>
        simp only [List.getElem?_cons_zero, Option.some.injEq] at hj
        have := pos i (by simpa using hi)
        simp [hj] at h
        omega
      | succ j =>
        have := ih (by omega) (by simpa using hi) (by simpa using hj)
        omega

theorem calm_begin {jobs : List Job} (h1 : jobs.count .drop ≤ 1) (h2 : Job.grow ∉ jobs) : Calm (begin jobs) := by
  refine ⟨?_, ?_, ?_⟩
  · intro i a hi ha
    rcases begin_cases hi with ⟨_, rfl⟩ | ⟨m, j, _, _, rfl⟩
    · exact .inl rfl
    · exact absurd ha (agent_calm j).2.2.2.2.2.1
  · intro i a hi ha
    rcases begin_cases hi with ⟨_, rfl⟩ | ⟨m, j, _, hj, rfl⟩
    · cases ha
    · rw [(sort_small j).1 ha] at hj
      exact h2 (List.mem_of_getElem? hj)
  · intro i j a b hi hj ha hb
    rcases begin_cases hi with ⟨_, rfl⟩ | ⟨m, x, rfl, hx, rfl⟩
    · cases ha
    · rcases begin_cases hj with ⟨_, rfl⟩ | ⟨m', y, rfl, hy, rfl⟩
      · cases hb
      · rw [(sort_small x).2 ha] at hx
        rw [(sort_small y).2 hb] at hy
        rw [count_one h1 hx hy]

/-- the states that `Apart` schedules lead to -/
def Fine (s : List Agent) : Prop := Inv s ∧ (∃ w, s[0]? = some w) ∧ ((∀ a ∈ s, a.sort ≠ 2) ∨ Calm s)

theorem fine_run {n : Nat} {jobs : List Job} {es : List Ev} {s : List Agent} (h : Apart jobs es) (hr : run n (begin jobs) es = some s) : Fine s := by
  refine ⟨inv_run (inv_begin jobs) hr, ?_, ?_⟩
  · have : (s.map Agent.sort).length = ((begin jobs).map Agent.sort).length := by rw [run_sort hr]
    simp only [List.length_map, begin, List.length_cons] at this
    exact ⟨s[0], by simp⟩
  · rcases h with h | ⟨h1, h2, h3⟩
    · left
      intro a ha hs
      obtain ⟨i, hi⟩ := List.mem_iff_getElem?.mp ha
      rcases job_at hr hi with ⟨_, h0⟩ | ⟨m, j, _, hj, he⟩
      · omega
      · rw [(sort_small j).2 (he ▸ hs)] at hj
        exact h (List.mem_of_getElem? hj)
    · exact .inr (calm_run (calm_begin h1 h2) h3 hr)

theorem fine_moves {n : Nat} {s : List Agent} (h : Fine s) : quiet s ∨ Moves n s := by
  obtain ⟨hv, ⟨w, hw⟩, hc⟩ := h
  by_cases hq : quiet s
  · exact .inl hq
  · right
    obtain ⟨a, ha, hi⟩ : ∃ a ∈ s, a.idle = false := by
      apply Classical.byContradiction
      intro hn
      apply hq
      intro a ha
      cases hi : a.idle with
      | true => rfl
      | false => exact absurd ⟨a, ha, hi⟩ hn
    obtain ⟨i, hai⟩ := List.mem_iff_getElem?.mp ha
    have ho : OneWide s := by
      rcases hc with hc | hc
      · exact no_drop_one hv hc
      · exact calm_one hv hc
    by_cases hs : a = .drop .send
    · subst hs
      rcases hc with hc | hc
      · exact absurd rfl (hc _ ha)
      · exact send_moves hv hc hw hai
    · exact some_moves ho ha hi hs (legal_states (hv.legal i a hai))

theorem fine_step {n : Nat} {s s' : List Agent} {e : Ev} (h : Fine s) (he : e.inner = true) (hs : step n s e = some s') : Fine s' := by
  obtain ⟨hv, ⟨w, hw⟩, hc⟩ := h
  have hss := step_sort hs
  refine ⟨inv_step hv hs, ?_, ?_⟩
  · have : (s'.map Agent.sort).length = (s.map Agent.sort).length := by rw [hss]
    simp only [List.length_map] at this
    have hlt := (List.getElem?_eq_some_iff.mp hw).1
    exact ⟨s'[0], by simp⟩
  · rcases hc with hc | hc
    · left
      intro a ha
      obtain ⟨i, hi⟩ := List.mem_iff_getElem?.mp ha
      obtain ⟨b, hb, e⟩ := sort_at hss hi
      rw [← e]; exact hc b (List.mem_of_getElem? hb)
    · right
      exact calm_step hc (by cases e <;> first | rfl | cases he) hs

theorem hangs_of {n N p q f : Nat} {x y : Who} {s : List Agent} {rest : List Job} (hn : n = N + 1) (h : Stuck N p q x y s)
    (hs : ∀ (m k : Nat) (w : Bool), rest[m]? = some (.small k w) → s[m + f]? = some (.small k w .idle)) : Hangs n s p q f rest := by
  intro es s' hr
  have h' := stuck_run h hr
  refine ⟨⟨_, h'.1.at_p, by cases x <;> rfl⟩, ⟨_, h'.1.at_q, by cases y <;> rfl⟩, ?_⟩
  intro m k w hm hk
  exact h'.2 _ k w (hs m k w hm) (by omega)

theorem rest_calm {rest : List Job} {m : Nat} {a : Agent} (h : (rest.map Job.agent)[m]? = some a) (k : Nat) : a.writes k = false ∧ a.reads k = false := by
  simp only [List.getElem?_map, Option.map_eq_some_iff] at h
  obtain ⟨j, _, rfl⟩ := h
  exact ⟨(agent_calm j).2.1 k, (agent_calm j).2.2.2.1 k⟩

end Fave.CacheLocks

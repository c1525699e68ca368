import Verif.Lemmas.CacheLocksDead
/-!
# C75: nothing waits for ever for a lock of a vector cache

Any number of accesses to one entry, of `grow` and of `drop` run at the same time as the goroutine that watches over the size of the cache.
Without `drop`, or with one `drop` and nobody else who takes all locks, there is always somebody who can go on until all is done, and the number
of steps is bounded.  A lock held for writing is held by nobody else.  But `drop` takes all locks without taking the maintenance lock first, and
each of the locks through a goroutine of its own: together with `grow` or with a tick that finds the cache full they can share the locks between
them, and from then on nothing in the cache ends.
-/
namespace Fave.C75

open CacheLocks

/-- Whatever has happened so far, nobody has anything more to do or somebody can go on without waiting for a tick: as long as nobody but `drop`
takes all locks where there is a `drop`. -/
theorem never_stuck_partial (n : Nat) (jobs : List Job) (es : List Ev) (h : Apart jobs es) (s : List Agent) (hr : run n (begin jobs) es = some s) :
    quiet s ∨ ∃ e s', e.inner = true ∧ step n s e = some s' :=
  fine_moves (fine_run h hr)

/-- Whoever runs, the number of steps is bounded: by three for each access, by two for each lock and two or three more for each `grow`, `drop` and
full tick. -/
theorem bounded (n : Nat) (jobs : List Job) (es : List Ev) (s : List Agent) (hr : run n (begin jobs) es = some s) :
    es.countP Ev.inner ≤ 3 * jobs.length + 2 * n * (jobs.count .grow + jobs.count .drop) + (2 * n + 2) * es.countP Ev.full := by
  have h1 := run_cost hr
  have h2 : cost n (begin jobs) ≤ 3 * jobs.length + 2 * n * (jobs.count .grow + jobs.count .drop) := by
    have : cost n (begin jobs) = ((jobs.map Job.agent).map (Agent.cost n)).sum := by
      simp [cost, begin, Agent.cost]
    rw [this]
    clear this h1 hr
    induction jobs with
    | nil => simp
    | cons j jobs ih =>
      simp only [List.map_cons, List.sum_cons, List.length_cons, List.count_cons]
      rw [Nat.mul_add, List.map_map] at ih
      rw [List.map_map]
      cases j with
      | small k w =>
        simp only [Job.agent, Agent.cost, Nat.mul_add]
        simp
        omega
      | grow =>
        simp only [Job.agent, Agent.cost, Nat.mul_add]
        simp
        omega
      | drop =>
        simp only [Job.agent, Agent.cost, Nat.mul_add]
        simp
        omega
  omega

/-- So from wherever such a run has come, everybody can be brought to the end. -/
theorem all_end_partial (n : Nat) (jobs : List Job) (es : List Ev) (h : Apart jobs es) (s : List Agent) (hr : run n (begin jobs) es = some s) :
    ∃ es' s', run n s es' = some s' ∧ quiet s' := by
  obtain ⟨es', s', -, h2, h3⟩ := ends_of (n := n) (P := Fine) (fun s e s' hf he hs => fine_step hf he hs) (fun s hf => fine_moves hf) (cost n s) s (Nat.le_refl _) (fine_run h hr)
  exact ⟨es', s', h2, h3⟩

/-- A lock held for writing is held by nobody else, neither for writing nor for reading — whoever runs. -/
theorem exclusive (n : Nat) (jobs : List Job) (es : List Ev) (s : List Agent) (hr : run n (begin jobs) es = some s) (i j k : Nat) (a b : Agent)
    (hi : s[i]? = some a) (hj : s[j]? = some b) (ha : a.has k = true) (hb : b.has k = true ∨ b.reads k = true) : i = j := by
  have hv := inv_run (inv_begin jobs) hr
  rcases hb with hb | hb
  · exact hv.write i j a b k hi hj (has_writes ha) (has_writes hb)
  · exact (hv.readers i j a b k hi hj ha hb).elim

/-- Only one `drop` of a cache ever ends: the watcher receives what it sends on `cancel` once.  A second one — `Drop` after `Shutdown` — never
ends. -/
theorem one_drop_ends (n : Nat) (jobs : List Job) (es : List Ev) (s : List Agent) (hr : run n (begin jobs) es = some s) (i j : Nat)
    (hi : s[i]? = some (.drop .over)) (hj : s[j]? = some (.drop .over)) : i = j :=
  (inv_run (inv_begin jobs) hr).once i j hi hj

/-- The watcher ends with a `drop` and not otherwise: while nobody drops the cache its goroutine stays. -/
theorem watcher_stays (n : Nat) (jobs : List Job) (es : List Ev) (s : List Agent) (hr : run n (begin jobs) es = some s) :
    s[0]? = some (.watcher .over) ↔ ∃ i : Nat, s[i]? = some (.drop .over) :=
  ⟨(inv_run (inv_begin jobs) hr).gone, fun ⟨i, hi⟩ => (inv_run (inv_begin jobs) hr).drops i hi⟩

/-- `grow` and `drop` at the same time: whatever the number of locks and whoever else wants to use the cache, there is a way — without any tick —
after which neither of the two ever ends, and no access that has not begun ever begins. -/
theorem drop_and_grow_hang (n : Nat) (hn : 2 ≤ n) (rest : List Job) :
    ∃ es s, run n (begin (.grow :: .drop :: rest)) es = some s ∧ (∀ e ∈ es, e.inner = true) ∧ Hangs n s 1 2 3 rest := by
  obtain ⟨N, rfl⟩ : ∃ N, n = N + 1 := ⟨n - 1, by omega⟩
  have h0 : run (N + 1) (begin (.grow :: .drop :: rest)) [.go 1, .go 2] =
      some (.watcher .rest :: .grow (.all (.replicate (N + 1) .idle)) :: .drop (.all (.replicate (N + 1) .idle)) :: rest.map Job.agent) := by
    have hm : ¬ (begin (.grow :: .drop :: rest)).any Agent.maintains = true := by
      simp only [List.any_eq_true, not_exists, not_and]
      intro b hb h
      obtain ⟨j, hj⟩ := List.mem_iff_getElem?.mp hb
      rw [(begin_calm hj).1] at h; cases h
    have h1 : step (N + 1) (begin (.grow :: .drop :: rest)) (.go 1) =
        some (.watcher .rest :: .grow (.all (.replicate (N + 1) .idle)) :: .drop .rest :: rest.map Job.agent) := by
      have : (begin (.grow :: .drop :: rest))[1]? = some (.grow .rest) := rfl
      simp only [step, this, Option.bind_some, Agent.go]
      rw [if_neg hm]
      rfl
    simp only [run, h1]
    rfl
  obtain ⟨s, h1, h2, h3⟩ := block_run (n := N + 1) (p := 1) (q := 2) (x := .grow) (y := .drop) (N := N)
    (s := .watcher .rest :: .grow (.all (.replicate (N + 1) .idle)) :: .drop (.all (.replicate (N + 1) .idle)) :: rest.map Job.agent)
    (by omega) (by decide) rfl rfl (by
      intro j b k hj e e'
      match j with
      | 0 => simp only [List.getElem?_cons_zero, Option.some.injEq] at hj; subst hj; exact ⟨rfl, rfl⟩
      | 1 => exact absurd rfl e
      | 2 => exact absurd rfl e'
      | j + 3 => exact rest_calm (by simpa using hj) k)
  refine ⟨[.go 1, .go 2] ++ block 1 2 N, s, by rw [run_append, h0]; exact h1, ?_, hangs_of rfl h2 ?_⟩
  · intro e he
    simp only [block, List.mem_append, List.mem_cons, List.not_mem_nil, or_false, List.mem_flatMap] at he
    rcases he with (rfl | rfl) | (rfl | rfl) | ⟨k, _, rfl | rfl⟩ <;> rfl
  · intro m k w hm
    rw [h3 (m + 3) (by omega) (by omega)]
    simp [hm, Job.agent]

/-- The same with a tick that finds the cache full in place of `grow`. -/
theorem drop_and_tick_hang (n : Nat) (hn : 2 ≤ n) (rest : List Job) :
    ∃ es s, run n (begin (.drop :: rest)) es = some s ∧ Hangs n s 0 1 2 rest := by
  obtain ⟨N, rfl⟩ : ∃ N, n = N + 1 := ⟨n - 1, by omega⟩
  have h0 : run (N + 1) (begin (.drop :: rest)) [.tick 0 true, .go 0, .go 1] =
      some (.watcher (.all (.replicate (N + 1) .idle)) :: .drop (.all (.replicate (N + 1) .idle)) :: rest.map Job.agent) := by
    have hm : ¬ (Agent.watcher .want :: .drop .rest :: rest.map Job.agent).any Agent.maintains = true := by
      simp only [List.any_eq_true, not_exists, not_and]
      intro b hb h
      rcases List.mem_cons.mp hb with rfl | hb
      · cases h
      · rcases List.mem_cons.mp hb with rfl | hb
        · cases h
        · obtain ⟨j, _, rfl⟩ := List.mem_map.mp hb
          rw [(agent_calm j).1] at h; cases h
    have h1 : step (N + 1) (begin (.drop :: rest)) (.tick 0 true) = some (.watcher .want :: .drop .rest :: rest.map Job.agent) := rfl
    have h2 : step (N + 1) (.watcher .want :: .drop .rest :: rest.map Job.agent) (.go 0) =
        some (.watcher (.all (.replicate (N + 1) .idle)) :: .drop .rest :: rest.map Job.agent) := by
      have : (Agent.watcher .want :: .drop .rest :: rest.map Job.agent)[0]? = some (.watcher .want) := rfl
      simp only [step, this, Option.bind_some, Agent.go]
      rw [if_neg hm]
      rfl
    simp only [run, h1, h2]
    rfl
  obtain ⟨s, h1, h2, h3⟩ := block_run (n := N + 1) (p := 0) (q := 1) (x := .watcher) (y := .drop) (N := N)
    (s := .watcher (.all (.replicate (N + 1) .idle)) :: .drop (.all (.replicate (N + 1) .idle)) :: rest.map Job.agent)
    (by omega) (by decide) rfl rfl (by
      intro j b k hj e e'
      match j with
      | 0 => exact absurd rfl e
      | 1 => exact absurd rfl e'
      | j + 2 => exact rest_calm (by simpa using hj) k)
  refine ⟨[.tick 0 true, .go 0, .go 1] ++ block 0 1 N, s, by rw [run_append, h0]; exact h1, hangs_of rfl h2 ?_⟩
  intro m k w hm
  rw [h3 (m + 2) (by omega) (by omega)]
  simp [hm, Job.agent]

/-- The claim without the restriction is false: with the 512 locks of the code a `drop` beside a `grow` can hang. -/
theorem full_claim_false : ¬ ∀ (jobs : List Job) (es : List Ev) (s : List Agent), run 512 (begin jobs) es = some s →
    ∃ es' s', run 512 s es' = some s' ∧ quiet s' := by
  intro h
  obtain ⟨es, s, h1, -, h2⟩ := drop_and_grow_hang 512 (by decide) []
  obtain ⟨es', s', h3, h4⟩ := h _ es s h1
  obtain ⟨⟨a, ha, hi⟩, -⟩ := h2 es' s' h3
  rw [h4 a (List.mem_of_getElem? ha)] at hi
  cases hi

/-! ## Cases -/

/-- a reader and a writer of one lock and a `grow` with three locks: halfway the writer waits for the reader, and keeps `grow` out -/
def someJobs : List Job := [.small 1 false, .small 1 true, .grow]

def half : List Ev := [.go 1, .go 2, .go 3, .lock 3 0, .lock 3 0, .lock 3 2]

def all : List Ev := half ++ [.go 1, .go 2, .go 2, .lock 3 1, .lock 3 2, .lock 3 1, .go 3]

example : run 3 (begin someJobs) half =
    some [.watcher .rest, .small 1 false .held, .small 1 true .waits, .grow (.all [.held, .idle, .waits])] := by decide +kernel

example : step 3 (reached 3 (begin someJobs) half) (.lock 3 1) = none ∧ step 3 (reached 3 (begin someJobs) half) (.go 2) = none ∧
    (step 3 (reached 3 (begin someJobs) half) (.go 1)).isSome := by decide +kernel

example : ∃ es' s', run 3 (reached 3 (begin someJobs) half) es' = some s' ∧ quiet s' :=
  all_end_partial 3 someJobs half (.inl (by decide)) _ (by decide +kernel)

example : run 3 (begin someJobs) all = some [.watcher .rest, .small 1 false .over, .small 1 true .over, .grow .over] ∧
    all.countP Ev.inner = 13 ∧ 13 ≤ 3 * someJobs.length + 2 * 3 * (someJobs.count .grow + someJobs.count .drop) := by decide +kernel

/-- one `drop` beside accesses -/
def dropJobs : List Job := [.small 0 true, .drop, .small 1 false]

def dropRun : List Ev := [.tick 0 false, .go 1, .go 2, .lock 2 1, .go 1, .lock 2 1, .lock 2 0]

example : Apart dropJobs dropRun := .inr ⟨by decide, by decide, by decide⟩

example : run 2 (begin dropJobs) dropRun = none := by decide +kernel

def dropRun' : List Ev := [.tick 0 false, .go 1, .go 2, .lock 2 1, .go 1, .lock 2 1, .go 1, .lock 2 0, .lock 2 0, .go 2, .cancel 2 0]

example : run 2 (begin dropJobs) dropRun' = some [.watcher .over, .small 0 true .over, .drop .over, .small 1 false .idle] := by decide +kernel

example : quiet (reached 2 (begin dropJobs) dropRun') ∨ ∃ e s', e.inner = true ∧ step 2 (reached 2 (begin dropJobs) dropRun') e = some s' :=
  never_stuck_partial 2 dropJobs dropRun' (.inr ⟨by decide, by decide, by decide⟩) _ (by decide +kernel)

example : ∃ i : Nat, (reached 2 (begin dropJobs) dropRun')[i]? = some (.drop .over) :=
  (watcher_stays 2 dropJobs dropRun' _ (by decide +kernel)).mp (by decide +kernel)

/-- two `drop`s one after the other: the second waits for ever to send -/
def twice : List Ev :=
  [.go 1, .lock 1 0, .lock 1 0, .lock 1 1, .lock 1 1, .go 1, .cancel 1 0, .go 2, .lock 2 0, .lock 2 0, .lock 2 1, .lock 2 1, .go 2]

example : run 2 (begin [.drop, .drop]) twice = some [.watcher .over, .drop .over, .drop .send] := by decide +kernel

example (es : List Ev) (s : List Agent) (hr : run 2 (begin [.drop, .drop]) (twice ++ es) = some s) (h : s[1]? = some (.drop .over)) :
    s[2]? ≠ some (.drop .over) := fun h2 => by
  have := one_drop_ends 2 _ _ s hr 1 2 h h2
  omega

/-- while `grow` holds lock 1 of two, nobody else does -/
def growing : List Ev := [.go 1, .lock 1 1, .lock 1 1]

example : (reached 2 (begin [.grow, .small 1 false]) growing)[1]? = some (.grow (.all [.idle, .held])) ∧
    step 2 (reached 2 (begin [.grow, .small 1 false]) growing) (.go 2) = none := by decide +kernel

example (j : Nat) (b : Agent) (hj : (reached 2 (begin [.grow, .small 1 false]) growing)[j]? = some b) (hb : b.has 1 = true ∨ b.reads 1 = true) :
    j = 1 :=
  (exclusive 2 [.grow, .small 1 false] growing _ (by decide +kernel) 1 j 1 (.grow (.all [.idle, .held])) b (by decide +kernel) hj (by decide) hb).symm

/-- the way to the deadlock with three locks and a reader that then cannot read -/
example : run 3 (begin [.grow, .drop, .small 2 false]) ([.go 1, .go 2] ++ block 1 2 2) =
      some [.watcher .rest, .grow (.all [.held, .idle, .idle]), .drop (.all [.idle, .held, .held]), .small 2 false .idle] := by decide +kernel

end Fave.C75

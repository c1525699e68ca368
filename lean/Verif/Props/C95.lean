import Verif.Lemmas.Metrics
/-!
# C95 — the numbers an index reports about itself are right

The full statement — *whatever calls run at the same time, the gauge of deletion marks shows how many ids are marked, the gauge of clean-up
threads how many clean-ups are under way, the counters of insertions and deletions how many there were; where nothing is reported nothing
is touched* — does not hold of the code for the marks: every call that marks an id counts it, also when it is marked already
(`deleted_twice`, `searched_twice`, `found_at_once`); two clean-ups at the same time take the same id off twice (`cleaned_twice`); and an
index that is opened anew starts without marks but with the old number (`opened_anew`).  What is counted too much is never taken off again
(`surplus_stays_partial`).  Proved are the parts that hold.
-/
namespace Fave.C95
open Metrics

/-- a call that has not begun -/
def Fresh : Agent → Bool
  | .delete _ | .search _ | .handle _ | .insert _ | .clean => true
  | _ => false

/-- a clean-up that has begun and not ended -/
def underWay : Agent → Bool
  | .copy | .relink _ | .removing _ | .unmarking _ _ | .ending => true
  | _ => false

/-- a clean-up, begun or not -/
def isClean : Agent → Bool
  | .clean => true
  | a => underWay a

/-- a clean-up that has taken an id off the gauge but not yet off the marks -/
def between : Agent → Bool
  | .unmarking _ _ => true
  | _ => false

/-- the ids a call may mark -/
def targets : Agent → List Nat
  | .delete ids => ids
  | .search id | .handle id | .handleAdd id => [id]
  | _ => []

theorem shows_init (g : Gauges) (agents : List Agent) : Shows (St.init (some g) agents) g := ⟨rfl, rfl⟩

/-- **Nothing is touched where nothing is reported** (FaVe opens its indexes without metrics — document.go:188-199): no call of a method
panics and the gauges stay nil. -/
theorem not_reported (agents : List Agent) (s : St) (h : Steps (St.init none agents) s) : s.metrics = ⟨false, none⟩ ∧ s.panicked = false := by
  induction h with
  | refl => exact ⟨rfl, rfl⟩
  | step _ h ih => exact step_hidden h ih.1 ih.2

/-- **Reporting never panics**, with or without metrics. -/
theorem never_panics (prom : Option Gauges) (agents : List Agent) (s : St) (h : Steps (St.init prom agents) s) : s.panicked = false := by
  cases prom with
  | none => exact (not_reported agents s h).2
  | some g =>
    suffices ∃ g, Shows s g from this.elim fun _ h => h.2
    induction h with
    | refl => exact ⟨g, shows_init g agents⟩
    | step _ h ih =>
      obtain ⟨g, hg⟩ := ih
      obtain ⟨_, _, _, _, _, _, _, _, _, _, h⟩ := step_shows h hg
      exact ⟨_, h⟩

/-- The panic that never happens would be seen: if the metrics were enabled without gauges, the first step that reports anything would end in it. -/
theorem nil_gauges_would_panic (s : St) (hm : s.metrics = ⟨true, none⟩) (before after : List Agent) (a a' : Agent) (fs : List Method) (t : List Nat)
    (ha : s.agents = before ++ a :: after) (hl : Local s.tombs a fs t a') (hf : fs ≠ []) : ∃ u, Step s u ∧ u.panicked = true := by
  refine ⟨_, Step.mk s before after a a' fs t ha hl, ?_⟩
  cases fs with
  | nil => exact absurd rfl hf
  | cons f fs => simp [St.report, hm, Metrics.calls, Metrics.call]

example : ∃ u, Step ⟨⟨true, none⟩, [], [.insert true], false⟩ u ∧ u.panicked = true :=
  nil_gauges_would_panic _ rfl [] [] _ _ _ _ rfl (.insert _ true) (by simp)

/-- **Reporting changes nothing else**: whatever marks and calls are reached with metrics are reached without, and the other way round. -/
theorem reporting_is_invisible (p q : Option Gauges) (agents : List Agent) (s : St) (h : Steps (St.init p agents) s) :
    ∃ s', Steps (St.init q agents) s' ∧ s'.tombs = s.tombs ∧ s'.agents = s.agents := by
  induction h with
  | refl => exact ⟨_, .refl, rfl, rfl⟩
  | step _ h ih =>
    obtain ⟨s', hs', h1, h2⟩ := ih
    obtain ⟨before, after, a, a', fs, t, hs, hl⟩ := h
    exact ⟨_, .step hs' (.mk s' before after a a' fs t (h2.trans hs) (h1 ▸ hl)), rfl, rfl⟩

/-- **The gauge of threads** shows at every moment how many clean-ups are under way. -/
theorem threads_gauge (g₀ : Gauges) (agents : List Agent) (hf : ∀ a ∈ agents, Fresh a) (s : St) (h : Steps (St.init (some g₀) agents) s) :
    ∃ g, s.metrics.gauges = some g ∧ g.threads = g₀.threads + s.agents.countP underWay := by
  suffices ∃ g, Shows s g ∧ g.threads = g₀.threads + s.agents.countP underWay from
    this.elim fun g h => ⟨g, by rw [h.1.1], h.2⟩
  induction h with
  | refl =>
    refine ⟨g₀, shows_init _ _, ?_⟩
    have : agents.countP underWay = 0 := List.countP_eq_zero.mpr (fun a ha => by
      have := hf a ha; cases a <;> simp_all [Fresh, underWay])
    simp [St.init, this]
  | step _ h ih =>
    obtain ⟨g, hg, ht⟩ := ih
    obtain ⟨before, after, a, a', fs, t, hs, hl, hs', _, hg'⟩ := step_shows h hg
    refine ⟨_, hg', ?_⟩
    rw [hs] at ht
    rw [hs']
    simp only [List.countP_append, List.countP_cons] at ht ⊢
    clear hg'
    cases hl <;> (try simp only [foldl_addTombstone]) <;> simp_all [underWay, Method.apply] <;> (try split) <;> (try simp_all) <;> (try omega)

/-- ids that calls have still to count as deleted -/
def toDelete : Agent → Int
  | .delete ids => ids.length
  | .deleting n => n
  | _ => 0

/-- insertions that have still to be counted -/
def toInsert : Agent → Int
  | .insert true => 1
  | _ => 0

theorem remaining (g₀ : Gauges) (agents : List Agent) (s : St) (h : Steps (St.init (some g₀) agents) s) :
    ∃ g, Shows s g ∧ g.delete + (s.agents.map toDelete).sum = g₀.delete + (agents.map toDelete).sum ∧
      g.insert + (s.agents.map toInsert).sum = g₀.insert + (agents.map toInsert).sum := by
  induction h with
  | refl => exact ⟨g₀, shows_init _ _, rfl, rfl⟩
  | step _ h ih =>
    obtain ⟨g, hg, hd, hi⟩ := ih
    obtain ⟨before, after, a, a', fs, t, hs, hl, hs', _, hg'⟩ := step_shows h hg
    refine ⟨_, hg', ?_⟩
    rw [hs] at hd hi
    rw [hs']
    simp only [List.map_append, List.map_cons, List.sum_append, List.sum_cons] at hd hi ⊢
    clear hg'
    cases hl <;> (try simp only [foldl_addTombstone]) <;> simp_all [toDelete, toInsert, Method.apply] <;> (try split) <;> (try simp_all) <;> (try omega)

/-- **The counters of insertions and deletions**: when all calls have ended, as many insertions were counted as there were calls of `Add`
with a vector that is not empty (also calls that failed later), and as many deletions as ids were passed to `Delete` (also ids that do not
exist). -/
theorem counters (g₀ : Gauges) (agents : List Agent) (s : St) (h : Steps (St.init (some g₀) agents) s) (he : ∀ a ∈ s.agents, a = .done) :
    ∃ g, s.metrics.gauges = some g ∧ g.insert = g₀.insert + agents.countP (· = .insert true) ∧
      g.delete = g₀.delete + (agents.map toDelete).sum := by
  obtain ⟨g, hg, hd, hi⟩ := remaining g₀ agents s h
  have hz : ∀ (w : Agent → Int), w .done = 0 → ∀ l : List Agent, (∀ a ∈ l, a = .done) → (l.map w).sum = 0 := by
    intro w hw l hl
    induction l with
    | nil => rfl
    | cons a l ih =>
      simp only [List.map_cons, List.sum_cons, hl a List.mem_cons_self, hw, ih (fun b hb => hl b (List.mem_cons_of_mem _ hb)), Int.add_zero]
  have hc : ∀ l : List Agent, (l.map toInsert).sum = (l.countP (· = .insert true) : Int) := by
    intro l
    induction l with
    | nil => rfl
    | cons a l ih =>
      simp only [List.map_cons, List.sum_cons, List.countP_cons, ih]
      unfold toInsert
      split
      · simp; omega
      · rename_i hne; rw [if_neg (by simpa using hne)]; omega
  rw [hz toDelete rfl _ he] at hd
  rw [hz toInsert rfl _ he, hc] at hi
  exact ⟨g, by rw [hg.1], by omega, by omega⟩

/-- what holds of the marks and the lists of the only clean-up -/
structure Marks (s : St) : Prop where
  one : s.agents.countP isClean ≤ 1
  nodup : s.tombs.Nodup
  lists : ∀ a ∈ s.agents, a.list.Nodup ∧ ∀ id ∈ a.list, id ∈ s.tombs

/-- how much more the gauge shows than there are marks, apart from marks that are just being removed -/
def surplus (s : St) (g : Gauges) : Int := g.tombstones + s.agents.countP between - s.tombs.length

theorem marks_keep {s s' : St} {before after : List Agent} {a a' : Agent} (hm : Marks s) (hs : s.agents = before ++ a :: after)
    (hs' : s'.agents = before ++ a' :: after) (hn : s'.tombs.Nodup) (hsub : ∀ id ∈ s.tombs, id ∈ s'.tombs)
    (hc : isClean a' = true → isClean a = true) (hl : a'.list.Nodup ∧ ∀ id ∈ a'.list, id ∈ s'.tombs) : Marks s' := by
  obtain ⟨h1, h2, h3⟩ := hm
  rw [hs] at h1 h3
  refine ⟨?_, hn, ?_⟩
  · rw [hs']
    simp only [List.countP_append, List.countP_cons] at h1 ⊢
    grind
  · rw [hs']
    intro b hb
    rcases List.mem_append.mp hb with hb | hb
    · have := h3 b (List.mem_append_left _ hb); exact ⟨this.1, fun id hid => hsub id (this.2 id hid)⟩
    · rcases List.mem_cons.mp hb with rfl | hb
      · exact hl
      · have := h3 b (List.mem_append_right _ (List.mem_cons_of_mem _ hb)); exact ⟨this.1, fun id hid => hsub id (this.2 id hid)⟩

theorem no_list {b : Agent} (h : isClean b = false) : b.list = [] := by cases b <;> simp_all [isClean, underWay, Agent.list]

theorem marks_unmark {s s' : St} {before after : List Agent} {a' : Agent} {id : Nat} {l : List Nat} (hm : Marks s)
    (hs : s.agents = before ++ .unmarking id l :: after) (hs' : s'.agents = before ++ a' :: after) (ht : s'.tombs = s.tombs.filter (· ≠ id))
    (hl : a'.list = l ∨ a'.list = []) : Marks s' := by
  obtain ⟨h1, h2, h3⟩ := hm
  rw [hs] at h1 h3
  have h0 : before.countP isClean = 0 ∧ after.countP isClean = 0 := by
    have hc : isClean (.unmarking id l) = true := rfl
    simp only [List.countP_append, List.countP_cons, hc, if_true] at h1; omega
  have ho : ∀ b, b ∈ before ∨ b ∈ after → b.list = [] := by
    intro b hb
    apply no_list
    rcases hb with hb | hb
    · simpa using List.countP_eq_zero.mp h0.1 b hb
    · simpa using List.countP_eq_zero.mp h0.2 b hb
  obtain ⟨hd, hin⟩ := h3 (.unmarking id l) (by simp)
  refine ⟨?_, ht ▸ h2.filter _, ?_⟩
  · rw [hs']
    simp only [List.countP_append, List.countP_cons, h0.1, h0.2]
    split <;> omega
  · rw [hs', ht]
    intro b hb
    rcases List.mem_append.mp hb with hb | hb
    · rw [ho b (.inl hb)]; simp
    · rcases List.mem_cons.mp hb with rfl | hb
      · rcases hl with hl | hl
        · rw [hl]
          obtain ⟨hd1, hd2⟩ := List.nodup_cons.mp hd
          refine ⟨hd2, fun x hx => ?_⟩
          simp only [List.mem_filter, decide_eq_true_eq]
          exact ⟨hin x (List.mem_cons_of_mem _ hx), fun h => hd1 (h ▸ hx)⟩
        · rw [hl]; simp
      · rw [ho b (.inr hb)]; simp

theorem surplus_step {s s' : St} {g : Gauges} (h : Step s s') (hg : Shows s g) (hm : Marks s) :
    ∃ g', Shows s' g' ∧ Marks s' ∧ surplus s g ≤ surplus s' g' ∧
      ((s.agents.flatMap targets).Nodup → (∀ id ∈ s.agents.flatMap targets, id ∉ s.tombs) →
        (s'.agents.flatMap targets).Nodup ∧ (∀ id ∈ s'.agents.flatMap targets, id ∉ s'.tombs) ∧ surplus s g = surplus s' g') := by
  obtain ⟨before, after, a, a', fs, t, hs, hl, hs', ht, hg'⟩ := step_shows h hg
  refine ⟨_, hg', ?_⟩
  have hlist := hm.lists a (by simp [hs])
  have hnd := hm.nodup
  have key : ∀ {f : Agent → Bool}, ((s.agents.countP f : Nat) : Int) = before.countP f + after.countP f + (if f a then 1 else 0) ∧
      ((s'.agents.countP f : Nat) : Int) = before.countP f + after.countP f + (if f a' then 1 else 0) := by
    intro f
    rw [hs, hs']
    simp only [List.countP_append, List.countP_cons]
    constructor <;> split <;> omega
  have hb := @key between
  -- the targets that stay
  have keepT : (targets a' = targets a ∨ targets a' = []) → (∀ x ∈ before.flatMap targets ++ after.flatMap targets, x ∉ targets a → x ∉ s.tombs → x ∉ t) →
      (∀ x ∈ targets a', x ∉ s.tombs → x ∉ t) →
      (s.agents.flatMap targets).Nodup → (∀ id ∈ s.agents.flatMap targets, id ∉ s.tombs) →
      (s'.agents.flatMap targets).Nodup ∧ (∀ id ∈ s'.agents.flatMap targets, id ∉ s'.tombs) := by
    intro h1 h2 h3 h4 h5
    rw [hs] at h4 h5
    rw [hs', ht]
    simp only [List.flatMap_append, List.flatMap_cons, List.nodup_append, List.mem_append] at h4 h5 h2 ⊢
    clear hb key hlist hg' hl hs'
    generalize before.flatMap targets = X at *
    generalize after.flatMap targets = Y at *
    generalize targets a = A at *
    generalize targets a' = A' at *
    rcases h1 with rfl | rfl
    · grind
    · simp only [List.not_mem_nil, List.nodup_nil]; grind
  cases hl with
  | delete ids =>
    refine ⟨marks_keep hm hs hs' (ht ▸ marks_nodup hnd ids) (fun id hid => by rw [ht]; exact mem_marks.mpr (.inr hid)) (by simp [isClean, underWay])
      (by simp [Agent.list]), ?_, ?_⟩
    · simp only [surplus, ht, foldl_addTombstone, hb.1, hb.2]
      have := marks_length s.tombs ids
      simp [between]; omega
    · intro h4 h5
      refine and_assoc.mp ⟨keepT (.inr rfl) (fun x _ hx hx' => by rw [mem_marks]; simp [targets] at hx; simp [hx, hx']) (by simp [targets]) h4 h5, ?_⟩
      rw [hs] at h4 h5
      have := marks_length_new (t := s.tombs) (ids := ids) (by
        simp only [List.flatMap_append, List.flatMap_cons, List.nodup_append, targets] at h4; exact h4.2.1.1)
        (fun id hid => h5 id (by simp [targets, hid]))
      simp only [surplus, ht, foldl_addTombstone, hb.1, hb.2]
      simp [between]; omega
  | search id =>
    refine ⟨marks_keep hm hs hs' (ht ▸ mark_nodup hnd id) (fun x hx => by rw [ht]; exact mem_mark.mpr (.inr hx)) (by simp [isClean, underWay])
      (by simp [Agent.list]), ?_, ?_⟩
    · simp only [surplus, ht, hb.1, hb.2]
      have := mark_length s.tombs id
      simp [between, Method.apply]; omega
    · intro h4 h5
      refine and_assoc.mp ⟨keepT (.inr rfl) (fun x _ hx hx' => by rw [mem_mark]; simp [targets] at hx; simp [hx, hx']) (by simp [targets]) h4 h5, ?_⟩
      rw [hs] at h4 h5
      have := mark_length_new (h5 id (by simp [targets]))
      simp only [surplus, ht, hb.1, hb.2]
      simp [between, Method.apply]; omega
  | handleAdd id =>
    refine ⟨marks_keep hm hs hs' (ht ▸ mark_nodup hnd id) (fun x hx => by rw [ht]; exact mem_mark.mpr (.inr hx)) (by simp [isClean, underWay])
      (by simp [Agent.list]), ?_, ?_⟩
    · simp only [surplus, ht, hb.1, hb.2]
      have := mark_length s.tombs id
      simp [between, Method.apply]; omega
    · intro h4 h5
      refine and_assoc.mp ⟨keepT (.inr rfl) (fun x _ hx hx' => by rw [mem_mark]; simp [targets] at hx; simp [hx, hx']) (by simp [targets]) h4 h5, ?_⟩
      rw [hs] at h4 h5
      have := mark_length_new (h5 id (by simp [targets]))
      simp only [surplus, ht, hb.1, hb.2]
      simp [between, Method.apply]; omega
  | unmark id l =>
    have hlen := unmark_length hnd (hlist.2 id (by simp [Agent.list]))
    have he : surplus s g = surplus s' g := by
      simp only [surplus, ht, hb.1, hb.2]; simp [between] at hlen ⊢; omega
    exact ⟨marks_unmark hm hs hs' ht (.inl rfl), Int.le_of_eq he, fun h4 h5 => and_assoc.mp
      ⟨keepT (.inl rfl) (fun x _ _ hx => by simp [hx]) (by simp [targets]) h4 h5, he⟩⟩
  | unmarkFail id l =>
    have hlen := unmark_length hnd (hlist.2 id (by simp [Agent.list]))
    have he : surplus s g = surplus s' g := by
      simp only [surplus, ht, hb.1, hb.2]; simp [between] at hlen ⊢; omega
    exact ⟨marks_unmark hm hs hs' ht (.inr rfl), Int.le_of_eq he, fun h4 h5 => and_assoc.mp
      ⟨keepT (.inl rfl) (fun x _ _ hx => by simp [hx]) (by simp [targets]) h4 h5, he⟩⟩
  | insert b =>
    have he : surplus s g = surplus s' ((if b then [Method.insertVector] else []).foldl (fun g f => f.apply g) g) := by
      simp only [surplus, ht, hb.1, hb.2]; cases b <;> simp [between, Method.apply]
    exact ⟨marks_keep hm hs hs' (ht ▸ hnd) (fun x hx => ht ▸ hx) (by simp [isClean, underWay]) (by simp [Agent.list]), Int.le_of_eq he,
      fun h4 h5 => and_assoc.mp ⟨keepT (.inr rfl) (fun _ _ _ hx => hx) (fun _ _ hx => hx) h4 h5, he⟩⟩
  | copy l h6 h7 =>
    have he : surplus s g = surplus s' g := by simp only [surplus, ht, hb.1, hb.2]; simp [between]
    exact ⟨marks_keep hm hs hs' (ht ▸ hnd) (fun x hx => ht ▸ hx) (by simp [isClean, underWay]) ⟨h6, fun id hid => ht ▸ (h7 id).mp hid⟩,
      Int.le_of_eq he, fun h4 h5 => and_assoc.mp ⟨keepT (.inl rfl) (fun _ _ _ hx => hx) (fun _ _ hx => hx) h4 h5, he⟩⟩
  | _ =>
    refine ⟨marks_keep hm hs hs' (ht ▸ hnd) (fun x hx => ht ▸ hx) (by simp [isClean, underWay]) ?_, ?_, fun h4 h5 => and_assoc.mp
      ⟨keepT (by simp [targets]) (fun _ _ _ hx => hx) (fun _ _ hx => hx) h4 h5, ?_⟩⟩
    · rw [ht]; first | exact hlist | simp [Agent.list] | (simp [Agent.list] at hlist ⊢; grind)
    · simp only [surplus, ht, hb.1, hb.2]; simp [between, Method.apply]; try omega
    · simp only [surplus, ht, hb.1, hb.2]; simp [between, Method.apply]; try omega

theorem marks_init (g : Gauges) (agents : List Agent) (hf : ∀ a ∈ agents, Fresh a) (h1 : agents.countP isClean ≤ 1) :
    Marks (St.init (some g) agents) :=
  ⟨h1, List.nodup_nil, fun a ha => by have := hf a ha; cases a <;> simp_all [Fresh, Agent.list]⟩

theorem marks_steps (g : Gauges) (agents : List Agent) (hf : ∀ a ∈ agents, Fresh a) (h1 : agents.countP isClean ≤ 1) (s : St)
    (h : Steps (St.init (some g) agents) s) : ∃ g, Shows s g ∧ Marks s := by
  induction h with
  | refl => exact ⟨g, shows_init _ _, marks_init _ _ hf h1⟩
  | step _ h ih =>
    obtain ⟨g, hg, hm⟩ := ih
    obtain ⟨g', hg', hm', _⟩ := surplus_step h hg hm
    exact ⟨g', hg', hm'⟩

/-- **What is counted too much is never taken off**: with at most one clean-up (FaVe's cycle runs one after the other), however the calls
interleave, the surplus of the gauge over the number of marked ids only grows. -/
theorem surplus_stays_partial (g₀ : Gauges) (agents : List Agent) (hf : ∀ a ∈ agents, Fresh a) (h1 : agents.countP isClean ≤ 1) (s s' : St)
    (h : Steps (St.init (some g₀) agents) s) (h' : Steps s s') :
    ∃ g g', s.metrics.gauges = some g ∧ s'.metrics.gauges = some g' ∧
      g.tombstones + s.agents.countP between - s.tombs.length ≤ g'.tombstones + s'.agents.countP between - s'.tombs.length := by
  obtain ⟨g, hg, hm⟩ := marks_steps g₀ agents hf h1 s h
  suffices ∃ g', Shows s' g' ∧ Marks s' ∧ surplus s g ≤ surplus s' g' from
    this.elim fun g' h => ⟨g, g', by rw [hg.1], by rw [h.1.1], h.2.2⟩
  induction h' with
  | refl => exact ⟨g, hg, hm, Int.le_refl _⟩
  | step _ h ih =>
    obtain ⟨g1, hg1, hm1, h1⟩ := ih
    obtain ⟨g2, hg2, hm2, h2, _⟩ := surplus_step h hg1 hm1
    exact ⟨g2, hg2, hm2, Int.le_trans h1 h2⟩

/-- **The gauge never shows too few marks** with at most one clean-up, apart from the one that is just being removed; and every id is
marked once. -/
theorem never_too_few_partial (g₀ : Gauges) (agents : List Agent) (hf : ∀ a ∈ agents, Fresh a) (h1 : agents.countP isClean ≤ 1) (s : St)
    (h : Steps (St.init (some g₀) agents) s) :
    ∃ g, s.metrics.gauges = some g ∧ s.tombs.Nodup ∧ (s.tombs.length : Int) ≤ g.tombstones - g₀.tombstones + s.agents.countP between ∧
      s.agents.countP between ≤ 1 := by
  obtain ⟨g, g', hg, hg', hle⟩ := surplus_stays_partial g₀ agents hf h1 _ s .refl h
  obtain ⟨_, _, hm⟩ := marks_steps g₀ agents hf h1 s h
  cases hg
  have h0 : agents.countP between = 0 := List.countP_eq_zero.mpr (fun a ha => by have := hf a ha; cases a <;> simp_all [Fresh, between])
  simp [St.init, h0] at hle
  refine ⟨g', hg', hm.nodup, by omega, Nat.le_trans (List.countP_mono_left (fun a _ => ?_)) hm.one⟩
  cases a <;> simp [between, isClean, underWay]

/-- **The gauge shows the number of marks** if no id is marked by two calls and there is at most one clean-up, at every moment and however
the calls interleave, apart from the one mark that is just being removed. -/
theorem tombstone_gauge_partial (g₀ : Gauges) (agents : List Agent) (hf : ∀ a ∈ agents, Fresh a) (h1 : agents.countP isClean ≤ 1)
    (hd : (agents.flatMap targets).Nodup) (s : St) (h : Steps (St.init (some g₀) agents) s) :
    ∃ g, s.metrics.gauges = some g ∧ s.tombs.Nodup ∧ g.tombstones = g₀.tombstones + s.tombs.length - s.agents.countP between := by
  suffices ∃ g, Shows s g ∧ Marks s ∧ (s.agents.flatMap targets).Nodup ∧ (∀ id ∈ s.agents.flatMap targets, id ∉ s.tombs) ∧
      surplus (St.init (some g₀) agents) g₀ = surplus s g by
    obtain ⟨g, hg, hm, _, _, he⟩ := this
    refine ⟨g, by rw [hg.1], hm.nodup, ?_⟩
    have h0 : agents.countP between = 0 := List.countP_eq_zero.mpr (fun a ha => by have := hf a ha; cases a <;> simp_all [Fresh, between])
    simp [surplus, St.init, h0] at he
    omega
  induction h with
  | refl => exact ⟨g₀, shows_init _ _, marks_init _ _ hf h1, hd, by simp [St.init], rfl⟩
  | step _ h ih =>
    obtain ⟨g, hg, hm, h4, h5, h6⟩ := ih
    obtain ⟨g', hg', hm', _, h7⟩ := surplus_step h hg hm
    obtain ⟨h8, h9, h10⟩ := h7 h4 h5
    exact ⟨g', hg', hm', h8, h9, h6.trans h10⟩

/-! ## Examples and counterexamples -/

theorem go {s₀ s : St} (h : Steps s₀ s) (before after : List Agent) {a a' : Agent} {fs : List Method} {t : List Nat} (hl : Local s.tombs a fs t a')
    (hs : s.agents = before ++ a :: after) : Steps s₀ { s.report fs with tombs := t, agents := before ++ a' :: after } :=
  .step h (.mk s before after a a' fs t hs hl)

/-- an insertion, a deletion of two ids, a third id found to be gone, then a clean-up that relinks one node, removes id 5 and fails: the
numbers are right at the end and on the way -/
def calls : List Agent := [.insert true, .delete [5, 7], .handle 9, .clean]

def faultless : List Agent := [.done, .done, .done, .ending]

theorem reached : Steps (St.init (some {}) calls)
    ⟨⟨true, some { tombstones := 2, threads := 1, insert := 1, delete := 2, cleaned := 1 }⟩, [9, 7], faultless, false⟩ :=
  have h1 := go (.refl (s := St.init (some {}) calls)) [] [.delete [5, 7], .handle 9, .clean] (.insert _ true) rfl
  have h2 := go h1 [.done] [.handle 9, .clean] (.delete _ [5, 7]) rfl
  have h3 := go h2 [.done] [.handle 9, .clean] (.deleteOne _ 1) rfl
  have h4 := go h3 [.done] [.handle 9, .clean] (.deleteOne _ 0) rfl
  have h5 := go h4 [.done] [.handle 9, .clean] (.deleteEnd _) rfl
  have h6 := go h5 [.done, .done] [.clean] (.handleNew _ 9 (by decide)) rfl
  have h7 := go h6 [.done, .done] [.clean] (.handleAdd _ 9) rfl
  have h8 := go h7 [.done, .done, .done] [] (.clean _) rfl
  have h9 := go h8 [.done, .done, .done] [] (.copy _ [5, 7, 9] (by decide) (fun id => by
    show id ∈ [5, 7, 9] ↔ id ∈ [9, 7, 5]; simp only [List.mem_cons, List.not_mem_nil]; grind)) rfl
  have h10 := go h9 [.done, .done, .done] [] (.relinked _ _) rfl
  have h11 := go h10 [.done, .done, .done] [] (.relinkEnd _ _) rfl
  have h12 := go h11 [.done, .done, .done] [] (.removeOne _ 5 [7, 9]) rfl
  go h12 [.done, .done, .done] [] (.unmarkFail _ 5 [7, 9]) rfl

example : (∀ a ∈ calls, Fresh a) ∧ calls.countP isClean ≤ 1 ∧ (calls.flatMap targets).Nodup ∧ calls.flatMap targets ≠ [] := by decide

example := threads_gauge {} calls (by decide) _ reached
example := tombstone_gauge_partial {} calls (by decide) (by decide) (by decide) _ reached
example := never_too_few_partial {} calls (by decide) (by decide) _ reached
example := surplus_stays_partial {} calls (by decide) (by decide) _ _ reached .refl
example := reporting_is_invisible (some {}) none calls _ reached
example := counters {} calls _ (go reached [.done, .done, .done] [] (.ending _) rfl) (by simp)

/-- The moment between: the gauge already shows one less. -/
example : ∃ s, Steps (St.init (some {}) [.delete [5], .clean]) s ∧ s.tombs = [5] ∧ s.metrics.gauges.map (·.tombstones) = some 0 :=
  have h1 := go (.refl (s := St.init (some {}) [.delete [5], .clean])) [] [.clean] (.delete _ [5]) rfl
  have h2 := go h1 [.deleting 1] [] (.clean _) rfl
  have h3 := go h2 [.deleting 1] [] (.copy _ [5] (by decide) (fun _ => Iff.rfl)) rfl
  have h4 := go h3 [.deleting 1] [] (.relinkEnd _ _) rfl
  ⟨_, go h4 [.deleting 1] [] (.removeOne _ 5 []) rfl, rfl, rfl⟩

/-- The same id deleted twice and cleaned up completely: no mark is left, the gauge shows one. -/
theorem deleted_twice : ∃ s, Steps (St.init (some {}) [.delete [5, 5], .clean]) s ∧ (∀ a ∈ s.agents, a = .done) ∧ s.tombs = [] ∧
    s.metrics.gauges.map (·.tombstones) = some 1 :=
  have h1 := go (.refl (s := St.init (some {}) [.delete [5, 5], .clean])) [] [.clean] (.delete _ [5, 5]) rfl
  have h2 := go h1 [] [.clean] (.deleteOne _ 1) rfl
  have h3 := go h2 [] [.clean] (.deleteOne _ 0) rfl
  have h4 := go h3 [] [.clean] (.deleteEnd _) rfl
  have h5 := go h4 [.done] [] (.clean _) rfl
  have h6 := go h5 [.done] [] (.copy _ [5] (by decide) (fun _ => Iff.rfl)) rfl
  have h7 := go h6 [.done] [] (.relinkEnd _ _) rfl
  have h8 := go h7 [.done] [] (.removeOne _ 5 []) rfl
  have h9 := go h8 [.done] [] (.unmark _ 5 []) rfl
  have h10 := go h9 [.done] [] (.removeEnd _) rfl
  ⟨_, go h10 [.done] [] (.ending _) rfl, by simp, rfl, rfl⟩

/-- Every search that meets a node that is gone counts it anew, without any call running at the same time: `n` searches, one mark, the gauge
shows `n`. -/
theorem searched_twice (n : Nat) : ∃ s, Steps (St.init (some {}) (List.replicate (n + 1) (.search 5))) s ∧ (∀ a ∈ s.agents, a = .done) ∧
    s.tombs = [5] ∧ s.metrics.gauges.map (·.tombstones) = some (n + 1 : Int) := by
  suffices ∀ k m, k + m = n → ∃ s, Steps (St.init (some {}) (List.replicate (n + 1) (.search 5))) s ∧
      s.agents = List.replicate (k + 1) .done ++ List.replicate m (.search 5) ∧ s.tombs = [5] ∧
      s.metrics = ⟨true, some { tombstones := (k + 1 : Int) }⟩ by
    obtain ⟨s, h1, h2, h3, h4⟩ := this n 0 rfl
    refine ⟨s, h1, fun a ha => ?_, h3, by rw [h4]; rfl⟩
    rw [h2] at ha
    simp at ha
    exact ha
  intro k
  induction k with
  | zero =>
    intro m hm
    have : m = n := by omega
    subst this
    exact ⟨_, go .refl [] (List.replicate m (.search 5)) (.search _ 5) rfl, rfl, rfl, rfl⟩
  | succ k ih =>
    intro m hm
    obtain ⟨s, h1, h2, h3, h4⟩ := ih (m + 1) (by omega)
    refine ⟨_, go h1 (List.replicate (k + 1) .done) (List.replicate m (.search 5)) (.search _ 5) (by rw [h2]; rfl), ?_, ?_, ?_⟩
    · simp only [List.replicate_succ' (n := k + 1), List.append_assoc, List.singleton_append]
    · simp [h3, mark]
    · simp [St.report, h4, Metrics.calls, Metrics.call, Method.apply]

/-- Two calls that find the same node gone at the same time both count it, although each looks for a mark first. -/
theorem found_at_once : ∃ s, Steps (St.init (some {}) [.handle 5, .handle 5]) s ∧ (∀ a ∈ s.agents, a = .done) ∧ s.tombs = [5] ∧
    s.metrics.gauges.map (·.tombstones) = some 2 :=
  have h1 := go (.refl (s := St.init (some {}) [.handle 5, .handle 5])) [] [.handle 5] (.handleNew _ 5 (by decide)) rfl
  have h2 := go h1 [.handleAdd 5] [] (.handleNew _ 5 (by decide)) rfl
  have h3 := go h2 [] [.handleAdd 5] (.handleAdd _ 5) rfl
  ⟨_, go h3 [.done] [] (.handleAdd _ 5) rfl, by simp, rfl, rfl⟩

/-- Two clean-ups at the same time — the exported `CleanUpTombstonedNodes` beside the cycle, or called twice — take the same mark off twice:
the gauge shows -1. -/
theorem cleaned_twice : ∃ s, Steps (St.init (some {}) [.delete [5], .clean, .clean]) s ∧ (∀ a ∈ s.agents, a = .done) ∧ s.tombs = [] ∧
    s.metrics.gauges.map (·.tombstones) = some (-1) :=
  have h1 := go (.refl (s := St.init (some {}) [.delete [5], .clean, .clean])) [] [.clean, .clean] (.delete _ [5]) rfl
  have h2 := go h1 [] [.clean, .clean] (.deleteOne _ 0) rfl
  have h3 := go h2 [] [.clean, .clean] (.deleteEnd _) rfl
  have h4 := go h3 [.done] [.clean] (.clean _) rfl
  have h5 := go h4 [.done] [.clean] (.copy _ [5] (by decide) (fun _ => Iff.rfl)) rfl
  have h6 := go h5 [.done, .relink [5]] [] (.clean _) rfl
  have h7 := go h6 [.done, .relink [5]] [] (.copy _ [5] (by decide) (fun _ => Iff.rfl)) rfl
  have h8 := go h7 [.done] [.relink [5]] (.relinkEnd _ _) rfl
  have h9 := go h8 [.done] [.relink [5]] (.removeOne _ 5 []) rfl
  have h10 := go h9 [.done] [.relink [5]] (.unmark _ 5 []) rfl
  have h11 := go h10 [.done] [.relink [5]] (.removeEnd _) rfl
  have h12 := go h11 [.done] [.relink [5]] (.ending _) rfl
  have h13 := go h12 [.done, .done] [] (.relinkEnd _ _) rfl
  have h14 := go h13 [.done, .done] [] (.removeOne _ 5 []) rfl
  have h15 := go h14 [.done, .done] [] (.unmark _ 5 []) rfl
  have h16 := go h15 [.done, .done] [] (.removeEnd _) rfl
  ⟨_, go h16 [.done, .done] [] (.ending _) rfl, by simp, rfl, rfl⟩

/-- An index opened anew in the same process has no marks but finds the gauge as the one before left it. -/
theorem opened_anew : ∃ s g, Steps (St.init (some {}) [.delete [5, 7]]) s ∧ (∀ a ∈ s.agents, a = .done) ∧ s.metrics.gauges = some g ∧
    (St.init (some g) []).tombs = [] ∧ (St.init (some g) []).metrics.gauges.map (·.tombstones) = some 2 :=
  have h1 := go (.refl (s := St.init (some {}) [.delete [5, 7]])) [] [] (.delete _ [5, 7]) rfl
  have h2 := go h1 [] [] (.deleteOne _ 1) rfl
  have h3 := go h2 [] [] (.deleteOne _ 0) rfl
  ⟨_, _, go h3 [] [] (.deleteEnd _) rfl, by simp, rfl, rfl, rfl⟩

end Fave.C95

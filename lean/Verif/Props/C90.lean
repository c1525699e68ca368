import Verif.Lemmas.Closing
/-!
# C90 — an index can be closed, and then nothing of it is running

The property: `Drop` and `Shutdown` of an index return, and then none of its goroutines is running; compressing returns as well and nobody
is kept waiting.

False of the code in several ways.  A second closing waits for ever (`second_close`), so does a closing that finds the index not yet
compressed and a run of `Compress` ends before it (`close_beside_run`).  Two updates of the configuration that switch compression on start
two runs; the second one waits for ever with `compressActionLock` held, and with it every search, addition and deletion
(`two_runs`, `nobody_enters`).  After the closing of an index that is not compressed, the watcher of the compressed cache is still running
(`watcher_stays`, `close_leaves_watcher`).  What holds: if the index is closed once, after all runs, and runs come one at a time, then
every call returns and only that one watcher can stay (`orderly_partial`, `closed_partial`).  In FaVe nobody closes an index (C91).
-/
namespace Fave.C90
open Closing

/-- Any calls at any time: of each cache at most one dropping returns, and it has if and only if the watcher of the cache has gone. -/
theorem one_drop {s : Sys} (k : Steps fresh s) (x : Which) : s.dropped x ≤ 1 ∧ (s.dropped x = 1 ↔ s.watch x = .stopped) := by
  have := (inv_steps inv_fresh k).count x
  split at this <;> simp_all

/-- Who sends to a watcher that has gone waits for ever. -/
theorem waits_for_ever {s u : Sys} {t : Nat} {x : Which} {c : Caller} (hp : s.pc t = .send x c) (hw : s.watch x = .stopped)
    (k : Steps s u) : u.pc t = .send x c ∧ u.watch x = .stopped := by
  induction k with
  | refl => exact ⟨hp, hw⟩
  | step _ e ih =>
    obtain ⟨a, b⟩ := ih
    cases e <;> simp only [Sys.goto, Sys.setWatch] <;> grind

/-- If that is a run of `Compress`, no search, addition or deletion gets the lock any more. -/
theorem nobody_enters {s u : Sys} {t : Nat} (k : Steps fresh s) (hp : s.pc t = .send .plain .compress) (hw : s.watch .plain = .stopped)
    (k' : Steps s u) : ∀ v, u.pc v ≠ .using := by
  have hi := inv_steps inv_fresh (k.trans k')
  have h := (waits_for_ever hp hw k').1
  intro v hv
  have h1 := (hi.writer t).mp (by rw [h]; rfl)
  have h2 := hi.apart (by rw [h1]; simp)
  have h3 := (hi.readers v).mp hv
  rw [h2] at h3; cases h3

/-- As long as an index is not compressed, the watcher of the compressed cache is running, whatever is called. -/
theorem watcher_stays {s : Sys} (k : Steps fresh s) (h : s.compressed = false) : s.watch .coded ≠ .stopped :=
  (inv_steps inv_fresh k).other h

/-- Used in order, everything returns: from every such state every goroutine can finish its call without further calls and failures. -/
theorem orderly_partial {s : Sys} (k : Steps fresh s) (hm : s.mixed = false) (t : Nat) :
    ∃ u, Steps s u ∧ u.pc t = .idle ∧ u.calls = s.calls ∧ u.failed = s.failed := by
  have hi := inv_steps inv_fresh k
  obtain ⟨ph, t₀, h⟩ := orderly k hm
  -- the goroutine that closes or compresses
  have main : (s.pc t₀).free = false → (s.pc t₀ = .fitting → s.readers = []) → ∃ u, Quiet t₀ s u ∧ u.pc t₀ = .idle := by
    intro hf hr
    have h2 := h.2.1
    have h3 := h.2.2
    have e1 : s.compressed = ph.facts.1 := congrArg Prod.fst h3
    have e2 : decide (s.watch .plain = .stopped) = ph.facts.2.1 := congrArg (·.2.1) h3
    have e3 : decide (s.watch .coded = .stopped) = ph.facts.2.2.1 := congrArg (·.2.2.1) h3
    cases ph <;> simp only [Phase.at, Bool.or_eq_true, decide_eq_true_eq] at h2 <;> simp only [Phase.facts, decide_eq_false_iff_not] at e1 e2 e3
    case new | compressed | closed | closedC => rw [h2] at hf; cases hf
    case fitting =>
      rcases h2 with h2 | h2
      · have hr := hr h2
        have hwr : s.writer = none := by
          cases hw : s.writer with
          | none => rfl
          | some w =>
            have hl := (hi.writer w).mpr hw
            by_cases e : w = t₀
            · subst e; rw [h2] at hl; cases hl
            · exact (free_locked (h.1 w e) hl).elim
        obtain ⟨u, a, b⟩ := fin_storing (s := { s.goto t₀ .storing with writer := some t₀ }) (here s t₀ _) e2
        exact ⟨u, Quiet.trans ⟨.step (.refl _) (.lock s t₀ h2 hwr hr), fun v hv => goto_ne s _ hv, rfl, rfl⟩ a, b⟩
      · exact fin_storing h2 e2
    case marked =>
      rcases h2 with h2 | h2
      · exact fin_clear h2 e2
      · exact fin_send h2 e2
    case moved | dropped | droppedC => exact fin_done h2
    case closing =>
      rcases h2 with (h2 | h2) | h2
      · exact fin_closing h2 (by simpa [Sys.used, e1] using e2)
      · exact fin_clear h2 e2
      · exact fin_send h2 e2
    case closingC =>
      rcases h2 with (h2 | h2) | h2
      · exact fin_closing h2 (by simpa [Sys.used, e1] using e3)
      · exact fin_clear h2 e3
      · exact fin_send h2 e3
  by_cases ht : (s.pc t).free = true
  · cases hp : s.pc t <;> rw [hp] at ht <;> first | cases ht | skip
    · exact ⟨s, .refl _, hp, rfl, rfl⟩
    · -- waiting for the lock
      have fin : ∀ u : Sys, u.pc t = .wanting → u.writer = none →
          ∃ w, Steps u w ∧ w.pc t = .idle ∧ w.calls = u.calls ∧ w.failed = u.failed := by
        intro u hu hw
        refine ⟨_, .step (.step (.refl _) (.enter u t hu hw)) (.leave _ t (here u t _)), here _ t _, rfl, rfl⟩
      cases hw : s.writer with
      | none => exact fin s hp hw
      | some w =>
        have hl := (hi.writer w).mpr hw
        have hwt : w = t₀ := only h (by cases hq : s.pc w <;> rw [hq] at hl <;> first | rfl | cases hl)
        subst hwt
        obtain ⟨u, a, b⟩ := main (by cases hq : s.pc w <;> rw [hq] at hl <;> first | rfl | cases hl)
          (fun hf => by rw [hf] at hl; cases hl)
        have htw : t ≠ w := by rintro rfl; rw [hp] at hl; cases hl
        have hu := inv_steps hi a.steps
        have hn : u.writer = none := by
          cases hx : u.writer with
          | none => rfl
          | some y =>
            have hy := (hu.writer y).mpr hx
            by_cases e : y = w
            · subst e; rw [b] at hy; cases hy
            · rw [a.pcs y e] at hy
              exact (free_locked (h.1 y e) hy).elim
        obtain ⟨x, c1, c2, c3, c4⟩ := fin u ((a.pcs t htw).trans hp) hn
        exact ⟨x, a.steps.trans c1, c2, c3.trans a.calls, c4.trans a.failed⟩
    · exact ⟨_, .step (.refl _) (.leave s t hp), here s t _, rfl, rfl⟩
  · have ht : (s.pc t).free = false := by simpa using ht
    obtain rfl := only h ht
    by_cases hf : s.pc t = .fitting
    · -- first everybody returns who has the lock for reading
      obtain ⟨v, a1, a2, a3, a4, a5, a6, a7⟩ := drain _ s hi rfl
      have hv := inv_steps hi a1
      have hpv : v.pc t = .fitting := (a3 t (by rw [hf]; simp)).trans hf
      have hst : s.watch .plain ≠ .stopped := by
        have h2 := h.2.1
        have h3 := h.2.2
        rw [hf] at h2
        cases ph <;> simp [Phase.at, Pc.free] at h2
        have e2 : decide (s.watch .plain = .stopped) = Phase.fitting.facts.2.1 := congrArg (·.2.1) h3
        simpa [Phase.facts] using e2
      have hwr : v.writer = none := by
        rw [a5]
        cases hw : s.writer with
        | none => rfl
        | some w =>
          have hl := (hi.writer w).mpr hw
          by_cases e : w = t
          · subst e; rw [hf] at hl; cases hl
          · exact (free_locked (h.1 w e) hl).elim
      obtain ⟨u, b1, b2⟩ := fin_storing (s := { v.goto t .storing with writer := some t }) (here v t _) (by rw [← a4] at hst; exact hst)
      exact ⟨u, (a1.trans (.step (.refl _) (.lock v t hpv hwr a2))).trans b1.steps, b2, b1.calls.trans a6, b1.failed.trans a7⟩
    · obtain ⟨u, a, b⟩ := main ht (fun e => absurd e hf)
      exact ⟨u, a.steps, b, a.calls, a.failed⟩

/-- Used in order, after the closing the watcher of the plain cache has gone, and the other one exactly if the index was compressed. -/
theorem closed_partial {s : Sys} (k : Steps fresh s) (hm : s.mixed = false) (hc : s.closed ≠ 0) :
    s.watch .plain = .stopped ∧ (s.watch .coded = .stopped ↔ s.compressed = true) := by
  obtain ⟨ph, t₀, h⟩ := orderly k hm
  have h3 := h.2.2
  have e1 : s.compressed = ph.facts.1 := congrArg Prod.fst h3
  have e2 : decide (s.watch .plain = .stopped) = ph.facts.2.1 := congrArg (·.2.1) h3
  have e3 : decide (s.watch .coded = .stopped) = ph.facts.2.2.1 := congrArg (·.2.2.1) h3
  have e4 : s.closed = ph.facts.2.2.2.2 := congrArg (·.2.2.2.2) h3
  cases ph <;> simp_all [Phase.facts]

/-- A second `Drop` waits for ever. -/
theorem second_close : ∃ s, Steps fresh s ∧ s.closed = 1 ∧ ∀ u, Steps s u → u.pc 1 = .send .plain .close := by
  refine ⟨_, .step (.step (.step (.step (.step (.step (.step (.step (.refl _) (.close _ 0 rfl)) (.choose _ 0 rfl)) (.clear _ 0 _ _ rfl)) (.send _ 0 _ _ rfl rfl)) (.closed _ 0 rfl)) (.close _ 1 rfl)) (.choose _ 1 rfl)) (.clear _ 1 _ _ rfl), rfl, ?_⟩
  intro u k
  exact (waits_for_ever rfl rfl k).1

/-- Two runs of `Compress`: the first one is completed, the second one waits for ever, and with it whoever comes. -/
theorem two_runs : ∃ s, Steps fresh s ∧ s.compressed = true ∧ s.closes = 0 ∧ s.failed = 0 ∧ s.dropped .plain = 1 ∧ s.pc 2 = .wanting ∧
    ∀ u, Steps s u → u.pc 1 = .send .plain .compress ∧ ∀ v, u.pc v ≠ .using := by
  have k : Steps fresh _ := .step (.step (.step (.step (.step (.step (.step (.step (.step (.step (.step (.step (.step (.step (.refl _) (.begin _ 0 rfl rfl)) (.begin _ 1 rfl rfl)) (.lock _ 0 rfl rfl rfl)) (.mark _ 0 rfl)) (.clear _ 0 _ _ rfl)) (.send _ 0 _ _ rfl rfl)) (.unlock _ 0 rfl)) (.want _ 2 rfl)) (.enter _ 2 rfl rfl)) (.leave _ 2 rfl)) (.lock _ 1 rfl rfl rfl)) (.mark _ 1 rfl)) (.clear _ 1 _ _ rfl)) (.want _ 2 rfl)
  refine ⟨_, k, rfl, rfl, rfl, rfl, rfl, ?_⟩
  intro u k'
  exact ⟨(waits_for_ever rfl rfl k').1, nobody_enters k (t := 1) rfl rfl k'⟩

/-- A closing beside a run of `Compress`: it chose the plain cache, which the run then drops; it waits for ever. -/
theorem close_beside_run : ∃ s, Steps fresh s ∧ s.closes = 1 ∧ s.active = [] ∧ ∀ u, Steps s u → u.pc 0 = .send .plain .close := by
  refine ⟨_, .step (.step (.step (.step (.step (.step (.step (.step (.step (.refl _) (.begin _ 1 rfl rfl)) (.lock _ 1 rfl rfl rfl)) (.close _ 0 rfl)) (.choose _ 0 rfl)) (.mark _ 1 rfl)) (.clear _ 1 _ _ rfl)) (.send _ 1 _ _ rfl rfl)) (.unlock _ 1 rfl)) (.clear _ 0 _ _ rfl), rfl, rfl, ?_⟩
  intro u k
  exact (waits_for_ever rfl rfl k).1

/-- A run of `Compress` that comes to its end after a closing waits for ever with the lock. -/
theorem run_beside_close : ∃ s, Steps fresh s ∧ s.closed = 1 ∧ ∀ u, Steps s u → u.pc 1 = .send .plain .compress ∧ ∀ v, u.pc v ≠ .using := by
  have k : Steps fresh _ := .step (.step (.step (.step (.step (.step (.step (.step (.step (.refl _) (.begin _ 1 rfl rfl)) (.close _ 0 rfl)) (.choose _ 0 rfl)) (.clear _ 0 _ _ rfl)) (.send _ 0 _ _ rfl rfl)) (.closed _ 0 rfl)) (.lock _ 1 rfl rfl rfl)) (.mark _ 1 rfl)) (.clear _ 1 _ _ rfl)
  refine ⟨_, k, rfl, ?_⟩
  intro u k'
  exact ⟨(waits_for_ever rfl rfl k').1, nobody_enters k (t := 1) rfl rfl k'⟩

/-- One `Drop` and nothing else: it returns, and the watcher of the compressed cache is running. -/
theorem close_leaves_watcher : ∃ s, Steps fresh s ∧ s.mixed = false ∧ s.closed = 1 ∧ (∀ t, s.pc t = .idle) ∧
    s.watch .plain = .stopped ∧ s.watch .coded = .waiting := by
  refine ⟨_, .step (.step (.step (.step (.step (.refl _) (.close _ 0 rfl)) (.choose _ 0 rfl)) (.clear _ 0 _ _ rfl)) (.send _ 0 _ _ rfl rfl)) (.closed _ 0 rfl), rfl, rfl, ?_, rfl, rfl⟩
  intro t
  by_cases h : t = 0 <;> simp [Sys.goto, Sys.setWatch, fresh, h]

/-! Non-vacuity: an orderly life with a failed run, a run, a search before and one during it, and a closing; and the state in the middle. -/
example : ∃ s, Steps fresh s ∧ s.mixed = false ∧ s.closed = 1 ∧ s.compressed = true ∧ s.failed = 1 ∧ s.calls = 5 ∧
    s.watch .plain = .stopped ∧ s.watch .coded = .stopped :=
  ⟨_, .step (.step (.step (.step (.step (.step (.step (.step (.step (.step (.step (.step (.step (.step (.step (.step (.step (.step (.step (.step (.step (.refl _) (.want _ 3 rfl)) (.enter _ 3 rfl rfl)) (.begin _ 1 rfl rfl)) (.fail _ 1 rfl)) (.begin _ 1 rfl rfl)) (.leave _ 3 rfl)) (.lock _ 1 rfl rfl rfl)) (.want _ 2 rfl)) (.tick _ .plain rfl)) (.mark _ 1 rfl)) (.clear _ 1 _ _ rfl)) (.back _ .plain rfl)) (.send _ 1 _ _ rfl rfl)) (.unlock _ 1 rfl)) (.enter _ 2 rfl rfl)) (.leave _ 2 rfl)) (.close _ 0 rfl)) (.choose _ 0 rfl)) (.clear _ 0 _ _ rfl)) (.send _ 0 _ _ rfl rfl)) (.closed _ 0 rfl), rfl, rfl, rfl, rfl, rfl, rfl, rfl⟩

example : ∃ s, Steps fresh s ∧ s.mixed = false ∧ s.pc 1 = .clear .plain .compress ∧ s.pc 2 = .wanting ∧ s.writer = some 1 ∧
    s.watch .plain = .replacing :=
  ⟨_, .step (.step (.step (.step (.step (.step (.step (.step (.step (.step (.refl _) (.want _ 3 rfl)) (.enter _ 3 rfl rfl)) (.begin _ 1 rfl rfl)) (.fail _ 1 rfl)) (.begin _ 1 rfl rfl)) (.leave _ 3 rfl)) (.lock _ 1 rfl rfl rfl)) (.want _ 2 rfl)) (.tick _ .plain rfl)) (.mark _ 1 rfl), rfl, rfl, rfl, rfl, rfl⟩

end Fave.C90

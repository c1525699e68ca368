import Verif.Spec.Backup
/-!
# C60 — Pausing maintenance is all or nothing

Full statement (comments of backup.go:24-29, 58-59, 65-66, 144-145): after `PauseMaintenance` without error no background work runs;
after an error all of it runs as before; `ResumeMaintenance` starts everything and fails if nothing was paused.

**False** of the code: if the commit log cannot be stopped although the context has not expired, the error is lost, and the caller is
told that everything is paused while the commit log is still switched and condensed (`lost_error`).  `ResumeMaintenance` never fails
(`resume_never_fails`).  A failed `Shutdown` of the index leaves part of the work stopped (`failed_shutdown_splits`).

`pause_all_or_nothing_partial` proves the rest for every sequence of calls: if stopping the commit log fails only because the context
expires, then background work runs or is stopped as a whole, as the caller believes from the answers.
-/
namespace Fave.C60
open Fave.Log

/-- all cycles run, or none -/
def all (b : Bool) : Cycles := ⟨b, b, b⟩

theorem pause_once (b : Bool) (o : Attempt) (h : o.Timely) : ∃ e, (all b).pause o = (all e, e) := by
  unfold Attempt.Timely at h
  obtain ⟨s, n, t, x⟩ := o
  refine ⟨_, Prod.ext ?_ rfl⟩
  revert h
  cases b <;> cases s <;> cases n <;> cases t <;> cases x <;> simp [all, Cycles.pause, Cycles.shutdownLog, stopCycle, Cycles.startLog]

/-- For every sequence of calls: background work runs as a whole or not at all, exactly as the caller believes. -/
theorem pause_all_or_nothing_partial (b : Bool) (es : List MEv) (h : ∀ o, .pause o ∈ es → o.Timely) :
    ((all b).calls es).1 = all (believed b es ((all b).calls es).2) := by
  induction es generalizing b with
  | nil => rfl
  | cons e es ih =>
    have h' : ∀ o, .pause o ∈ es → o.Timely := fun o ho => h o (by simp [ho])
    cases e with
    | pause o =>
      obtain ⟨e, he⟩ := pause_once b o (h o (by simp))
      simp only [Cycles.calls, he, believed]
      cases e with
      | true => simpa using ih true h'
      | false => simpa using ih false h'
    | resume => exact ih true h'

/-- In particular: a `pause` that returns no error leaves nothing running, one that returns an error leaves everything running; and
`MaintenanceInProgress` tells which. -/
theorem pause_then_partial (b : Bool) (es : List MEv) (h : ∀ o, .pause o ∈ es → o.Timely) (o : Attempt) (ho : o.Timely) :
    let r := ((all b).calls es).1.pause o
    (r.2 = false → r.1 = all false) ∧ (r.2 = true → r.1 = all true) ∧ r.1.inProgress = r.2 := by
  simp only
  rw [pause_all_or_nothing_partial b es h]
  obtain ⟨e, he⟩ := pause_once (believed b es ((all b).calls es).2) o ho
  rw [he]
  cases e <;> simp [all, Cycles.inProgress]

/-- The full statement fails: the cycle that switches files cannot be stopped, the context is fine.  The caller is told that everything is
paused, but both cycles of the commit log run — and the clean-up of deleted nodes does not. -/
theorem lost_error : (all true).pause ⟨true, false, false, false⟩ = (⟨true, true, false⟩, false) := rfl

/-- The full statement fails: resuming without having paused is no error. -/
theorem resume_never_fails (c : Cycles) : c.resume = (all true, false) := rfl

/-- A failed shutdown of the index leaves the clean-up stopped while the commit log is maintained. -/
theorem failed_shutdown_splits : (all true).shutdown ⟨false, true, false, true⟩ = (⟨true, true, false⟩, true) := rfl

/-- Shutting the index down, from any state and whatever fails: no error is returned exactly when nothing runs any more. -/
theorem shutdown_error_iff (c : Cycles) (o : Attempt) : (c.shutdown o).2 = false ↔ (c.shutdown o).1 = all false := by
  obtain ⟨a, b, d⟩ := c
  obtain ⟨s, n, t, x⟩ := o
  revert a b d s n t x
  decide +kernel

/-- a shutdown that succeeds from any state when nothing fails, and one that does not -/
example : (⟨true, false, true⟩ : Cycles).shutdown ⟨false, false, false, false⟩ = (all false, false) ∧
    (all true).shutdown ⟨true, false, false, false⟩ = (⟨true, true, false⟩, true) := by decide

/-- Also when errors are lost: after any calls the two cycles of the commit log run both or not at all, and `MaintenanceInProgress` tells
which. -/
theorem log_cycles_together (b : Bool) (es : List MEv) : let c := ((all b).calls es).1
    c.switch = c.condense ∧ c.inProgress = c.switch ∧ c.inProgress = c.condense := by
  have key : ∀ (es : List MEv) (c : Cycles), c.switch = c.condense → (c.calls es).1.switch = (c.calls es).1.condense := by
    intro es
    induction es with
    | nil => exact fun _ h => h
    | cons e es ih =>
      intro c h
      cases e with
      | resume => exact ih _ rfl
      | pause o =>
        refine ih _ ?_
        revert h
        obtain ⟨a, b, d⟩ := c
        obtain ⟨s, n, t, x⟩ := o
        revert a b d s n t x
        decide +kernel
  have h := key es (all b) rfl
  refine ⟨h, ?_, ?_⟩ <;> simp [Cycles.inProgress, h]

/-- a pause whose error is lost, then one that fails, then one that succeeds -/
example : (((all true).calls [.pause ⟨true, false, false, false⟩]).1.inProgress,
    ((all true).calls [.pause ⟨true, false, false, false⟩, .pause ⟨false, false, false, false⟩]).1.inProgress) = (true, false) := by decide

/-- non-vacuity: a pause that fails because the clean-up is busy, one that fails because condensing takes too long, one that succeeds, and
resuming -/
example :
    let es : List MEv := [.pause ⟨false, false, true, true⟩, .pause ⟨false, true, false, true⟩, .pause ⟨false, false, false, false⟩, .resume]
    (∀ o, .pause o ∈ es → o.Timely) ∧ ((all true).calls es).2 = [true, true, false, false] ∧
      ((all true).calls (es.take 3)).1 = all false := by
  refine ⟨?_, rfl, rfl⟩
  simp [Attempt.Timely]

end Fave.C60

import Verif.Model.Metrics
/-!
# Helper lemmas about the numbers an index reports
-/
namespace Fave.Metrics

theorem calls_disabled (o : Option Gauges) (fs : List Method) : (Metrics.mk false o).calls fs = some ⟨false, o⟩ := by
  induction fs with
  | nil => rfl
  | cons f fs ih => simpa [Metrics.calls, Metrics.call] using ih

theorem calls_enabled (g : Gauges) (fs : List Method) :
    (Metrics.mk true (some g)).calls fs = some ⟨true, some (fs.foldl (fun g f => f.apply g) g)⟩ := by
  induction fs generalizing g with
  | nil => rfl
  | cons f fs ih => simpa [Metrics.calls, Metrics.call] using ih (f.apply g)

/-- the metrics are enabled, show `g`, and nothing has panicked -/
def Shows (s : St) (g : Gauges) : Prop := s.metrics = ⟨true, some g⟩ ∧ s.panicked = false

theorem step_shows {s s' : St} {g : Gauges} (h : Step s s') (hg : Shows s g) :
    ∃ before after a a' fs t, s.agents = before ++ a :: after ∧ Local s.tombs a fs t a' ∧ s'.agents = before ++ a' :: after ∧ s'.tombs = t ∧
      Shows s' (fs.foldl (fun g f => f.apply g) g) := by
  obtain ⟨before, after, a, a', fs, t, hs, hl⟩ := h
  refine ⟨before, after, a, a', fs, t, hs, hl, rfl, rfl, ?_, ?_⟩
  · simp [St.report, hg.1, calls_enabled]
  · simp [St.report, hg.1, calls_enabled, hg.2]

theorem step_hidden {s s' : St} {o : Option Gauges} (h : Step s s') (hm : s.metrics = ⟨false, o⟩) (hp : s.panicked = false) :
    s'.metrics = ⟨false, o⟩ ∧ s'.panicked = false := by
  obtain ⟨before, after, a, a', fs, t, hs, hl⟩ := h
  simp [St.report, hm, calls_disabled, hp]

theorem foldl_addTombstone (g : Gauges) (ids : List Nat) :
    ((ids.map fun _ => Method.addTombstone).foldl (fun g f => f.apply g) g) = { g with tombstones := g.tombstones + ids.length } := by
  induction ids generalizing g with
  | nil => simp
  | cons i ids ih => simp only [List.map_cons, List.foldl_cons, ih]; simp [Method.apply]; omega

theorem mark_nodup {t : List Nat} (h : t.Nodup) (id : Nat) : (mark t id).Nodup := by
  unfold mark; split
  · exact h
  · rename_i hc; exact List.nodup_cons.mpr ⟨by simpa using hc, h⟩

theorem mem_mark {t : List Nat} {id x : Nat} : x ∈ mark t id ↔ x = id ∨ x ∈ t := by
  unfold mark; split
  · rename_i hc; have : id ∈ t := by simpa using hc
    constructor
    · exact Or.inr
    · rintro (rfl | h)
      · exact this
      · exact h
  · simp

theorem mark_length (t : List Nat) (id : Nat) : t.length ≤ (mark t id).length ∧ (mark t id).length ≤ t.length + 1 := by
  unfold mark; split <;> simp

theorem mark_length_new {t : List Nat} {id : Nat} (h : id ∉ t) : (mark t id).length = t.length + 1 := by
  unfold mark; simp [h]

theorem marks_nodup {t : List Nat} (h : t.Nodup) (ids : List Nat) : (ids.foldl mark t).Nodup := by
  induction ids generalizing t with
  | nil => exact h
  | cons i ids ih => exact ih (mark_nodup h i)

theorem mem_marks {t ids : List Nat} {x : Nat} : x ∈ ids.foldl mark t ↔ x ∈ ids ∨ x ∈ t := by
  induction ids generalizing t with
  | nil => simp
  | cons i ids ih => simp only [List.foldl_cons, ih, mem_mark, List.mem_cons]; grind

theorem marks_length (t ids : List Nat) : (ids.foldl mark t).length ≤ t.length + ids.length := by
  induction ids generalizing t with
  | nil => simp
  | cons i ids ih =>
    have := ih (mark t i); have := mark_length t i
    simp only [List.foldl_cons, List.length_cons]; omega

theorem marks_length_new {t ids : List Nat} (h : ids.Nodup) (hd : ∀ id ∈ ids, id ∉ t) : (ids.foldl mark t).length = t.length + ids.length := by
  induction ids generalizing t with
  | nil => simp
  | cons i ids ih =>
    obtain ⟨h1, h2⟩ := List.nodup_cons.mp h
    have := ih (t := mark t i) h2 (fun id hid => by
      rw [mem_mark]; rintro (rfl | hm)
      · exact h1 hid
      · exact hd id (List.mem_cons_of_mem _ hid) hm)
    have := mark_length_new (hd i List.mem_cons_self)
    simp only [List.foldl_cons, List.length_cons]; omega

theorem unmark_length {t : List Nat} (h : t.Nodup) {id : Nat} (hm : id ∈ t) : (t.filter (· ≠ id)).length + 1 = t.length := by
  induction t with
  | nil => cases hm
  | cons x t ih =>
    obtain ⟨h1, h2⟩ := List.nodup_cons.mp h
    by_cases hx : x = id
    · subst hx
      have : t.filter (· ≠ x) = t := List.filter_eq_self.mpr (fun y hy => by
        simp only [decide_not, Bool.not_eq_true', decide_eq_false_iff_not]; rintro rfl; exact h1 hy)
      simp
      simpa using congrArg List.length this
    · have hm' : id ∈ t := by rcases List.mem_cons.mp hm with rfl | h; exact absurd rfl hx; exact h
      have := ih h2 hm'
      simp only [List.filter_cons]
      simp [hx] at this ⊢
      omega

/-- the ids a clean-up has still to remove -/
def Agent.list : Agent → List Nat
  | .relink l => l
  | .removing l => l
  | .unmarking id l => id :: l
  | _ => []

end Fave.Metrics

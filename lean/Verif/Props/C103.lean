import Verif.Lemmas.NoCache
import Verif.Props.C102
/-!
# C103 — small collections do not depend on the vector cache

The vectors by which links are chosen come from a cache that is emptied every three seconds (vector_cache.go:45,218-239) and is empty after a restart; what a read of
it delivers depends on timing.  Claim: *while a collection has fewer than `maxConn` (FaVe: 30) vectors, additions do not depend on it at all: same outcome, same links,
same state.*

`small_addition_ignores_cache` for one addition in any state, `small_requests_ignore_cache` for whole sequences of requests.  The bound is exact: `cache_matters_at_bound`
(there the addition fails without the cached vectors, see C49).
-/
namespace Fave.C103
open Index Spec Search Queue C102
variable {V D : Type} [Dist D]

/-- One addition to a collection of fewer than `maxConn` vectors, in any state it can be in: the resulting state and the error, if any, are the same whatever the vector
cache delivers. -/
theorem small_addition_ignores_cache (P : Params V D) (hP : P.Ok) (s : Index V) (vs : List V) (h : Hist P s vs) (hm : vs.length < P.maxConn) (vo vo' : VecOracle V)
    (sched : Graph.Scheds D) (vec : V) (level : Nat) : add P vo sched s vs.length vec level = add P vo' sched s vs.length vec level :=
  add_nocache hP (hist_inv hP h) hm vo vo' sched vec level

theorem addAll_nocache {P : Params V D} (hP : P.Ok) (f : Step V D → VecOracle V) (b : List (Step V D)) : ∀ {s : Index V} {vs : List V}, Hist P s vs →
    vs.length + b.length ≤ P.maxConn →
    addAll P s vs.length (b.map fun x => { x with vo := f x }) = addAll P s vs.length b ∧
    ∀ s', addAll P s vs.length b = some s' → Hist P s' (vs ++ b.map Step.vec) := by
  induction b with
  | nil => intro s vs h _; exact ⟨rfl, fun s' hs => by cases hs; simpa using h⟩
  | cons x xs ih =>
    intro s vs h hm
    simp only [List.length_cons] at hm
    have e := small_addition_ignores_cache P hP s vs h (by omega) (f x) x.vo x.sched x.vec x.level
    rw [List.map_cons]
    unfold addAll
    simp only
    rw [e]
    cases ha : add P x.vo x.sched s vs.length x.vec x.level with
    | mk s1 r =>
      cases r with
      | some r => exact ⟨rfl, fun s' hs => by cases hs⟩
      | none =>
        have hl : (vs ++ [x.vec]).length = vs.length + 1 := by simp
        obtain ⟨h1, h2⟩ := ih (.add x.vo x.sched x.vec x.level h ha) (by rw [hl]; omega)
        simp only
        rw [hl] at h1 h2
        exact ⟨h1, fun s' hs => by simpa using h2 s' hs⟩

/-- Whole sequences of non-empty requests, up to `maxConn` vectors in all: replacing what the vector cache delivers changes nothing. -/
theorem small_requests_ignore_cache (P : Params V D) (hP : P.Ok) (order : Index V → List Nat) (ho : ∀ s : Index V, ∀ id ∈ s.cache.keys, id ∈ order s)
    (f : Step V D → VecOracle V) (bs : List (List (Step V D))) : ∀ (s : Index V) (vs : List V), Hist P s vs → (∀ b ∈ bs, b ≠ []) → vs.length + bs.flatten.length ≤ P.maxConn →
    requests P order s vs.length (bs.map fun b => b.map fun x => { x with vo := f x }) = requests P order s vs.length bs := by
  induction bs with
  | nil => intro s vs _ _ _; rfl
  | cons b bs ih =>
    intro s vs h hne hm
    rw [List.flatten_cons, List.length_append] at hm
    obtain ⟨h1, h2⟩ := addAll_nocache hP f b h (by omega)
    rw [List.map_cons]
    unfold requests
    rw [h1]
    cases hb : addAll P s vs.length b with
    | none => rfl
    | some s1 =>
      simp only
      have hh := h2 s1 hb
      rw [List.length_map]
      cases hf : flush P s1 (order s1) (vs.length + b.length) with
      | mk s2 r =>
        cases r with
        | some r => rfl
        | none =>
          simp only
          have hl : (vs ++ b.map Step.vec).length = vs.length + b.length := by simp
          have hvs : vs ++ b.map Step.vec ≠ [] := by
            have := hne b (by simp)
            simp [this]
          have := ih s2 (vs ++ b.map Step.vec) (.flush (order s1) hh hvs (ho s1) (by rw [hl]; exact hf)) (fun c hc => hne c (List.mem_cons_of_mem _ hc)) (by rw [hl]; omega)
          rw [hl] at this
          exact this

/-! ## Cases -/

/-- a cache that never delivers a vector -/
def nothing : VecOracle (List Nat) := fun _ _ _ _ => none
/-- the sample parameters with `maxConn` 4 -/
def Q : Params (List Nat) Nat := { Ex.P with maxConn := 4, maxConn0 := 8, efC := 8 }

theorem Q_ok : Q.Ok := ⟨by decide, by decide, Ex.P_ok.3, Ex.P_ok.4⟩

/-- four vectors in two requests, the cache delivering everything or nothing -/
example : (requests Q (fun s => s.cache.keys) init 0 [six.take 1, (six.take 4).drop 1]).isSome = true ∧
    requests Q (fun s => s.cache.keys) init 0 ([six.take 1, (six.take 4).drop 1].map fun b => b.map fun x => { x with vo := nothing }) =
      requests Q (fun s => s.cache.keys) init 0 [six.take 1, (six.take 4).drop 1] ∧
    (requests Q (fun s => s.cache.keys) init 0 [six.take 1, (six.take 4).drop 1]).map links =
      some [some [[1, 2, 3]], some [[0, 2, 3], [3]], some [[0, 1, 3]], some [[2, 0, 1], [1], []], none, none] := by decide +kernel

/-- The bound is exact: the addition to four vectors succeeds if the cache delivers the vectors, and fails if it does not. -/
theorem cache_matters_at_bound : ∃ s, Hist Q s (Ex.vecs.take 4) ∧ (Ex.vecs.take 4).length = Q.maxConn ∧
    (add Q Ex.vo Ex.sched s 4 [50, 0] 0).2 = none ∧ (add Q nothing Ex.sched s 4 [50, 0] 0).2 = some .error := by
  have hrun : ∃ s, addAll Q init 0 (six.take 4) = some s ∧ (add Q Ex.vo Ex.sched s 4 [50, 0] 0).2 = none ∧ (add Q nothing Ex.sched s 4 [50, 0] 0).2 = some .error := by
    have h : (addAll Q init 0 (six.take 4)).any (fun s => decide ((add Q Ex.vo Ex.sched s 4 [50, 0] 0).2 = none) &&
        decide ((add Q nothing Ex.sched s 4 [50, 0] 0).2 = some .error)) = true := by decide +kernel
    cases hs : addAll Q init 0 (six.take 4) with
    | none => rw [hs] at h; cases h
    | some s =>
      rw [hs] at h
      simp only [Option.any_some, Bool.and_eq_true, decide_eq_true_eq] at h
      exact ⟨s, rfl, h.1, h.2⟩
  obtain ⟨s, hs, h1, h2⟩ := hrun
  exact ⟨s, (addAll_nocache Q_ok Step.vo (six.take 4) (vs := []) .init (by decide)).2 s hs, rfl, h1, h2⟩

/-- FaVe's bound -/
example (metric : Metric V D) (norm : V → V) (jsonOk : V → Bool) : (faveParams metric norm jsonOk).maxConn = 30 := rfl

end Fave.C103

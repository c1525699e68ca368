import Verif.Lemmas.Knn
import Verif.Spec.Example
/-!
# C45 — the answer is locally optimal: nothing linked to an answer was wrongly passed over
-/
namespace Fave.C45
open Graph Search Spec Queue
variable {V D : Type} [Dist D]

/-- After a layer search of width `ef`: every eligible vector linked from a kept vector is itself kept, or the result is
full (at least `ef` kept) and that vector is no closer to the query than any kept one. -/
theorem layer_result_locally_optimal [LawfulDist D] (env : SEnv V D) (sched : Sched D) (eps : List (Item D)) (ef : Int)
    (level : Nat) (r : Array (Item D)) (hnd : (eps.map Item.id).Nodup) (hsm : ∀ e ∈ eps, e.id < env.visitedSize)
    (hd : ∀ e ∈ eps, HasDist env e.id e.dist)
    (h : searchLayer env sched eps ef level = .ok r) :
    ∀ x ∈ r.toList, ∀ y d, Linked env level x.id y → HasDist env y d → Eligible env level y →
      y ∈ r.toList.map Item.id ∨ (ef ≤ r.size ∧ ∀ k ∈ r.toList, Dist.lt d k.dist = false) := by
  intro x hx y d hl hy hel
  exact (searchLayer_opt ⟨hnd, hsm⟩ (fun e he => (hasDist_iff _ _ _).mpr (hd e he)) h).2.2 x hx y d hl hy hel

/-- … and an eligible entry point is kept or beaten by everything kept. -/
theorem layer_result_not_worse_than_entry [LawfulDist D] (env : SEnv V D) (sched : Sched D) (eps : List (Item D)) (ef : Int)
    (level : Nat) (r : Array (Item D)) (hnd : (eps.map Item.id).Nodup) (hsm : ∀ e ∈ eps, e.id < env.visitedSize)
    (hd : ∀ e ∈ eps, HasDist env e.id e.dist)
    (h : searchLayer env sched eps ef level = .ok r) :
    ∀ e ∈ eps, Eligible env level e.id →
      e.id ∈ r.toList.map Item.id ∨ (ef ≤ r.size ∧ ∀ k ∈ r.toList, Dist.lt e.dist k.dist = false) := by
  intro e he hel
  exact (searchLayer_opt ⟨hnd, hsm⟩ (fun e he => (hasDist_iff _ _ _).mpr (hd e he)) h).2.1 e he hel

/-- Whole index: what the base-layer search of `KnnSearchByVectorMaxDist` keeps is locally optimal. -/
theorem search_result_locally_optimal [LawfulDist D] (g : Graph V D) (sched : Scheds D) (q : V) (ef : Int)
    (allow : Option (Nat → Bool)) (r : Array (Item D))
    (hsmall : ∀ id v, g.get id = some v → id < g.visitedSize)
    (hsym : ∀ a b, g.metric.dist a b = g.metric.dist b a)
    (h : g.retained sched q ef allow = .ok r) :
    ∀ x ∈ r.toList, ∀ y d, Linked (g.senv q allow) 0 x.id y → HasDist (g.senv q allow) y d → Eligible (g.senv q allow) 0 y →
      y ∈ r.toList.map Item.id ∨ (ef ≤ r.size ∧ ∀ k ∈ r.toList, Dist.lt d k.dist = false) := by
  obtain ⟨d0, ep, hd0, hep, hl⟩ := retained_ok h
  obtain ⟨hgo, v, hv⟩ := retained_start hsmall hsym hd0 hep allow
  refine layer_result_locally_optimal _ _ [ep] ef 0 r (by simp) ?_ ?_ hl
  · intro e he; simp at he; subst he; exact hsmall _ v hv
  · intro e he; simp at he; subst he; exact (hasDist_iff _ _ _).mp hgo

/-! Non-vacuity: width 2 on the sample collection keeps 1 and 0; the linked vector 3 (distance 9) was passed over rightly. -/
example : (Ex.graph.retained (fun _ => Sched.id) 11 2 none).map (fun r => r.toList.map Item.id) = .ok [0, 1] := by decide +kernel

end Fave.C45

import Verif.Lemmas.Knn
import Verif.Spec.Example
/-!
# C02 — hits are ordered and in range
-/
namespace Fave.C02
open Graph Search Spec Queue
variable {V D : Type} [Dist D]

/-- The answer of a distance-bounded search consists of exactly those candidates retained by the base-layer search whose
distance lies in `[0, max]`, closest first; the reported distances are paired with the ids. -/
theorem max_dist_hits_sorted_and_in_range [LawfulDist D] (g : Graph V D) (sched : Scheds D) (q : V) (max : D) (ef : Int)
    (allow : Option (Nat → Bool)) (ids : List Nat) (ds : List D)
    (hsmall : ∀ id v, g.get id = some v → id < g.visitedSize)
    (hsym : ∀ a b, g.metric.dist a b = g.metric.dist b a)
    (h : g.knnMaxDist sched q max ef allow = .ok (ids, ds)) :
    ∃ (retained : Array (Item D)) (hits : List (Item D)),
      g.retained sched (g.norm q) ef allow = .ok retained ∧
      ids = hits.map Item.id ∧ ds.take ids.length = hits.map Item.dist ∧
      hits.Pairwise (fun a b => Dist.lt b.dist a.dist = false) ∧
      ∀ x, x ∈ hits ↔ x ∈ retained.toList ∧ Dist.lt x.dist Dist.zero = false ∧ Dist.lt max x.dist = false := by
  unfold knnMaxDist at h
  split at h
  · cases h
  · rename_i res hres
    simp only [Except.ok.injEq, Prod.mk.injEq] at h
    obtain ⟨rfl, rfl⟩ := h
    have hheap := retained_heap hsmall hsym hres
    have hsorted := drain_sorted swo_max hheap
    have hrev : (drain lessMax res).reverse.Pairwise (fun a b => Dist.lt b.dist a.dist = false) := by
      rw [List.pairwise_reverse]
      exact hsorted
    have hperm : (drain lessMax res).reverse.Perm res.toList := (List.reverse_perm _).trans (drain_perm _ _)
    refine ⟨res, keepInRange max (drain lessMax res).reverse, hres, rfl, ?_, ?_, ?_⟩
    · rw [List.length_map, List.take_append_of_le_length (by simp)]
      rw [List.take_of_length_le (by simp)]
    · exact hrev.sublist (keepInRange_sublist _ _)
    · intro x
      rw [keepInRange_sorted max _ hrev, List.mem_filter, hperm.mem_iff]
      simp

/-- The hypothesis `LawfulDist` (no NaN) is needed: with NaN distances in the result queue the code lists a hit at distance
7 before a hit at distance 5. -/
theorem nan_breaks_order :
    (drain (lessMax (D := Option Int))
      ([⟨0, some 0⟩, ⟨1, none⟩, ⟨2, some 5⟩, ⟨3, none⟩, ⟨4, some 7⟩].foldl (insert lessMax) #[])).reverse.map Item.dist
      = [none, some 0, none, some 7, some 5] := by decide +kernel

example : Ex.graph.knnMaxDist (fun _ => Sched.id) 11 20 10 none = .ok ([1, 0, 3, 4], [1, 1, 9, 16]) := by decide +kernel
example : Ex.graph.knnMaxDist (fun _ => Sched.id) 11 9 10 none = .ok ([1, 0, 3], [1, 1, 9, 0]) := by decide +kernel

end Fave.C02

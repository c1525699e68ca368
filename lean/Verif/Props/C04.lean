import Verif.Lemmas.Knn
import Verif.Spec.Example
/-!
# C04 — wide searches see everything reachable
-/
namespace Fave.C04
open Graph Search Spec Queue
variable {V D : Type} [Dist D]

/-- One layer: if the width is at least the number of vectors reachable over links from the entry points, every
reachable, unmarked and allowed vector is among the results.  No order law is needed (NaN included). -/
theorem wide_layer_search_returns_all_reachable (env : SEnv V D) (sched : Sched D) (eps : List (Item D)) (ef : Int)
    (level : Nat) (r : Array (Item D)) (hnd : (eps.map Item.id).Nodup) (hsm : ∀ e ∈ eps, e.id < env.visitedSize)
    (hd : ∀ e ∈ eps, ∃ d, HasDist env e.id d)
    (reachable : List Nat) (hR : ∀ x, Reach env level (eps.map Item.id) x → x ∈ reachable)
    (hwide : (reachable.length : Int) ≤ ef)
    (h : searchLayer env sched eps ef level = .ok r) :
    ∀ x, Reach env level (eps.map Item.id) x → Eligible env level x → x ∈ r.toList.map Item.id := by
  intro x hx hel
  classical
  let R := reachable.filter (fun y => decide (Reach env level (eps.map Item.id) y))
  have hlen : R.length ≤ reachable.length := List.length_filter_le _ _
  refine searchLayer_complete ⟨hnd, hsm⟩ hd R ?_ (by omega) h x hx hel
  intro y
  simp only [R, List.mem_filter, decide_eq_true_eq]
  exact ⟨fun h => ⟨hR y h, h⟩, fun h => h.2⟩

/-- Whole index: with a width of at least the number of stored vectors, the answer contains every unmarked, allowed
vector in range that can be reached from the vector at which the base-layer search starts; with a single layer that start
is the index's entry point.  In particular no closer reachable vector is missed. -/
theorem wide_search_returns_all_reachable [LawfulDist D] (g : Graph V D) (sched : Scheds D) (q : V) (max : D) (ef : Int)
    (allow : Option (Nat → Bool)) (ids : List Nat) (ds : List D)
    (hkeys : ∀ id v, g.get id = some v → id ∈ g.keys)
    (hsmall : ∀ id v, g.get id = some v → id < g.visitedSize)
    (hsym : ∀ a b, g.metric.dist a b = g.metric.dist b a)
    (hwide : (g.keys.length : Int) ≤ ef)
    (h : g.knnMaxDist sched q max ef allow = .ok (ids, ds)) :
    ∃ start, (g.maxLayer = 0 → start = g.entry) ∧ (∃ v, g.get start = some v) ∧
      ∀ x d, Reach (g.senv (g.norm q) allow) 0 [start] x → g.tomb x = false → (∀ p, allow = some p → p x = true) →
        HasDist (g.senv (g.norm q) allow) x d → Dist.lt d Dist.zero = false → Dist.lt max d = false → x ∈ ids := by
  unfold knnMaxDist at h
  split at h
  · cases h
  · rename_i res hres
    simp only [Except.ok.injEq, Prod.mk.injEq] at h
    obtain ⟨rfl, rfl⟩ := h
    obtain ⟨d0, ep, hd0, hep, hl⟩ := retained_ok hres
    obtain ⟨hgo, v, hv⟩ := retained_start hsmall hsym hd0 hep allow
    refine ⟨ep.id, ?_, ⟨v, hv⟩, ?_⟩
    · intro h0
      rw [h0] at hep
      cases hep; rfl
    · intro x d hx ht hal hdx hz hm
      have hmem : x ∈ res.toList.map Item.id := by
        refine wide_layer_search_returns_all_reachable _ _ [ep] ef 0 res (by simp) ?_ ?_ g.keys ?_ hwide hl x hx ⟨ht, fun _ p hp => hal p hp⟩
        · intro e he; simp at he; subst he; exact hsmall _ v hv
        · intro e he; simp at he; subst he; exact ⟨_, (hasDist_iff _ _ _).mp hgo⟩
        · intro y hy
          cases hy with
          | start _ hid => simp at hid; subst hid; exact hkeys _ v hv
          | link a b d _ _ hb => obtain ⟨vb, hvb, _⟩ := hb; exact hkeys _ vb hvb
      obtain ⟨y, hy, rfl⟩ := List.mem_map.mp hmem
      have hgy := (retained_sound hsmall hsym hres).1 y hy
      have hyd : y.dist = d := hasDist_unique ((hasDist_iff _ _ _).mp hgy.1) hdx
      have hperm : (drain lessMax res).reverse.Perm res.toList := (List.reverse_perm _).trans (drain_perm _ _)
      have hsorted : (drain lessMax res).reverse.Pairwise (fun a b => Dist.lt b.dist a.dist = false) := by
        rw [List.pairwise_reverse]
        exact drain_sorted swo_max (retained_heap hsmall hsym hres)
      refine List.mem_map_of_mem ?_
      rw [keepInRange_sorted max _ hsorted, List.mem_filter, hperm.mem_iff]
      refine ⟨hy, ?_⟩
      rw [hyd, hz, hm]; rfl

/-! Non-vacuity: in the sample collection everything is reachable from 0 and a width of 5 returns all unmarked vectors
(the marked vector 2 is passed through but not returned). -/
example : Ex.graph.knnMaxDist (fun _ => Sched.rev) 11 100 5 none = .ok ([1, 0, 3, 4], [1, 1, 9, 16]) ∧
    Ex.graph.keys.length = 5 := by decide +kernel
example : Reach (Ex.graph.senv 11 none) 0 [0] 4 :=
  .link 3 4 16 (.link 2 3 9 (.link 0 2 6 (.start 0 (by simp)) ⟨_, _, rfl, by decide, rfl, by decide⟩ ⟨_, rfl, by decide⟩)
    ⟨_, _, rfl, by decide, rfl, by decide⟩ ⟨_, rfl, by decide⟩) ⟨_, _, rfl, by decide, rfl, by decide⟩ ⟨_, rfl, by decide⟩
/-- a narrow search does miss vectors, so the width hypothesis is needed -/
example : Ex.graph.knnMaxDist (fun _ => Sched.id) 11 100 1 none = .ok ([0], [1]) := by decide +kernel

end Fave.C04

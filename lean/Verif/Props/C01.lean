import Verif.Lemmas.Knn
import Verif.Spec.Example
/-!
# C01 — search hits are genuine

Quantified over every link graph, query, width, filter, deletion marks, schedule and (since no order law is assumed)
every result of distance comparison, NaN included.
-/
namespace Fave.C01
open Graph Search Spec Queue
variable {V D : Type} [Dist D]

/-- One layer: every result is stored, unmarked, allowed, listed once and carries its true distance, provided the entry
points do (they are distinct and fit into the initial visited list). -/
theorem layer_hits_genuine (env : SEnv V D) (sched : Sched D) (eps : List (Item D)) (ef : Int) (level : Nat)
    (r : Array (Item D)) (hnd : (eps.map Item.id).Nodup) (hsm : ∀ e ∈ eps, e.id < env.visitedSize)
    (hd : ∀ e ∈ eps, HasDist env e.id e.dist)
    (h : searchLayer env sched eps ef level = .ok r) :
    (r.toList.map Item.id).Nodup ∧ ∀ x ∈ r.toList, HasDist env x.id x.dist ∧ Eligible env level x.id := by
  have := searchLayer_inv (P := Good env) (fun _ hx => hx) ⟨hnd, hsm⟩ (fun e he => (hasDist_iff _ _ _).mpr (hd e he)) h
  exact ⟨this.2, fun x hx => ⟨(hasDist_iff _ _ _).mp (this.1 x hx).1, (viable_iff _ _ _).mp (this.1 x hx).2⟩⟩

/-- Distance-bounded search over all layers (`KnnSearchByVectorMaxDist`). -/
theorem max_dist_hits_genuine (g : Graph V D) (sched : Scheds D) (q : V) (max : D) (ef : Int) (allow : Option (Nat → Bool))
    (ids : List Nat) (ds : List D)
    (hsmall : ∀ id v, g.get id = some v → id < g.visitedSize)
    (hsym : ∀ a b, g.metric.dist a b = g.metric.dist b a)
    (h : g.knnMaxDist sched q max ef allow = .ok (ids, ds)) :
    ids.Nodup ∧ ∀ (i id : Nat), ids[i]? = some id → ∃ v d, g.get id = some v ∧ ds[i]? = some d ∧
      g.metric.dist (g.norm q) v.vec = some d ∧ g.tomb id = false ∧ ∀ p, allow = some p → p id = true := by
  unfold knnMaxDist at h
  split at h
  · cases h
  · rename_i res hres
    simp only [Except.ok.injEq, Prod.mk.injEq] at h
    obtain ⟨rfl, rfl⟩ := h
    obtain ⟨h1, h2⟩ := retained_sound hsmall hsym hres
    have hsub := keepInRange_sublist max (drain lessMax res).reverse
    have hperm : (drain lessMax res).reverse.Perm res.toList := (List.reverse_perm _).trans (drain_perm _ _)
    constructor
    · exact (hsub.map _).nodup ((hperm.map _).nodup_iff.mpr h2)
    · intro i id hi
      rw [List.getElem?_map] at hi
      cases hx : (keepInRange max (drain lessMax res).reverse)[i]? with
      | none => simp [hx] at hi
      | some x =>
        simp only [hx, Option.map_some, Option.some.injEq] at hi
        subst hi
        have hm := hperm.mem_iff.mp (hsub.subset (List.mem_of_getElem? hx))
        obtain ⟨hg, hel⟩ := h1 x hm
        obtain ⟨v, hv, hvd⟩ := (hasDist_iff _ _ _).mp hg
        refine ⟨v, x.dist, hv, ?_, hvd, hel.1, fun p hp => hel.2 rfl p hp⟩
        have hlt : i < (keepInRange max (drain lessMax res).reverse).length := (List.getElem?_eq_some_iff.mp hx).1
        rw [List.getElem?_append_left (by simpa using hlt), List.getElem?_map, hx]
        rfl

/-- k-nearest search over all layers (`knnSearchByVector`). -/
theorem knn_hits_genuine (g : Graph V D) (isEmpty : Bool) (sched : Scheds D) (q : V) (k ef : Int) (allow : Option (Nat → Bool))
    (hits : List (Item D))
    (hsmall : ∀ id v, g.get id = some v → id < g.visitedSize)
    (hsym : ∀ a b, g.metric.dist a b = g.metric.dist b a)
    (h : g.knnSearch isEmpty sched q k ef allow = .ok hits) :
    (hits.map Item.id).Nodup ∧ (hits.length : Int) ≤ max k 0 ∧ ∀ x ∈ hits, ∃ v, g.get x.id = some v ∧
      g.metric.dist q v.vec = some x.dist ∧ g.tomb x.id = false ∧ ∀ p, allow = some p → p x.id = true := by
  unfold knnSearch at h
  split at h
  · cases h; exact ⟨by simp, by simp; omega, by simp⟩
  · split at h
    · cases h
    · rename_i d hd
      split at h
      · cases h
      · rename_i ep hep
        split at h
        · cases h
        · rename_i res hres
          split at h
          · cases h
          · cases h
            have hgo : Good (g.senv q none) ep := by
              have key : ∀ (level : Nat) (e e' : Item D), Good (g.senv q none) e → descendK g sched q level e = .ok e' →
                  Good (g.senv q none) e' := by
                intro level
                induction level with
                | zero => intro e e' he h; cases h; exact he
                | succ level ih =>
                  intro e e' he h
                  unfold descendK at h
                  split at h
                  · cases h
                  · rename_i res' hres'
                    obtain ⟨v, hv⟩ := distToNode_get he
                    have hinv := (searchLayer_inv (P := Good (g.senv q none)) (fun _ hx => hx)
                      (epsOk_one hsmall q none hv) (by simpa using he) hres').1
                    split at h
                    · rename_i best hbest
                      have hfu : ∀ (l : List (Item D)) (b : Item D), firstUsable g l = some b → b ∈ l := by
                        intro l b
                        induction l with
                        | nil => intro h; cases h
                        | cons c cs ihl =>
                          intro h
                          unfold firstUsable at h
                          split at h
                          · exact List.mem_cons_of_mem _ (ihl h)
                          · split at h
                            · exact List.mem_cons_of_mem _ (ihl h)
                            · cases h; simp
                      have hb := (drain_perm lessMax res').mem_iff.mp (hfu _ _ hbest)
                      exact ih best e' (hinv best hb).1 h
                    · exact ih e e' he h
              exact key g.maxLayer _ _ (good_entry hsym none hd) hep
            obtain ⟨v, hv⟩ := distToNode_get hgo
            obtain ⟨h1, h2⟩ := searchLayer_inv (P := Good (g.senv q allow)) (fun _ hx => hx)
              (epsOk_one hsmall q allow hv) (by intro e he; simp at he; subst he; exact hgo) hres
            have hperm : (drain lessMax res).reverse.Perm res.toList := (List.reverse_perm _).trans (drain_perm _ _)
            refine ⟨?_, ?_, ?_⟩
            · exact ((List.take_sublist _ _).map _).nodup ((hperm.map _).nodup_iff.mpr h2)
            · simp; omega
            · intro x hx
              have hm := hperm.mem_iff.mp (List.mem_of_mem_take hx)
              obtain ⟨hg, hel⟩ := h1 x hm
              obtain ⟨v, hv, hvd⟩ := (hasDist_iff _ _ _).mp hg
              have hel := (viable_iff _ _ _).mp hel
              exact ⟨v, hv, hvd, hel.1, fun p hp => hel.2 rfl p hp⟩

/-! Non-vacuity: the sample collection has a cycle, a self link, duplicate and dangling links and a deletion mark. -/
example : Ex.graph.knnMaxDist (fun _ => Sched.rev) 11 100 10 (some (fun id => id != 3)) = .ok ([1, 0, 4], [1, 1, 16]) := by
  decide +kernel
example : ∀ id v, Ex.graph.get id = some v → id < Ex.graph.visitedSize := by
  intro id v h
  have h : Ex.verts.find? (fun v => v.id == id) = some v := h
  have h1 : v ∈ Ex.verts := List.mem_of_find?_eq_some h
  have h2 : v.id = id := by simpa using List.find?_some h
  have : ∀ v ∈ Ex.verts, v.id < 8 := by decide
  rw [← h2]; exact this v h1
example : ∀ a b, Ex.graph.metric.dist a b = Ex.graph.metric.dist b a := by
  intro a b; simp only [Ex.graph, Ex.line]; congr 2; omega
example : Ex.graph.knnSearch false (fun _ => Sched.id) 11 2 10 none = .ok [⟨1, 1⟩, ⟨0, 1⟩] := by decide +kernel

end Fave.C01

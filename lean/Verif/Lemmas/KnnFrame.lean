import Verif.Lemmas.SearchFrame
import Verif.Lemmas.Knn
/-!
# Whole-index searches only read what they can reach
-/
namespace Fave.Graph
open Queue Search
variable {V D : Type} [Dist D]

theorem knnMaxDist_frame {g g' : Graph V D} {C : Nat → Prop} (hag : ∀ id, C id → (g'.get id).map core = (g.get id).map core)
    (hcl : ∀ (l id : Nat) v links b, C id → g.get id = some v → v.conns[l]? = some links → b ∈ links → C b) (hent : C g.entry)
    (h1 : g'.entry = g.entry) (h2 : g'.maxLayer = g.maxLayer) (h3 : g'.metric = g.metric) (h4 : g'.norm = g.norm) (h5 : g'.tomb = g.tomb)
    (h6 : g'.cacheSize = g.cacheSize) (h7 : g'.visitedSize = g.visitedSize) (hsm : ∀ id, C id → id < g.visitedSize)
    (hk : ∀ q allow, KeysOk (g.senv q allow)) (hk' : ∀ q allow, KeysOk (g'.senv q allow))
    (sched : Scheds D) (q : V) (max : D) (ef : Int) (allow : Option (Nat → Bool)) :
    g'.knnMaxDist sched q max ef allow = g.knnMaxDist sched q max ef allow := by
  have henv : ∀ q allow, g'.senv q allow = SEnvWith (g.senv q allow) g'.get g'.keys := by
    intro q allow; unfold senv SEnvWith; simp only [h3, h5, h6, h7]
  have hlayer : ∀ q allow sched (ep : Item D) ef level, C ep.id →
      searchLayer (g'.senv q allow) sched [ep] ef level = searchLayer (g.senv q allow) sched [ep] ef level := by
    intro q allow sched ep ef level hep
    rw [henv]
    refine searchLayer_frame (C := C) ⟨hag, hcl level⟩ sched ef [ep] (fun e he => by simp at he; subst he; exact hep) (hk q allow) ?_
    rw [← henv]; exact hk' q allow
  have hres : ∀ q allow sched (ep : Item D) ef level r, C ep.id → searchLayer (g.senv q allow) sched [ep] ef level = .ok r →
      ∀ x ∈ r.toList, C x.id := by
    intro q allow sched ep ef level r hep hr
    exact searchLayer_closed (hcl level) (fun e he => by simp at he; subst he; exact hep) (hk q allow)
      ⟨by simp, fun e he => by simp at he; subst he; exact hsm _ hep⟩ hr
  have hdesc : ∀ q level (ep : Item D), C ep.id → descend g' sched q level ep = descend g sched q level ep ∧
      ∀ ep', descend g sched q level ep = .ok ep' → C ep'.id := by
    intro q level
    induction level with
    | zero => intro ep hep; exact ⟨rfl, fun ep' h => by cases h; exact hep⟩
    | succ level ih =>
      intro ep hep
      unfold descend
      rw [hlayer _ _ _ _ _ _ hep]
      cases hr : searchLayer (g.senv q none) (sched (level + 1)) [ep] 1 (level + 1) with
      | error e => exact ⟨rfl, fun ep' h => by cases h⟩
      | ok res =>
        simp only
        cases hp : pop lessMax res with
        | none => exact ih ep hep
        | some r =>
          obtain ⟨best, rest⟩ := r
          exact ih best (hres _ _ _ _ _ _ _ hep hr best ((pop_perm lessMax hp).mem_iff.mpr (by simp)))
  have hdist : ∀ q, g'.distNodeVec g'.entry q = g.distNodeVec g.entry q := by
    intro q
    unfold distNodeVec
    rw [h1, h3]
    rcases agree_cases (hag _ hent) with ⟨a, b⟩ | ⟨v, w, a, b, _, _, _, _, e⟩
    · rw [a, b]
    · rw [a, b]; simp only [e]
  have hret : ∀ q, g'.retained sched q ef allow = g.retained sched q ef allow := by
    intro q
    unfold retained
    rw [hdist, h1, h2]
    cases hd : g.distNodeVec g.entry q with
    | none => rfl
    | some d =>
      simp only
      have := hdesc q g.maxLayer ⟨g.entry, d⟩ hent
      rw [this.1]
      cases he : descend g sched q g.maxLayer ⟨g.entry, d⟩ with
      | error e => rfl
      | ok ep => exact hlayer _ _ _ _ _ _ (this.2 ep he)
  unfold knnMaxDist
  rw [h4, hret]

end Fave.Graph

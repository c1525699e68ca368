import Verif.Lemmas.History
import Verif.Lemmas.KnnFrame
import Verif.Spec.ExampleIndex
/-!
# C16 — vectors of the wrong length are refused without damage
-/
namespace Fave.C16
open Index Spec Search
variable {V D : Type} [Dist D]

/-- All vectors of a collection have the same, non-zero length. -/
theorem one_length (P : Params V D) (hP : P.Ok) (s : Index V) (vs : List V) (h : Hist P s vs) :
    ∃ d, d ≠ 0 ∧ ∀ u ∈ vs, P.metric.len u = d := (hist_inv hP h).dim

/-- Adding a vector of another length to a non-empty collection fails; stored vectors, links, search start and storage are
as before, and every later search gives the same answer. -/
theorem wrong_length_refused (P : Params V D) (hP : P.Ok) (s : Index V) (vs : List V) (h : Hist P s vs) (hv : vs ≠ []) (vec : V)
    (hl : ∀ u ∈ vs, P.metric.len u ≠ P.metric.len vec) (vo : VecOracle V) (sched : Graph.Scheds D) (level : Nat) :
    ∃ s' e, add P vo sched s vs.length vec level = (s', some e) ∧ (vs.length < P.cacheSize → e = .error) ∧
      (∀ id, id < vs.length → s'.get id = s.get id) ∧ s'.entry = s.entry ∧ s'.maxLayer = s.maxLayer ∧
      s'.kv = s.kv ∧ s'.kvEntry = s.kvEntry ∧ s'.kvCount = s.kvCount ∧ Hist P s' vs ∧
      ∀ sched' q max ef allow, (s'.graph P).knnMaxDist sched' q max ef allow = (s.graph P).knnMaxDist sched' q max ef allow := by
  have hi := hist_inv hP h
  have hsearch : ∀ s' : Index V, (∀ id, id < vs.length → s'.get id = s.get id) → s'.entry = s.entry → s'.maxLayer = s.maxLayer →
      s'.tombs = s.tombs →
      ∀ sched' q max ef allow, (s'.graph P).knnMaxDist sched' q max ef allow = (s.graph P).knnMaxDist sched' q max ef allow := by
    intro s' h1 h2 h3 h4 sched' q max ef allow
    refine Graph.knnMaxDist_frame (g := s.graph P) (g' := s'.graph P) (C := fun id => id < vs.length) (fun id hid => by rw [show (s'.graph P).get id = _ from h1 id hid]; rfl) ?_ (hi.entry hv)
      h2 h3 rfl rfl (by unfold graph; simp only [h4]) rfl rfl ?_ (keysOk P s) (keysOk P s') sched' q max ef allow
    · intro l id v links b hid hg hlk hb
      obtain ⟨w, hw, _, _, hlinks⟩ := hi.wf id hid
      have : w = v := by
        have hg' : s.get id = some v := hg
        rw [hw] at hg'; cases hg'; rfl
      subst this
      exact ((hlinks l links hlk).2.2.2 b hb).1
    · intro id hid
      exact Nat.lt_of_lt_of_le hid (Nat.le_trans hi.small hP.sizes)
  rcases add_wrong_length hP hi hv hl vo sched level with ha | ⟨hc, ha⟩ | ha
  · exact ⟨s, .error, ha, fun _ => rfl, fun _ _ => rfl, rfl, rfl, rfl, rfl, rfl, h, fun _ _ _ _ _ => rfl⟩
  · exact ⟨_, .panic, ha, fun hlt => by omega, fun _ _ => rfl, rfl, rfl, rfl, rfl, rfl, .refused vo sched vec level h hv hl ha,
      hsearch _ (fun _ _ => rfl) rfl rfl rfl⟩
  · have hg : ∀ id, id < vs.length → (({ s with once := true } : Index V).put (newNode vs.length (P.norm vec) level)).get id = s.get id := by
      intro id hid
      rw [get_put, if_neg (show id ≠ (newNode vs.length (P.norm vec) level).id from Nat.ne_of_lt hid)]; rfl
    exact ⟨_, .error, ha, fun _ => rfl, hg, rfl, rfl, rfl, rfl, rfl, .refused vo sched vec level h hv hl ha, hsearch _ hg rfl rfl rfl⟩

/-! Non-vacuity: a vector of length 3 for the sample collection of vectors of length 2. -/
example : Hist Ex.P Ex.s6 Ex.vecs ∧ (∀ u ∈ Ex.vecs, Ex.P.metric.len u ≠ Ex.P.metric.len [1, 2, 3]) ∧
    ∃ s', add Ex.P Ex.vo Ex.sched Ex.s6 6 [1, 2, 3] 1 = (s', some .error) ∧ s'.cache ≠ Ex.s6.cache ∧
      (s'.graph Ex.P).knnMaxDist Ex.sched [12, 1] 30 10 none = .ok ([1, 5, 0, 3, 2], [1, 2, 3, 5, 18, 0]) := by
  refine ⟨Ex.hist6, by decide +kernel, _, rfl, ?_⟩
  decide +kernel

end Fave.C16

import Verif.Lemmas.History
import Verif.Spec.ExampleIndex
/-!
# C08 — adding vectors keeps the link graph well formed
-/
namespace Fave.C08
open Index Spec
variable {V D : Type} [Dist D]

/-- Every history (additions under fresh numbers with any levels, schedules and vector-cache behaviour, refused vectors,
flushes, loads, restarts): the numbers handed out are stored, the link graph is well formed, the search start is stored. -/
theorem links_well_formed (P : Params V D) (hP : P.Ok) (s : Index V) (vs : List V) (h : Hist P s vs) :
    WellFormed P.maxConn0 P.maxConn s.get vs.length ∧ (vs ≠ [] → ∃ v, s.get s.entry = some v ∧ s.entry < vs.length) := by
  have hi := hist_inv hP h
  refine ⟨hi.wf, fun hn => ?_⟩
  obtain ⟨v, hv, _⟩ := hi.wf _ (hi.entry hn)
  exact ⟨v, hv, hi.entry hn⟩

/-- with FaVe's parameters: at most 60 links on the base level, 30 above -/
theorem links_well_formed_fave (metric : Metric V D) (norm : V → V) (jsonOk : V → Bool)
    (hlen : ∀ a b, metric.len a ≠ metric.len b → metric.dist a b = none) (hnorm : ∀ v, metric.len (norm v) = metric.len v)
    (s : Index V) (vs : List V) (h : Hist (faveParams metric norm jsonOk) s vs) :
    WellFormed 60 30 s.get vs.length ∧ (vs ≠ [] → ∃ v, s.get s.entry = some v ∧ s.entry < vs.length) :=
  links_well_formed _ ⟨by simp [faveParams], by simp [faveParams], hlen, hnorm⟩ s vs h

/-! Non-vacuity: the sample index (six vectors, three levels, a flush and a restart in between). -/
example : Hist Ex.P Ex.s6 Ex.vecs ∧ Ex.vecs.length = 6 ∧
    (Ex.s6.get 1).map (fun v => (v.level, v.conns)) = some (1, [[0, 2, 5], [3]]) := ⟨Ex.hist6, rfl, by decide +kernel⟩
example : WellFormed 3 2 Ex.s6.get 6 := (links_well_formed Ex.P Ex.P_ok _ _ Ex.hist6).1

/-! ## What goes wrong outside these histories -/

/-- If a batch without any vector is flushed first (document.go:443 always flushes), the first vector is linked to itself:
the store no longer counts as empty, so the vector is inserted next to the search start 0 — itself. -/
theorem self_link_after_flush_without_vectors :
    ∃ s1 s2, flush Ex.P (init : Index (List Nat)) [] 0 = (s1, none) ∧ add Ex.P Ex.vo Ex.sched s1 0 [10, 0] 0 = (s2, none) ∧
      (s2.get 0).map Vertex.conns = some [[0]] :=
  ⟨_, _, rfl, rfl, by decide +kernel⟩

/-- An addition that fails half-way (a vector cannot be read back) leaves links to a number that is then given to the next
vector, which links to itself. -/
theorem self_link_after_failed_addition :
    ∃ s1 s2 e, Hist Ex.P Ex.s4 (Ex.vecs.take 4) ∧
      add Ex.P (fun l nb _ id => if l = 0 ∧ nb = none then none else Ex.vecs[id]?) Ex.sched Ex.s4 4 [50, 0] 1 = (s1, some e) ∧
      add Ex.P Ex.vo Ex.sched s1 4 [13, 2] 1 = (s2, none) ∧
      ∃ v, s2.get 4 = some v ∧ ∃ links ∈ v.conns, 4 ∈ links := by
  refine ⟨_, _, .error, Ex.hist4, rfl, rfl, ?_⟩
  decide +kernel

end Fave.C08

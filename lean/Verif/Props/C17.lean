import Verif.Lemmas.AddTotal
import Verif.Spec.ExampleIndex
/-!
# C17 — collections can grow without bound

Full statement: adding a valid vector to a collection never crashes, whatever number of vectors the collection already holds.

This is false: the vector cache is a slice of 25000 cells (maintainance.go:21, vector_cache.go:60), the method that should grow it is a
no-op (maintainance.go:28-57), so number 25000 is out of range.  Proved: the statement up to that size, and the crash at that size.
-/
namespace Fave.C17
open Index
variable {V D : Type} [Dist D]

/-- Missing for the full statement: collections of `cacheSize` or more vectors (see `full_collection_crashes`).  With fewer
vectors, whatever happened before, adding a vector of the collection's length succeeds, provided the stored vectors can be read back;
levels and schedules are arbitrary. -/
theorem additions_succeed_partial (P : Params V D) (hP : P.Ok)
    (hdist : ∀ a b, P.metric.len a = P.metric.len b → ∃ d, P.metric.dist a b = some d)
    (s : Index V) (vs : List V) (h : Hist P s vs) (hroom : vs.length < P.cacheSize)
    (vec : V) (hL : P.metric.len vec ≠ 0) (hlen : ∀ u ∈ vs, P.metric.len u = P.metric.len vec)
    (vo : VecOracle V) (hvo : ∀ l o k id, id ≤ vs.length → ∃ w, vo l o k id = some w ∧ P.metric.len w = P.metric.len vec)
    (sched : Graph.Scheds D) (level : Nat) :
    ∃ s', add P vo sched s vs.length vec level = (s', none) ∧ Hist P s' (vs ++ [vec]) := by
  have ht := add_total hP hdist (hist_inv hP h) hL hlen hroom (vo := vo) hvo sched level
  refine ⟨(add P vo sched s vs.length vec level).1, ?_, .add vo sched vec level h ?_⟩ <;>
  · rw [← ht]

/-- The 25001st addition crashes: nothing but the number matters. -/
theorem full_collection_crashes (metric : Metric V D) (norm : V → V) (jsonOk : V → Bool)
    (hlens : ∀ a b, metric.len a ≠ metric.len b → metric.dist a b = none) (hnorm : ∀ v, metric.len (norm v) = metric.len v)
    (s : Index V) (vs : List V) (h : Hist (faveParams metric norm jsonOk) s vs) (hfull : vs.length = 25000)
    (vec : V) (hL : metric.len vec ≠ 0) (vo : VecOracle V) (sched : Graph.Scheds D) (level : Nat) :
    (add (faveParams metric norm jsonOk) vo sched s vs.length vec level).2 = some .panic := by
  have hP : (faveParams metric norm jsonOk).Ok := ⟨by simp [faveParams], by simp [faveParams], hlens, hnorm⟩
  have hi := hist_inv hP h
  have hn : vs ≠ [] := by intro e; rw [e] at hfull; cases hfull
  unfold add
  rw [if_neg (show ¬ (faveParams metric norm jsonOk).metric.len vec = 0 from hL)]
  unfold insertNode
  rw [if_neg (fun hh => hn (hi.path.mp hh))]
  simp only
  rw [if_pos (by show 25000 ≤ vs.length; omega)]

/-- Such collections are reachable: every number of vectors up to `cacheSize` is. -/
theorem all_sizes_reachable (P : Params V D) (hP : P.Ok)
    (hdist : ∀ a b, P.metric.len a = P.metric.len b → ∃ d, P.metric.dist a b = some d)
    (vec : V) (hL : P.metric.len vec ≠ 0) (n : Nat) (hn : n ≤ P.cacheSize) : ∃ s, Hist P s (List.replicate n vec) := by
  induction n with
  | zero => exact ⟨_, .init⟩
  | succ n ih =>
    obtain ⟨s, h⟩ := ih (by omega)
    obtain ⟨s', _, h'⟩ := additions_succeed_partial P hP hdist s _ h (by simp; omega) vec hL (by simp +contextual) (fun _ _ _ _ => some vec)
      (fun _ _ _ _ _ => ⟨vec, rfl, rfl⟩) (fun _ => Sched.id) 0
    rw [List.replicate_succ']
    exact ⟨s', h'⟩

/-- The full statement fails: there is a collection, built by additions only, to which no further vector can be added without a crash. -/
theorem growth_is_bounded (metric : Metric V D) (norm : V → V) (jsonOk : V → Bool)
    (hlens : ∀ a b, metric.len a ≠ metric.len b → metric.dist a b = none) (hnorm : ∀ v, metric.len (norm v) = metric.len v)
    (hdist : ∀ a b, metric.len a = metric.len b → ∃ d, metric.dist a b = some d) (u : V) (hu : metric.len u ≠ 0) :
    ∃ s vs, Hist (faveParams metric norm jsonOk) s vs ∧ (∀ x ∈ vs, metric.len x = metric.len u) ∧
      ∀ vec, metric.len vec ≠ 0 → ∀ vo sched level, (add (faveParams metric norm jsonOk) vo sched s vs.length vec level).2 = some .panic := by
  have hP : (faveParams metric norm jsonOk).Ok := ⟨by simp [faveParams], by simp [faveParams], hlens, hnorm⟩
  obtain ⟨s, h⟩ := all_sizes_reachable _ hP hdist u hu 25000 (by simp [faveParams])
  exact ⟨s, _, h, fun x hx => by rw [(List.mem_replicate.mp hx).2],
    fun vec hL vo sched level => full_collection_crashes metric norm jsonOk hlens hnorm s _ h List.length_replicate vec hL vo sched level⟩

/-! Non-vacuity: a seventh vector for the six-vector collection with flush and restart in its history (room for 16), and the metric of
`growth_is_bounded`. -/
example : Hist Ex.P Ex.s6 Ex.vecs ∧ Ex.vecs.length < Ex.P.cacheSize ∧ (∀ u ∈ Ex.vecs, Ex.P.metric.len u = Ex.P.metric.len [7, 7]) ∧
    (∀ id, id ≤ Ex.vecs.length → ∃ w, (Ex.vecs ++ [[7, 7]])[id]? = some w ∧ Ex.P.metric.len w = Ex.P.metric.len [7, 7]) := by
  refine ⟨Ex.hist6, by decide, by decide, ?_⟩
  intro id hid
  have h : id = 0 ∨ id = 1 ∨ id = 2 ∨ id = 3 ∨ id = 4 ∨ id = 5 ∨ id = 6 := by simp [Ex.vecs] at hid; omega
  rcases h with rfl | rfl | rfl | rfl | rfl | rfl | rfl <;> exact ⟨_, rfl, rfl⟩
example : ∃ s vs, Hist (faveParams Ex.vmetric id (fun _ => true)) s vs ∧ (∀ x ∈ vs, Ex.vmetric.len x = Ex.vmetric.len [1, 2]) ∧
    ∀ vec, Ex.vmetric.len vec ≠ 0 → ∀ vo sched level, (add (faveParams Ex.vmetric id (fun _ => true)) vo sched s vs.length vec level).2 = some .panic :=
  growth_is_bounded Ex.vmetric id (fun _ => true) (fun a b h => by simp only [Ex.vmetric] at *; rw [if_neg h]) (fun _ => rfl)
    (fun a b h => by simp only [Ex.vmetric] at *; rw [if_pos h]; exact ⟨_, rfl⟩) [1, 2] (by decide)

end Fave.C17

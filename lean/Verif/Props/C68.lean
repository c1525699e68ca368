import Verif.Lemmas.RunDet
import Verif.Spec.ExampleIndex
/-!
# C68: timing

Full claim: *the links an addition makes and the answer of a search do not depend on the order in which the goroutines that compute
the distances of the neighbours of a candidate finish.*

False if two vectors are equally far from the query: the answer with one hit is either of the two (`answer_depends_on_timing`), and the
link lists of an added vector differ (`links_depend_on_timing`), though nothing else differs.

True without ties (the `_partial` theorems): then the outcome of every operation is the same for all orders, and so are all later states.
-/
namespace Fave.C68
open Index Spec
variable {V D : Type} [Dist D]

/-- Searches for a vector from which no two stored vectors are equally far: any two orders in which goroutines finish lead to the same
answer (hits, distances, their order; or the same error).  `s` is any state in which nodes are stored under their own numbers below the
size of the vector cache. -/
theorem answers_ignore_timing_partial [LawfulDist D] (P : Params V D) (hs : P.cacheSize ≤ P.visitedSize) (hsym : ∀ a b, P.metric.dist a b = P.metric.dist b a)
    (s : Index V) (hb : ∀ id v, s.get id = some v → id < P.cacheSize) (q : V) (ef : Int) (hef : 1 ≤ ef) (allow : Option (Nat → Bool))
    (σ τ : Graph.Scheds D) :
    (NoTies P.metric (fun id => (s.get id).map Vertex.vec) (P.norm q) → ∀ max,
      (s.graph P).knnMaxDist σ q max ef allow = (s.graph P).knnMaxDist τ q max ef allow) ∧
    (NoTies P.metric (fun id => (s.get id).map Vertex.vec) q → ∀ k,
      (s.graph P).knnSearch s.isEmpty σ q k ef allow = (s.graph P).knnSearch s.isEmpty τ q k ef allow) :=
  ⟨fun h max => Graph.knnMaxDist_det (g := s.graph P) (calm_of_noTies hs hsym hb h) σ τ max hef allow,
   fun h k => Graph.knnSearch_det (g := s.graph P) (calm_of_noTies hs hsym hb h) s.isEmpty σ τ k hef allow⟩

/-- An addition to any reachable state, if no two vectors (the new one included) are equally far from the new vector: any two orders
in which goroutines finish lead to the same state and the same outcome. -/
theorem addition_ignores_timing_partial [LawfulDist D] (P : Params V D) (hef : 1 ≤ P.efC) (hs : P.cacheSize ≤ P.visitedSize)
    (hsym : ∀ a b, P.metric.dist a b = P.metric.dist b a) (s : Index V) (h : Any P s) (hb : ∀ id v, s.get id = some v → id < P.cacheSize)
    (vo : VecOracle V) (x : Nat) (vec : V) (level : Nat)
    (hn : NoTies P.metric (fun id => if id = x then some (P.norm vec) else (s.get id).map Vertex.vec) (P.norm vec)) (σ τ : Graph.Scheds D) :
    Index.add P vo σ s x vec level = Index.add P vo τ s x vec level :=
  add_det hef hs hsym (any_inv h).1 hb vo σ τ x vec level hn

/-- Any sequence of additions, flushes (completed or cut short), loads, restarts and searches on a new collection in which no operation
meets a tie: under any two timings all outcomes and answers are the same, and so is the index at the end. -/
theorem histories_ignore_timing_partial [LawfulDist D] (P : Params V D) (hef : 1 ≤ P.efC) (hs : P.cacheSize ≤ P.visitedSize)
    (hsym : ∀ a b, P.metric.dist a b = P.metric.dist b a) (ops : List (Op V D)) (σ τ : Nat → Graph.Scheds D)
    (hu : UntiedAll P σ init 0 ops) : runAll P σ init 0 ops = runAll P τ init 0 ops :=
  runAll_det hef hs hsym σ τ ops 0 ⟨fun id v h => (by cases h), fun id v h => by cases h⟩ ⟨fun id v h => (by cases h), fun id v h => by cases h⟩ hu

/-! Non-vacuity: a history with additions on several layers, a flush, a restart and searches, all under other timings than those
used to check that there are no ties. -/
def busyVo : VecOracle (List Nat) := fun _ _ _ id => ([[10, 0], [12, 0], [30, 1], [13, 5], [50, 0]] : List (List Nat))[id]?
def busy : List (Op (List Nat) Nat) :=
  [.add busyVo 0 [10, 0] 0, .add busyVo 1 [12, 0] 1, .add busyVo 2 [30, 1] 0, .add busyVo 3 [13, 5] 2, .flush [3, 2, 1, 0] 4, .restart, .load,
   .add busyVo 4 [50, 0] 1, .near [14, 0] 100 4 none, .knn [13, 4] 2 3 none]
theorem metric_sym : ∀ a b, Ex.P.metric.dist a b = Ex.P.metric.dist b a := by
  intro a b
  show Ex.vmetric.dist a b = Ex.vmetric.dist b a
  unfold Ex.vmetric
  simp only
  by_cases h : a.length = b.length
  · rw [if_pos h, if_pos h.symm, List.zipWith_comm]
    congr 3
    funext x y
    omega
  · rw [if_neg h, if_neg (fun e => h e.symm)]
theorem busy_untied : UntiedAll Ex.P (fun _ _ => Sched.id) init 0 busy := untiedAll_of_b (by decide +kernel)
example (τ : Nat → Graph.Scheds Nat) : runAll Ex.P τ init 0 busy = runAll Ex.P (fun _ _ => Sched.id) init 0 busy :=
  (histories_ignore_timing_partial Ex.P (by decide) (by decide) metric_sym busy _ τ busy_untied).symm
example : [0, 1, 2, 3, 4].map (fun i => ((runAll Ex.P (fun _ _ => Sched.rev) init 0 busy).1.get i).map Vertex.conns) =
    [some [[1]], some [[0, 2, 3], [3]], some [[1, 4]], some [[1], [1], []], some [[2], []]] := by decide +kernel
example : ((runAll Ex.P (fun _ _ => Sched.id) init 0 (busy.take 8)).1.graph Ex.P).knnMaxDist (fun _ => Sched.rev) [14, 0] 100 4 none =
    .ok ([1, 0, 3, 2], [2, 4, 6, 17]) := by decide +kernel

/-! ### with ties -/

/-- [0, 0] and [2, 0] are equally far from [1, 0] -/
def tied : List (List Nat) := [[10, 0], [0, 0], [2, 0], [1, 0]]
def tiedVo : VecOracle (List Nat) := fun _ _ _ id => tied[id]?
def threeAdded : List (Op (List Nat) Nat) := [.add tiedVo 0 [10, 0] 0, .add tiedVo 1 [0, 0] 0, .add tiedVo 2 [2, 0] 0]

/-- Three vectors are stored, two of them equally far from the query.  None of the additions meets a tie, so the index is the same for
all timings; the search for the nearest one answers the first or the second of the two, depending on which goroutine is faster. -/
theorem answer_depends_on_timing : ∃ s : Index (List Nat), Any Ex.P s ∧ (∀ σ, (runAll Ex.P σ init 0 threeAdded).1 = s) ∧
    (s.graph Ex.P).knnMaxDist (fun _ => Sched.id) [1, 0] 100 1 none = .ok ([1], [1]) ∧
    (s.graph Ex.P).knnMaxDist (fun _ => Sched.rev) [1, 0] 100 1 none = .ok ([2], [1]) := by
  refine ⟨(runAll Ex.P (fun _ _ => Sched.id) init 0 threeAdded).1, ?_, ?_, by decide +kernel, by decide +kernel⟩
  · exact .add tiedVo _ 2 [2, 0] 0 (.add tiedVo _ 1 [0, 0] 0 (.add tiedVo _ 0 [10, 0] 0 .init))
  · intro σ
    rw [← histories_ignore_timing_partial Ex.P (by decide) (by decide) metric_sym threeAdded (fun _ _ => Sched.id) σ (untiedAll_of_b (by decide +kernel))]

/-- Adding [1, 0] to the same three vectors: the link list of the new vector depends on which goroutine is faster. -/
theorem links_depend_on_timing : ∃ s : Index (List Nat), Any Ex.P s ∧ (∀ σ, (runAll Ex.P σ init 0 threeAdded).1 = s) ∧
    ((Index.add Ex.P tiedVo (fun _ => Sched.id) s 3 [1, 0] 0).1.get 3).map Vertex.conns = some [[2, 1]] ∧
    ((Index.add Ex.P tiedVo (fun _ => Sched.rev) s 3 [1, 0] 0).1.get 3).map Vertex.conns = some [[1, 2]] := by
  refine ⟨(runAll Ex.P (fun _ _ => Sched.id) init 0 threeAdded).1, ?_, ?_, by decide +kernel, by decide +kernel⟩
  · exact .add tiedVo _ 2 [2, 0] 0 (.add tiedVo _ 1 [0, 0] 0 (.add tiedVo _ 0 [10, 0] 0 .init))
  · intro σ
    rw [← histories_ignore_timing_partial Ex.P (by decide) (by decide) metric_sym threeAdded (fun _ _ => Sched.id) σ (untiedAll_of_b (by decide +kernel))]

end Fave.C68

import Verif.Spec.Graph
import Verif.Model.History
/-!
# Distances without ties, and operations without their timing (C68)
-/
namespace Fave.Spec
variable {V D : Type} [Dist D]

/-- no two stored vectors have the same distance from the query -/
def TieFree (env : SEnv V D) : Prop :=
  ∀ i j di dj, HasDist env i di → HasDist env j dj → i ≠ j → Dist.lt di dj = true ∨ Dist.lt dj di = true

/-- an allow list permits a number; without list everything is permitted — pkg/hnsw/search.go:284-297 -/
def permits (allow : Option (Nat → Bool)) (x : Nat) : Bool :=
  match allow with
  | some p => p x
  | none => true

/-- no two of the numbered vectors have the same distance from `q` -/
def NoTies (m : Metric V D) (vec : Nat → Option V) (q : V) : Prop :=
  ∀ i j u w du dw, vec i = some u → vec j = some w → i ≠ j → m.dist q u = some du → m.dist q w = some dw →
    Dist.lt du dw = true ∨ Dist.lt dw du = true

end Fave.Spec

namespace Fave.Index
variable {V D : Type} [Dist D]

/-- An operation on the index of a collection: everything about it that does not depend on the order in which the goroutines
of searches (pkg/hnsw/search.go:243-274) finish. -/
inductive Op (V D : Type) where
  /-- `Add` — pkg/hnsw/insert.go:57-79 -/
  | add (vo : VecOracle V) (x : Nat) (vec : V) (level : Nat)
  /-- `Flush` — pkg/hnsw/insert.go:118-164 -/
  | flush (order : List Nat) (n : Nat)
  /-- a `Flush` that ends after `k` writes — pkg/hnsw/insert.go:133-162 -/
  | cut (order : List Nat) (n k : Nat)
  /-- `LoadEntrypoint` — pkg/hnsw/insert.go:181-199 -/
  | load
  /-- the same, with an entry that cannot be read — pkg/hnsw/insert.go:185-189 -/
  | unread
  /-- a new process — pkg/hnsw/index.go:213-290 -/
  | restart
  /-- `KnnSearchByVectorMaxDist` — pkg/hnsw/search_with_max_dist.go:22-87 -/
  | near (q : V) (max : D) (ef : Int) (allow : Option (Nat → Bool))
  /-- `knnSearchByVector` — pkg/hnsw/search.go:464-546 -/
  | knn (q : V) (k ef : Int) (allow : Option (Nat → Bool))

/-- what the caller sees of an operation: the error of an addition or a flush, the answer of a search — pkg/hnsw/insert.go:57,
search_with_max_dist.go:22, search.go:464 -/
inductive Out (D : Type) where
  | done (e : Option Err)
  | hits (r : Except Err (List Nat × List D))
  | items (r : Except Err (List (Item D)))

/-- an operation under a timing — the functions cited at `Op` -/
def Op.run (P : Params V D) (sched : Graph.Scheds D) (s : Index V) : Op V D → Index V × Out D
  | .add vo x vec level => let r := Index.add P vo sched s x vec level; (r.1, .done r.2)
  | .flush order n => let r := Index.flush P s order n; (r.1, .done r.2)
  | .cut order n k => (((s.flushWrites order n).take k).foldl applyWrite s, .done (some .error))
  | .load => (s.loadEntry, .done none)
  | .unread => ({ s with entry := 0 }, .done none)
  | .restart => (s.reopen, .done none)
  | .near q max ef allow => (s, .hits ((s.graph P).knnMaxDist sched q max ef allow))
  | .knn q k ef allow => (s, .items ((s.graph P).knnSearch s.isEmpty sched q k ef allow))

/-- operations one after the other, the `i`-th under the timing `scheds i` — pkg/document/document.go:287-454, 456-651 -/
def runAll (P : Params V D) (scheds : Nat → Graph.Scheds D) (s : Index V) : Nat → List (Op V D) → Index V × List (Out D)
  | _, [] => (s, [])
  | i, op :: ops =>
    let r := op.run P (scheds i) s
    let r' := runAll P scheds r.1 (i + 1) ops
    (r'.1, r.2 :: r'.2)

/-- no two vectors are equally far from the one an operation in state `s` is about, and the operation is within the limits of the
index (numbers below the size of the vector cache — pkg/hnsw/maintainance.go:21 —, at least one hit wanted) -/
def Op.Untied (P : Params V D) (s : Index V) : Op V D → Prop
  | .add _ x vec _ => x < P.cacheSize ∧
      Spec.NoTies P.metric (fun id => if id = x then some (P.norm vec) else (s.get id).map Vertex.vec) (P.norm vec)
  | .near q _ ef _ => 1 ≤ ef ∧ Spec.NoTies P.metric (fun id => (s.get id).map Vertex.vec) (P.norm q)
  | .knn q _ ef _ => 1 ≤ ef ∧ Spec.NoTies P.metric (fun id => (s.get id).map Vertex.vec) q
  | _ => True

/-- the same for every operation of a sequence, in the state it meets -/
def UntiedAll (P : Params V D) (scheds : Nat → Graph.Scheds D) (s : Index V) : Nat → List (Op V D) → Prop
  | _, [] => True
  | i, op :: ops => op.Untied P s ∧ UntiedAll P scheds (op.run P (scheds i) s).1 (i + 1) ops

end Fave.Index

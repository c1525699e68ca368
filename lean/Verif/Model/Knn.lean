import Verif.Model.Search
/-!
# Whole-index searches

Model of `KnnSearchByVectorMaxDist` (pkg/hnsw/search_with_max_dist.go), `knnSearchByVector`, `SearchByVector`
(pkg/hnsw/search.go) and `flatSearch` (pkg/hnsw/flat_search.go).
-/
namespace Fave

/-- The parts of the `hnsw` struct that searches read — pkg/hnsw/index.go:40-150. -/
structure Graph (V D : Type) where
  /-- `nodeByID` — index.go:594-623 -/
  get : Nat → Option (Vertex V)
  /-- ids for which `get` can succeed (only bounds loops) -/
  keys : List Nat
  metric : Metric V D
  /-- the normalisation applied to the query: `distancer.Normalize` if the provider type is "cosine-dot", otherwise
  nothing — search_with_max_dist.go:25-29, search.go:74-78 -/
  norm : V → V
  tomb : Nat → Bool
  cacheSize : Nat
  visitedSize : Nat
  /-- `entryPointID` -/
  entry : Nat
  /-- `currentMaximumLayer` -/
  maxLayer : Nat

namespace Graph
variable {V D : Type} [Dist D]
open Queue

/-- what a layer search for query `q` reads -/
def senv (g : Graph V D) (q : V) (allow : Option (Nat → Bool)) : SEnv V D :=
  { get := g.get, keys := g.keys, qdist := g.metric.dist q, tomb := g.tomb, allow := allow,
    cacheSize := g.cacheSize, visitedSize := g.visitedSize }

/-- `distBetweenNodeAndVec` — pkg/hnsw/index.go:512-549 (uncompressed); `none` is an error. -/
def distNodeVec (g : Graph V D) (id : Nat) (q : V) : Option D :=
  match g.get id with
  | none => none
  | some v =>
    if g.metric.len v.vec = 0 then none
    else if g.metric.len q = 0 then none
    else g.metric.dist v.vec q

/-- one schedule per layer search; within one call each level is searched once -/
abbrev Scheds (D : Type) := Nat → Sched D

/-- the loop over the layers `level, …, 1` — search_with_max_dist.go:42-58. -/
def descend (g : Graph V D) (sched : Scheds D) (q : V) : Nat → Item D → Except Err (Item D)
  | 0, ep => .ok ep
  | level + 1, ep =>
    match Search.searchLayer (g.senv q none) (sched (level + 1)) [ep] 1 (level + 1) with
    | .error e => .error e
    | .ok res =>
      match pop lessMax res with
      | some (best, _) => descend g sched q level best
      | none => descend g sched q level ep

/-- search_with_max_dist.go:25-64: everything up to and including the base-layer search; `q` already normalised. -/
def retained (g : Graph V D) (sched : Scheds D) (q : V) (ef : Int) (allow : Option (Nat → Bool)) :
    Except Err (Array (Item D)) :=
  match g.distNodeVec g.entry q with
  | none => .error .error
  | some d =>
    match descend g sched q g.maxLayer ⟨g.entry, d⟩ with
    | .error e => .error e
    | .ok ep => Search.searchLayer (g.senv q allow) (sched 0) [ep] ef 0

/-- the loop that keeps the hits in range — search_with_max_dist.go:75-85. -/
def keepInRange (max : D) : List (Item D) → List (Item D)
  | [] => []
  | x :: xs =>
    if Dist.lt x.dist Dist.zero then keepInRange max xs
    else if Dist.lt max x.dist then []
    else x :: keepInRange max xs

/-- `KnnSearchByVectorMaxDist` — search_with_max_dist.go:22-87: ids and distances; the slice of distances keeps the
length of the unfiltered list, its unused tail is zero. -/
def knnMaxDist (g : Graph V D) (sched : Scheds D) (q : V) (max : D) (ef : Int) (allow : Option (Nat → Bool)) :
    Except Err (List Nat × List D) :=
  match g.retained sched (g.norm q) ef allow with
  | .error e => .error e
  | .ok res =>
    let all := (drain lessMax res).reverse
    let hits := keepInRange max all
    .ok (hits.map Item.id, hits.map Item.dist ++ List.replicate (all.length - hits.length) Dist.zero)

/-- the inner loop over the results of an upper layer — search.go:494-518: the first result (popped from the max queue)
that is present and not under maintenance becomes the entry point.  A missing node additionally gets a tombstone in Go;
it cannot occur without concurrent deletion because a result always had a distance. -/
def firstUsable (g : Graph V D) : List (Item D) → Option (Item D)
  | [] => none
  | c :: cs =>
    match g.get c.id with
    | none => firstUsable g cs
    | some v => if v.maint then firstUsable g cs else some c

/-- the loop over the layers of `knnSearchByVector` — search.go:481-521. -/
def descendK (g : Graph V D) (sched : Scheds D) (q : V) : Nat → Item D → Except Err (Item D)
  | 0, ep => .ok ep
  | level + 1, ep =>
    match Search.searchLayer (g.senv q none) (sched (level + 1)) [ep] 1 (level + 1) with
    | .error e => .error e
    | .ok res =>
      match firstUsable g (drain lessMax res) with
      | some best => descendK g sched q level best
      | none => descendK g sched q level ep

/-- `knnSearchByVector` — search.go:464-546.  `isEmpty` is the store's emptiness (index.go:579-592); a negative `k` pops
from an empty queue (panic). -/
def knnSearch (g : Graph V D) (isEmpty : Bool) (sched : Scheds D) (q : V) (k : Int) (ef : Int)
    (allow : Option (Nat → Bool)) : Except Err (List (Item D)) :=
  if isEmpty then .ok []
  else
    match g.distNodeVec g.entry q with
    | none => .error .error
    | some d =>
      match descendK g sched q g.maxLayer ⟨g.entry, d⟩ with
      | .error e => .error e
      | .ok ep =>
        match Search.searchLayer (g.senv q allow) (sched 0) [ep] ef 0 with
        | .error e => .error e
        | .ok res => if k < 0 then .error .panic else .ok ((drain lessMax res).reverse.take k.toNat)

end Graph
end Fave

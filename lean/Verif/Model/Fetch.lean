import Verif.Model.Knn
import Verif.Model.Lru
/-!
# How often the storage is asked

The calls of `nodeByID` a search makes, and which of them become a `KVGet` (a request to the network storage): those whose node is not in the
node cache of `Model/Lru`.
-/
namespace Fave

namespace Lru
variable {α : Type}

/-- the `KVGet` of one operation — index.go:600-611: a read of a node that is not cached.  Writes and flushes read nothing of a node
(insert.go:104,118-140,271; `Flush` takes the nodes from the cache). -/
def fetchOf (s : Store α) : Op α → List Nat
  | .read k =>
    match lookup s k with
    | some _ => []
    | none => [k]
  | _ => []

/-- the `KVGet`s of a sequence of operations, in order — index.go:594-623 -/
def fetches (cap : Nat) : Store α → List (Op α) → List Nat
  | _, [] => []
  | s, o :: os => fetchOf s o ++ fetches cap (step cap s o) os

end Lru

namespace Search
variable {V D : Type} [Dist D]
open Queue

/-- the nodes looked up by the main loop — search.go:198-316: the candidate (207), then those of the goroutines (255, 422).  The goroutines
are listed in the order in which they are started. -/
def loopReads (env : SEnv V D) (sched : Sched D) (ef : Int) (level : Nat) : Nat → St D → List Nat
  | 0, _ => []
  | fuel + 1, st =>
    match pop lessMin st.cands with
    | none => []
    | some (c, cands) =>
      if Dist.lt st.worst c.dist && decide ((st.results.size : Int) ≥ ef) then []
      else
        let st := { st with cands := cands }
        c.id ::
          match env.get c.id with
          | none => loopReads env sched ef level fuel st
          | some v =>
            if v.level < level then loopReads env sched ef level fuel st
            else
              match v.conns[level]? with
              | none => []
              | some links =>
                (markNew st.visited links).2 ++
                  match expand env sched ef level st links with
                  | .error _ => []
                  | .ok st' => loopReads env sched ef level fuel st'

/-- the nodes looked up by `searchLayerByVector` — search.go:164-325: first the worst entry point (192, 353-376) -/
def layerReads (env : SEnv V D) (sched : Sched D) (eps : List (Item D)) (ef : Int) (level : Nat) : List Nat :=
  ((top (eps.foldl (enter env level) (#[], #[])).2).map Item.id).toList ++
    match start env eps level with
    | .error _ => []
    | .ok st => loopReads env sched ef level (eps.length + env.keys.length + 1) st

end Search

namespace Graph
variable {V D : Type} [Dist D]
open Queue

/-- the nodes looked up on the layers `level, …, 1` — search_with_max_dist.go:42-58 -/
def descendReads (g : Graph V D) (sched : Scheds D) (q : V) : Nat → Item D → List Nat
  | 0, _ => []
  | level + 1, ep =>
    Search.layerReads (g.senv q none) (sched (level + 1)) [ep] 1 (level + 1) ++
      match Search.searchLayer (g.senv q none) (sched (level + 1)) [ep] 1 (level + 1) with
      | .error _ => []
      | .ok res =>
        match pop lessMax res with
        | some (best, _) => descendReads g sched q level best
        | none => descendReads g sched q level ep

/-- the nodes looked up by `KnnSearchByVectorMaxDist` — search_with_max_dist.go:22-64; `q` already normalised -/
def searchReads (g : Graph V D) (sched : Scheds D) (q : V) (ef : Int) (allow : Option (Nat → Bool)) : List Nat :=
  g.entry ::
    match g.distNodeVec g.entry q with
    | none => []
    | some d =>
      descendReads g sched q g.maxLayer ⟨g.entry, d⟩ ++
        match descend g sched q g.maxLayer ⟨g.entry, d⟩ with
        | .error _ => []
        | .ok ep => Search.layerReads (g.senv q allow) (sched 0) [ep] ef 0

end Graph
end Fave

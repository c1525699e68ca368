import Verif.Model.Knn
/-!
# The work of a search

What `searchLayerByVector` and `KnnSearchByVectorMaxDist` ask for: which candidates are expanded, and for which numbers a goroutine is
started that loads the vertex and computes its distance to the query.  The recursions follow `Search.loop`, `Search.searchLayer`,
`Graph.descend` and `Graph.retained` and record instead of answering.
-/
namespace Fave

/-- one expansion: the candidate, and the numbers for which goroutines are started — search.go:232-274 -/
structure Burst where
  node : Nat
  asked : List Nat
  deriving DecidableEq, Repr

namespace Search
variable {V D : Type} [Dist D]
open Queue

/-- the expansions of the main loop in order — search.go:198-316.  An expansion that panics has started its goroutines. -/
def loopWork (env : SEnv V D) (sched : Sched D) (ef : Int) (level : Nat) : Nat → St D → List Burst
  | 0, _ => []
  | fuel + 1, st =>
    match pop lessMin st.cands with
    | none => []
    | some (c, cands) =>
      if Dist.lt st.worst c.dist && decide ((st.results.size : Int) ≥ ef) then []
      else
        let st := { st with cands := cands }
        match env.get c.id with
        | none => loopWork env sched ef level fuel st
        | some v =>
          if v.level < level then loopWork env sched ef level fuel st
          else
            match v.conns[level]? with
            | none => []
            | some links =>
              ⟨c.id, (markNew st.visited links).2⟩ ::
                match expand env sched ef level st links with
                | .error _ => []
                | .ok st' => loopWork env sched ef level fuel st'

/-- the expansions of `searchLayerByVector` — search.go:164-325 -/
def layerWork (env : SEnv V D) (sched : Sched D) (eps : List (Item D)) (ef : Int) (level : Nat) : List Burst :=
  match start env eps level with
  | .error _ => []
  | .ok st => loopWork env sched ef level (eps.length + env.keys.length + 1) st

/-- the distances computed by one call of `searchLayerByVector`: first that of the worst entry point once more
(`currentWorstResultDistanceToFloat`, search.go:192,353-376), then those of the expansions — search.go:164-325 -/
def layerAsked (env : SEnv V D) (sched : Sched D) (eps : List (Item D)) (ef : Int) (level : Nat) : List Nat :=
  ((top (eps.foldl (enter env level) (#[], #[])).2).map Item.id).toList ++ (layerWork env sched eps ef level).flatMap Burst.asked

end Search

namespace Graph
variable {V D : Type} [Dist D]
open Queue

/-- the distances computed on the layers `level, …, 1`, one list for each — search_with_max_dist.go:42-58 -/
def descendAsked (g : Graph V D) (sched : Scheds D) (q : V) : Nat → Item D → List (List Nat)
  | 0, _ => []
  | level + 1, ep =>
    Search.layerAsked (g.senv q none) (sched (level + 1)) [ep] 1 (level + 1) ::
      match Search.searchLayer (g.senv q none) (sched (level + 1)) [ep] 1 (level + 1) with
      | .error _ => []
      | .ok res =>
        match pop lessMax res with
        | some (best, _) => descendAsked g sched q level best
        | none => descendAsked g sched q level ep

/-- the distances computed by `KnnSearchByVectorMaxDist`: that of the start vertex, then one list for each layer —
search_with_max_dist.go:22-64; `q` already normalised -/
def searchAsked (g : Graph V D) (sched : Scheds D) (q : V) (ef : Int) (allow : Option (Nat → Bool)) : List (List Nat) :=
  [g.entry] ::
    match g.distNodeVec g.entry q with
    | none => []
    | some d =>
      descendAsked g sched q g.maxLayer ⟨g.entry, d⟩ ++
        match descend g sched q g.maxLayer ⟨g.entry, d⟩ with
        | .error _ => []
        | .ok ep => [Search.layerAsked (g.senv q allow) (sched 0) [ep] ef 0]

end Graph
end Fave

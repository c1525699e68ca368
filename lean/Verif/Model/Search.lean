import Verif.Model.Queue
import Verif.Model.Visited
/-!
# Search on one layer

Model of `searchLayerByVector` (pkg/hnsw/search.go:164-325) and its helpers, uncompressed mode
(`h.compressed` is never set by FaVe, which passes no PQ configuration; pkg/document/document.go:181-199).
-/
namespace Fave

/-- `vertex` — pkg/hnsw/vertex.go:18-27.  `V` is the vector type (`[]float32`).  The lock is not modelled. -/
structure Vertex (V : Type) where
  id : Nat
  level : Nat
  conns : List (List Nat)
  maint : Bool
  vec : V
  committed : Bool
  deriving DecidableEq, Repr

/-- `distancer.Provider` — pkg/hnsw/distancer/provider.go:14-19.  `dist a b` is `SingleDist(a, b)` and also
`New(a).Distance(b)` (the concrete providers use the same function for both, e.g.
pkg/hnsw/distancer/l2.go); `none` is an error (vectors of different length).  `len` is Go's `len(vector)`. -/
structure Metric (V D : Type) where
  dist : V → V → Option D
  len : V → Nat

/-- Everything a layer search reads. -/
structure SEnv (V D : Type) where
  /-- `h.nodeByID` — pkg/hnsw/index.go:594-623: first the node cache, then the key-value store. -/
  get : Nat → Option (Vertex V)
  /-- ids for which `get` can succeed; only used to bound the number of loop iterations. -/
  keys : List Nat
  /-- `floatDistancer.Distance` for the query — pkg/hnsw/search.go:183,427. -/
  qdist : V → Option D
  /-- `h.hasTombstone` — pkg/hnsw/delete.go:579-584. -/
  tomb : Nat → Bool
  /-- `allowList` (`none` is Go's nil). -/
  allow : Option (Nat → Bool)
  /-- length of the vector cache slice; `prefetch` indexes it — pkg/hnsw/vector_cache.go:150-155. -/
  cacheSize : Nat
  /-- length of a fresh visited list — pkg/hnsw/pools.go:34 (25500 in FaVe). -/
  visitedSize : Nat

/-- Order in which the goroutines of one expansion (search.go:243-274) append their results: an arbitrary
permutation, chosen anew for every expansion `n`. -/
structure Sched (D : Type) where
  order : Nat → List (Item D) → List (Item D)
  perm : ∀ n l, (order n l).Perm l

/-- goroutines finish in the order they were started -/
def Sched.id {D : Type} : Sched D := ⟨fun _ l => l, fun _ _ => List.Perm.refl _⟩

/-- goroutines finish in reverse order -/
def Sched.rev {D : Type} : Sched D := ⟨fun _ l => l.reverse, fun _ l => List.reverse_perm l⟩

namespace Search
variable {V D : Type} [Dist D]
open Queue

/-- local variables of `searchLayerByVector` -/
structure St (D : Type) where
  cands : Array (Item D)
  results : Array (Item D)
  visited : ListSet
  worst : D
  /-- number of expansions so far (only used to index the schedule) -/
  n : Nat

/-- `distanceToFloatNode` — search.go:419-432; `none` is an error. -/
def distToNode (env : SEnv V D) (id : Nat) : Option D :=
  match env.get id with
  | none => none
  | some v => env.qdist v.vec

/-- may `id` enter the results? `allowList` is consulted on level 0 only — search.go:284-297, 335-347. -/
def viable (env : SEnv V D) (level id : Nat) : Bool :=
  (match env.allow with
   | some p => level != 0 || p id
   | none => true) && !env.tomb id

/-- `insertViableEntrypointsAsCandidatesAndResults` — search.go:327-351: the queue part. -/
def enter (env : SEnv V D) (level : Nat) (cr : Array (Item D) × Array (Item D)) (ep : Item D) :
    Array (Item D) × Array (Item D) :=
  let c := insert lessMin cr.1 ep
  if viable env level ep.id then (c, insert lessMax cr.2 ep) else (c, cr.2)

/-- `insertViableEntrypointsAsCandidatesAndResults` — search.go:327-351: the visited list is passed *by value*.
A mark is written to the array shared with the caller as long as no growth was needed; from the first growth on
the callee works on its own copy and the caller's list is no longer marked. -/
def markEntries (vis : ListSet) (ids : List Nat) : ListSet :=
  (ids.takeWhile (fun id => decide (id < vis.len))).foldl ListSet.visit vis

/-- `currentWorstResultDistanceToFloat` — search.go:353-376. -/
def worst0 (env : SEnv V D) (results : Array (Item D)) : Except Err D :=
  match top results with
  | none => .ok Dist.maxVal
  | some t =>
    match distToNode env t.id with
    | none => .error .error
    | some d => .ok d

/-- marking of the neighbours — search.go:236-242: returns the list and the ids that were not yet visited. -/
def markNew : ListSet → List Nat → ListSet × List Nat
  | vis, [] => (vis, [])
  | vis, id :: ids =>
    if vis.visited id then markNew vis ids
    else
      let r := markNew (vis.visit id) ids
      (r.1, id :: r.2)

/-- the distances computed by the goroutines — search.go:243-274; errors are dropped silently. -/
def distances (env : SEnv V D) (ids : List Nat) : List (Item D) :=
  ids.filterMap (fun id => (distToNode env id).map (fun d => ⟨id, d⟩))

/-- one neighbour with known distance — search.go:275-315. -/
def consider (env : SEnv V D) (ef : Int) (level : Nat) (st : St D) (nd : Item D) : Except Err (St D) :=
  if Dist.lt nd.dist st.worst || decide ((st.results.size : Int) < ef) then
    let cands := insert lessMin st.cands nd
    if !viable env level nd.id then .ok { st with cands := cands }
    else
      let results := insert lessMax st.results nd
      -- prefetch(candidates.Top().ID)
      match top cands with
      | none => .error .panic
      | some t =>
        if env.cacheSize ≤ t.id then .error .panic
        else
          let results := if (results.size : Int) > ef then
              match pop lessMax results with
              | some (_, r) => r
              | none => results
            else results
          let worst := match top results with
            | some r => r.dist
            | none => st.worst
          .ok { st with cands := cands, results := results, worst := worst }
  else .ok st

/-- `for _, nd := range nds` — search.go:275. -/
def considerAll (env : SEnv V D) (ef : Int) (level : Nat) : St D → List (Item D) → Except Err (St D)
  | st, [] => .ok st
  | st, nd :: nds =>
    match consider env ef level st nd with
    | .error e => .error e
    | .ok st' => considerAll env ef level st' nds

/-- expansion of a candidate whose link list is `links` — search.go:232-316. -/
def expand (env : SEnv V D) (sched : Sched D) (ef : Int) (level : Nat) (st : St D) (links : List Nat) :
    Except Err (St D) :=
  let r := markNew st.visited links
  let nds := sched.order st.n (distances env r.2)
  considerAll env ef level { st with visited := r.1, n := st.n + 1 } nds

/-- main loop — search.go:198-316. -/
def loop (env : SEnv V D) (sched : Sched D) (ef : Int) (level : Nat) : Nat → St D → Except Err (St D)
  | 0, _ => .error .fuel
  | fuel + 1, st =>
    match pop lessMin st.cands with
    | none => .ok st
    | some (c, cands) =>
      if Dist.lt st.worst c.dist && decide ((st.results.size : Int) ≥ ef) then .ok st
      else
        let st := { st with cands := cands }
        match env.get c.id with
        | none => loop env sched ef level fuel st
        | some v =>
          if v.level < level then loop env sched ef level fuel st
          else
            match v.conns[level]? with
            | none => .error .panic
            | some links =>
              match expand env sched ef level st links with
              | .error e => .error e
              | .ok st' => loop env sched ef level fuel st'

/-- start of the loop — search.go:168-196: `eps` are the entry points in pop order. -/
def start (env : SEnv V D) (eps : List (Item D)) (level : Nat) : Except Err (St D) :=
  let cr := eps.foldl (enter env level) (#[], #[])
  match worst0 env cr.2 with
  | .error e => .error e
  | .ok w => .ok
    { cands := cr.1, results := cr.2, visited := markEntries (ListSet.new env.visitedSize) (eps.map Item.id),
      worst := w, n := 0 }

/-- `searchLayerByVector` — search.go:164-325; `eps` is the list of entry points in the order in which they are
popped from the queue passed in.  The result is the max queue of results.  A list borrowed from the pool marks
nothing (theorem `C07.borrowed_list_is_clean`), so a fresh list is used here. -/
def searchLayer (env : SEnv V D) (sched : Sched D) (eps : List (Item D)) (ef : Int) (level : Nat) :
    Except Err (Array (Item D)) :=
  match start env eps level with
  | .error e => .error e
  | .ok st =>
    match loop env sched ef level (eps.length + env.keys.length + 1) st with
    | .error e => .error e
    | .ok st => .ok st.results

end Search
end Fave

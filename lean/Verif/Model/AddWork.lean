import Verif.Model.Work
import Verif.Model.Insert
/-!
# The work of an addition

What `Add` asks for: the distances it computes, and the vectors it reads through the vector cache (each of which may have to be fetched from the
storage).  The recursions follow those of `Model/Insert` and count instead of answering; the work of the searches is that of `Model/Work`.
-/
namespace Fave.Index
variable {V D : Type} [Dist D]
open Queue

/-- distances computed (`SingleDist`) and reads of the vector cache (`get`, `multiGet` — vector_cache.go:75-85, 121-140) -/
structure Cost where
  dists : Nat := 0
  reads : Nat := 0
deriving DecidableEq, Repr

instance : Add Cost := ⟨fun a b => ⟨a.dists + b.dists, a.reads + b.reads⟩⟩

/-- `distBetweenNodes` — index.go:437-510: two reads, then a distance -/
def distNodesCost (P : Params V D) (vo : Nat → Option V) (a b : Nat) : Cost :=
  match vecGet P vo a with
  | .error _ => ⟨0, 1⟩
  | .ok va =>
    if P.metric.len va = 0 then ⟨0, 1⟩
    else
      match vecGet P vo b with
      | .error _ => ⟨0, 2⟩
      | .ok vb => if P.metric.len vb = 0 then ⟨0, 2⟩ else ⟨1, 2⟩

/-- the distances of the loop of the heuristic — heuristic.go:85-119: to the items kept so far, up to the first that is nearer (102-112) -/
def heurCost (P : Params V D) (vo : Nat → Option V) (deny : Nat → Bool) (max : Nat) (ids : List Nat) : Nat → Array (ItemIx D) → List (ItemIx D) → Nat
  | 0, _, _ => 0
  | fuel + 1, closest, kept =>
    if max ≤ kept.length then 0
    else
      match pop lessMinIx closest with
      | none => 0
      | some (cur, closest) =>
        if deny cur.id then heurCost P vo deny max ids fuel closest kept
        else
          match (ids[cur.index]?).bind vo with
          | none => 0
          | some curVec =>
            let farther := fun item : ItemIx D =>
              match (ids[item.index]?).bind vo with
              | none => true
              | some w => !Dist.lt ((P.metric.dist curVec w).getD Dist.zero) cur.dist
            (kept.takeWhile farther).length + (if kept.all farther then 0 else 1) +
              heurCost P vo deny max ids fuel closest (if kept.all farther then kept ++ [cur] else kept)

/-- `selectNeighborsHeuristic` — heuristic.go:23-135: all vectors are read, in order, then the loop -/
def selectCost (P : Params V D) (vo : Nat → Option V) (deny : Nat → Bool) (max : Nat) (input : Array (Item D)) : Cost :=
  if input.size < max then ⟨0, 0⟩
  else
    let elems := drain lessMax input
    if elems.any (fun x => decide (P.cacheSize ≤ x.id)) then ⟨0, (elems.takeWhile (fun x => decide (x.id < P.cacheSize))).length⟩
    else
      ⟨heurCost P vo deny max (elems.map Item.id) elems.length
        (elems.zipIdx.foldl (fun q x => insert lessMinIx q ⟨x.1.id, x.2, x.1.dist⟩) #[]) [], elems.length⟩

/-- the distances of the existing links of an overfull neighbour — neighbor_connections.go:182-194 -/
def overfullCost (P : Params V D) (vo : Nat → Nat → Option V) (nb : Nat) : Nat → List Nat → Cost
  | _, [] => ⟨0, 0⟩
  | n, c :: cs =>
    distNodesCost P (vo n) c nb +
      match distNodes P (vo n) c nb with
      | .error _ => ⟨0, 0⟩
      | .ok _ => overfullCost P vo nb (n + 1) cs

/-- `connectNeighborAtLevel` — neighbor_connections.go:138-236: nothing is computed unless the neighbour has as many links as it may have -/
def connectNeighborCost (P : Params V D) (vo : VecOracle V) (x level : Nat) (s : Index V) (nb : Nat) : Cost :=
  match s.get nb with
  | none => ⟨0, 0⟩
  | some v =>
    if nb = x then ⟨0, 0⟩
    else if s.tombs.contains nb then ⟨0, 0⟩
    else
      let v := { v with committed := false }
      let v := if level > v.level then upgrade v level else v
      match v.conns[level]? with
      | none => ⟨0, 0⟩
      | some cur =>
        if cur.length < maxConns P level then ⟨0, 0⟩
        else
          distNodesCost P (vo level (some nb) 0) x nb +
            match distNodes P (vo level (some nb) 0) x nb with
            | .error _ => ⟨0, 0⟩
            | .ok d =>
              overfullCost P (vo level (some nb)) nb 1 cur +
                match overfull P (vo level (some nb)) nb 1 cur (insert lessMax #[] ⟨x, d⟩) with
                | .error _ => ⟨0, 0⟩
                | .ok cands => selectCost P (vo level (some nb) (cur.length + 1)) (fun _ => false) (maxConns P level) cands

/-- the loop over the neighbours — neighbor_connections.go:117-121 -/
def connectAllCost (P : Params V D) (vo : VecOracle V) (x level : Nat) : Index V → List Nat → Cost
  | _, [] => ⟨0, 0⟩
  | s, nb :: nbs =>
    connectNeighborCost P vo x level s nb +
      match connectNeighbor P vo x level s nb with
      | (_, some _) => ⟨0, 0⟩
      | (s, none) => connectAllCost P vo x level s nbs

/-- the distances of the search for neighbours: that of the entry point (neighbor_connections.go:246-316), then the layer search (73-86) -/
def doSearchCost (P : Params V D) (sched : Graph.Scheds D) (q : V) (s : Index V) (ep level : Nat) : Nat :=
  match pickEntry P s q 4 [] ep with
  | .error _ => 1
  | .ok e => 1 + (Search.layerAsked ((s.graph P).senv q none) (sched level) [e] P.efC level).length

/-- choosing and linking the neighbours — neighbor_connections.go:88-134 -/
def doLinkCost (P : Params V D) (vo : VecOracle V) (sched : Graph.Scheds D) (q : V) (x : Nat) (s : Index V) (ep level : Nat) : Cost :=
  match pickEntry P s q 4 [] ep with
  | .error _ => ⟨0, 0⟩
  | .ok ep =>
    match Search.searchLayer ((s.graph P).senv q none) (sched level) [ep] P.efC level with
    | .error _ => ⟨0, 0⟩
    | .ok results =>
      selectCost P (vo level none 0) (fun _ => false) P.maxConn results +
        match selectNeighbors P (vo level none 0) (fun _ => false) P.maxConn results with
        | .error _ => ⟨0, 0⟩
        | .ok kept =>
          let neighbors := (drain lessMax kept).map Item.id
          match s.get x with
          | none => ⟨0, 0⟩
          | some v =>
            if v.conns.length ≤ level then ⟨0, 0⟩
            else connectAllCost P vo x level (s.put (setConns v level neighbors)) neighbors

/-- one layer: distances of the search, and the work of linking -/
structure LayerCost where
  search : Nat
  link : Cost
deriving DecidableEq, Repr

/-- `Do` — neighbor_connections.go:60-71: one entry for each layer that is begun -/
def doLevelsCost (P : Params V D) (vo : VecOracle V) (sched : Graph.Scheds D) (q : V) (x : Nat) : Nat → Index V → Nat → List LayerCost
  | 0, _, _ => []
  | level + 1, s, ep =>
    ⟨doSearchCost P sched q s ep level, doLinkCost P vo sched q x s ep level⟩ ::
      match doAtLevel P vo sched q x s ep level with
      | (_, .error _) => []
      | (s, .ok ep) => doLevelsCost P vo sched q x level s ep

/-- `findBestEntrypointForNode` — index.go:391-428: the distances on each layer above the new vertex' own, that of the entry point first -/
def findBestCost (P : Params V D) (s : Index V) (sched : Graph.Scheds D) (q : V) (target : Nat) : Nat → Nat → List Nat
  | 0, _ => []
  | level + 1, ep =>
    if level + 1 ≤ target then []
    else
      match (s.graph P).distNodeVec ep q with
      | none => [1]
      | some d =>
        (1 + (Search.layerAsked ((s.graph P).senv q none) (sched (level + 1)) [⟨ep, d⟩] 1 (level + 1)).length) ::
          match Search.searchLayer ((s.graph P).senv q none) (sched (level + 1)) [⟨ep, d⟩] 1 (level + 1) with
          | .error _ => []
          | .ok res =>
            match pop lessMax res with
            | none => findBestCost P s sched q target level ep
            | some (x, _) =>
              match s.get x.id with
              | none => findBestCost P s sched q target level ep
              | some v => findBestCost P s sched q target level (if v.maint then ep else x.id)

/-- the work of an addition: that of finding the entry point, layer by layer, and that of the layers on which the vertex is linked -/
structure AddCost where
  find : List Nat
  layers : List LayerCost
deriving DecidableEq, Repr

/-- the part of `insert` after the node has been put into the cache — insert.go:275-310 -/
def connectNewCost (P : Params V D) (vo : VecOracle V) (sched : Graph.Scheds D) (s : Index V) (x : Nat) (q : V) (level : Nat) : AddCost :=
  ⟨findBestCost P s sched q level s.maxLayer s.entry,
    match findBest P s sched q level s.maxLayer s.entry with
    | .error _ => []
    | .ok ep => doLevelsCost P vo sched q x (Nat.min level s.maxLayer + 1) s ep⟩

/-- `Add` — insert.go:57-79, 201-311 -/
def addCost (P : Params V D) (vo : VecOracle V) (sched : Graph.Scheds D) (s : Index V) (x : Nat) (vec : V) (level : Nat) : AddCost :=
  if P.metric.len vec = 0 then ⟨[], []⟩
  else if !s.once && s.isEmpty then ⟨[], []⟩
  else if P.cacheSize ≤ x then ⟨[], []⟩
  else connectNewCost P vo sched (({ s with once := true } : Index V).put (newNode x (P.norm vec) level)) x (P.norm vec) level

end Fave.Index

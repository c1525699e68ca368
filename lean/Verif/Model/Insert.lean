import Verif.Model.Knn
import Verif.Model.Tab
/-!
# Adding vectors, flushing and re-opening the index

Model of pkg/hnsw/insert.go, neighbor_connections.go, heuristic.go, the helpers in index.go and vertex.go they use, and of
the node cache in front of the key-value store.  The node cache is an LRU of 10000 entries (index.go:217); eviction is
modelled separately (`Verif.Model.Lru`), here nothing is evicted.  The commit log is a no-op in FaVe
(pkg/document/document.go:188).
-/
namespace Fave

/-- The fixed parameters of an index — pkg/hnsw/index.go:237-278, pkg/document/document.go:189-199. -/
structure Params (V D : Type) where
  metric : Metric V D
  /-- `distancer.Normalize` for "cosine-dot", otherwise the identity — insert.go:70-74 -/
  norm : V → V
  /-- `maximumConnections` (30) -/
  maxConn : Nat
  /-- `maximumConnectionsLayerZero` (2 * 30) -/
  maxConn0 : Nat
  /-- `efConstruction` (60) -/
  efC : Nat
  /-- length of the vector cache slice: `initialSize` — maintainance.go:21, never grown because
  `growIndexToAccomodateNode` is a no-op — maintainance.go:27-66 -/
  cacheSize : Nat
  /-- `initialSize + 500` — pools.go:34 -/
  visitedSize : Nat
  /-- can `encoding/json` marshal the vector? (false if it contains NaN or an infinity) — insert.go:129 -/
  jsonOk : V → Bool

/-- Mutable state of an index together with its key-value table. -/
structure Index (V : Type) where
  /-- `indexCache` — index.go:159 -/
  cache : Tab (Vertex V)
  /-- entries `"<id>"` of the key-value table — insert.go:133; the field `committed` is not stored (vertex.go:26) -/
  kv : Tab (Vertex V)
  /-- entry `"entrypoint"` — insert.go:27 -/
  kvEntry : Option Nat
  /-- entry `"count"` — insert.go:28 -/
  kvCount : Option Nat
  /-- `entryPointID` -/
  entry : Nat
  /-- `currentMaximumLayer` -/
  maxLayer : Nat
  /-- has `initialInsertOnce` run? -/
  once : Bool
  /-- `tombstones` -/
  tombs : List Nat
  deriving DecidableEq

namespace Index
variable {V D : Type} [Dist D]
open Queue

/-- A fresh process over an existing key-value table: `New` — index.go:213-290; `restoreFromDisk` does nothing
(startup.go:50-60), so the entry point is 0 and the top layer 0 until loaded. -/
def reopen (s : Index V) : Index V :=
  { cache := [], kv := s.kv, kvEntry := s.kvEntry, kvCount := s.kvCount, entry := 0, maxLayer := 0, once := false, tombs := [] }

/-- A new collection. -/
def init : Index V :=
  { cache := [], kv := [], kvEntry := none, kvCount := none, entry := 0, maxLayer := 0, once := false, tombs := [] }

/-- `nodeByID` — index.go:594-623.  A node read from the key-value table is put into the cache with `Committed = false`;
since the next look-up would give the same node this caching is not represented as a state change. -/
def get (s : Index V) (id : Nat) : Option (Vertex V) :=
  match s.cache.get id with
  | some v => some v
  | none => (s.kv.get id).map (fun v => { v with committed := false })

/-- update of a node through its pointer (and `indexCache.Add`, which stores the same pointer again) — e.g.
neighbor_connections.go:68,148,160,209, insert.go:104,271 -/
def put (s : Index V) (v : Vertex V) : Index V := { s with cache := s.cache.put v.id v }

/-- `isEmptyUnsecured` — index.go:586-592 (the case "table cannot be read, hence empty" is not modelled). -/
def isEmpty (s : Index V) : Bool := s.kv.isEmpty && s.kvEntry.isNone && s.kvCount.isNone

/-- what searches read -/
def graph (P : Params V D) (s : Index V) : Graph V D :=
  { get := s.get, keys := s.cache.keys ++ s.kv.keys, metric := P.metric, norm := P.norm,
    tomb := fun id => s.tombs.contains id, cacheSize := P.cacheSize, visitedSize := P.visitedSize,
    entry := s.entry, maxLayer := s.maxLayer }

/-- `LoadEntrypoint` — insert.go:181-199 (called before every search — document.go:512,608). -/
def loadEntry (s : Index V) : Index V := { s with entry := s.kvEntry.getD 0 }

/-- `GetDocCount` — insert.go:166-179; `none` is an error. -/
def docCount (s : Index V) : Option Nat := s.kvCount

/-! ## Flush -/

/-- one write to the key-value table -/
inductive Write (V : Type) where
  | node (v : Vertex V)
  | entry (id : Nat)
  | count (n : Nat)
  deriving DecidableEq

/-- effect of one `KVPut` (assumed atomic) together with setting `Committed` — insert.go:133-138, 147, 159 -/
def applyWrite (s : Index V) : Write V → Index V
  | .node v => { s with kv := s.kv.put v.id { v with committed := false }, cache := s.cache.put v.id { v with committed := true } }
  | .entry e => { s with kvEntry := some e }
  | .count c => { s with kvCount := some c }

/-- the dirty nodes in the order of `indexCache.Keys()`; `order` rearranges the cache keys into that (recency) order —
insert.go:119-128 -/
def dirty (s : Index V) (order : List Nat) : List (Vertex V) :=
  order.filterMap (fun id => (s.cache.get id).bind (fun v => if v.committed then none else some v))

/-- the writes of a complete `Flush` — insert.go:118-164 -/
def flushWrites (s : Index V) (order : List Nat) (n : Nat) : List (Write V) :=
  (s.dirty order).map .node ++ [.entry s.entry, .count n]

/-- the writes actually attempted: `Flush` stops with an error at the first node that cannot be marshalled —
insert.go:129-132 -/
def flushUpToBad (P : Params V D) : List (Write V) → List (Write V) × Option Err
  | [] => ([], none)
  | .node v :: ws => if P.jsonOk v.vec then let r := flushUpToBad P ws; (.node v :: r.1, r.2) else ([], some .error)
  | w :: ws => let r := flushUpToBad P ws; (w :: r.1, r.2)

/-- `Flush` — insert.go:118-164; every `KVPut` succeeds (failing puts are the crash prefixes of C12). -/
def flush (P : Params V D) (s : Index V) (order : List Nat) (n : Nat) : Index V × Option Err :=
  let r := flushUpToBad P (s.flushWrites order n)
  (r.1.foldl applyWrite s, r.2)

/-! ## Adding -/

/-- Which vector a read of the vector cache (`vectorForID`/`multiVectorForID`, index.go:96-97,249-250) delivers.  The cache
is emptied every three seconds (vector_cache.go:45,218-239) and backed by another LRU (document.go:161-167), so the
outcome depends on timing; it is an arbitrary function of the layer, the neighbour being connected (`none`: the new node
itself), the number of the read within that step and the id.  `none` is the error "document not found". -/
abbrev VecOracle (V : Type) := Nat → Option Nat → Nat → Nat → Option V

/-- `shardedLockCache.get` — vector_cache.go:75-85: ids beyond the slice panic. -/
def vecGet (P : Params V D) (vo : Nat → Option V) (id : Nat) : Except Err V :=
  if P.cacheSize ≤ id then .error .panic
  else match vo id with
    | none => .error .error
    | some v => .ok v

/-- `distBetweenNodes` — index.go:437-510 (uncompressed). -/
def distNodes (P : Params V D) (vo : Nat → Option V) (a b : Nat) : Except Err D :=
  match vecGet P vo a with
  | .error e => .error e
  | .ok va =>
    if P.metric.len va = 0 then .error .error
    else
      match vecGet P vo b with
      | .error e => .error e
      | .ok vb =>
        if P.metric.len vb = 0 then .error .error
        else
          match P.metric.dist va vb with
          | none => .error .error
          | some d => .ok d

/-- the loop of the heuristic — heuristic.go:85-119; `kept` is `returnList`.  `closest` is popped until it is empty or `max`
items are kept.  `ids` is the list indexed by `Index`. -/
def heurLoop (P : Params V D) (vo : Nat → Option V) (deny : Nat → Bool) (max : Nat) (ids : List Nat) :
    Nat → Array (ItemIx D) → List (ItemIx D) → Except Err (List (ItemIx D))
  | 0, _, kept => .ok kept
  | fuel + 1, closest, kept =>
    if max ≤ kept.length then .ok kept
    else
      match pop lessMinIx closest with
      | none => .ok kept
      | some (cur, closest) =>
        if deny cur.id then heurLoop P vo deny max ids fuel closest kept
        else
          match (ids[cur.index]?).bind vo with
          | none => .error .error
          | some curVec =>
            -- a kept item always had a vector; the distance of an error is 0 — heuristic.go:106
            let good := kept.all (fun item =>
              match (ids[item.index]?).bind vo with
              | none => true
              | some w => !Dist.lt ((P.metric.dist curVec w).getD Dist.zero) cur.dist)
            heurLoop P vo deny max ids fuel closest (if good then kept ++ [cur] else kept)

/-- `selectNeighborsHeuristic` — heuristic.go:23-135 (uncompressed).  `multiVectorForID` panics on an id beyond the vector
cache slice (vector_cache.go:128). -/
def selectNeighbors (P : Params V D) (vo : Nat → Option V) (deny : Nat → Bool) (max : Nat) (input : Array (Item D)) :
    Except Err (Array (Item D)) :=
  if input.size < max then .ok input
  else
    let elems := drain lessMax input
    if elems.any (fun x => decide (P.cacheSize ≤ x.id)) then .error .panic
    else
      let closest := elems.zipIdx.foldl (fun q x => insert lessMinIx q ⟨x.1.id, x.2, x.1.dist⟩) #[]
      match heurLoop P vo deny max (elems.map Item.id) elems.length closest [] with
      | .error e => .error e
      | .ok kept => .ok (kept.foldl (fun q x => insert lessMax q ⟨x.id, x.dist⟩) #[])

/-- `findBestEntrypointForNode` — index.go:391-428: layers `level, …, target + 1`. -/
def findBest (P : Params V D) (s : Index V) (sched : Graph.Scheds D) (q : V) (target : Nat) : Nat → Nat → Except Err Nat
  | 0, ep => .ok ep
  | level + 1, ep =>
    if level + 1 ≤ target then .ok ep
    else
      match (s.graph P).distNodeVec ep q with
      | none => .error .error
      | some d =>
        match Search.searchLayer ((s.graph P).senv q none) (sched (level + 1)) [⟨ep, d⟩] 1 (level + 1) with
        | .error e => .error e
        | .ok res =>
          match pop lessMax res with
          | none => findBest P s sched q target level ep
          | some (x, _) =>
            match s.get x.id with
            | none => findBest P s sched q target level ep
            | some v => findBest P s sched q target level (if v.maint then ep else x.id)

/-- `findNewLocalEntrypoint` — delete.go:506-559.  `KVCount` counts all entries of the table. -/
def newLocalEntry (s : Index V) (deny : List Nat) (old : Nat) : Nat :=
  if s.entry ≠ old then s.entry
  else
    let kvCnt := s.kv.length + (if s.kvEntry.isSome then 1 else 0) + (if s.kvCount.isSome then 1 else 0)
    let maxNodes := Nat.max kvCnt s.cache.length
    ((List.range (s.maxLayer + 1)).reverse.findSome? (fun l =>
      (List.range maxNodes).find? (fun i =>
        !deny.contains i && (match s.get i with | none => false | some v => v.level == l)))).getD 0

/-- `pickEntrypoint`/`tryEpCandidate` — neighbor_connections.go:246-316.  Only a missing node makes the loop go on; the scan
of `findNewLocalEntrypoint` yields an existing node or 0, so after four rounds without success the loop repeats itself
until the 60 s timeout, which is an error. -/
def pickEntry (P : Params V D) (s : Index V) (q : V) : Nat → List Nat → Nat → Except Err (Item D)
  | 0, _, _ => .error .error
  | n + 1, deny, cand =>
    match s.get cand with
    | none => pickEntry P s q n (cand :: deny) (s.newLocalEntry (cand :: deny) cand)
    | some _ =>
      match (s.graph P).distNodeVec cand q with
      | none => .error .error
      | some d => .ok ⟨cand, d⟩

/-- `upgradeToLevelNoLock` — vertex.go:52-57 -/
def upgrade (v : Vertex V) (level : Nat) : Vertex V :=
  { v with level := level, conns := v.conns ++ List.replicate (level + 1 - v.conns.length) [] }

/-- replace one link list — vertex.go:59-80 (`setConnectionsAtLevel`), 82-121 (append, reset); capacities are not modelled -/
def setConns (v : Vertex V) (level : Nat) (links : List Nat) : Vertex V := { v with conns := v.conns.set level links }

/-- `maximumConnections(level)` — neighbor_connections.go:238-244 -/
def maxConns (P : Params V D) (level : Nat) : Nat := if level = 0 then P.maxConn0 else P.maxConn

/-- the candidates of an overfull neighbour: distances of the existing links — neighbor_connections.go:182-194 -/
def overfull (P : Params V D) (vo : Nat → Nat → Option V) (nb : Nat) : Nat → List Nat → Array (Item D) → Except Err (Array (Item D))
  | _, [], q => .ok q
  | n, c :: cs, q =>
    match distNodes P (vo n) c nb with
    | .error e => .error e
    | .ok d => overfull P vo nb (n + 1) cs (insert lessMax q ⟨c, d⟩)

/-- `connectNeighborAtLevel` — neighbor_connections.go:138-236.  The comparison `neighbor == n.node` of pointers is a
comparison of ids here (the new node is in the cache, so the look-up of its id gives the same pointer). -/
def connectNeighbor (P : Params V D) (vo : VecOracle V) (x level : Nat) (s : Index V) (nb : Nat) : Index V × Option Err :=
  match s.get nb with
  | none => (s, none)
  | some v =>
    if nb = x then (s, none)
    else if s.tombs.contains nb then (s, none)
    else
      let v := { v with committed := false }
      let v := if level > v.level then upgrade v level else v
      let s := s.put v
      match v.conns[level]? with
      | none => (s, some .panic)
      | some cur =>
        if cur.length < maxConns P level then (s.put (setConns v level (cur ++ [x])), none)
        else
          match distNodes P (vo level (some nb) 0) x nb with
          | .error e => (s, some e)
          | .ok d =>
            match overfull P (vo level (some nb)) nb 1 cur (insert lessMax #[] ⟨x, d⟩) with
            | .error e => (s, some e)
            | .ok cands =>
              match selectNeighbors P (vo level (some nb) (cur.length + 1)) (fun _ => false) (maxConns P level) cands with
              | .error e => (s, some e)
              | .ok kept => (s.put (setConns v level ((drain lessMax kept).map Item.id)), none)

/-- `for _, neighborID := range neighbors` — neighbor_connections.go:117-121 -/
def connectAll (P : Params V D) (vo : VecOracle V) (x level : Nat) : Index V → List Nat → Index V × Option Err
  | s, [] => (s, none)
  | s, nb :: nbs =>
    match connectNeighbor P vo x level s nb with
    | (s, some e) => (s, some e)
    | (s, none) => connectAll P vo x level s nbs

/-- `doAtLevel` — neighbor_connections.go:73-136; returns the next entry point. -/
def doAtLevel (P : Params V D) (vo : VecOracle V) (sched : Graph.Scheds D) (q : V) (x : Nat) (s : Index V) (ep level : Nat) :
    Index V × Except Err Nat :=
  match pickEntry P s q 4 [] ep with
  | .error e => (s, .error e)
  | .ok ep =>
    match Search.searchLayer ((s.graph P).senv q none) (sched level) [ep] P.efC level with
    | .error e => (s, .error e)
    | .ok results =>
      match selectNeighbors P (vo level none 0) (fun _ => false) P.maxConn results with
      | .error e => (s, .error e)
      | .ok kept =>
        let neighbors := (drain lessMax kept).map Item.id
        match s.get x with
        | none => (s, .error .panic)
        | some v =>
          if v.conns.length ≤ level then (s, .error .panic)
          else
            match connectAll P vo x level (s.put (setConns v level neighbors)) neighbors with
            | (s, some e) => (s, .error e)
            | (s, none) =>
              match neighbors.getLast? with
              | none => (s, .ok ep.id)
              | some y => (s, .ok (if y = x then ep.id else y))

/-- `Do` — neighbor_connections.go:60-71: layers `n - 1, …, 0` -/
def doLevels (P : Params V D) (vo : VecOracle V) (sched : Graph.Scheds D) (q : V) (x : Nat) : Nat → Index V → Nat → Index V × Option Err
  | 0, s, _ => (s, none)
  | level + 1, s, ep =>
    match doAtLevel P vo sched q x s ep level with
    | (s, .error e) => (s, some e)
    | (s, .ok ep) => doLevels P vo sched q x level s ep

/-- `insertInitialElement` — insert.go:81-116 -/
def insertInitial (P : Params V D) (s : Index V) (x : Nat) (q : V) : Index V × Option Err :=
  let s := { s with entry := x, maxLayer := 0 }
  let s := s.put { id := x, level := 0, conns := [[]], maint := false, vec := q, committed := false }
  (s, if P.cacheSize ≤ x then some .panic else none)

/-- the part of `insert` after the node has been put into the cache — insert.go:275-310 -/
def connectNew (P : Params V D) (vo : VecOracle V) (sched : Graph.Scheds D) (s : Index V) (x : Nat) (q : V) (level : Nat) :
    Index V × Option Err :=
  match findBest P s sched q level s.maxLayer s.entry with
  | .error e => (s, some e)
  | .ok ep =>
    match doLevels P vo sched q x (Nat.min level s.maxLayer + 1) s ep with
    | (s, some e) => (s, some e)
    | (s, none) =>
      match s.get x with
      | none => (s, some .panic)
      | some v =>
        let s := s.put { v with maint := false }
        if s.maxLayer < level then ({ s with entry := x, maxLayer := level }, none) else (s, none)

/-- the vertex created for a further element — insert.go:219,233-243 -/
def newNode (x : Nat) (q : V) (level : Nat) : Vertex V :=
  { id := x, level := level, conns := List.replicate (level + 1) [], maint := true, vec := q, committed := false }

/-- `insert` — insert.go:201-311; `level` is the random target level. -/
def insertNode (P : Params V D) (vo : VecOracle V) (sched : Graph.Scheds D) (s : Index V) (x : Nat) (q : V) (level : Nat) :
    Index V × Option Err :=
  if !s.once && s.isEmpty then insertInitial P { s with once := true } x q
  else
    let s := { s with once := true }
    if P.cacheSize ≤ x then (s, some .panic)
    else connectNew P vo sched (s.put (newNode x q level)) x q level

/-- `Add` — insert.go:57-79 -/
def add (P : Params V D) (vo : VecOracle V) (sched : Graph.Scheds D) (s : Index V) (x : Nat) (vec : V) (level : Nat) :
    Index V × Option Err :=
  if P.metric.len vec = 0 then (s, some .error)
  else insertNode P vo sched s x (P.norm vec) level

end Index
end Fave

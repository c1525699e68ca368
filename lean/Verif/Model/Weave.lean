import Verif.Model.Insert
/-!
# Additions and flushes woven together

Additions of further vectors (`insert`, insert.go:201-311, and `findAndConnectNeighbors`, neighbor_connections.go:23-236) and flushes
(insert.go:118-164) running at the same time on one index that is not empty.  The steps are those parts that run under one lock or that touch one
vertex once; they are the functions of `Model/Insert` applied to the state of that moment:

* an addition reads start and top layer (under the read lock), publishes its vertex, finds an entry, and then, layer by layer, chooses
  neighbours, sets its links (under the lock of its vertex), and connects one neighbour after the other (each under the neighbour's lock);
* a flush goes through the cache keys and for each dirty vertex encodes it, stores the encoding, and marks it as committed — without the lock of
  the vertex (insert.go:120-139).

A look-up of a vertex is one step here, also if the vertex comes from the store; what happens if two threads load the same vertex at the same time
is the subject of C56 (`Model/Load`).

Each addition has a number of its own, not in use before (what happens otherwise is the subject of C52); it is named by that number.

A search takes many steps, and others change the graph meanwhile.  What it may find is left open except for this: it starts at its entry, and goes
from a vertex to another only by a link that has been there (`ever`) — see `seen`.
-/
namespace Fave.Weave
variable {V D : Type} [Dist D]
open Index Queue

/-- an addition: vector (normalised — insert.go:70-74), drawn level (insert.go:230), and what it reads from the vector caches -/
structure Job (V D : Type) where
  q : V
  level : Nat
  vo : VecOracle V
  sched : Graph.Scheds D

/-- where an addition is -/
inductive Pc where
  /-- not begun -/
  | idle
  /-- has read start and top layer — insert.go:221-228 -/
  | snap (e m : Nat)
  /-- vertex in the cache — insert.go:271 -/
  | published (e m : Nat)
  /-- `l` layers to go, entry `ep` — neighbor_connections.go:61 -/
  | layers (l ep : Nat)
  /-- neighbours at layer `l` chosen; `ep` will be the next entry — neighbor_connections.go:102-106 -/
  | chosen (l ep : Nat) (nbs : List Nat)
  /-- links at layer `l` set, going through them — neighbor_connections.go:117 -/
  | linking (l ep : Nat) (todo : List Nat)
  /-- has returned -/
  | ended (err : Option Err)

/-- where a flush is -/
inductive Fc (V : Type) where
  /-- not begun -/
  | idle
  /-- going through the keys — insert.go:120 -/
  | keys (todo : List Nat)
  /-- has encoded a vertex — insert.go:129 -/
  | encoded (v : Vertex V) (todo : List Nat)
  /-- has stored it — insert.go:133 -/
  | stored (id : Nat) (todo : List Nat)
  /-- has returned -/
  | ended

/-- there is a link from `a` to `b` at layer `l` -/
def Linked (ix : Index V) (l a b : Nat) : Prop := ∃ v links, ix.get a = some v ∧ v.conns[l]? = some links ∧ b ∈ links

/-- the index, the additions (by number), the flushes, and the links there have been (only for speaking about searches) -/
structure St (V : Type) where
  ix : Index V
  pc : Nat → Pc
  fc : Nat → Fc V
  ever : Nat → Nat → Nat → Prop

/-- an addition moves on -/
def St.at (s : St V) (x : Nat) (ix : Index V) (p : Pc) : St V :=
  { s with ix := ix, pc := fun u => if u = x then p else s.pc u, ever := fun l a b => s.ever l a b ∨ Linked ix l a b }

/-- a flush moves on -/
def St.fat (s : St V) (f : Nat) (ix : Index V) (p : Fc V) : St V := { s with ix := ix, fc := fun u => if u = f then p else s.fc u }

/-- the addition is between its beginning and its end -/
def Pc.active : Pc → Bool
  | .idle => false
  | .ended _ => false
  | _ => true

/-- the flush is under way -/
def Fc.active : Fc V → Bool
  | .idle => false
  | .ended => false
  | _ => true

/-- `b` can be reached from `a` at layer `l` by links there have been -/
inductive Conn (ever : Nat → Nat → Nat → Prop) (l : Nat) : Nat → Nat → Prop where
  | refl (a : Nat) : Conn ever l a a
  | step {a b c : Nat} : Conn ever l a b → ever l b c → Conn ever l a c

/-- The choice of neighbours at one layer, and the entry for the next — neighbor_connections.go:73-106, 123-132: the first half of `doAtLevel`, on
the graph of one moment. -/
def chooseAt (P : Params V D) (j : Job V D) (x : Nat) (s : Index V) (ep level : Nat) : Except Err (List Nat × Nat) :=
  match pickEntry P s j.q 4 [] ep with
  | .error e => .error e
  | .ok ep =>
    match Search.searchLayer ((s.graph P).senv j.q none) (j.sched level) [ep] P.efC level with
    | .error e => .error e
    | .ok results =>
      match selectNeighbors P (j.vo level none 0) (fun _ => false) P.maxConn results with
      | .error e => .error e
      | .ok kept =>
        let neighbors := (drain lessMax kept).map Item.id
        match neighbors.getLast? with
        | none => .ok (neighbors, ep.id)
        | some y => .ok (neighbors, if y = x then ep.id else y)

/-- how searches behave -/
structure Sees (V : Type) where
  /-- from start `e` and top layer `m`, addition `x` may find entry `ep` — insert.go:275 -/
  entry : St V → (x e m ep : Nat) → Prop
  /-- addition `x` may choose `nbs` at layer `l` from entry `ep`, and `ep'` as the next entry — neighbor_connections.go:74-106, 123-132 -/
  choice : St V → (x l ep : Nat) → List Nat → (ep' : Nat) → Prop

/-- What a search may see while others change the graph.  The entry is the start, or a vertex not under maintenance (index.go:418) found by a link
at a layer above the level (index.go:396); the chosen ones are at most `maxConn` different vertices reached from the entry, and the next entry is one
of them or the same. -/
def seen (P : Params V D) (J : Nat → Job V D) : Sees V where
  entry s x e m ep := ep = e ∨ (∃ v, s.ix.get ep = some v ∧ v.maint = false) ∧ ∃ l a, (J x).level < l ∧ l ≤ m ∧ s.ever l a ep
  choice s _ l ep nbs ep' := nbs.length ≤ P.maxConn ∧ nbs.Nodup ∧ (∀ b ∈ nbs, Conn s.ever l ep b) ∧ (ep' = ep ∨ ep' ∈ nbs)

/-- searches in which nobody interferes: the functions of the code on the graph of one moment -/
def undisturbed (P : Params V D) (J : Nat → Job V D) : Sees V where
  entry s x e m ep := findBest P s.ix (J x).sched (J x).q (J x).level m e = .ok ep
  choice s x l ep nbs ep' := chooseAt P (J x) x s.ix ep l = .ok (nbs, ep')

/-- One step; `calm`: a flush runs only while no addition is under way, and the other way round. -/
inductive Step (P : Params V D) (J : Nat → Job V D) (sees : Sees V) (calm : Bool) : St V → St V → Prop where
  /-- start and top layer read — insert.go:219-228 -/
  | snap {s : St V} (x : Nat) : s.pc x = .idle → s.ix.get x = none → (calm = true → ∀ f, (s.fc f).active = false) →
      Step P J sees calm s (s.at x s.ix (.snap s.ix.entry s.ix.maxLayer))
  /-- `h.indexCache.Add(node.Id, node)` — insert.go:230-271 -/
  | publish {s : St V} (x e m : Nat) : s.pc x = .snap e m → x < P.cacheSize →
      Step P J sees calm s (s.at x (s.ix.put (newNode x (J x).q (J x).level)) (.published e m))
  /-- `findBestEntrypointForNode` — insert.go:275 -/
  | descend {s : St V} (x e m ep : Nat) : s.pc x = .published e m → sees.entry s x e m ep →
      Step P J sees calm s (s.at x s.ix (.layers (Nat.min (J x).level m + 1) ep))
  /-- search and selection — neighbor_connections.go:74-106 -/
  | choose {s : St V} (x l ep ep' : Nat) (nbs : List Nat) : s.pc x = .layers (l + 1) ep → sees.choice s x l ep nbs ep' →
      Step P J sees calm s (s.at x s.ix (.chosen l ep' nbs))
  /-- `setConnectionsAtLevel`, under the lock of the vertex — neighbor_connections.go:111 -/
  | set {s : St V} (x l ep : Nat) (nbs : List Nat) (v : Vertex V) : s.pc x = .chosen l ep nbs → s.ix.get x = some v →
      l < v.conns.length → Step P J sees calm s (s.at x (s.ix.put (setConns v l nbs)) (.linking l ep nbs))
  /-- `connectNeighborAtLevel`, under the lock of the neighbour — neighbor_connections.go:117-121, 138-218 -/
  | connect {s : St V} (x l ep nb : Nat) (todo : List Nat) : s.pc x = .linking l ep (nb :: todo) →
      Step P J sees calm s (s.at x (connectNeighbor P (J x).vo x l s.ix nb).1
        (match (connectNeighbor P (J x).vo x l s.ix nb).2 with | none => .linking l ep todo | some e => .ended (some e)))
  /-- next layer — neighbor_connections.go:61, 123-135 -/
  | next {s : St V} (x l ep : Nat) : s.pc x = .linking l ep [] → Step P J sees calm s (s.at x s.ix (.layers l ep))
  /-- anything before the end fails — insert.go:278, 286, neighbor_connections.go:76, 84, 93 -/
  | fails {s : St V} (x : Nat) (e : Err) : (s.pc x).active = true → Step P J sees calm s (s.at x s.ix (.ended (some e)))
  /-- `unmarkAsMaintenance` and the start — insert.go:294-308 (the two steps one by one in `Model/Conc`) -/
  | finish {s : St V} (x ep : Nat) (v : Vertex V) : s.pc x = .layers 0 ep → s.ix.get x = some v →
      Step P J sees calm s (s.at x (if s.ix.maxLayer < (J x).level
        then { s.ix.put { v with maint := false } with entry := x, maxLayer := (J x).level }
        else s.ix.put { v with maint := false }) (.ended none))
  /-- a flush begins: `keys := h.indexCache.Keys()` — insert.go:119 -/
  | flush {s : St V} (f : Nat) (order : List Nat) : s.fc f = .idle → (calm = true → ∀ x, (s.pc x).active = false) →
      (∀ id, id ∈ s.ix.cache.keys → id ∈ order) → Step P J sees calm s (s.fat f s.ix (.keys order))
  /-- not cached any more, or committed: next key — insert.go:121-128 -/
  | skip {s : St V} (f id : Nat) (todo : List Nat) : s.fc f = .keys (id :: todo) →
      (∀ v, s.ix.cache.get id = some v → v.committed = true) → Step P J sees calm s (s.fat f s.ix (.keys todo))
  /-- `json.Marshal(node)`, seen as reading the vertex at one moment — insert.go:129 -/
  | encode {s : St V} (f id : Nat) (todo : List Nat) (v : Vertex V) : s.fc f = .keys (id :: todo) → s.ix.cache.get id = some v →
      v.committed = false → Step P J sees calm s (s.fat f s.ix (.encoded v todo))
  /-- `KVPut` — insert.go:133 -/
  | store {s : St V} (f : Nat) (todo : List Nat) (v : Vertex V) : s.fc f = .encoded v todo →
      Step P J sees calm s (s.fat f { s.ix with kv := s.ix.kv.put v.id { v with committed := false } } (.stored v.id todo))
  /-- `node.Committed = true` — insert.go:137-138 -/
  | commit {s : St V} (f id : Nat) (todo : List Nat) (v : Vertex V) : s.fc f = .stored id todo → s.ix.cache.get id = some v →
      Step P J sees calm s (s.fat f (s.ix.put { v with committed := true }) (.keys todo))
  /-- entry and count — insert.go:140-163 -/
  | flushEnd {s : St V} (f n : Nat) : s.fc f = .keys [] →
      Step P J sees calm s (s.fat f { s.ix with kvEntry := some s.ix.entry, kvCount := some n } .ended)
  /-- a flush that cannot encode or store ends — insert.go:130-136 -/
  | flushFails {s : St V} (f : Nat) : (s.fc f).active = true → Step P J sees calm s (s.fat f s.ix .ended)

/-- the given index, nothing under way -/
def St.begin (ix : Index V) : St V := ⟨ix, fun _ => .idle, fun _ => .idle, Linked ix⟩

/-- any interleaving -/
inductive Reach (P : Params V D) (J : Nat → Job V D) (sees : Sees V) (calm : Bool) (ix : Index V) : St V → Prop where
  | refl : Reach P J sees calm ix (St.begin ix)
  | step {s s' : St V} : Reach P J sees calm ix s → Step P J sees calm s s' → Reach P J sees calm ix s'

/-- nothing is under way -/
def St.quiet (s : St V) : Prop := (∀ x, (s.pc x).active = false) ∧ ∀ f, (s.fc f).active = false

end Fave.Weave

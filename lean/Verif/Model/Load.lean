import Verif.Model.Search
import Verif.Model.Tab
/-!
# Loading vertices from the store

`nodeByID` (index.go:594-623) looks into the cache of vertices, and if the vertex is not there, reads it from the store, decodes it into a new
object and puts that into the cache.  The cache holds pointers; nothing keeps two threads from doing this for the same vertex at the same time
(the lock around the call is commented out, search.go:206, 208; others take none, neighbor_connections.go:141).  Here objects live on a heap, so that
two objects for one vertex can be told apart.

The threads are searches (which only look), additions (which change a neighbour, neighbor_connections.go:146-215, or publish a new vertex,
insert.go:271), and there are flushes and restarts.  A thread here is one such use of one vertex.  Simplified: a flush stores one vertex in one
step (the steps in between are in `Model/Weave`), the cache does not evict (C13), reading the store and decoding is one step.
-/
namespace Fave.Load
variable {V : Type}

/-- without the mark `Committed`, which is not stored — vertex.go:26 -/
def plain (v : Vertex V) : Vertex V := { v with committed := false }

/-- what a thread does with a vertex -/
inductive Use (V : Type) where
  /-- looks at it: searches — search.go:207, 422, 496, index.go:417, 533 -/
  | look (id : Nat)
  /-- changes it: `connectNeighborAtLevel` — neighbor_connections.go:138-218 -/
  | change (id : Nat) (f : Vertex V → Vertex V)
  /-- publishes it: `insert` — insert.go:271 -/
  | create (v : Vertex V)

/-- the number of the vertex -/
def Use.id : Use V → Nat
  | .look id => id
  | .change id _ => id
  | .create v => v.id

/-- where a thread is in `nodeByID` and after it — index.go:594-623 -/
inductive Pc where
  | idle
  /-- not in the cache — index.go:600, 609 -/
  | missed
  /-- read from the store and decoded — index.go:610-619 -/
  | loaded (p : Nat)
  /-- has the object — index.go:604, 620-621 -/
  | holding (p : Nat)
  | ended

/-- objects, cache of pointers, store, threads; and, only for speaking about it, what has been done to each vertex -/
structure St (V : Type) where
  heap : List (Vertex V)
  cache : Tab Nat
  kv : Tab (Vertex V)
  pc : Nat → Pc
  done : Nat → List (Use V)

/-- a thread moves on -/
def St.to (s : St V) (t : Nat) (p : Pc) : St V := { s with pc := fun u => if u = t then p else s.pc u }

/-- something has been done -/
def St.log (s : St V) (u : Use V) : St V := { s with done := fun id => if id = u.id then s.done id ++ [u] else s.done id }

/-- what `nodeByID` delivers if nobody interferes — index.go:594-623 -/
def St.found (s : St V) (id : Nat) : Option (Vertex V) :=
  match s.cache.get id with
  | some p => s.heap[p]?
  | none => (s.kv.get id).map plain

/-- between looking into the cache and putting an object there -/
def Pc.loading : Pc → Bool
  | .missed => true
  | .loaded _ => true
  | _ => false

def Pc.active : Pc → Bool
  | .idle => false
  | .ended => false
  | _ => true

/-- when look-ups that miss the cache, publications, and restarts are allowed -/
structure Mode (V : Type) where
  miss : St V → Nat → Prop
  create : St V → Nat → Prop
  restart : Prop

/-- the code (index.go:594-623, insert.go:271): always -/
def free : Mode V := ⟨fun _ _ => True, fun _ _ => True, True⟩
/-- not the code: one load of a vertex at a time, and no publication of it meanwhile -/
def single (J : Nat → Use V) : Mode V :=
  ⟨fun s id => ∀ t, (J t).id = id → (s.pc t).loading = false, fun s id => ∀ t, (J t).id = id → (s.pc t).loading = false, True⟩
/-- only look-ups of vertices that are there, and no restart -/
def present : Mode V := ⟨fun s id => s.found id ≠ none, fun _ _ => True, False⟩

/-- one step -/
inductive Step (J : Nat → Use V) (m : Mode V) : St V → St V → Prop where
  /-- in the cache — index.go:600-604 -/
  | hit {s : St V} (t p : Nat) : s.pc t = .idle → (∀ v, J t ≠ .create v) → s.cache.get (J t).id = some p → Step J m s (s.to t (.holding p))
  /-- not in the cache — index.go:600, 609 -/
  | miss {s : St V} (t : Nat) : s.pc t = .idle → (∀ v, J t ≠ .create v) → s.cache.get (J t).id = none → m.miss s (J t).id →
      Step J m s (s.to t .missed)
  /-- read and decoded: a new object — index.go:610-619 -/
  | load {s : St V} (t : Nat) (v : Vertex V) : s.pc t = .missed → s.kv.get (J t).id = some v →
      Step J m s (({ s with heap := s.heap ++ [plain v] } : St V).to t (.loaded s.heap.length))
  /-- not in the store: nil — index.go:611-614 -/
  | absent {s : St V} (t : Nat) : s.pc t = .missed → s.kv.get (J t).id = none → Step J m s (s.to t .ended)
  /-- `h.indexCache.Add(id, v)` — index.go:620 -/
  | add {s : St V} (t p : Nat) : s.pc t = .loaded p → Step J m s (({ s with cache := s.cache.put (J t).id p } : St V).to t (.holding p))
  /-- looked at -/
  | look {s : St V} (t p id : Nat) : s.pc t = .holding p → J t = .look id → Step J m s (s.to t .ended)
  /-- changed under the lock of the object, marked as not committed, and put into the cache — neighbor_connections.go:146-215 -/
  | change {s : St V} (t p id : Nat) (f : Vertex V → Vertex V) (v : Vertex V) : s.pc t = .holding p → J t = .change id f → s.heap[p]? = some v →
      Step J m s (({ s with heap := s.heap.set p (plain (f (plain v))), cache := s.cache.put id p } : St V).to t .ended |>.log (.change id f))
  /-- a new vertex under a number not in use — insert.go:271 -/
  | create {s : St V} (t : Nat) (v : Vertex V) : s.pc t = .idle → J t = .create v → s.found v.id = none → m.create s v.id →
      Step J m s (({ s with heap := s.heap ++ [plain v], cache := s.cache.put v.id s.heap.length } : St V).to t .ended |>.log (.create v))
  /-- a flush stores a vertex that is not committed — insert.go:121-138 -/
  | save {s : St V} (id p : Nat) (v : Vertex V) : s.cache.get id = some p → s.heap[p]? = some v → v.committed = false →
      Step J m s { s with kv := s.kv.put id (plain v), heap := s.heap.set p { v with committed := true } }
  /-- a restart when nothing is under way and everything is stored -/
  | restart {s : St V} : m.restart → (∀ t, (s.pc t).active = false) →
      (∀ id p v, s.cache.get id = some p → s.heap[p]? = some v → v.committed = true) → Step J m s { s with heap := [], cache := [] }

/-- any interleaving -/
inductive Reach (J : Nat → Use V) (m : Mode V) (s0 : St V) : St V → Prop where
  | refl : Reach J m s0 s0
  | step {s s' : St V} : Reach J m s0 s → Step J m s s' → Reach J m s0 s'

/-- a fresh process over a store -/
def fresh (kv : Tab (Vertex V)) : St V := ⟨[], [], kv, fun _ => .idle, fun _ => []⟩

end Fave.Load

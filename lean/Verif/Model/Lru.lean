import Verif.Model.Tab
/-!
# The node cache with eviction

Model of `indexCache` (pkg/hnsw/index.go:159,217), an LRU cache of 10000 entries in front of the key-value table, as used by `nodeByID`
(index.go:594-623), by the places that change a node and add it to the cache again (insert.go:104,271,
neighbor_connections.go:68,160,209) and by `Flush` (insert.go:118-164).  The cache is `github.com/hashicorp/golang-lru` v1.0.2 (go.mod:17), whose
source is not part of the repository: assumed is its documented behaviour (least recently used entry evicted, `Get` and `Add` count as use,
`Keys` lists oldest first).  `α` is what is stored of a node apart from the flag `Committed`.
-/
namespace Fave.Lru
variable {α : Type}

/-- a cached node with its flag `Committed` — pkg/hnsw/vertex.go:18-27 -/
structure Ent (α : Type) where
  key : Nat
  val : α
  committed : Bool
  deriving DecidableEq

/-- the cache, most recently used entry first, and the key-value table — index.go:159, 240 -/
structure Store (α : Type) where
  ents : List (Ent α)
  kv : Tab α
  deriving DecidableEq

/-- `indexCache.Add`: the entry becomes the most recent one; if the capacity is exceeded the oldest entry is dropped — index.go:217,620 -/
def push (cap : Nat) (s : Store α) (e : Ent α) : Store α := { s with ents := (e :: s.ents.filter (fun x => x.key ≠ e.key)).take cap }

/-- the cached entry of a key -/
def lookup (s : Store α) (k : Nat) : Option (Ent α) := s.ents.find? (fun x => x.key = k)

/-- `nodeByID` — index.go:594-623: a node read from the table enters the cache uncommitted (the flag is not stored) -/
def read (cap : Nat) (s : Store α) (k : Nat) : Store α × Option α :=
  match lookup s k with
  | some e => (push cap s e, some e.val)
  | none =>
    match s.kv.get k with
    | none => (s, none)
    | some a => (push cap s ⟨k, a, false⟩, some a)

/-- a node is created or changed and added to the cache — insert.go:104,271, neighbor_connections.go:68,148-160,209 -/
def write (cap : Nat) (s : Store α) (k : Nat) (a : α) : Store α := push cap s ⟨k, a, false⟩

/-- one key of `Flush` — insert.go:120-139 -/
def flushKey (cap : Nat) (s : Store α) (k : Nat) : Store α :=
  match lookup s k with
  | none => s
  | some e =>
    let s := push cap s e
    if e.committed then s
    else push cap { s with kv := s.kv.put k e.val } { e with committed := true }

/-- a complete `Flush` — insert.go:118-140: the keys from the oldest to the most recent -/
def flush (cap : Nat) (s : Store α) : Store α := (s.ents.map Ent.key).reverse.foldl (flushKey cap) s

/-- the `KVPut` of one key of `Flush` — insert.go:120-136 -/
def putOf (s : Store α) (k : Nat) : List (Nat × α) :=
  match lookup s k with
  | none => []
  | some e => if e.committed then [] else [(k, e.val)]

/-- the `KVPut`s for the given keys, one after the other — insert.go:120-139 -/
def putsGo (cap : Nat) : List Nat → Store α → List (Nat × α)
  | [], _ => []
  | k :: ks, s => putOf s k ++ putsGo cap ks (flushKey cap s k)

/-- the `KVPut`s of vertices of a complete `Flush`, in order — insert.go:118-140 -/
def puts (cap : Nat) (s : Store α) : List (Nat × α) := putsGo cap (s.ents.map Ent.key).reverse s

/-- what happens to the cache: reads, writes and complete flushes -/
inductive Op (α : Type) where
  | read (k : Nat)
  | write (k : Nat) (a : α)
  | flush
  deriving DecidableEq

/-- one operation -/
def step (cap : Nat) (s : Store α) : Op α → Store α
  | .read k => (read cap s k).1
  | .write k a => write cap s k a
  | .flush => flush cap s

/-- a sequence of operations -/
def run (cap : Nat) (s : Store α) (ops : List (Op α)) : Store α := ops.foldl (step cap) s

end Fave.Lru

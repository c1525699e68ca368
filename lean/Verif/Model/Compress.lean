import Verif.Model.VecCache
/-!
# Compression of the vectors

Model of pkg/hnsw/compress.go and compressed_vector_cache.go, with the places in insert.go and delete.go that keep the codes up to date.

`V` are vectors, `B` codes (byte slices).  The product quantizer comes from a package outside the repository: it is a function
`fit : List V → V → B` — fitted to some vectors it encodes a vector.  An encoded vector is never nil.  The compressed cache has the
same fields and the same methods as the vector cache of `Model/VecCache`, except that a miss always is an error.
The store of codes (lsmkv, outside the repository) is a map; a failed `Put` is only logged there, it is taken to succeed.
`FaVe` itself never switches compression on (no collection is created with PQ); the functions are reachable through
`UpdateUserConfig` (config_update.go:100-125), see C35.
-/
namespace Fave
namespace Compress
open VecCache

/-- what is kept about vectors: `vectorForID`, `cache`, `compressedVectorsCache`, `compressedStore`, `pq` and `compressed` of
`hnsw` — index.go:96-155; `enc` is `none` while `compressed` is false.  `source` is what `vectorForID` answers (config.go:55),
`todo` is `cleanData` (and the length of `data`) of a running `Compress`. -/
structure Sys (V B : Type) where
  source : Nat → Option V
  plain : Cache V
  codes : Cache B
  store : Nat → Option B
  enc : Option (V → B)
  todo : Option (List V)

/-- a new index — index.go:232-251; `n` is 25000 (maintainance.go:21) -/
def new (V B : Type) (n : Nat) (maxSize : Int) : Sys V B :=
  ⟨fun _ => none, VecCache.new V n maxSize, VecCache.new B n maxSize, fun _ => none, none, none⟩

/-- the error of `handleCacheMiss` — compressed_vector_cache.go:92-94 -/
inductive Missing where
  | notImplemented
  deriving DecidableEq, Repr

/-- `get` — compressed_vector_cache.go:61-71: a panic outside, an error for an empty place -/
def code {B : Type} (c : Cache B) (id : Nat) : Got B Missing :=
  match c.slots[id]? with
  | none => .panic
  | some (some b) => .ok (some b)
  | some none => .fail .notImplemented

/-- `preload` — compressed_vector_cache.go:127-136 (the same as vector_cache.go:158-168) -/
def preload {B : Type} (c : Cache B) (id : Nat) (b : B) : Option (Cache B) := c.preload id (some b)

/-- `grow` — compressed_vector_cache.go:139-155 (the same as vector_cache.go:171-186) -/
def grow {B : Type} (c : Cache B) (node : Nat) : Cache B := c.grow node

/-- `delete` — compressed_vector_cache.go:79-89 (the same as vector_cache.go:88-98) -/
def delete {B : Type} (c : Cache B) (id : Nat) : Option (Cache B) := c.delete id

/-- `replaceIfFull` — compressed_vector_cache.go:200-214, called every three seconds (:185-198) -/
def tick {B : Type} (c : Cache B) : Cache B := c.tick

/-- one entry of a map -/
def put {α : Type} (m : Nat → Option α) (id : Nat) (v : Option α) : Nat → Option α := fun i => if i = id then v else m i

/-- the vector of a new vertex is kept — insert.go:106-112, :263-269, `storeCompressedVector` compress.go:117-124; `none` is a panic -/
def Sys.insert {V B : Type} (s : Sys V B) (id : Nat) (v : V) : Option (Sys V B) :=
  match s.enc with
  | some enc => (preload s.codes id (enc v)).map fun c =>
      { s with source := put s.source id (some v), store := put s.store id (some (enc v)), codes := c }
  | none => (s.plain.preload id (some v)).map fun c => { s with source := put s.source id (some v), plain := c }

/-- a vertex is removed for good — delete.go:614-618; the code in the store stays -/
def Sys.remove {V B : Type} (s : Sys V B) (id : Nat) : Option (Sys V B) :=
  match s.enc with
  | some _ => (delete s.codes id).map fun c => { s with source := put s.source id none, codes := c }
  | none => (s.plain.delete id).map fun c => { s with source := put s.source id none, plain := c }

/-- the vector of a vertex is looked up, which fills the cache — vector_cache.go:75-120; the source has the vector or fails -/
def Sys.look {V B : Type} (s : Sys V B) (id : Nat) : Option (Sys V B) :=
  match s.plain.get (fun v => v) (fun i => match s.source i with | some v => .ok (some v) | none => .error ()) id with
  | (_, .panic) => none
  | (c, _) => some { s with plain := c }

/-- first part of `Compress`: the vectors in the cache, without the empty places — compress.go:84-93.  `Compress` before that only
returns errors (an empty index, no vertex 0, no vector for it, a bad quantizer; :41-82), which change nothing.  The vectors are
read place by place without a lock; here in one step. -/
def Sys.begin {V B : Type} (s : Sys V B) : Sys V B :=
  { s with todo := some (s.plain.slots.filterMap id), codes := grow s.codes s.plain.slots.length }

/-- the vector at place `i` of `cleanData` is encoded and kept under `i` — compress.go:98-102; `none` is a panic -/
def Sys.keep {V B : Type} (s : Sys V B) (enc : V → B) (todo : List V) (i : Nat) : Option (Sys V B) :=
  match todo[i]? with
  | none => none
  | some v => (preload s.codes i (enc v)).map fun c => { s with store := put s.store i (some (enc v)), codes := c }

/-- the places in some order -/
def Sys.keepAll {V B : Type} (s : Sys V B) (enc : V → B) (todo : List V) : List Nat → Option (Sys V B)
  | [] => some s
  | i :: is => match s.keep enc todo i with
    | none => none
    | some s => s.keepAll enc todo is

/-- second part of `Compress` — compress.go:95-109.  `Concurrently` handles the places in any order `order`; `cache.drop` empties the
vector cache (vector_cache.go:200-216). -/
def Sys.finish {V B : Type} (fit : List V → V → B) (s : Sys V B) (order : List Nat) : Option (Sys V B) :=
  match s.todo with
  | none => some s
  | some todo => (s.keepAll (fit todo) todo order).map fun s =>
      { s with enc := some (fit todo), todo := none, plain := s.plain.clear }

/-- what may happen -/
inductive Ev (V : Type) where
  | insert (id : Nat) (v : V)
  | remove (id : Nat)
  | look (id : Nat)
  | tickPlain
  | tickCodes
  | begin
  | finish (order : List Nat)

/-- One event.  `Compress` runs at most once, and the order is one of all the places: config_update.go:100, compress.go:97.
A restart begins with a new index whose `source` is full. -/
def Sys.ev {V B : Type} (fit : List V → V → B) (s : Sys V B) : Ev V → Option (Sys V B)
  | .insert id v => s.insert id v
  | .remove id => s.remove id
  | .look id => s.look id
  | .tickPlain => some { s with plain := s.plain.tick }
  | .tickCodes => some { s with codes := tick s.codes }
  | .begin => some (if s.enc.isSome || s.todo.isSome then s else s.begin)
  | .finish order => s.finish fit order

/-- events one after the other; `none` if one of them panics -/
def Sys.run {V B : Type} (fit : List V → V → B) (s : Sys V B) : List (Ev V) → Option (Sys V B)
  | [] => some s
  | e :: es => match s.ev fit e with
    | none => none
    | some s => s.run fit es

end Compress
end Fave

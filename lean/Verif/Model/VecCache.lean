import Verif.Model.Basic
/-!
# The vector cache

Model of pkg/hnsw/vector_cache.go.  `α` is the type of vectors; a nil slice is `none`.  The 512 locks only make the access to a slot
one step, so the slots are one list; `preload` writes under a read lock (:159), its write is taken as one step all the same.  The
tracking of dimensions (:106-108, :163-165), prefetching (:150-155), logging and the timer are not modelled.
-/
namespace Fave
namespace VecCache

/-- `shardedLockCache` — vector_cache.go:25-41 -/
structure Cache (α : Type) where
  slots : List (Option α)
  count : Int
  maxSize : Int
  deriving DecidableEq, Repr

/-- `newShardedLockCache` — vector_cache.go:47-68; `initialSize` is 25000 (maintainance.go:21-22), here a parameter -/
def new (α : Type) (initialSize : Nat) (maxSize : Int) : Cache α := ⟨List.replicate initialSize none, 0, maxSize⟩

/-- `s.cache[id] = vec` — vector_cache.go:116, :167; `none` is the panic "index out of range" -/
def Cache.write {α : Type} (c : Cache α) (id : Nat) (v : Option α) : Option (Cache α) :=
  if id < c.slots.length then some { c with slots := c.slots.set id v } else none

/-- `atomic.AddInt64(&s.count, 1)` — vector_cache.go:114, :162 -/
def Cache.bump {α : Type} (c : Cache α) : Cache α := { c with count := c.count + 1 }

/-- `preload` — vector_cache.go:158-168 -/
def Cache.preload {α : Type} (c : Cache α) (id : Nat) (v : Option α) : Option (Cache α) := c.bump.write id v

/-- `delete` — vector_cache.go:88-98; `int(id)` is negative from 2^63 on, then the next access panics -/
def Cache.delete {α : Type} (c : Cache α) (id : Nat) : Option (Cache α) :=
  match c.slots[id]? with
  | none => if id < 2 ^ 63 then some c else none
  | some none => some c
  | some (some _) => some { c with slots := c.slots.set id none, count := c.count - 1 }

/-- the part of `grow` under the locks — vector_cache.go:175-185; 64-bit sum, `copy` copies the common length -/
def Cache.growLocked {α : Type} (c : Cache α) (node : Nat) : Cache α :=
  let newSize := (node + 25000) % 2 ^ 64
  { c with slots := c.slots.take newSize ++ List.replicate (newSize - c.slots.length) none, count := newSize }

/-- `grow` — vector_cache.go:171-186 -/
def Cache.grow {α : Type} (c : Cache α) (node : Nat) : Cache α :=
  if node < c.slots.length then c else c.growLocked node

/-- `deleteAllVectors` — vector_cache.go:205-216 -/
def Cache.clear {α : Type} (c : Cache α) : Cache α := { c with slots := c.slots.map fun _ => none, count := 0 }

/-- `replaceIfFull` — vector_cache.go:233-239 -/
def Cache.tick {α : Type} (c : Cache α) : Cache α := if c.maxSize ≤ c.count then c.clear else c

/-- outcome of a look-up; `fail` carries the source's error -/
inductive Got (α ε : Type) where
  | ok (v : Option α)
  | fail (e : ε)
  | panic
  deriving DecidableEq, Repr

/-- `handleCacheMiss` — vector_cache.go:100-120; `src` is `vectorForID`, `norm` is `distancer.Normalize` or the identity -/
def Cache.miss {α ε : Type} (norm : Option α → Option α) (src : Nat → Except ε (Option α)) (c : Cache α) (id : Nat) :
    Cache α × Got α ε :=
  match src id with
  | .error e => (c, .fail e)
  | .ok v => match c.bump.write id (norm v) with
    | none => (c.bump, .panic)
    | some c => (c, .ok (norm v))

/-- `get` — vector_cache.go:75-85 -/
def Cache.get {α ε : Type} (norm : Option α → Option α) (src : Nat → Except ε (Option α)) (c : Cache α) (id : Nat) :
    Cache α × Got α ε :=
  match c.slots[id]? with
  | none => (c, .panic)
  | some (some v) => (c, .ok (some v))
  | some none => c.miss norm src id

/-- `multiGet` — vector_cache.go:122-141: a failed look-up leaves a nil vector and its error; a panic ends everything -/
def Cache.multiGet {α ε : Type} (norm : Option α → Option α) (src : Nat → Except ε (Option α)) :
    Cache α → List Nat → Cache α × Option (List (Option α × Option ε))
  | c, [] => (c, some [])
  | c, id :: ids =>
    match c.get norm src id with
    | (c, .panic) => (c, none)
    | (c, .ok v) => match c.multiGet norm src ids with
      | (c, some rest) => (c, some ((v, none) :: rest))
      | (c, none) => (c, none)
    | (c, .fail e) => match c.multiGet norm src ids with
      | (c, some rest) => (c, some ((none, some e) :: rest))
      | (c, none) => (c, none)

/-! ## Goroutines -/

/-- where a goroutine is inside a cache operation -/
inductive Pc (α : Type) where
  | idle
  /-- in `get`, before reading the slot (:76) -/
  | read (id : Nat)
  /-- in `handleCacheMiss`, before asking the source (:101) -/
  | ask (id : Nat)
  /-- before the counter (:114) -/
  | count (id : Nat) (v : Option α)
  /-- before writing the slot (:115) -/
  | fill (id : Nat) (v : Option α)
  /-- in `grow`, the length is checked, waiting for the locks (:175) -/
  | grow (node : Nat)
  /-- in `replaceIfFull`, the counter is checked, waiting for the locks (:235) -/
  | clear

/-- what happened -/
inductive Ev (α : Type) where
  | loaded (id : Nat) (v : Option α)
  | fetched (id : Nat) (v : Option α)
  | returned (id : Nat) (v : Option α)
  | failed (id : Nat)
  | panicked (id : Nat)

/-- cache, goroutines and history (latest first) -/
structure Sys (α : Type) where
  cache : Cache α
  pc : Nat → Pc α
  log : List (Ev α)

/-- goroutine `t` moves to `p` -/
def Sys.goto {α : Type} (s : Sys α) (t : Nat) (p : Pc α) : Sys α := { s with pc := fun u => if u = t then p else s.pc u }

/-- add to the history -/
def Sys.note {α : Type} (s : Sys α) (e : Ev α) : Sys α := { s with log := e :: s.log }

/-- One step of one goroutine.  The source may answer anything at any time (`fetch`); `norm` as above.  A panic leaves the goroutine
idle: net/http recovers it. -/
inductive Step {α : Type} (norm : Option α → Option α) : Sys α → Sys α → Prop
  /-- vector_cache.go:75 -/
  | call (s t id) : s.pc t = .idle → Step norm s (s.goto t (.read id))
  /-- vector_cache.go:76-82 -/
  | hit (s t id v) : s.pc t = .read id → s.cache.slots[id]? = some (some v) →
      Step norm s ((s.goto t .idle).note (.returned id (some v)))
  /-- vector_cache.go:84 -/
  | missed (s t id) : s.pc t = .read id → s.cache.slots[id]? = some none → Step norm s (s.goto t (.ask id))
  /-- vector_cache.go:77 -/
  | outside (s t id) : s.pc t = .read id → s.cache.slots[id]? = none → Step norm s ((s.goto t .idle).note (.panicked id))
  /-- vector_cache.go:101-112 -/
  | fetch (s t id v) : s.pc t = .ask id → Step norm s ((s.goto t (.count id (norm v))).note (.fetched id v))
  /-- vector_cache.go:102-104 -/
  | fetchFail (s t id) : s.pc t = .ask id → Step norm s ((s.goto t .idle).note (.failed id))
  /-- vector_cache.go:114 -/
  | bump (s t id v) : s.pc t = .count id v → Step norm s { s.goto t (.fill id v) with cache := s.cache.bump }
  /-- vector_cache.go:115-119 -/
  | fill (s t id v c) : s.pc t = .fill id v → s.cache.write id v = some c →
      Step norm s (({ s.goto t .idle with cache := c }).note (.returned id v))
  /-- vector_cache.go:116 -/
  | fillOutside (s t id v) : s.pc t = .fill id v → s.cache.write id v = none →
      Step norm s ((s.goto t .idle).note (.panicked id))
  /-- vector_cache.go:158-168 -/
  | preload (s id v c) : s.cache.preload id v = some c → Step norm s (({ s with cache := c }).note (.loaded id v))
  /-- vector_cache.go:88-98 -/
  | delete (s id c) : s.cache.delete id = some c → Step norm s { s with cache := c }
  /-- vector_cache.go:172-174 -/
  | growCheck (s t node) : s.pc t = .idle → s.cache.slots.length ≤ node → Step norm s (s.goto t (.grow node))
  /-- vector_cache.go:175-185 -/
  | grow (s t node) : s.pc t = .grow node → Step norm s { s.goto t .idle with cache := s.cache.growLocked node }
  /-- vector_cache.go:234 -/
  | tickCheck (s t) : s.pc t = .idle → s.cache.maxSize ≤ s.cache.count → Step norm s (s.goto t .clear)
  /-- vector_cache.go:235-237 -/
  | tick (s t) : s.pc t = .clear → Step norm s { s.goto t .idle with cache := s.cache.clear }

/-- finitely many steps -/
inductive Steps {α : Type} (norm : Option α → Option α) : Sys α → Sys α → Prop
  | refl (s) : Steps norm s s
  | step {s u v} : Steps norm s u → Step norm u v → Steps norm s v

/-- the cache at the start — vector_cache.go:47-68 -/
def start (α : Type) (initialSize : Nat) (maxSize : Int) : Sys α := ⟨new α initialSize maxSize, fun _ => .idle, []⟩

end VecCache
end Fave

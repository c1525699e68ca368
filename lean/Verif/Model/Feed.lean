import Verif.Model.Client
import Verif.Model.VecCache
/-!
# What feeds the vector caches

Every index has a vector cache (Model/VecCache); what is not in it is asked from `documentCache`, one LRU cache of 1000 vectors for all
collections (pkg/document/document.go:92-95), under the key pod/collection/number (`Client.cacheKey`).  `documentCache` is
`github.com/hashicorp/golang-lru` (go.mod:17), with the behaviour assumed in Model/Lru.  `V` is the type of vectors, `norm` is
`distancer.Normalize`; the pod is opened once, when the server starts (adapters/handlers/handler.go:71), and is fixed here.  Requests run
at the same time; the steps are those of vector_cache.go and document.go between which others can come.  Not modelled: what the
additions and searches do with the vectors (Model/Insert, Model/Search), look-ups outside the 25000 places (they panic, C33: here the
goroutine just never goes on).
-/
namespace Fave.Feed
open Fave.Client (Str ns cacheKey)

/-- `documentCache`, most recently used first — document.go:48,92-95 -/
abbrev Docs (V : Type) := List (Str × V)

/-- `documentCache.Add` — document.go:381,391,424 -/
def Docs.add {V : Type} (cap : Nat) (d : Docs V) (k : Str) (v : V) : Docs V := ((k, v) :: d.filter fun e => e.1 ≠ k).take cap

/-- the vector kept under a key -/
def Docs.get {V : Type} (d : Docs V) (k : Str) : Option V := (d.find? fun e => e.1 = k).map Prod.snd

/-- `documentCache.Get`: the entry found becomes the most recent one — document.go:163,305,472,574 -/
def Docs.use {V : Type} (d : Docs V) (k : Str) : Docs V :=
  match d.find? fun e => e.1 = k with
  | some e => e :: d.filter fun e => e.1 ≠ k
  | none => d

/-- an index: the collection it was made for (captured by `vectorForID`) and its vector cache — document.go:161-167, 304-309,
hnsw/index.go:232-233 -/
structure Inst (V : Type) where
  name : Str
  cache : VecCache.Cache V

/-- where a look-up of a vector is — vector_cache.go:75-120 -/
inductive Pc (V : Type) where
  | idle
  /-- in `get`, before reading the slot (:76) -/
  | read (i id : Nat)
  /-- in `handleCacheMiss`, before asking `documentCache` (:101) -/
  | ask (i id : Nat)
  /-- before the counter (:114) -/
  | count (i id : Nat) (v : V)
  /-- before writing the slot (:115) -/
  | fill (i id : Nat) (v : V)

/-- what happened: a vector given to an index under a number, a vector kept in `documentCache`, the answer of a look-up, a vector found
in `documentCache`, a failed look-up, the deletion of a collection, the start of a process.  `i` is the index. -/
inductive Ev (V : Type) where
  | gave (i : Nat) (name : Str) (id : Nat) (v : V)
  | kept (name : Str) (id : Nat) (v : V)
  | returned (i : Nat) (name : Str) (id : Nat) (v : V)
  | fetched (name : Str) (id : Nat)
  | failed (name : Str) (id : Nat)
  | deleted (name : Str)
  | started

/-- the process: `documentCache`, the indices made so far (those dropped from `c.indices` go on living in the requests that use them and
in their timers), look-ups, additions under way (index, number, vector as given), history (latest first) -/
structure Sys (V : Type) where
  docs : Docs V
  insts : List (Inst V)
  pc : Nat → Pc V
  adding : Nat → Option (Nat × Nat × V)
  log : List (Ev V)

variable {V : Type}

/-- look-up `t` moves to `p` -/
def Sys.goto (s : Sys V) (t : Nat) (p : Pc V) : Sys V := { s with pc := fun u => if u = t then p else s.pc u }

/-- add to the history -/
def Sys.note (s : Sys V) (e : Ev V) : Sys V := { s with log := e :: s.log }

/-- the vector cache of index `i` becomes `c` -/
def Sys.setCache (s : Sys V) (i : Nat) (x : Inst V) (c : VecCache.Cache V) : Sys V := { s with insts := s.insts.set i { x with cache := c } }

/-- addition `t` is at `a` -/
def Sys.setAdding (s : Sys V) (t : Nat) (a : Option (Nat × Nat × V)) : Sys V := { s with adding := fun u => if u = t then a else s.adding u }

/-- a new process: everything in memory is empty — document.go:67-97 -/
def start : Sys V := ⟨[], [], fun _ => .idle, fun _ => none, [.started]⟩

/-- One step.  `size` is the number of places of a vector cache (25000, maintainance.go:21), `cap` the capacity of `documentCache`
(1000).  The maximum of the vector caches is 0, `VectorCacheMaxObjects` being left out (document.go:196-199, 319-322). -/
inductive Step (norm : V → V) (pod : Str) (size cap : Nat) : Sys V → Sys V → Prop
  /-- an index is made, by `CreateCollection` or by a request that finds the database closed — document.go:189-206, 312-329,
  479-496, 581-598 -/
  | make (s name) : Step norm pod size cap s { s with insts := s.insts ++ [⟨name, VecCache.new V size 0⟩] }
  /-- `Add` stores the normalised vector in the vector cache of its index — hnsw/insert.go:70-74, 105-112, 262-269 -/
  | give (s t i x id v c) : s.adding t = none → s.insts[i]? = some x → x.cache.preload id (some (norm v)) = some c →
      Step norm pod size cap s (((s.setCache i x c).setAdding t (some (i, id, v))).note (.gave i x.name id v))
  /-- `Add` has returned without error, the vector as given is kept — document.go:381,391,424 -/
  | keep (s t i x id v) : s.adding t = some (i, id, v) → s.insts[i]? = some x →
      Step norm pod size cap s (({ s.setAdding t none with docs := s.docs.add cap (cacheKey pod (ns ++ x.name) id) v }).note
        (.kept x.name id v))
  /-- `Add` has returned an error or panicked — document.go:376-380, 386-390, 419-423 -/
  | giveUp (s t) : Step norm pod size cap s (s.setAdding t none)
  /-- vector_cache.go:75 -/
  | call (s t i id) : s.pc t = .idle → Step norm pod size cap s (s.goto t (.read i id))
  /-- vector_cache.go:76-82 -/
  | hit (s t i x id v) : s.pc t = .read i id → s.insts[i]? = some x → x.cache.slots[id]? = some (some v) →
      Step norm pod size cap s ((s.goto t .idle).note (.returned i x.name id v))
  /-- vector_cache.go:84 -/
  | missed (s t i x id) : s.pc t = .read i id → s.insts[i]? = some x → x.cache.slots[id]? = some none →
      Step norm pod size cap s (s.goto t (.ask i id))
  /-- vector_cache.go:101-112, document.go:161-166 -/
  | fetch (s t i x id v) : s.pc t = .ask i id → s.insts[i]? = some x → s.docs.get (cacheKey pod (ns ++ x.name) id) = some v →
      Step norm pod size cap s (({ s.goto t (.count i id (norm v)) with docs := s.docs.use (cacheKey pod (ns ++ x.name) id) }).note
        (.fetched x.name id))
  /-- vector_cache.go:102-104, document.go:166 "document not found" -/
  | fetchFail (s t i x id) : s.pc t = .ask i id → s.insts[i]? = some x → s.docs.get (cacheKey pod (ns ++ x.name) id) = none →
      Step norm pod size cap s ((s.goto t .idle).note (.failed x.name id))
  /-- vector_cache.go:114 -/
  | bump (s t i x id v) : s.pc t = .count i id v → s.insts[i]? = some x →
      Step norm pod size cap s ((s.goto t (.fill i id v)).setCache i x x.cache.bump)
  /-- vector_cache.go:115-119 -/
  | fill (s t i x id v c) : s.pc t = .fill i id v → s.insts[i]? = some x → x.cache.write id (some v) = some c →
      Step norm pod size cap s (((s.goto t .idle).setCache i x c).note (.returned i x.name id v))
  /-- `replaceIfFull`, every three seconds — vector_cache.go:233-239 -/
  | tick (s i x) : s.insts[i]? = some x → Step norm pod size cap s (s.setCache i x x.cache.tick)
  /-- `DeleteCollection`: the index leaves `c.indices`; `documentCache` is not touched — document.go:210-246 -/
  | delete (s name) : Step norm pod size cap s (s.note (.deleted name))
  /-- the server is started again; only the storage survives -/
  | restart (s) : Step norm pod size cap s { (start : Sys V) with log := .started :: s.log }

/-- finitely many steps -/
inductive Steps (norm : V → V) (pod : Str) (size cap : Nat) : Sys V → Sys V → Prop
  | refl (s) : Steps norm pod size cap s s
  | step {s u v} : Steps norm pod size cap s u → Step norm pod size cap u v → Steps norm pod size cap s v

/-- the part of a history (latest first) since the process was started -/
def current : List (Ev V) → List (Ev V)
  | [] => []
  | .started :: _ => []
  | e :: l => e :: current l

/-- the vector last given to index `i` under a number since the process was started -/
def lastGiven (i id : Nat) : List (Ev V) → Option V
  | [] => none
  | .started :: _ => none
  | .gave j _ n v :: l => if j = i ∧ n = id then some v else lastGiven i id l
  | _ :: l => lastGiven i id l

end Fave.Feed

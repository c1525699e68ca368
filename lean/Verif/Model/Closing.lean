/-!
# Closing an index

An index runs two goroutines from the moment it is made: each of its two vector caches, the plain one and the one for compressed vectors,
has a watcher that wakes up every three seconds (hnsw/vector_cache.go:218-231, compressed_vector_cache.go:185-198).  A watcher ends when
`drop` sends on the unbuffered channel `cancel`.  `drop` is called by `Drop` and `Shutdown` for one of the caches, whichever is in use,
and by `Compress` for the plain one, with `compressActionLock` held.  Here one index with any number of goroutines calling these and the
methods that hold `compressActionLock` for reading (search.go:71, insert.go:76, delete.go:32).  Not modelled: the locks of the caches
(Model/CacheLocks, C75), for which nothing waits for ever, so that the emptying of a cache is one step; the clean-up cycle of package
`cyclemanager`, which can only make `Drop` and `Shutdown` return early; that a waiting writer of an `RWMutex` keeps new readers out, so
there are more executions here.
-/
namespace Fave.Closing

/-- the two vector caches of an index — index.go:232-235 -/
inductive Which where
  /-- `h.cache` -/
  | plain
  /-- `h.compressedVectorsCache` -/
  | coded
  deriving DecidableEq, Repr

/-- the watcher of a cache — vector_cache.go:218-231, compressed_vector_cache.go:185-198 -/
inductive Watch where
  /-- at the `select` -/
  | waiting
  /-- in `replaceIfFull` -/
  | replacing
  /-- it has received from `cancel` and returned -/
  | stopped
  deriving DecidableEq, Repr

/-- who called `drop`: `Drop` or `Shutdown` (index.go:625-676), or `Compress` (compress.go:108) -/
inductive Caller where
  | close
  | compress
  deriving DecidableEq, Repr

/-- where a goroutine is -/
inductive Pc where
  | idle
  /-- in `Drop` or `Shutdown`, before the look at `compressed` — index.go:640,666 -/
  | closing
  /-- in `drop`, before the vectors are deleted — vector_cache.go:199-200, compressed_vector_cache.go:168-169 -/
  | clear (x : Which) (c : Caller)
  /-- in `drop`, at the sending on `cancel` — vector_cache.go:201, compressed_vector_cache.go:170 -/
  | send (x : Which) (c : Caller)
  /-- `drop` has returned -/
  | done (c : Caller)
  /-- in `Compress`, before the lock — compress.go:41-94 -/
  | fitting
  /-- in `Compress`, with the lock — compress.go:95-106 -/
  | storing
  /-- in `SearchByVector`, `Add` or `Delete`, before the lock — search.go:71, insert.go:76, delete.go:32 -/
  | wanting
  /-- with the lock for reading -/
  | using
  deriving DecidableEq, Repr

/-- one index — index.go:106-158.  The fields from `dropped` on are history: drops that have returned, goroutines in a run of `Compress`, calls of
`Drop` and `Shutdown` begun and returned, whether ever a call came at a wrong time (a run beside another run or after a closing had
begun, or a closing beside a run or after another closing had begun), calls of any kind, and failed runs of `Compress`. -/
structure Sys where
  compressed : Bool
  watch : Which → Watch
  /-- `compressActionLock` held for writing -/
  writer : Option Nat
  /-- goroutines that hold it for reading -/
  readers : List Nat
  pc : Nat → Pc
  dropped : Which → Nat
  active : List Nat
  closes : Nat
  closed : Nat
  mixed : Bool
  calls : Nat
  failed : Nat

/-- an index just made — index.go:232-242, 276-289 -/
def fresh : Sys := ⟨false, fun _ => .waiting, none, [], fun _ => .idle, fun _ => 0, [], 0, 0, false, 0, 0⟩

/-- goroutine `t` moves to `p` -/
def Sys.goto (s : Sys) (t : Nat) (p : Pc) : Sys := { s with pc := fun u => if u = t then p else s.pc u }

/-- the watcher of cache `x` is at `w` -/
def Sys.setWatch (s : Sys) (x : Which) (w : Watch) : Sys := { s with watch := fun y => if y = x then w else s.watch y }

/-- the cache that `Drop` and `Shutdown` drop — index.go:640-645, 666-673 -/
def Sys.used (s : Sys) : Which := if s.compressed then .coded else .plain

/-- one step -/
inductive Step : Sys → Sys → Prop
  /-- `Drop` or `Shutdown` up to the look at `compressed`: the clean-up cycle is stopped, `Shutdown` has closed the commit log —
  index.go:625-640, 657-666.  If that fails the call returns without having done anything, which is no step here. -/
  | close (s t) : s.pc t = .idle → Step s { s.goto t .closing with closes := s.closes + 1, calls := s.calls + 1, mixed := s.mixed || decide (s.closes ≠ 0) || !s.active.isEmpty }
  /-- index.go:640-645, 666-673 -/
  | choose (s t) : s.pc t = .closing → Step s (s.goto t (.clear s.used .close))
  /-- `deleteAllVectors` — vector_cache.go:205-216, compressed_vector_cache.go:174-183 -/
  | clear (s t x c) : s.pc t = .clear x c → Step s (s.goto t (.send x c))
  /-- the value is taken over by the watcher, which returns — vector_cache.go:201,224-225, compressed_vector_cache.go:170,191-192 -/
  | send (s t x c) : s.pc t = .send x c → s.watch x = .waiting →
      Step s { (s.goto t (.done c)).setWatch x .stopped with dropped := fun y => if y = x then s.dropped x + 1 else s.dropped y }
  /-- the rest of `Drop` and `Shutdown`, whatever the commit log and the store answer — index.go:647-654, 668-676 -/
  | closed (s t) : s.pc t = .done .close → Step s { s.goto t .idle with closed := s.closed + 1 }
  /-- `UpdateUserConfig` finds the index not compressed and starts `Compress` — config_update.go:100-116 -/
  | begin (s t) : s.pc t = .idle → s.compressed = false →
      Step s { s.goto t .fitting with calls := s.calls + 1, active := t :: s.active, mixed := s.mixed || decide (s.closes ≠ 0) || !s.active.isEmpty }
  /-- an error before the lock — compress.go:41-89 -/
  | fail (s t) : s.pc t = .fitting → Step s { s.goto t .idle with active := s.active.erase t, failed := s.failed + 1 }
  /-- compress.go:95 -/
  | lock (s t) : s.pc t = .fitting → s.writer = none → s.readers = [] → Step s { s.goto t .storing with writer := some t }
  /-- an error of the commit log; the lock is released — compress.go:96,103-105 -/
  | logFail (s t) : s.pc t = .storing → Step s { s.goto t .idle with writer := none, active := s.active.erase t, failed := s.failed + 1 }
  /-- compress.go:107-108 -/
  | mark (s t) : s.pc t = .storing → Step s { s.goto t (.clear .plain .compress) with compressed := true }
  /-- `Compress` returns — compress.go:96,109 -/
  | unlock (s t) : s.pc t = .done .compress → Step s { s.goto t .idle with writer := none, active := s.active.erase t }
  /-- a search, an addition or a deletion is called — search.go:70, insert.go:75, delete.go:31 -/
  | want (s t) : s.pc t = .idle → Step s { s.goto t .wanting with calls := s.calls + 1 }
  /-- it gets the lock — search.go:71, insert.go:76, delete.go:32 -/
  | enter (s t) : s.pc t = .wanting → s.writer = none → Step s { s.goto t .using with readers := t :: s.readers }
  /-- it returns — search.go:72, insert.go:77, delete.go:33 -/
  | leave (s t) : s.pc t = .using → Step s { s.goto t .idle with readers := s.readers.erase t }
  /-- three seconds have passed — vector_cache.go:226-227, compressed_vector_cache.go:193-194 -/
  | tick (s x) : s.watch x = .waiting → Step s (s.setWatch x .replacing)
  /-- `replaceIfFull` returns — vector_cache.go:233-239, compressed_vector_cache.go:200-215 -/
  | back (s x) : s.watch x = .replacing → Step s (s.setWatch x .waiting)

/-- finitely many steps -/
inductive Steps : Sys → Sys → Prop
  | refl (s) : Steps s s
  | step {s u v} : Steps s u → Step u v → Steps s v

/-- is the goroutine in a run of `Compress`? -/
def Pc.inRun : Pc → Bool
  | .fitting | .storing | .clear _ .compress | .send _ .compress | .done .compress => true
  | _ => false

/-- does it hold the lock for writing? -/
def Pc.locked : Pc → Bool
  | .storing | .clear _ .compress | .send _ .compress | .done .compress => true
  | _ => false

/-- is it in `Drop` or `Shutdown`? -/
def Pc.inClose : Pc → Bool
  | .closing | .clear _ .close | .send _ .close | .done .close => true
  | _ => false

end Fave.Closing

/-!
# Concurrent additions: the search start

The part of `insert` that additions running at the same time share: the "once" that initialises the index, the index lock and the search
start (pkg/hnsw/insert.go:81-116, 201-311).  Each addition is a thread; every access to a shared field, every lock and every unlock is a
step of its own, so that exclusion follows from the locks and is not assumed.  The work between the two locked regions — finding and connecting
neighbours, insert.go:277-290 — touches neither field; it may take any time and may fail.
-/
namespace Fave.Conc

/-- the state of `sync.Once` (`initialInsertOnce`, index.go:59): never called, the given thread is inside, over -/
inductive Once where
  | fresh | running (t : Nat) | over
  deriving DecidableEq, Repr

/-- where a thread is in `insert` — insert.go:201-311 -/
inductive Pc where
  /-- not called yet — 201 -/
  | idle
  /-- inside `initialInsertOnce.Do` — 209 -/
  | inOnce
  /-- inside `isEmpty`, holding the read lock — index.go:579-584 -/
  | probing
  /-- found empty: `wasFirst = true`, about to lock — 211-212, 82 -/
  | initWant
  /-- holds the lock — 83 -/
  | initHeld
  /-- has set `entryPointID` — 88 -/
  | initEntry
  /-- has set `currentMaximumLayer` — 89 -/
  | initLayer
  /-- has unlocked; with or without error — 115 -/
  | initOut (ok : Bool)
  /-- past the "once", not first — 219 -/
  | go
  /-- holds the read lock — 221 -/
  | rd0
  /-- has read `entryPointID` — 224 -/
  | rd1 (e : Nat)
  /-- has read both and unlocked — 227-228 -/
  | snap (e m : Nat)
  /-- holds the lock to grow the table — 254 -/
  | growHeld (e m : Nat)
  /-- grown and unlocked; finds and connects neighbours — 261-290 -/
  | linking (e m : Nat)
  /-- holds the lock — 296 -/
  | finHeld
  /-- has set `entryPointID` — 305 -/
  | finEntry
  /-- has set `currentMaximumLayer` — 306 -/
  | finLayer
  /-- returned: as the first element or not, without or with error — 217, 310 and the error returns -/
  | ret (first ok : Bool)
  deriving DecidableEq, Repr

/-- what each thread adds: number and drawn level — insert.go:230 -/
structure Job where
  id : Nat → Nat
  lev : Nat → Nat

/-- the shared state and the threads -/
structure St where
  /-- `entryPointID` -/
  entry : Nat
  /-- `currentMaximumLayer` -/
  maxLayer : Nat
  once : Once
  /-- what `isEmpty` sees — index.go:586-592 -/
  empty : Bool
  /-- the read holders of the index lock -/
  readers : List Nat
  /-- its write holder -/
  writer : Option Nat
  pc : Nat → Pc
  /-- ghost: the threads that found themselves first -/
  inits : List Nat
  /-- ghost: the first element has set the start -/
  set : Bool

/-- thread `t` moves on -/
def St.at (s : St) (t : Nat) (p : Pc) : St := { s with pc := fun u => if u = t then p else s.pc u }

/-- the lock can be taken for reading — `sync.RWMutex` -/
def St.free (s : St) : Prop := s.writer = none

/-- the lock can be taken for writing -/
def St.idle (s : St) : Prop := s.writer = none ∧ s.readers = []

/-- One step of one thread; `loads`: searches that set the start from storage (`LoadEntrypoint`, insert.go:181-199) are under way as well. -/
inductive Step (J : Job) (loads : Bool) : St → St → Prop where
  /-- `Do`: the first caller goes inside — insert.go:209 -/
  | enter {s : St} (t : Nat) : s.pc t = .idle → s.once = .fresh → Step J loads s { s.at t .inOnce with once := .running t }
  /-- `Do` after it is over; while it is running callers wait -/
  | skip {s : St} (t : Nat) : s.pc t = .idle → s.once = .over → Step J loads s (s.at t .go)
  /-- `isEmpty`: `RLock` — index.go:580 -/
  | probe {s : St} (t : Nat) : s.pc t = .inOnce → s.free → Step J loads s { s.at t .probing with readers := t :: s.readers }
  /-- empty — insert.go:210-212 -/
  | first {s : St} (t : Nat) : s.pc t = .probing → s.empty = true →
      Step J loads s { s.at t .initWant with readers := s.readers.erase t, inits := t :: s.inits }
  /-- not empty: the function given to `Do` returns -/
  | notFirst {s : St} (t : Nat) : s.pc t = .probing → s.empty = false →
      Step J loads s { s.at t .go with readers := s.readers.erase t, once := .over }
  /-- `h.Lock()` — insert.go:82 -/
  | initLock {s : St} (t : Nat) : s.pc t = .initWant → s.idle → Step J loads s { s.at t .initHeld with writer := some t }
  /-- the commit log refuses — insert.go:84-86 -/
  | initRefused {s : St} (t : Nat) : s.pc t = .initHeld → Step J loads s { s.at t (.initOut false) with writer := none }
  /-- `h.entryPointID = node.Id` — insert.go:88 -/
  | initSetEntry {s : St} (t : Nat) : s.pc t = .initHeld → Step J loads s { s.at t .initEntry with entry := J.id t }
  /-- `h.currentMaximumLayer = 0` — insert.go:89 -/
  | initSetLayer {s : St} (t : Nat) : s.pc t = .initEntry → Step J loads s { s.at t .initLayer with maxLayer := 0, set := true }
  /-- the rest of `insertInitialElement`, with or without error, and the unlocking — insert.go:90-115 -/
  | initUnlock {s : St} (t : Nat) (ok : Bool) : s.pc t = .initLayer → Step J loads s { s.at t (.initOut ok) with writer := none }
  /-- `Do` returns, and so does `insert` — insert.go:214-217 -/
  | initReturn {s : St} (t : Nat) (ok : Bool) : s.pc t = .initOut ok → Step J loads s { s.at t (.ret true ok) with once := .over }
  /-- `h.RLock()` — insert.go:221 -/
  | rlock {s : St} (t : Nat) : s.pc t = .go → s.free → Step J loads s { s.at t .rd0 with readers := t :: s.readers }
  /-- `entryPointID := h.entryPointID` — insert.go:224 -/
  | readEntry {s : St} (t : Nat) : s.pc t = .rd0 → Step J loads s (s.at t (.rd1 s.entry))
  /-- `currentMaximumLayer := h.currentMaximumLayer; h.RUnlock()` — insert.go:227-228 -/
  | readLayer {s : St} (t e : Nat) : s.pc t = .rd1 e → Step J loads s { s.at t (.snap e s.maxLayer) with readers := s.readers.erase t }
  /-- the commit log refuses — insert.go:246-248 -/
  | addRefused {s : St} (t e m : Nat) : s.pc t = .snap e m → Step J loads s (s.at t (.ret false false))
  /-- `h.Lock()` — insert.go:253 -/
  | growLock {s : St} (t e m : Nat) : s.pc t = .snap e m → s.idle → Step J loads s { s.at t (.growHeld e m) with writer := some t }
  /-- growing fails — insert.go:256-259 -/
  | growFails {s : St} (t e m : Nat) : s.pc t = .growHeld e m → Step J loads s { s.at t (.ret false false) with writer := none }
  /-- `h.Unlock()` — insert.go:260 -/
  | growUnlock {s : St} (t e m : Nat) : s.pc t = .growHeld e m → Step J loads s { s.at t (.linking e m) with writer := none }
  /-- linking fails — insert.go:278-281, 286-289 -/
  | linkFails {s : St} (t e m : Nat) : s.pc t = .linking e m → Step J loads s (s.at t (.ret false false))
  /-- `h.Lock()` — insert.go:297 -/
  | finLock {s : St} (t e m : Nat) : s.pc t = .linking e m → s.idle → Step J loads s { s.at t .finHeld with writer := some t }
  /-- not higher: unlock and return — insert.go:298, 308-310 -/
  | finLow {s : St} (t : Nat) : s.pc t = .finHeld → J.lev t ≤ s.maxLayer → Step J loads s { s.at t (.ret false true) with writer := none }
  /-- the commit log refuses — insert.go:301-304 -/
  | finRefused {s : St} (t : Nat) : s.pc t = .finHeld → s.maxLayer < J.lev t → Step J loads s { s.at t (.ret false false) with writer := none }
  /-- `h.entryPointID = nodeId` — insert.go:305 -/
  | finSetEntry {s : St} (t : Nat) : s.pc t = .finHeld → s.maxLayer < J.lev t → Step J loads s { s.at t .finEntry with entry := J.id t }
  /-- `h.currentMaximumLayer = targetLevel` — insert.go:306 -/
  | finSetLayer {s : St} (t : Nat) : s.pc t = .finEntry → Step J loads s { s.at t .finLayer with maxLayer := J.lev t }
  /-- `h.Unlock()` — insert.go:308 -/
  | finUnlock {s : St} (t : Nat) : s.pc t = .finLayer → Step J loads s { s.at t (.ret false true) with writer := none }
  /-- something is stored by a flush of another request — insert.go:118-164 -/
  | stored {s : St} : Step J loads s { s with empty := false }
  /-- a search sets the start to what is stored, holding the read lock only — insert.go:181-199 -/
  | load {s : St} (e : Nat) : loads = true → s.free → Step J loads s { s with entry := e }

/-- the state in which the additions begin: any start, any layer, the "once" never called or over -/
def St.begin (e0 m0 : Nat) (once empty : Bool) : St :=
  ⟨e0, m0, if once then .over else .fresh, empty, [], none, fun _ => .idle, [], false⟩

/-- any interleaving -/
inductive Reach (J : Job) (loads : Bool) (s0 : St) : St → Prop where
  | refl : Reach J loads s0 s0
  | step {s s' : St} : Reach J loads s0 s → Step J loads s s' → Reach J loads s0 s'

end Fave.Conc

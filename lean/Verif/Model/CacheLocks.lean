import Verif.Model.Basic
/-!
# The locks of a vector cache

Model of who waits for whom in a vector cache: vector_cache.go and compressed_vector_cache.go, which lock alike.  A cache has `n` locks (512:
`shardFactor`, vector_cache.go:43), a maintenance lock, and a goroutine that watches over its size.  Small accesses take one lock; `grow`, `drop`
and a full tick of the watcher take all of them, each through a goroutine of its own and thus in any order; `grow` and the watcher take the
maintenance lock first, `drop` does not.

Simplified: giving back all locks is one step (nothing waits in between, vector_cache.go:254-258); what is done under the locks is in
Model/VecCache; package sync and channels are as documented (a writer that waits keeps readers and other writers out; an unbuffered send
waits for a receiver).
-/
namespace Fave.CacheLocks

/-- how far somebody is with one lock: not asked for, announced as the next writer, held, given back — package sync -/
inductive Stage where
  | idle | waits | held | over
  deriving DecidableEq, Repr

/-- how far somebody is who takes all locks: not begun, to take the maintenance lock, taking the locks, about to send on `cancel`, done — vector_cache.go:171-252 -/
inductive Wide where
  | rest
  | want
  | all (l : List Stage)
  | send
  | over
  deriving DecidableEq, Repr

/-- who uses the cache: a small access to one lock for reading or for writing (`get`, `delete`, `prefetch`, `preload`, storing after a miss —
vector_cache.go:75-168), `grow` — 171-187, `drop` — 199-216, and the watcher — 218-239 -/
inductive Agent where
  | small (k : Nat) (write : Bool) (st : Stage)
  | grow (st : Wide)
  | drop (st : Wide)
  | watcher (st : Wide)
  deriving DecidableEq, Repr

/-- how far an agent is with lock `k` as a writer — vector_cache.go:89, 115, 247 -/
def Agent.stage (a : Agent) (k : Nat) : Stage :=
  match a with
  | .small k' true st => if k' = k then st else .idle
  | .small _ false _ => .idle
  | .grow (.all l) | .drop (.all l) | .watcher (.all l) => l[k]?.getD .idle
  | _ => .idle

/-- holds lock `k` for writing or is the next writer — package sync -/
def Agent.writes (a : Agent) (k : Nat) : Bool := a.stage k == .waits || a.stage k == .held

/-- holds lock `k` for reading — vector_cache.go:76, 127, 151, 159 -/
def Agent.reads (a : Agent) (k : Nat) : Bool :=
  match a with
  | .small k' false .held => k' == k
  | _ => false

/-- holds the maintenance lock — vector_cache.go:175-176, 235-237 -/
def Agent.maintains : Agent → Bool
  | .grow (.all _) | .watcher (.all _) => true
  | _ => false

/-- one lock on its way to being held by a writer, if it need not wait — package sync -/
def advance (s : List Agent) (k : Nat) : Stage → Option Stage
  | .idle => if s.any (·.writes k) then none else some .waits
  | .waits => if s.any (·.reads k) || s.any (·.stage k == .held) then none else some .held
  | _ => none

/-- a step: of a small access, of one who takes all locks towards its `k`-th lock, giving all back, a tick (`full`: the count has reached the
maximum, vector_cache.go:234), or a send on `cancel` that the watcher receives — vector_cache.go:201, 224 -/
inductive Ev where
  | go (i : Nat)
  | lock (i k : Nat)
  | tick (i : Nat) (full : Bool)
  | cancel (i j : Nat)
  deriving DecidableEq, Repr

/-- beginning to take all locks — vector_cache.go:241-252 -/
def Wide.begin (n : Nat) : Wide := .all (List.replicate n .idle)

/-- an agent's own step, if it need not wait — vector_cache.go:75-168, 171-187, 199-202, 233-239 -/
def Agent.go (n : Nat) (s : List Agent) : Agent → Option Agent
  | .small k w .idle =>
    if w then (advance s k .idle).map (.small k w ·)
    else if s.any (·.writes k) then none else some (.small k w .held)
  | .small k w .waits => (advance s k .waits).map (.small k w ·)
  | .small k w .held => some (.small k w .over)
  | .grow .rest => if s.any Agent.maintains then none else some (.grow (.begin n))
  | .grow (.all l) => if l.all (· == .held) then some (.grow .over) else none
  | .drop .rest => some (.drop (.begin n))
  | .drop (.all l) => if l.all (· == .held) then some (.drop .send) else none
  | .watcher .want => if s.any Agent.maintains then none else some (.watcher (.begin n))
  | .watcher (.all l) => if l.all (· == .held) then some (.watcher .rest) else none
  | _ => none

/-- the step of the goroutine that takes the `k`-th lock for an agent — vector_cache.go:245-248 -/
def Agent.lock (s : List Agent) (k : Nat) : Agent → Option Agent
  | .grow (.all l) => l[k]?.bind fun st => (advance s k st).map fun st' => .grow (.all (l.set k st'))
  | .drop (.all l) => l[k]?.bind fun st => (advance s k st).map fun st' => .drop (.all (l.set k st'))
  | .watcher (.all l) => l[k]?.bind fun st => (advance s k st).map fun st' => .watcher (.all (l.set k st'))
  | _ => none

/-- one step of the whole — vector_cache.go:218-239 for ticks and for `cancel` -/
def step (n : Nat) (s : List Agent) : Ev → Option (List Agent)
  | .go i => s[i]?.bind fun a => (a.go n s).map (s.set i ·)
  | .lock i k => s[i]?.bind fun a => (a.lock s k).map (s.set i ·)
  | .tick i full => match s[i]? with
    | some (.watcher .rest) => some (if full then s.set i (.watcher .want) else s)
    | _ => none
  | .cancel i j => match s[i]?, s[j]? with
    | some (.drop .send), some (.watcher .rest) => some ((s.set i (.drop .over)).set j (.watcher .over))
    | _, _ => none

/-- the steps of a schedule -/
def run (n : Nat) (s : List Agent) : List Ev → Option (List Agent)
  | [] => some s
  | e :: es => match step n s e with
    | none => none
    | some s => run n s es

/-- what is asked of a cache — vector_cache.go:75-216 -/
inductive Job where
  | small (k : Nat) (write : Bool)
  | grow
  | drop
  deriving DecidableEq, Repr

/-- the agent of a job before its first step -/
def Job.agent : Job → Agent
  | .small k w => .small k w .idle
  | .grow => .grow .rest
  | .drop => .drop .rest

/-- a new cache: its watcher, started by the constructor (vector_cache.go:47-68), and the jobs -/
def begin (jobs : List Job) : List Agent := .watcher .rest :: jobs.map Job.agent

end Fave.CacheLocks

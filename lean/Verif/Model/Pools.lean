import Verif.Model.Search
/-!
# The pools of reusable objects

Model of `pkg/hnsw/pools.go` and of every place that takes an object from a pool or puts it back.  Threads (searches and additions) are
sequences of calls; a call is reduced to what it does to pooled objects, everything else (which ids are visited, which elements are pushed
and popped, where an error ends the call early) is arbitrary.  Go variables keep pointing at an object after it was put back; nothing but
the code itself prevents its further use.  Steps of different threads interleave arbitrarily.  Not modelled: `connList` (pools.go:133-158),
which is not used anywhere.
-/
namespace Fave.Pools

/-- the pools built on `sync.Pool`: candidates (min queues), results (max queues), queues of the heuristic, slices of the heuristic —
pools.go:25-29 -/
inductive QKind where
  | cand | res | heur | slice
  deriving DecidableEq

/-- the local variables that hold pooled objects: `visited`, `candidates`, `results`/`res` (search.go:169-173), `closestFirst`,
`returnList` (heuristic.go:33, 54, 83) -/
inductive Slot where
  | vis
  | q (k : QKind)
  deriving DecidableEq

/-- A pooled object: a visited list, or a queue (or slice) of the kind it was made as, with its elements and its capacity.  The order of
the elements within a queue is no matter here. -/
inductive Obj (A : Type) where
  | vis (l : ListSet)
  | q (k : QKind) (items : List A) (cap : Nat)

/-- what a thread does to pooled objects -/
inductive Op (A : Type) where
  /-- `visitedLists.Borrow()` — search.go:168-170 -/
  | borrow
  /-- `visited.Visit(id)` — search.go:242 -/
  | visit (id : Nat)
  /-- the marks set by `insertViableEntrypointsAsCandidatesAndResults` — search.go:327-351 -/
  | enter (ids : List Nat)
  /-- `visitedLists.Return(visited)` — search.go:320-322 -/
  | giveBack
  /-- `GetMin`, `GetMax` — pools.go:63-72, 91-100, 119-128; `pqItemSlice.Get()` — heuristic.go:54, 83 -/
  | get (k : QKind) (capacity : Int)
  /-- any use of the queue or slice in variable `k`; `grow` is the capacity `append` may choose -/
  | edit (k : QKind) (f : List A → List A) (grow : Nat)
  /-- `Put` — pools.go:74-76, 102-104, 130-132; for slices with the rewinding before it, heuristic.go:129-132 -/
  | put (k : QKind)

/-- a thread: its variables, what it has done (for the statements only), and what it is going to do -/
structure Thread (A : Type) where
  slot : Slot → Option Nat
  past : List (Op A)
  rest : List (Op A)

/-- The heap of pooled objects (`next` is the next unused address), the pools, the threads; `crashed` after the use of a variable that
holds no object. -/
structure St (A : Type) where
  heap : Nat → Obj A
  next : Nat
  vpool : List Nat
  qpool : QKind → List Nat
  thread : Nat → Thread A
  crashed : Bool

variable {A : Type}

/-- sizes: `listSetSize` of the visited lists (`initialSize+500`) and `maxConnectionsLayerZero`, the capacity of new queues — pools.go:32-45 -/
structure Sizes where
  list : Nat
  cap : Nat

/-- one visited list is made beforehand (`visited.NewPool(1, …)` — pools.go:34), the other pools are empty -/
def init (z : Sizes) (traces : Nat → List (Op A)) : St A :=
  { heap := fun _ => .vis (ListSet.new z.list), next := 1, vpool := [0], qpool := fun _ => [],
    thread := fun t => ⟨fun _ => none, [], traces t⟩, crashed := false }

/-- assignment to a variable of thread `t` -/
def St.assign (s : St A) (t : Nat) (sl : Slot) (a : Nat) : St A :=
  { s with thread := fun u => if u = t then ⟨fun x => if x = sl then some a else (s.thread t).slot x, (s.thread t).past, (s.thread t).rest⟩ else s.thread u }

/-- a new object in a variable -/
def St.alloc (s : St A) (t : Nat) (sl : Slot) (o : Obj A) : St A :=
  ({ s with heap := fun b => if b = s.next then o else s.heap b, next := s.next + 1 } : St A).assign t sl s.next

/-- change of the object at an address -/
def St.store (s : St A) (a : Nat) (o : Obj A) : St A := { s with heap := fun b => if b = a then o else s.heap b }

/-- what `GetMin`/`GetMax` do to the queue they got: `ResetCap` if the capacity is too small, else `Reset` — pools.go:65-69, queue.go:105-111; the slice
of the heuristic is taken as it is -/
def ready (capacity : Int) : Obj A → Obj A
  | .q .slice items cap => .q .slice items cap
  | .q k _ cap => if (cap : Int) < capacity then .q k [] capacity.toNat else .q k [] cap
  | o => o

/-- one operation of thread `t`; `pick` says which of the pooled objects `sync.Pool.Get` delivers (a new one, if there is none such) -/
def act (z : Sizes) (s : St A) (t : Nat) (pick : Nat) : Op A → St A
  | .borrow =>
    match s.vpool.getLast? with
    | some a => ({ s with vpool := s.vpool.dropLast } : St A).assign t .vis a
    | none => s.alloc t .vis (.vis (ListSet.new z.list))
  | .get k capacity =>
    match (s.qpool k)[pick]? with
    | some a => (({ s with qpool := fun k' => if k' = k then (s.qpool k).eraseIdx pick else s.qpool k' } : St A).store a (ready capacity (s.heap a))).assign t (.q k) a
    | none => s.alloc t (.q k) (ready capacity (.q k [] z.cap))
  | .visit id =>
    match (s.thread t).slot .vis with
    | some a => match s.heap a with
      | .vis l => s.store a (.vis (l.visit id))
      | _ => { s with crashed := true }
    | none => { s with crashed := true }
  | .enter ids =>
    match (s.thread t).slot .vis with
    | some a => match s.heap a with
      | .vis l => s.store a (.vis (Search.markEntries l ids))
      | _ => { s with crashed := true }
    | none => { s with crashed := true }
  | .giveBack =>
    match (s.thread t).slot .vis with
    | some a => match s.heap a with
      | .vis l =>
        if l.len < z.list || l.len > z.list * 11 / 10 then s
        else { s.store a (.vis l.reset) with vpool := s.vpool ++ [a] }
      | _ => { s with crashed := true }
    | none => { s with crashed := true }
  | .edit k f grow =>
    match (s.thread t).slot (.q k) with
    | some a => match s.heap a with
      | .q k' items cap => s.store a (.q k' (f items) (max (max cap (f items).length) grow))
      | _ => { s with crashed := true }
    | none => { s with crashed := true }
  | .put k =>
    match (s.thread t).slot (.q k) with
    | some a => match s.heap a with
      | .q k' items cap =>
        { s.store a (.q k' (if k = .slice then [] else items) cap) with qpool := fun x => if x = k then a :: s.qpool k else s.qpool x }
      | _ => { s with crashed := true }
    | none => { s with crashed := true }

/-- the events: a thread goes on, or `sync.Pool` drops an object -/
inductive Ev where
  | run (t pick : Nat)
  | drop (k : QKind) (i : Nat)

/-- what happens at an event -/
def step (z : Sizes) (s : St A) : Ev → St A
  | .drop k i => { s with qpool := fun x => if x = k then (s.qpool k).eraseIdx i else s.qpool x }
  | .run t pick =>
    match (s.thread t).rest with
    | [] => s
    | op :: rest =>
      act z { s with thread := fun u => if u = t then ⟨(s.thread t).slot, (s.thread t).past ++ [op], rest⟩ else s.thread u } t pick op

/-! ## what the functions do -/

/-- one use of a queue -/
structure Edit (A : Type) where
  f : List A → List A
  grow : Nat

/-- what the search loop does: mark, change the candidates, change the results -/
inductive Work (A : Type) where
  | visit (id : Nat)
  | cand (e : Edit A)
  | res (e : Edit A)

/-- the operations for it -/
def Work.op : Work A → Op A
  | .visit id => .visit id
  | .cand e => .edit .cand e.f e.grow
  | .res e => .edit .res e.f e.grow

/-- A run of `searchLayerByVector`: width, ids of the entry points, the entry of the entry points in the queues, whether the worst distance
cannot be computed, and the work of the loop.  The goroutines of search.go:244-274 do not touch pooled objects. -/
structure Layer (A : Type) where
  ef : Int
  entries : List Nat
  start : List (Work A)
  fail : Bool
  loop : List (Work A)

/-- `searchLayerByVector` — search.go:164-325; on failure (search.go:194-196) nothing is put back; otherwise `results` stays with the caller -/
def Layer.ops (x : Layer A) : List (Op A) :=
  [.borrow, .get .cand x.ef, .get .res x.ef, .enter x.entries] ++ x.start.map Work.op ++
    if x.fail then [] else x.loop.map Work.op ++ [.put .cand, .giveBack]

/-- one search of a layer by a caller: the search, uses of its result, possibly an error before it is put back -/
structure Level (A : Type) where
  layer : Layer A
  edits : List (Edit A)
  stop : Bool

/-- the uses of `res` -/
def editRes (e : Edit A) : Op A := .edit .res e.f e.grow

/-- search.go:480-521 (`stop`: search.go:503-505), search.go:522-545, search_with_max_dist.go:41-56 and 57-86, index.go:398-425 -/
def Level.ops (x : Level A) : List (Op A) :=
  x.layer.ops ++ if x.layer.fail then [] else x.edits.map editRes ++ if x.stop then [] else [.put .res]

/-- an error ends the call -/
def Level.over (x : Level A) : Bool := x.layer.fail || x.stop

/-- the loop over the levels; the second part says whether the call goes on -/
def levels : List (Level A) → List (Op A) × Bool
  | [] => ([], true)
  | x :: xs => if x.over then (x.ops, false) else (x.ops ++ (levels xs).1, (levels xs).2)

/-- what the heuristic does with its queue, its slice, and the queue it was given -/
inductive HWork (A : Type) where
  | heur (e : Edit A)
  | slice (e : Edit A)
  | input (e : Edit A)

/-- the operations for it; the queue given is either `results` of `doAtLevel` or a queue that is not pooled (neighbor_connections.go:178) -/
def HWork.op (pooled : Bool) : HWork A → List (Op A)
  | .heur e => [.edit .heur e.f e.grow]
  | .slice e => [.edit .slice e.f e.grow]
  | .input e => if pooled then [.edit .res e.f e.grow] else []

/-- A run of `selectNeighborsHeuristic` that gets past the first test (heuristic.go:26-28): the size of the input, the copying, an error of
the compressed branch, the selection, an unrecoverable error, the copying back. -/
structure Heur (A : Type) where
  size : Nat
  fill : List (Edit A × Edit A)
  early : Bool
  pickings : List (Edit A × Option (Edit A))
  late : Bool
  back : List (Edit A)

/-- the slice is read: heuristic.go:65, 107, 125 -/
def readSlice : Op A := .edit .slice id 0

/-- looking at one element: it is popped, compared with those taken over, and possibly taken over — heuristic.go:56-77, 85-118 -/
def picking (pooled : Bool) (e : Edit A × Option (Edit A)) : List (Op A) :=
  (HWork.heur e.1).op pooled ++ readSlice :: match e.2 with | some e => (HWork.slice e).op pooled | none => []

/-- `selectNeighborsHeuristic` — heuristic.go:23-135; on an error (heuristic.go:49-51, 101-103) nothing is put back -/
def Heur.ops (pooled : Bool) (x : Heur A) : List (Op A) :=
  [.get .heur x.size] ++ x.fill.flatMap (fun e => (HWork.input e.1).op pooled ++ (HWork.heur e.2).op pooled) ++
    if x.early then [] else [.get .slice 0] ++ x.pickings.flatMap (picking pooled) ++
      if x.late then [] else [.put .heur] ++ x.back.flatMap (fun e => readSlice :: (HWork.input e).op pooled) ++ [.put .slice]

/-- it ended with an error -/
def Heur.over (x : Heur A) : Bool := x.early || x.late

/-- the heuristic for the links of the neighbours — neighbor_connections.go:138-218; an error ends the call -/
def neighbours : List (Heur A) → List (Op A)
  | [] => []
  | x :: xs => if x.over then x.ops false else x.ops false ++ neighbours xs

/-- a run of `doAtLevel`: the search, the heuristic (unless there are fewer results than links), the emptying of the results, the neighbours -/
structure Link (A : Type) where
  layer : Layer A
  heur : Option (Heur A)
  edits : List (Edit A)
  others : List (Heur A)

/-- the heuristic on the results, if it gets past its first test -/
def Link.choose (x : Link A) : List (Op A) := match x.heur with | none => [] | some h => h.ops true

/-- the heuristic ended with an error — neighbor_connections.go:92-94 -/
def Link.over (x : Link A) : Bool := match x.heur with | none => false | some h => h.over

/-- `doAtLevel` — neighbor_connections.go:74-136 -/
def Link.ops (x : Link A) : List (Op A) :=
  x.layer.ops ++ if x.layer.fail then [] else
    x.choose ++ if x.over then [] else
      x.edits.map editRes ++ [.put .res] ++ neighbours x.others

/-- the calls: `knnSearchByVector` (search.go:464-546), `KnnSearchByVectorMaxDist` (search_with_max_dist.go:22-87), `findBestEntrypointForNode` (index.go:391-429),
`doAtLevel` of an addition (neighbor_connections.go:74-136) or of a repair -/
inductive Call (A : Type) where
  | search (above : List (Level A)) (base : Level A)
  | best (above : List (Level A))
  | link (x : Link A)

/-- what a call does -/
def Call.ops : Call A → List (Op A)
  | .search above base => if (levels above).2 then (levels above).1 ++ base.ops else (levels above).1
  | .best above => (levels above).1
  | .link x => x.ops

/-- what a sequence of calls does -/
def opsOf (cs : List (Call A)) : List (Op A) := cs.flatMap Call.ops

end Fave.Pools

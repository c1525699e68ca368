import Verif.Model.Basic
/-!
# Binary heap priority queue

Model of `pkg/hnsw/priorityqueue/queue.go` and (identical code with one more field)
`pkg/hnsw/priorityqueue/queue_with_index.go`.  The item type `α` is a parameter; the Go field
`less func(items, i, j)` becomes a comparison `less : α → α → Bool` of two items.
-/

namespace Fave

/-- `priorityqueue.Item` — queue.go:14-17. -/
structure Item (D : Type) where
  id : Nat
  dist : D
  deriving DecidableEq, Repr

/-- `priorityqueue.ItemWithIndex` — queue_with_index.go:14-18. -/
structure ItemIx (D : Type) where
  id : Nat
  index : Nat
  dist : D
  deriving DecidableEq, Repr

namespace Queue
variable {α : Type}

/-- comparison used by `NewMin` — queue.go:24-31. -/
def lessMin {D : Type} [Dist D] (a b : Item D) : Bool := Dist.lt a.dist b.dist

/-- comparison used by `NewMax` — queue.go:33-40 (`items[i].Dist > items[j].Dist`). -/
def lessMax {D : Type} [Dist D] (a b : Item D) : Bool := Dist.lt b.dist a.dist

/-- comparison used by `NewMinWithIndex` — queue_with_index.go:25-32. -/
def lessMinIx {D : Type} [Dist D] (a b : ItemIx D) : Bool := Dist.lt a.dist b.dist

/-- `l.less(l.items, i, j)`; both indices are in range at every call in the Go code
(queue.go:62,66,79), out of range reads (a Go panic) give `false` here. -/
def lessAt (less : α → α → Bool) (a : Array α) (i j : Nat) : Bool :=
  match a[i]?, a[j]? with
  | some x, some y => less x y
  | _, _ => false

/-- choice of `smallest` in `heapify` — queue.go:59-68. -/
def smallest (less : α → α → Bool) (a : Array α) (i : Nat) : Nat :=
  let left := 2 * i + 1
  let right := 2 * i + 2
  let s := if left < a.size && lessAt less a left i then left else i
  if right < a.size && lessAt less a right s then right else s

/-- `heapify` — queue.go:58-74.  The Go recursion descends the tree; `fuel` (the queue length at the
call) bounds its depth. -/
def heapify (less : α → α → Bool) : Nat → Array α → Nat → Array α
  | 0, a, _ => a
  | fuel + 1, a, i =>
    let s := smallest less a i
    if s ≠ i then heapify less fuel (a.swapIfInBounds i s) s else a

/-- the loop of `Insert` — queue.go:79-82; `parent(i) = (i-1)/2` (queue.go:50-52).
`fuel` is the start index. -/
def siftUp (less : α → α → Bool) : Nat → Array α → Nat → Array α
  | 0, a, _ => a
  | fuel + 1, a, i =>
    if i ≠ 0 && lessAt less a i ((i - 1) / 2) then
      siftUp less fuel (a.swapIfInBounds i ((i - 1) / 2)) ((i - 1) / 2)
    else a

/-- `Insert` — queue.go:76-83. -/
def insert (less : α → α → Bool) (q : Array α) (x : α) : Array α :=
  siftUp less q.size (q.push x) q.size

/-- `Pop` — queue.go:85-91.  `none` is the index-out-of-range panic on an empty queue. -/
def pop (less : α → α → Bool) (q : Array α) : Option (α × Array α) :=
  match q[0]?, q.back? with
  | some out, some last =>
    let q' := (q.setIfInBounds 0 last).pop
    some (out, heapify less q'.size q' 0)
  | _, _ => none

/-- `Top` — queue.go:93-95.  `none` is the panic on an empty queue. -/
def top (q : Array α) : Option α := q[0]?

/-- pop until empty, first popped item first; this is the loop `for q.Len() > 0 { q.Pop() }` used at
search_with_max_dist.go:66-69, search.go:537-542, flat_search.go:66-71, heuristic.go:35-40.
`fuel` is the queue length. -/
def drainAux (less : α → α → Bool) : Nat → Array α → List α
  | 0, _ => []
  | fuel + 1, q =>
    match pop less q with
    | none => []
    | some (x, q') => x :: drainAux less fuel q'

/-- see `drainAux`. -/
def drain (less : α → α → Bool) (q : Array α) : List α := drainAux less q.size q

end Queue
end Fave

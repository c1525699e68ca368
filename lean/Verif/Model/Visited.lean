/-!
# Visited list and pool

Model of `pkg/hnsw/visited/list_set.go` and `pkg/hnsw/visited/pool.go`.
Go `int` is modelled by `Nat`: the overflow branch of `growth` (`newsize <= 0`, list_set.go:89-91) needs slices of
more than 2^61 bytes and is not modelled.
-/
namespace Fave

/-- `visited.ListSet` — list_set.go:23-25; `set[0]` is the marker. -/
structure ListSet where
  set : Array UInt8
  deriving DecidableEq, Repr

namespace ListSet

/-- `Len` — list_set.go:28. -/
def len (l : ListSet) : Nat := l.set.size - 1

/-- `NewList` — list_set.go:34-38. -/
def new (size : Nat) : ListSet := ⟨(Array.replicate (size + 1) (0 : UInt8)).setIfInBounds 0 1⟩

/-- the marker `l.set[0]`; every list has at least one cell (the Go code would panic on an empty one). -/
def marker (l : ListSet) : UInt8 := l.set.getD 0 0

/-- `threshold` — list_set.go:67. -/
def threshold : Nat := 2048

/-- loop of `growth` — list_set.go:84-88; `fuel` bounds the iterations (each adds at least 512). -/
def growLoop (size : Nat) : Nat → Nat → Nat
  | 0, newsize => newsize
  | fuel + 1, newsize =>
    if 0 < newsize && newsize < size then growLoop size fuel (newsize + (newsize + threshold) / 4) else newsize

/-- `growth` — list_set.go:72-93. -/
def growth (oldsize size : Nat) : Nat :=
  let doublesize := 2 * oldsize
  if size > doublesize then size
  else if oldsize < threshold then doublesize
  else growLoop size size oldsize

/-- the resized copy — list_set.go:43-45: `make` zero-fills, `copy` keeps the old content. -/
def resize (set : Array UInt8) (n : Nat) : Array UInt8 := (set.toList ++ List.replicate (n - set.size) 0).toArray

/-- `Visit` — list_set.go:41-48. -/
def visit (l : ListSet) (node : Nat) : ListSet :=
  let set := if node ≥ l.len then resize l.set (growth l.set.size (node + 1024)) else l.set
  ⟨set.setIfInBounds (node + 1) (set.getD 0 0)⟩

/-- `Visited` — list_set.go:51-53. -/
def visited (l : ListSet) (node : Nat) : Bool :=
  decide (node < l.len) && (l.set.getD (node + 1) 0 == l.marker)

/-- `Reset` — list_set.go:56-64 (`uint8` increment wraps). -/
def reset (l : ListSet) : ListSet :=
  let m := l.marker + 1
  if m = 0 then ⟨(Array.replicate l.set.size (0 : UInt8)).setIfInBounds 0 1⟩
  else ⟨l.set.setIfInBounds 0 m⟩

end ListSet

/-- `visited.Pool` — pool.go:18-22 (the mutex makes each method one step). -/
structure Pool where
  listSetSize : Nat
  listSets : List ListSet
  deriving DecidableEq, Repr

namespace Pool

/-- `NewPool` — pool.go:26-37. -/
def new (size listSetSize : Nat) : Pool := ⟨listSetSize, List.replicate size (ListSet.new listSetSize)⟩

/-- `Borrow` — pool.go:40-52. -/
def borrow (p : Pool) : ListSet × Pool :=
  match p.listSets.getLast? with
  | some l => (l, { p with listSets := p.listSets.dropLast })
  | none => (ListSet.new p.listSetSize, p)

/-- `Return` — pool.go:56-66. -/
def giveBack (p : Pool) (l : ListSet) : Pool :=
  if l.len < p.listSetSize || l.len > p.listSetSize * 11 / 10 then p
  else { p with listSets := p.listSets ++ [l.reset] }

/-- `Destroy` — pool.go:69-77. -/
def destroy (p : Pool) : Pool := { p with listSets := [] }

end Pool
end Fave

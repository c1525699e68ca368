import Verif.Model.Basic
/-!
# The memory behind the link lists

Link lists are Go slices: a pointer to an array, a length and a capacity.  Several slices may point to the same array, and a write through one is
seen through the others.  The functions of pkg/hnsw/vertex.go are given here on a heap of arrays, so that sharing is visible.  All slices of this
code begin at the beginning of their array (`[:n]` is the only way of slicing, vertex.go:78, 120, delete.go:382), so a slice is an array and a
length; its capacity is the size of the array.

Two decisions are made in floating point (the ratio of vertex.go:67-68 and the growth steps of vertex.go:93-105).  They are parameters here, and
what is proved holds however they are taken, or states what it needs of them.
-/
namespace Fave.Mem

/-- a slice: array and length (capacity: the size of the array) -/
structure Slice where
  arr : Nat
  len : Nat
  deriving DecidableEq, Repr

/-- the heap: the cells of each array; arrays from `next` on have not been made -/
structure Heap where
  cells : Nat → List Nat
  next : Nat

/-- `cap(s)` -/
def Heap.cap (h : Heap) (s : Slice) : Nat := (h.cells s.arr).length

/-- what a reader of the slice sees -/
def Heap.read (h : Heap) (s : Slice) : List Nat := (h.cells s.arr).take s.len

/-- a new array with the given cells -/
def Heap.alloc (h : Heap) (c : List Nat) : Heap × Nat :=
  ({ cells := fun a => if a = h.next then c else h.cells a, next := h.next + 1 }, h.next)

/-- `copy(s, l)` and writes by index: the first cells of the array become `l` (as far as it reaches) -/
def Heap.write (h : Heap) (a at' : Nat) (l : List Nat) : Heap :=
  { h with cells := fun b =>
      if b = a then (h.cells a).take at' ++ (l ++ (h.cells a).drop (at' + l.length)).take ((h.cells a).length - at') else h.cells b }

/-- the vertex: level and link lists — vertex.go:18-27 -/
structure Vert where
  level : Nat
  conns : List Slice

/-- the float decisions: `shrink newLen oldCap` — vertex.go:67-68 (`ratio > 0.33`); `target len maxConns` — vertex.go:93-105 -/
structure Floats where
  shrink : Nat → Nat → Bool
  target : Nat → Nat → Nat

/-- `make([]uint64, 0, cap)` — insert.go:90-92, 242 -/
def mk (h : Heap) (cap : Nat) : Heap × Slice :=
  let r := h.alloc (List.replicate cap 0)
  (r.1, ⟨r.2, 0⟩)

/-- the link lists of a new vertex, levels 0 to n — insert.go:234-243 (the order in which they are made does not matter) -/
def mkAll (capOf : Nat → Nat) : Nat → Heap → Heap × List Slice
  | 0, h => let r := mk h (capOf 0); (r.1, [r.2])
  | n + 1, h =>
    let r := mkAll capOf n h
    let q := mk r.1 (capOf (n + 1))
    (q.1, r.2 ++ [q.2])

/-- `setConnectionsAtLevel` — vertex.go:59-80; `none`: index out of range -/
def setConns (F : Floats) (h : Heap) (v : Vert) (level : Nat) (new : Slice) : Option (Heap × Vert) :=
  match v.conns[level]? with
  | none => none
  | some old =>
    if F.shrink new.len (h.cap old) || decide (h.cap old < new.len) then
      some (h, { v with conns := v.conns.set level new })
    else
      some (h.write old.arr 0 (h.read new), { v with conns := v.conns.set level ⟨old.arr, new.len⟩ })

/-- `appendConnectionAtLevelNoLock` — vertex.go:82-117 -/
def appendConn (F : Floats) (h : Heap) (v : Vert) (level x max : Nat) : Option (Heap × Vert) :=
  match v.conns[level]? with
  | none => none
  | some s =>
    if s.len = h.cap s then
      let target := F.target s.len max
      let target := if target < s.len + 1 then s.len + 1 else target
      let r := h.alloc (h.read s ++ List.replicate (target - s.len) 0)
      some (r.1.write r.2 s.len [x], { v with conns := v.conns.set level ⟨r.2, s.len + 1⟩ })
    else
      some (h.write s.arr s.len [x], { v with conns := v.conns.set level ⟨s.arr, s.len + 1⟩ })

/-- `resetConnectionsAtLevelNoLock` — vertex.go:119-121 -/
def resetConn (v : Vert) (level : Nat) : Option Vert :=
  match v.conns[level]? with
  | none => none
  | some s => some { v with conns := v.conns.set level ⟨s.arr, 0⟩ }

/-- `upgradeToLevelNoLock` — vertex.go:52-57; the lists of the new levels are nil, i.e. of capacity 0 (array 0, which has no cells) -/
def upgrade (v : Vert) (level : Nat) : Vert :=
  { level := level, conns := (v.conns ++ List.replicate (level + 1) (⟨0, 0⟩ : Slice)).take (level + 1) }

/-- several appends — neighbor_connections.go:206-214 -/
def appendAll (F : Floats) (level max : Nat) : Heap → Vert → List Nat → Option (Heap × Vert)
  | h, v, [] => some (h, v)
  | h, v, x :: xs =>
    match appendConn F h v level x max with
    | none => none
    | some (h', v') => appendAll F level max h' v' xs

/-- `neighbors := make(…); append…` — neighbor_connections.go:102-106: a new array, exactly as long as the list -/
def mkList (h : Heap) (l : List Nat) : Heap × Slice :=
  let r := h.alloc l
  (r.1, ⟨r.2, l.length⟩)

/-- the memory part of `connectNeighborAtLevel` — neighbor_connections.go:138-218, done while holding the lock of the neighbour; `sel` is what
the selection leaves of the old links and the new one (172-200) -/
def connect (F : Floats) (h : Heap) (v : Vert) (level x max : Nat) (sel : List Nat → List Nat) : Option (Heap × Vert) :=
  let v := if v.level < level then upgrade v level else v
  match v.conns[level]? with
  | none => none
  | some s =>
    if s.len < max then appendConn F h v level x max
    else
      let keep := sel (h.read s)
      match resetConn v level with
      | none => none
      | some v' => appendAll F level max h v' keep

/-- all vertices, and the lists `neighbors` that additions are still going through (neighbor_connections.go:117-121) -/
structure St where
  heap : Heap
  verts : Nat → Option Vert
  /-- the list being gone through, with what it held when the loop began -/
  walks : List (Slice × List Nat)

/-- the state with vertex `i` replaced -/
def St.put (s : St) (i : Nat) (h : Heap) (v : Vert) : St :=
  { s with heap := h, verts := fun j => if j = i then some v else s.verts j }

/-- what the code does to the memory; every operation runs under the lock of its vertex, or on a vertex nobody else knows yet -/
inductive Op where
  /-- a vertex is made, with room for `capOf l` links at every level `l ≤ level` — insert.go:90-94, 233-243 -/
  | create (i level : Nat) (capOf : Nat → Nat)
  /-- a vertex is read from storage: arrays with the stored links and some spare room — index.go:610-618 -/
  | load (i level : Nat) (lists : List (List Nat)) (spare : Nat → Nat)
  /-- the chosen links are set, and the loop through them begins — neighbor_connections.go:102-121 -/
  | set (i level : Nat) (l : List Nat)
  /-- a link to `x` is made — neighbor_connections.go:138-218 -/
  | connect (i level x max : Nat) (sel : List Nat → List Nat)
  /-- the links of all levels are cut to length 0 — delete.go:381-383 -/
  | clear (i : Nat)
  /-- the links of all levels become nil, levels 0 to `level` — delete.go:354, 371 -/
  | nils (i level : Nat)
  /-- a loop through chosen links ends -/
  | done (w : Slice × List Nat)

/-- the arrays of a vertex read from storage — index.go:615 -/
def loadAll (spare : Nat → Nat) : Nat → List (List Nat) → Heap → Heap × List Slice
  | _, [], h => (h, [])
  | n, l :: ls, h =>
    let r := h.alloc (l ++ List.replicate (spare n) 0)
    let q := loadAll spare (n + 1) ls r.1
    (q.1, ⟨r.2, l.length⟩ :: q.2)

/-- one operation; `none`: a panic (the vertex or the level does not exist) -/
def run (F : Floats) (s : St) : Op → Option St
  | .create i level capOf =>
    let r := mkAll capOf level s.heap
    some (s.put i r.1 ⟨level, r.2⟩)
  | .load i level lists spare =>
    let r := loadAll spare 0 lists s.heap
    some (s.put i r.1 ⟨level, r.2⟩)
  | .set i level l =>
    let r := mkList s.heap l
    match s.verts i with
    | none => none
    | some v =>
      match setConns F r.1 v level r.2 with
      | none => none
      | some (h', v') => some { s.put i h' v' with walks := (r.2, l) :: s.walks }
  | .connect i level x max sel =>
    match s.verts i with
    | none => none
    | some v =>
      match Mem.connect F s.heap v level x max sel with
      | none => none
      | some (h', v') => some (s.put i h' v')
  | .clear i =>
    match s.verts i with
    | none => none
    | some v => some (s.put i s.heap { v with conns := v.conns.map (fun s => ⟨s.arr, 0⟩) })
  | .nils i level =>
    match s.verts i with
    | none => none
    | some v => some (s.put i s.heap { v with conns := List.replicate (level + 1) ⟨0, 0⟩ })
  | .done w => some { s with walks := s.walks.erase w }

/-- one after the other -/
def runs (F : Floats) : St → List Op → Option St
  | s, [] => some s
  | s, o :: os =>
    match run F s o with
    | none => none
    | some s' => runs F s' os

/-- nothing there yet; array 0 is the one without cells -/
def St.empty : St := ⟨⟨fun _ => [], 1⟩, fun _ => none, []⟩

/-- the links of vertex `i` at `level` as a reader sees them — search.go:224-243 -/
def St.links (s : St) (i level : Nat) : Option (List Nat) :=
  match s.verts i with
  | none => none
  | some v => (v.conns[level]?).map s.heap.read

/-- the floats of the code in exact arithmetic: `1 - n/c > 0.33` (false if c = 0) — vertex.go:67; growth in quarters — vertex.go:93-105 -/
def exact : Floats where
  shrink n c := decide (100 * n < 67 * c)
  target n m := if n * 4 < m then m / 4 else if n * 2 < m then m / 2 else if n * 4 < 3 * m then 3 * m / 4 else m

end Fave.Mem

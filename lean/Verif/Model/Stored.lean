import Verif.Model.Decimal
import Verif.Model.Insert
/-!
# The key-value table of an index as texts

What `Flush` writes and what `nodeByID`, `LoadEntrypoint` and `GetDocCount` read — pkg/hnsw/insert.go:117-199, index.go:594-623, vertex.go:18-27 —
with the texts that `encoding/json` makes of the structures.  `Model/Insert` keeps the structures themselves; this file is what it abstracts from.

Simplified: names of members are compared without regard to ASCII case (Go also lets `ſ` stand for `s` and the Kelvin sign for `k`); a negative level,
which no text written by `Flush` has, is refused; a member that occurs twice replaces the first one entirely.
-/
namespace Fave.Stored
open Json F32

/-- the vectors are those of `float32` — vertex.go:25 -/
abbrev Vert := Vertex (List Num)

/-- `json:"_id"` — vertex.go:21 -/
def nId : Text := ['_', 'i', 'd']
/-- `json:"level"` — vertex.go:22 -/
def nLevel : Text := ['l', 'e', 'v', 'e', 'l']
/-- `json:"connections"` — vertex.go:23 -/
def nConns : Text := ['c', 'o', 'n', 'n', 'e', 'c', 't', 'i', 'o', 'n', 's']
/-- `json:"maintenance"` — vertex.go:24 -/
def nMaint : Text := ['m', 'a', 'i', 'n', 't', 'e', 'n', 'a', 'n', 'c', 'e']
/-- `json:"vector"` — vertex.go:25 -/
def nVec : Text := ['v', 'e', 'c', 't', 'o', 'r']
/-- `json:"id"` of the entry point — insert.go:31 -/
def nEntry : Text := ['i', 'd']
/-- `json:"count"` — insert.go:35, and the key of the counter — insert.go:28 -/
def nCount : Text := ['c', 'o', 'u', 'n', 't']
/-- the key of the entry point — insert.go:27 -/
def kEntry : Text := ['e', 'n', 't', 'r', 'y', 'p', 'o', 'i', 'n', 't']

/-! ## Writing -/

/-- an unsigned number — vertex.go:21, insert.go:31, 35 -/
def uintJ (n : Nat) : J := .num ⟨false, nat n, none, none⟩

/-- a slice; a nil slice is written as `null` — vertex.go:23, 25 -/
def sliceJ (isNil : Bool) (l : List J) : J := if isNil && l.isEmpty then .null else .arr l

/-- the neighbours, layer by layer; `nils` says which empty slices are nil — vertex.go:23 -/
def connsJ (nils : Nat → Bool) : Nat → List (List Nat) → List J
  | _, [] => []
  | i, l :: ls => sliceJ (nils i) (l.map uintJ) :: connsJ nils (i + 1) ls

/-- the vector; infinite numbers and those that are none cannot be written — vertex.go:25, insert.go:129-132 -/
def floatsJ : List Num → Option (List J)
  | [] => some []
  | .fin x :: l =>
    match f32.lit x, floatsJ l with
    | some a, some r => some (.num a :: r)
    | _, _ => none
  | _ :: _ => none

/-- a vertex, without the lock and `Committed` — vertex.go:18-27 -/
def vertexJ (nils : Nat → Bool) (v : Vert) : Option J :=
  (floatsJ v.vec).map fun fs =>
    .obj [(nId, uintJ v.id), (nLevel, uintJ v.level), (nConns, sliceJ (nils 0) (connsJ nils 2 v.conns)), (nMaint, .bool v.maint),
      (nVec, sliceJ (nils 1) fs)]

/-- the entry point — insert.go:30-32, 140-143 -/
def entryJ (e : Nat) : J := .obj [(nEntry, uintJ e)]

/-- the counter — insert.go:34-36, 152-155 -/
def countJ (n : Nat) : J := .obj [(nCount, uintJ n)]

/-! ## Reading -/

/-- into a `uint64`; `null` leaves it — vertex.go:21, insert.go:31, 35 -/
def uintOf (old : Nat) : J → Option Nat
  | .null => some old
  | .num l => if l.neg || l.frac.isSome || l.exp.isSome || decide (2 ^ 64 ≤ Json.num l.int) then none else some (Json.num l.int)
  | _ => none

/-- into an `int` — vertex.go:22 -/
def intOf (old : Nat) : J → Option Nat
  | .null => some old
  | .num l => if l.neg || l.frac.isSome || l.exp.isSome || decide (2 ^ 63 ≤ Json.num l.int) then none else some (Json.num l.int)
  | _ => none

/-- into a `bool` — vertex.go:24 -/
def boolOf (old : Bool) : J → Option Bool
  | .null => some old
  | .bool b => some b
  | _ => none

/-- into a `float32` of a new slice — vertex.go:25 -/
def floatOf : J → Option Num
  | .null => some (.fin 0)
  | .num l => (f32.read l.value).map .fin
  | _ => none

/-- every element — vertex.go:23, 25 -/
def every {α : Type} (f : J → Option α) : List J → Option (List α)
  | [] => some []
  | v :: l =>
    match f v, every f l with
    | some a, some r => some (a :: r)
    | _, _ => none

/-- into a slice — vertex.go:23, 25 -/
def sliceOf {α : Type} (f : J → Option α) : J → Option (List α)
  | .null => some []
  | .arr l => every f l
  | _ => none

/-- does the name of a member mean this field? — encoding/json `equalFold`, used at index.go:615 -/
def means (k name : Text) : Bool := k.map Char.toLower == name

/-- one member of a vertex; others are skipped — vertex.go:18-27, index.go:615 -/
def field (v : Vert) (m : Text × J) : Option Vert :=
  if means m.1 nId then (uintOf v.id m.2).map fun x => { v with id := x }
  else if means m.1 nLevel then (intOf v.level m.2).map fun x => { v with level := x }
  else if means m.1 nConns then (sliceOf (sliceOf (uintOf 0)) m.2).map fun x => { v with conns := x }
  else if means m.1 nMaint then (boolOf v.maint m.2).map fun x => { v with maint := x }
  else if means m.1 nVec then (sliceOf floatOf m.2).map fun x => { v with vec := x }
  else some v

/-- the members in their order — index.go:615 -/
def fields (v : Vert) : List (Text × J) → Option Vert
  | [] => some v
  | m :: l => (field v m).bind fun v => fields v l

/-- a structure before anything is read into it — index.go:615 -/
def zero : Vert := ⟨0, 0, [], false, [], false⟩

/-- `json.Unmarshal(value, &v)` for a `*vertex`; `null` leaves the pointer nil — index.go:597, 615-622, delete.go:255, compress.go:64 -/
def vertexOf : J → Option Vert
  | .obj l => fields zero l
  | _ => none

/-- one member of a structure with one number — insert.go:30-36 -/
def oneField (name : Text) (old : Nat) : List (Text × J) → Option Nat
  | [] => some old
  | m :: l => (if means m.1 name then uintOf old m.2 else some old).bind fun x => oneField name x l

/-- `json.Unmarshal` into an `entrypoint` or a `count` — insert.go:172-173, 190-191 -/
def oneOf (name : Text) : J → Option Nat
  | .null => some 0
  | .obj l => oneField name 0 l
  | _ => none

/-! ## The table -/

/-- the key-value table: the value last put under a key — fairOS-dfs, used at insert.go:133, 147, 159, 167, 185, index.go:610, delete.go:610 -/
abbrev Table := Text → Option Text

/-- nothing stored -/
def Table.empty : Table := fun _ => none

/-- `KVPut` — insert.go:133, 147, 159 -/
def Table.put (t : Table) (k v : Text) : Table := fun k' => if k' = k then some v else t k'

/-- `KVDelete` — delete.go:610 -/
def Table.del (t : Table) (k : Text) : Table := fun k' => if k' = k then none else t k'

/-- a change of the table: a write of `Flush`, or the removal of a node by the clean-up — insert.go:133, 147, 159, delete.go:610 -/
inductive Change where
  | write (nils : Nat → Bool) (w : Index.Write (List Num))
  | remove (id : Nat)

/-- what a change does to the texts; `none`: `json.Marshal` fails — insert.go:129-136, 143-150, 155-162, delete.go:610 -/
def change (t : Table) : Change → Option Table
  | .write nils (.node v) => (vertexJ nils v).map fun j => t.put (nat v.id) (render true j)
  | .write _ (.entry e) => some (t.put kEntry (render true (entryJ e)))
  | .write _ (.count n) => some (t.put nCount (render true (countJ n)))
  | .remove id => some (t.del (nat id))

/-- one change after the other — insert.go:117-163, delete.go:600-622 -/
def changes (t : Table) : List Change → Option Table
  | [] => some t
  | c :: cs => (change t c).bind fun t => changes t cs

/-- the same change of the structures — Model/Insert, Model/Delete; insert.go:133-138, 147, 159, delete.go:610 -/
def Change.apply (s : Index (List Num)) : Change → Index (List Num)
  | .write _ w => Index.applyWrite s w
  | .remove id => { s with kv := s.kv.filter (fun e => e.1 ≠ id) }

/-- `nodeByID` of a node that is not cached — index.go:610-622 -/
def Table.node (t : Table) (id : Nat) : Option Vert := ((t (nat id)).bind parse).bind vertexOf

/-- `LoadEntrypoint` — insert.go:185-197 -/
def Table.entry (t : Table) : Nat := (((t kEntry).bind parse).bind (oneOf nEntry)).getD 0

/-- `GetDocCount` — insert.go:167-178 -/
def Table.count (t : Table) : Option Nat := ((t nCount).bind parse).bind (oneOf nCount)

end Fave.Stored

import Verif.Model.Basic
/-!
# The table of nodes and its growth

Model of the function `growIndexToAccomodateNode` (pkg/hnsw/maintainance.go:68-106).  It is used by the commit-log
reader (pkg/hnsw/deserializer.go:171,219,256,305); the method of the same name that the index itself calls is a no-op
(maintainance.go:28-57) and is modelled with the insertion.
-/
namespace Fave

/-- a Go slice of pointers `[]*T` — pkg/hnsw/deserializer.go:32: its length and its elements (`none` is nil);
elements at or beyond `len` do not exist (the model looks at `get` only below `len`). -/
structure Slots (α : Type) where
  len : Nat
  get : Nat → Option α

namespace Slots
variable {α : Type}

/-- `make([]*T, n)` — deserializer.go:87,142 -/
def make (n : Nat) : Slots α := ⟨n, fun _ => none⟩

/-- `copy` into a fresh slice of length `n` — maintainance.go:96-97: elements that do not fit are dropped -/
def copyTo (s : Slots α) (n : Nat) : Slots α := ⟨n, fun i => if i < s.len ∧ i < n then s.get i else none⟩

/-- `s[i] = v` — deserializer.go:181,447 -/
def put (s : Slots α) (i : Nat) (v : Option α) : Slots α := ⟨s.len, fun j => if j = i then v else s.get j⟩

end Slots

namespace Grow

/-- `minimumIndexGrowthDelta` — maintainance.go:22 -/
def delta : Nat := 25000

/-- `initialSize` — maintainance.go:21 -/
def initialSize : Nat := 25000

/-- conversion of a whole number to `float64` (round to nearest, ties to even, 53 significant bits), used for
`float64(previousSize)` and for the product in maintainance.go:81,85.  For the product the exact value has at most two
binary places; the model rounds four times the value, which is the same because scaling by a power of two is exact. -/
def round53 (n : Nat) : Nat :=
  if n < 2 ^ 53 then n
  else
    let e := Nat.log2 n - 52
    let q := n / 2 ^ e
    let r := n % 2 ^ e
    let q := if 2 * r > 2 ^ e ∨ (2 * r = 2 ^ e ∧ q % 2 = 1) then q + 1 else q
    q * 2 ^ e

/-- the size of the grown table — maintainance.go:79-94; `uint64` arithmetic wraps at `2^64`.
`(indexGrowthRate-1)*float64(previousSize) < 25000` is `round53 previousSize < 100000` (multiplication by 0.25 is exact).
-/
def newSize (prev id : Nat) : Nat :=
  let s := if round53 prev < 4 * delta then (prev + delta) % 2 ^ 64 else round53 (5 * round53 prev) / 4
  if s ≤ id then (id + delta) % 2 ^ 64 else s

/-- `growIndexToAccomodateNode` — maintainance.go:68-106.  `none`: "nothing to do".  `make` panics if the requested
length exceeds `maxLen`, the largest slice of pointers the Go runtime can allocate (2^45 on 64-bit Linux). -/
def grow {α : Type} (maxLen : Nat) (t : Slots α) (id : Nat) : Except Err (Option (Slots α)) :=
  if id < t.len then .ok none
  else if newSize t.len id > maxLen then .error .panic
  else .ok (some (t.copyTo (newSize t.len id)))

end Grow
end Fave

import Verif.Model.Float32
import Verif.Model.Json
/-!
# Floating point numbers as decimal texts

How `encoding/json` writes and reads `float32` and `float64`: the shortest decimal that is read back as the number (`strconv.AppendFloat` with
precision -1), with an exponent if the number is very small or very large, and `strconv.ParseFloat`.  Neither package is in /repo; they are used on
vectors (pkg/hnsw/vertex.go:25 through insert.go:129 and index.go:615) and on document properties (document.go:432, documents.go:60, 100, 130).

The two zeros are one value here, written `0`.
-/
namespace Fave.Json
open F32 (nearest)

/-- a format: bits of the mantissa, least exponent, exponent of the first number that is infinite, and how many decimal digits are enough —
`float32` in vertex.go:25, `float64` in documents.go:59 -/
structure Fmt where
  bits : ℕ
  low : ℤ
  high : ℕ
  dec : ℕ

/-- `float32` — vertex.go:25 -/
def f32 : Fmt := ⟨24, -149, 128, 9⟩

/-- `float64` — documents.go:59 -/
def f64 : Fmt := ⟨53, -1074, 1024, 17⟩

/-- the exponent of the last binary place kept — vertex.go:25, documents.go:59 -/
def Fmt.place (F : Fmt) (x : ℚ) : ℤ := max (Int.log 2 |x| - (F.bits - 1)) F.low

/-- rounding to nearest, ties to even, without a limit on the size — vertex.go:25, documents.go:59 -/
def Fmt.round (F : Fmt) (x : ℚ) : ℚ := nearest (x / 2 ^ F.place x) * 2 ^ F.place x

/-- `strconv.ParseFloat` of a decimal; what would be infinite is an error — encoding/json `convertNumber`, `literalStore`, used at index.go:615,
documents.go:60 -/
def Fmt.read (F : Fmt) (x : ℚ) : Option ℚ := if |F.round x| < 2 ^ F.high then some (F.round x) else none

/-- the decimals with `n` digits next to `x`, the nearer one first; the first that is read back as `x` — strconv `ryuFtoaShortest` -/
def Fmt.pick (F : Fmt) (x : ℚ) (n : ℕ) : Option (ℕ × ℤ) :=
  let k := Int.log 10 x + 1 - n
  let y := x / 10 ^ k
  let a := nearest y
  let b := if a = ⌊y⌋ then a + 1 else a - 1
  if F.round (a.toNat * 10 ^ k) = x then some (a.toNat, k)
  else if F.round (b.toNat * 10 ^ k) = x then some (b.toNat, k)
  else none

/-- the shortest decimal that is read back as the positive number `x` — strconv `ryuFtoaShortest` -/
def Fmt.shortest (F : Fmt) (x : ℚ) : Option (ℕ × ℤ) := (List.range F.dec).findSome? fun n => F.pick x (n + 1)

/-- the digits of a number — strconv `formatBits`, `formatDecimal` -/
def nat (n : ℕ) : Text := Nat.toDigits 10 n

/-- without the zeros at the end — strconv `formatDecimal` -/
def trim (ds : Text) : Text := (ds.reverse.dropWhile (· = '0')).reverse

/-- without exponent: the point stands after `dp` digits — strconv `fmtF` -/
def plain (ds : Text) (dp : ℤ) : Text × Option Text :=
  if dp ≤ 0 then (['0'], some (List.replicate dp.natAbs '0' ++ ds))
  else if ds.length ≤ dp then (ds ++ List.replicate (dp - ds.length).natAbs '0', none)
  else (ds.take dp.natAbs, some (ds.drop dp.natAbs))

/-- with exponent: the point stands after the first digit — strconv `fmtE`, and `floatEncoder` of encoding/json removes a zero at the start of the
exponent -/
def scientific (ds : Text) (dp : ℤ) : Text × Option Text × Bool × Text :=
  (ds.take 1, if ds.drop 1 = [] then none else some (ds.drop 1), decide (dp - 1 < 0), nat (dp - 1).natAbs)

/-- small or large enough to be written with an exponent; the limits are rounded like the number — encoding/json `floatEncoder` -/
def Fmt.far (F : Fmt) (x : ℚ) : Bool := decide (x < F.round (1 / 10 ^ 6)) || decide (F.round (10 ^ 21) ≤ x)

/-- a finite number — encoding/json `floatEncoder`, used at insert.go:129, document.go:432 -/
def Fmt.lit (F : Fmt) (x : ℚ) : Option Lit :=
  if x = 0 then some ⟨false, ['0'], none, none⟩
  else
    match F.shortest |x| with
    | none => none
    | some (m, k) =>
      let ds := trim (nat m)
      let dp := (nat m).length + k
      if F.far |x| then
        let (i, f, s, e) := scientific ds dp
        some ⟨decide (x < 0), i, f, some (s, e)⟩
      else
        let (i, f) := plain ds dp
        some ⟨decide (x < 0), i, f, none⟩

/-- the number that digits stand for — strconv `readFloat` -/
def num (ds : Text) : ℕ := Nat.ofDigitChars 10 ds 0

/-- the exponent that is written — strconv `readFloat` -/
def Lit.ten (l : Lit) : ℤ :=
  match l.exp with
  | none => 0
  | some (s, e) => if s then -(num e : ℤ) else num e

/-- the exact value of a number as written — strconv `readFloat`, `ParseFloat`; the limit of 10000 on the exponent makes no difference -/
def Lit.value (l : Lit) : ℚ :=
  (if l.neg then -1 else 1) * (num (l.int ++ l.frac.getD []) * 10 ^ (l.ten - (l.frac.getD []).length))

end Fave.Json

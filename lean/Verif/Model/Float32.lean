import Verif.Model.Distance
import Mathlib.Data.Int.Log
import Mathlib.Data.Rat.Floor
import Mathlib.Data.Nat.Sqrt
import Mathlib.Algebra.Order.Ring.Rat
/-!
# 32-bit numbers

Arithmetic of Go's `float32` (IEEE 754, round to nearest, ties to even) as used by pkg/hnsw/distancer/*.go and by the vector
instructions.  The two zeros are one value: nothing in the distance functions tells them apart.
-/
namespace Fave
namespace F32
open Distance

/-- the nearest integer, the even one of two equally near — rounding of every operation, e.g. dot_product.go:26 -/
def nearest (x : ℚ) : ℤ :=
  if 2 * (x - ⌊x⌋) < 1 then ⌊x⌋
  else if 1 < 2 * (x - ⌊x⌋) then ⌊x⌋ + 1
  else if ⌊x⌋ % 2 = 0 then ⌊x⌋ else ⌊x⌋ + 1

/-- the exponent of the last binary place kept: 24 places from the first that is not zero, none beyond 2^-149 — `float32`, e.g.
dot_product.go:24 -/
def place (x : ℚ) : ℤ := max (Int.log 2 |x| - 23) (-149)

/-- rounding without a limit on the size — `float32`, e.g. dot_product.go:26 -/
def round (x : ℚ) : ℚ := nearest (x / 2 ^ place x) * 2 ^ place x

/-- a `float32`: a number, an infinity (negative or not), or not a number — dot_product.go:24 -/
inductive Num where
  | fin (x : ℚ)
  | inf (neg : Bool)
  | nan
  deriving DecidableEq, Repr

/-- rounding; what would be 2^128 or more is infinite — `float32`, e.g. dot_product.go:26 -/
def fl (x : ℚ) : Num := if |round x| < 2 ^ 128 then .fin (round x) else .inf (decide (x < 0))

/-- `a + b` — dot_product.go:26, l2.go:21, manhattan.go:26, hamming.go:23, normalize.go:20 -/
def add : Num → Num → Num
  | .fin a, .fin b => fl (a + b)
  | .fin _, .inf s => .inf s
  | .inf s, .fin _ => .inf s
  | .inf s, .inf s' => if s = s' then .inf s else .nan
  | _, _ => .nan

/-- `-a` — dot_product.go:42, 67 -/
def neg : Num → Num
  | .fin a => .fin (-a)
  | .inf s => .inf !s
  | .nan => .nan

/-- `a - b` — l2.go:20, manhattan.go:26, cosine_dist.go:29, 45 -/
def sub (a b : Num) : Num := add a (neg b)

/-- the product of an infinity with a number — dot_product.go:26 -/
def infMul (s : Bool) (b : ℚ) : Num := if b = 0 then .nan else .inf (xor s (decide (b < 0)))

/-- `a * b` — dot_product.go:26, l2.go:21, normalize.go:20 -/
def mul : Num → Num → Num
  | .fin a, .fin b => fl (a * b)
  | .fin a, .inf s => infMul s a
  | .inf s, .fin b => infMul s b
  | .inf s, .inf s' => .inf (xor s s')
  | _, _ => .nan

/-- `a * b + c`, rounded once: `VFMADD231PS` — asm/dot_amd64.s:23-26, 39, asm/l2_amd64.s:31-34, 48 -/
def fma : Num → Num → Num → Num
  | .fin a, .fin b, .fin c => fl (a * b + c)
  | .fin _, .fin _, c => c
  | a, b, c => add (mul a b) c

/-- `a / b` — normalize.go:28; divided by zero as by a positive one (never happens there) -/
def div : Num → Num → Num
  | .fin a, .fin b => if b = 0 then (if a = 0 then .nan else .inf (decide (a < 0))) else fl (a / b)
  | .fin _, .inf _ => .fin 0
  | .inf s, .fin b => .inf (xor s (decide (b < 0)))
  | _, _ => .nan

/-- `math.Abs` — manhattan.go:26 -/
def abs : Num → Num
  | .fin a => .fin |a|
  | .inf _ => .inf false
  | .nan => .nan

/-- a rational so near the square root of a multiple of 2^-149 that both are rounded to the same number (C63 `sqrt_rounded`):
the root is cut after 200 places, and the next place is set if anything was cut — normalize.go:26 -/
def root (x : ℚ) : ℚ :=
  let n := ⌊x * 2 ^ 400⌋₊
  if n.sqrt * n.sqrt = n then n.sqrt / 2 ^ 200 else (2 * n.sqrt + 1) / 2 ^ 201

/-- `float32(math.Sqrt(float64(a)))` — normalize.go:26.  Go rounds to 64 and then to 32 bits; for square roots that is the same as
rounding to 32 bits at once (C63 `sqrt_by_way_of_64_bits`). -/
def sqrt : Num → Num
  | .fin a => if a < 0 then .nan else fl (root a)
  | .inf s => if s then .nan else .inf false
  | .nan => .nan

/-- `==` — normalize.go:22, hamming.go:22 -/
def eq : Num → Num → Bool
  | .fin a, .fin b => decide (a = b)
  | .inf s, .inf s' => s == s'
  | _, _ => false

/-- the operations of `float32` — distancer/*.go, asm/dot_amd64.s:23-26, 46-53, asm/l2_amd64.s:27-34, 55-62 -/
def ops : Ops Num where
  zero := .fin 0
  add := add
  sub := sub
  fma := fma
  one := .fin 1
  mul := mul
  neg := neg
  div := div
  abs := abs
  sqrt := sqrt
  eq := eq

end F32
end Fave

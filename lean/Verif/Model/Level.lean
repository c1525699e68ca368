import Verif.Model.Float32
/-!
# The random layer of a new vector

Model of pkg/hnsw/insert.go:230-243 and pkg/hnsw/index.go:244, 273.
-/
namespace Fave.Level
open F32

/-- the exponent of the last binary place a `float64` keeps: 53 places from the first that is not zero, none beyond 2^-1074 —
`float64`, pkg/hnsw/insert.go:230 -/
def place64 (x : ℚ) : ℤ := max (Int.log 2 |x| - 52) (-1074)

/-- rounding to 64 bits: nearest, the even one of two equally near; numbers of 2^1024 and more do not occur here — `float64`,
pkg/hnsw/insert.go:230, index.go:244 -/
def round64 (x : ℚ) : ℚ := nearest (x / 2 ^ place64 x) * 2 ^ place64 x

/-- `levelNormalizer: 1 / math.Log(float64(uc.MaxConnections))` — pkg/hnsw/index.go:244.  `log` is `math.Log`; the conversion to
`float64` is exact for numbers up to 2^53. -/
def normalizer (log : ℚ → ℚ) (M : ℕ) : ℚ := round64 (1 / log M)

/-- `rand.Float64()` — pkg/hnsw/index.go:273: `k / 2^53` for a whole number `k` drawn from 0, …, 2^53 - 1 -/
def uniform (k : ℕ) : ℚ := k / 2 ^ 53

/-- `int(math.Floor(-math.Log(h.randFunc()) * h.levelNormalizer))` and `make([][]uint64, targetLevel+1)` —
pkg/hnsw/insert.go:230-234.  `none`: the logarithm of 0 is negative infinity; the conversion of an infinity to `int` gives the
least or the greatest `int`, one more is negative in both cases, and `make` panics. -/
def target (log : ℚ → ℚ) (M k : ℕ) : Option ℕ :=
  if k = 0 then none else some ⌊round64 (-log (uniform k) * normalizer log M)⌋.toNat

end Fave.Level

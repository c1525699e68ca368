import Verif.Spec.Float32
import Mathlib.Analysis.Real.Sqrt
/-!
# 64-bit numbers and their square roots
-/
namespace Fave
namespace F32

/-- the values of `float64`: whole multiples, below 2^53, of a power of two not below 2^-1074 and such that the value is below 2^1024 -/
def IsDouble (x : ℚ) : Prop := ∃ (m e : ℤ), x = m * 2 ^ e ∧ |m| < 2 ^ 53 ∧ -1074 ≤ e ∧ |x| < 2 ^ 1024

/-- `d` is the square root of `x` rounded to 64 bits: no `float64` is nearer -/
def Root64 (x d : ℚ) : Prop := IsDouble d ∧ ∀ d', IsDouble d' → |(d : ℝ) - Real.sqrt x| ≤ |(d' : ℝ) - Real.sqrt x|

end F32
end Fave

import Verif.Model.Decimal
/-!
# Floating point numbers as decimal texts: what is claimed
-/
namespace Fave.Json

/-- `x` is a number of the format -/
def Fmt.Is (F : Fmt) (x : ℚ) : Prop := ∃ m e : ℤ, x = m * 2 ^ e ∧ |m| < 2 ^ F.bits ∧ F.low ≤ e ∧ |x| < 2 ^ F.high

/-- the format has at least one bit, and enough decimal digits to tell its numbers apart -/
def Fmt.Good (F : Fmt) : Prop := 1 ≤ F.bits ∧ 1 ≤ F.dec ∧ 2 ^ F.bits < 10 ^ (F.dec - 1)

end Fave.Json

import Verif.Model.Level
import Verif.Spec.Ties
import Mathlib.Analysis.SpecialFunctions.Log.Basic
/-!
# What the random layers have to be
-/
namespace Fave.Level

/-- a logarithm whose relative error is at most 2^-52: the documented error of `math.Log` is less than one unit in the last of 53
places (comment in Go's src/math/log.go; used at pkg/hnsw/insert.go:230, index.go:244) -/
def GoodLog (log : ℚ → ℚ) : Prop := ∀ x : ℚ, 0 < x → |(log x : ℝ) - Real.log x| ≤ 2⁻¹ ^ 52 * |Real.log x|

open Classical in
/-- of the 2^53 equally likely draws, those that put a vector on layer `l` or above -/
noncomputable def reaching (log : ℚ → ℚ) (M l : ℕ) : Finset ℕ :=
  (Finset.range (2 ^ 53)).filter (fun k => ∃ t, target log M k = some t ∧ l ≤ t)

/-- every addition of the sequence has a layer that was drawn -/
def Drawn {V D : Type} (log : ℚ → ℚ) (M : ℕ) (ops : List (Index.Op V D)) : Prop :=
  ∀ vo x vec level, .add vo x vec level ∈ ops → ∃ k < 2 ^ 53, target log M k = some level

end Fave.Level

import Verif.Model.Flat
/-!
# C46: the width of a search

*A search for k results is at least k wide.  A configured width (1 or more) is used as it is unless it is smaller than k; without one the
width is k times the factor, kept between the configured minimum and maximum, unless k is larger than that.*  Multiplication wraps at 64
bits; the bounds hold all the same.
-/
namespace Fave.C46
open Graph

/-- **C46**: never narrower than the number of results asked for. -/
theorem at_least_k (c : EfConfig) (k : Int) : k ≤ searchTimeEF c k := by
  unfold searchTimeEF autoEfFromK
  simp only
  split
  · split <;> omega
  · split <;> omega

/-- **C46**: a configured width is used, unless k is larger. -/
theorem configured (c : EfConfig) (k : Int) (h : 1 ≤ c.ef) : searchTimeEF c k = max c.ef k := by
  unfold searchTimeEF
  rw [if_neg (by omega)]
  split <;> omega

/-- **C46**: an automatic width is between minimum and maximum, or k. -/
theorem automatic_bounds (c : EfConfig) (k : Int) (h : c.ef < 1) (hm : c.efMin ≤ c.efMax) :
    max c.efMin k ≤ searchTimeEF c k ∧ searchTimeEF c k ≤ max c.efMax k := by
  unfold searchTimeEF autoEfFromK
  rw [if_pos h]
  simp only
  split
  · split <;> omega
  · split
    · split <;> omega
    · split <;> omega

/-- **C46**: the automatic width exactly, as long as the product is a 64-bit integer. -/
theorem automatic (c : EfConfig) (k : Int) (h : c.ef < 1) (hm : c.efMin ≤ c.efMax)
    (hb : -2 ^ 63 ≤ k * c.efFactor ∧ k * c.efFactor < 2 ^ 63) :
    searchTimeEF c k = max k (max c.efMin (min c.efMax (k * c.efFactor))) := by
  have hw : wrap64 (k * c.efFactor) = k * c.efFactor := by
    unfold wrap64
    omega
  unfold searchTimeEF autoEfFromK
  rw [if_pos h, hw]
  simp only
  split
  · split <;> omega
  · split
    · split <;> omega
    · split <;> omega

/-- **C46**: more results asked for never make the search narrower. -/
theorem monotone (c : EfConfig) (k k' : Int) (hk : k ≤ k') (hf : 0 ≤ c.efFactor) (hm : c.efMin ≤ c.efMax)
    (hb : -2 ^ 63 ≤ k * c.efFactor) (hb' : k' * c.efFactor < 2 ^ 63) : searchTimeEF c k ≤ searchTimeEF c k' := by
  have hmul : k * c.efFactor ≤ k' * c.efFactor := Int.mul_le_mul_of_nonneg_right hk hf
  by_cases h : c.ef < 1
  · rw [automatic c k h hm ⟨hb, by omega⟩, automatic c k' h hm ⟨by omega, hb'⟩]; omega
  · rw [configured c k (by omega), configured c k' (by omega)]; omega

/-- the default settings -/
def deflt : EfConfig := ⟨-1, 100, 500, 8, 40000, false⟩

example : searchTimeEF deflt 5 = 100 ∧ searchTimeEF deflt 20 = 160 ∧ searchTimeEF deflt 100 = 500 ∧ searchTimeEF deflt 700 = 700 ∧
    searchTimeEF { deflt with ef := 64 } 10 = 64 ∧ searchTimeEF { deflt with ef := 64 } 90 = 90 := by decide

/-- overflow: 2^61 results asked for, times 8, wraps to 0; the width is still the number of results -/
example : wrap64 (2 ^ 61 * 8) = 0 ∧ searchTimeEF deflt (2 ^ 61) = 2 ^ 61 := by decide

end Fave.C46

import Verif.Spec.Level
import Verif.Lemmas.Float32
import Mathlib.Algebra.BigOperators.Intervals
/-!
# Random layers: lemmas
-/
namespace Fave.Level
open F32

/-- rounding changes a number by at most one part in 2^53 -/
theorem round64_near {x : ℚ} (hx : (2 : ℚ) ^ (-1000 : ℤ) ≤ |x|) : |round64 x - x| ≤ 2⁻¹ ^ 53 * |x| := by
  have hx0 : |x| ≠ 0 := ne_of_gt (lt_of_lt_of_le (by positivity) hx)
  have h1 : (2 : ℚ) ^ (Int.log 2 |x|) ≤ |x| := by
    have := Int.zpow_log_le_self (b := 2) (r := |x|) (by norm_num) (lt_of_le_of_ne (abs_nonneg x) hx0.symm)
    exact_mod_cast this
  have h2 : -1000 ≤ Int.log 2 |x| := by
    have := Int.log_mono_right (b := 2) (by positivity) hx
    have e : Int.log 2 ((2 : ℚ) ^ (-1000 : ℤ)) = -1000 := by
      have := Int.log_zpow (R := ℚ) (b := 2) (by norm_num) (-1000)
      exact_mod_cast this
    rwa [e] at this
  have hp : place64 x = Int.log 2 |x| - 52 := by unfold place64; omega
  have hpos : (0 : ℚ) < 2 ^ place64 x := by positivity
  have h3 := nearest_abs (x / 2 ^ place64 x)
  have h4 : round64 x - x = ((nearest (x / 2 ^ place64 x) : ℚ) - x / 2 ^ place64 x) * 2 ^ place64 x := by
    unfold round64
    field_simp
  rw [h4, abs_mul, abs_of_pos hpos]
  have h5 : (2 : ℚ) ^ place64 x = 2 ^ (Int.log 2 |x|) * 2⁻¹ ^ 52 := by
    rw [hp, zpow_sub₀ (by norm_num)]
    norm_num
    ring
  calc _ ≤ 1 / 2 * (2 : ℚ) ^ place64 x := by nlinarith
    _ ≤ 2⁻¹ ^ 53 * |x| := by rw [h5]; norm_num; linarith

/-- the same with values taken as real numbers -/
theorem round64_real {x : ℚ} (hx : (2 : ℝ)⁻¹ ^ 1000 ≤ x) : |(round64 x : ℝ) - x| ≤ 2⁻¹ ^ 53 * x := by
  have h0 : (2 : ℚ)⁻¹ ^ 1000 ≤ x := by
    rw [← Rat.cast_le (K := ℝ), Rat.cast_pow, Rat.cast_inv, Rat.cast_ofNat]
    exact hx
  have hpos : (0 : ℚ) < x := lt_of_lt_of_le (by positivity) h0
  have h := round64_near (x := x) (by
    rw [abs_of_pos hpos, zpow_neg, ← inv_zpow]
    exact_mod_cast h0)
  rw [abs_of_pos hpos, ← Rat.cast_le (K := ℝ), Rat.cast_abs, Rat.cast_mul, Rat.cast_pow, Rat.cast_inv, Rat.cast_ofNat, Rat.cast_sub] at h
  exact h

/-- relative error of the whole computation -/
theorem chain {A B a b c y η : ℝ} (hA : 0 < A) (hB : 0 < B) (h0 : 0 < η) (hη : η ≤ 1 / 64) (ha : |a - A| ≤ 2 * η * A) (hb : |b - B| ≤ 2 * η * B)
    (hc : |c - 1 / b| ≤ η * (1 / b)) (hy : |y - a * c| ≤ η * (a * c)) :
    (1 - 8 * η) * (A / B) ≤ y ∧ y ≤ (1 + 8 * η) * (A / B) := by
  rw [abs_le] at ha hb hc hy
  have hb0 : 0 < b := by nlinarith
  have ha0 : 0 < a := by nlinarith
  have hib : 1 / b * b = 1 := by field_simp
  have hib0 : 0 < 1 / b := by positivity
  have hc0 : 0 < c := by nlinarith
  have c1 : c * b ≤ 1 + η := by nlinarith
  have c2 : 1 - η ≤ c * b := by nlinarith
  have hac : 0 < a * c := mul_pos ha0 hc0
  have hy0 : 0 ≤ y := by nlinarith
  have e1 : y * b ≤ (1 + η) * (1 + η) * a := by
    have : y * b ≤ (1 + η) * a * (c * b) := by nlinarith
    have h2 : (1 + η) * a * (c * b) ≤ (1 + η) * a * (1 + η) := mul_le_mul_of_nonneg_left c1 (by positivity)
    nlinarith
  have e2 : (1 - η) * (1 - η) * a ≤ y * b := by
    have : (1 - η) * a * (c * b) ≤ y * b := by nlinarith
    have h2 : (1 - η) * a * (1 - η) ≤ (1 - η) * a * (c * b) := mul_le_mul_of_nonneg_left c2 (mul_nonneg (by linarith) ha0.le)
    nlinarith
  have e3 : y * B * (1 - 2 * η) ≤ (1 + η) * (1 + η) * (1 + 2 * η) * A := by
    have : y * (B * (1 - 2 * η)) ≤ y * b := mul_le_mul_of_nonneg_left (by linarith) hy0
    have h2 : (1 + η) * (1 + η) * a ≤ (1 + η) * (1 + η) * ((1 + 2 * η) * A) := mul_le_mul_of_nonneg_left (by linarith) (by positivity)
    nlinarith
  have e4 : (1 - η) * (1 - η) * (1 - 2 * η) * A ≤ y * B * (1 + 2 * η) := by
    have : y * b ≤ y * (B * (1 + 2 * η)) := mul_le_mul_of_nonneg_left (by linarith) hy0
    have h2 : (1 - η) * (1 - η) * ((1 - 2 * η) * A) ≤ (1 - η) * (1 - η) * a :=
      mul_le_mul_of_nonneg_left (by linarith) (mul_nonneg (by linarith) (by linarith))
    nlinarith
  have k1 : (1 + η) * (1 + η) * (1 + 2 * η) ≤ (1 + 8 * η) * (1 - 2 * η) := by nlinarith [mul_pos h0 h0]
  have k2 : (1 - 8 * η) * (1 + 2 * η) ≤ (1 - η) * (1 - η) * (1 - 2 * η) := by nlinarith [mul_pos h0 h0]
  constructor
  · rw [← mul_div_assoc, div_le_iff₀ hB]
    have : (1 - 8 * η) * A * (1 + 2 * η) ≤ y * B * (1 + 2 * η) := by nlinarith
    exact le_of_mul_le_mul_right this (by linarith)
  · rw [← mul_div_assoc, le_div_iff₀ hB]
    have : y * B * (1 - 2 * η) ≤ (1 + 8 * η) * A * (1 - 2 * η) := by nlinarith
    exact le_of_mul_le_mul_right this (by linarith)

/-- what is drawn, as a real number -/
noncomputable def share (M k : ℕ) : ℝ := -Real.log (k / 2 ^ 53) / Real.log M

theorem log_uniform_pos {k : ℕ} (h1 : 1 ≤ k) (h2 : k < 2 ^ 53) : (2 : ℝ)⁻¹ ^ 53 ≤ -Real.log (k / 2 ^ 53) := by
  have hk : (0 : ℝ) < k := by exact_mod_cast h1
  have h3 : (k : ℝ) ≤ 2 ^ 53 - 1 := by
    have : k + 1 ≤ 2 ^ 53 := h2
    have : (k : ℝ) + 1 ≤ 2 ^ 53 := by exact_mod_cast this
    linarith
  have := Real.log_le_sub_one_of_pos (show (0 : ℝ) < k / 2 ^ 53 by positivity)
  have h4 : (k : ℝ) / 2 ^ 53 ≤ (2 ^ 53 - 1) / 2 ^ 53 := div_le_div_of_nonneg_right h3 (by positivity)
  norm_num at h4 this ⊢
  linarith

theorem log_limits {M : ℕ} (h1 : 2 ≤ M) (h2 : M ≤ 2 ^ 53) : 1 / 2 ≤ Real.log M ∧ Real.log M ≤ 53 := by
  have hM : (2 : ℝ) ≤ M := by exact_mod_cast h1
  have hM' : (M : ℝ) ≤ 2 ^ 53 := by exact_mod_cast h2
  constructor
  · have := Real.one_sub_inv_le_log_of_pos (show (0 : ℝ) < M by linarith)
    have h3 : (M : ℝ)⁻¹ ≤ 2⁻¹ := inv_anti₀ (by norm_num) hM
    norm_num at h3
    linarith
  · have := Real.log_le_log (by linarith) hM'
    rw [Real.log_pow] at this
    have h3 := Real.log_le_sub_one_of_pos (show (0 : ℝ) < 2 by norm_num)
    push_cast at this
    linarith

/-- the layer is the whole part of a number that differs from the exact one by at most one part in 2^50 -/
theorem target_near {log : ℚ → ℚ} (hl : GoodLog log) {M k : ℕ} (hM : 2 ≤ M) (hM' : M ≤ 2 ^ 53) (hk : 1 ≤ k) (hk' : k < 2 ^ 53) :
    ∃ y : ℚ, target log M k = some ⌊y⌋.toNat ∧ (1 - 2⁻¹ ^ 50) * share M k ≤ y ∧ (y : ℝ) ≤ (1 + 2⁻¹ ^ 50) * share M k := by
  have hA := log_uniform_pos hk hk'
  obtain ⟨hB, hB'⟩ := log_limits hM hM'
  have hkq : (0 : ℚ) < uniform k := by
    unfold uniform
    have : (0 : ℚ) < k := by exact_mod_cast hk
    positivity
  have hlu := hl (uniform k) hkq
  have hlm := hl M (by exact_mod_cast (show 0 < M by omega))
  have hu : ((uniform k : ℚ) : ℝ) = k / 2 ^ 53 := by simp [uniform]
  rw [hu] at hlu
  rw [show (((M : ℕ) : ℚ) : ℝ) = (M : ℝ) by simp] at hlm
  have hA0 : 0 < -Real.log ((k : ℝ) / 2 ^ 53) := lt_of_lt_of_le (by positivity) hA
  have hB0 : 0 < Real.log M := by linarith
  rw [abs_of_neg (a := Real.log ((k : ℝ) / 2 ^ 53)) (by linarith)] at hlu
  rw [abs_of_pos hB0] at hlm
  refine ⟨round64 (-log (uniform k) * normalizer log M), ?_, ?_⟩
  · unfold target; rw [if_neg (by omega)]
  · have ha : |((-log (uniform k) : ℚ) : ℝ) - -Real.log (k / 2 ^ 53)| ≤ 2 * 2⁻¹ ^ 53 * -Real.log (k / 2 ^ 53) := by
      rw [show ((-log (uniform k) : ℚ) : ℝ) - -Real.log (k / 2 ^ 53) = -((log (uniform k) : ℝ) - Real.log (k / 2 ^ 53)) by push_cast; ring, abs_neg]
      refine hlu.trans (le_of_eq ?_)
      norm_num
    have hb : |(log M : ℝ) - Real.log M| ≤ 2 * 2⁻¹ ^ 53 * Real.log M := by
      refine hlm.trans (le_of_eq ?_)
      norm_num
    have hb' := abs_le.1 hb
    have ha' := abs_le.1 ha
    have hb1 : (1 : ℝ) / 4 ≤ log M := by norm_num at hb' ⊢; linarith
    have hb2 : (log M : ℝ) ≤ 100 := by norm_num at hb' ⊢; linarith
    have ha1 : (2 : ℝ)⁻¹ ^ 54 ≤ ((-log (uniform k) : ℚ) : ℝ) := by norm_num at ha' hA ⊢; linarith
    have hi : (1 : ℝ) / 100 ≤ 1 / log M := one_div_le_one_div_of_le (by linarith) hb2
    have small : (2 : ℝ)⁻¹ ^ 1000 ≤ 2⁻¹ ^ 70 := pow_le_pow_of_le_one (by norm_num) (by norm_num) (by norm_num)
    have hc : |(normalizer log M : ℝ) - 1 / log M| ≤ 2⁻¹ ^ 53 * (1 / log M) := by
      have := round64_real (x := 1 / log M) (by
        push_cast
        refine small.trans (le_trans ?_ hi)
        norm_num)
      push_cast at this
      exact this
    have hc' := abs_le.1 hc
    have hc1 : (1 : ℝ) / 200 ≤ normalizer log M := by norm_num at hc' hi ⊢; linarith
    have hy : |(round64 (-log (uniform k) * normalizer log M) : ℝ) - (-log (uniform k) : ℚ) * normalizer log M| ≤
        2⁻¹ ^ 53 * ((-log (uniform k) : ℚ) * normalizer log M) := by
      have := round64_real (x := -log (uniform k) * normalizer log M) (by
        push_cast at ha1 ⊢
        refine small.trans (le_trans ?_ (mul_le_mul ha1 hc1 (by norm_num) (le_trans (by positivity) ha1)))
        norm_num)
      push_cast at this ⊢
      exact this
    have := chain (η := 2⁻¹ ^ 53) hA0 hB0 (by positivity) (by norm_num) ha hb hc hy
    have e : (8 : ℝ) * 2⁻¹ ^ 53 = 2⁻¹ ^ 50 := by norm_num
    rw [e] at this
    exact this

end Fave.Level

import Verif.Lemmas.Rounding2
/-!
# Limits of rounding
-/
namespace Fave
namespace F32
open Distance

/-- the factor is at most `1 / (1 - k·unit)` -/
theorem fac_bound (k : ℕ) : fac k * (1 - k * unit) ≤ 1 := by
  have hu := unit_pos
  induction k with
  | zero => simp [fac]
  | succ k ih =>
    rw [fac_succ]
    have h1 := fac_ge k
    push_cast
    have h2 : (1 + unit) * (1 - (k + 1) * unit) ≤ 1 - k * unit := by
      have : 0 ≤ ((k : ℚ) + 1) * (unit * unit) := by positivity
      nlinarith
    calc fac k * (1 + unit) * (1 - (k + 1) * unit) = fac k * ((1 + unit) * (1 - (k + 1) * unit)) := by ring
      _ ≤ fac k * (1 - k * unit) := mul_le_mul_of_nonneg_left h2 (by linarith)
      _ ≤ 1 := ih

theorem fac_le_two {k : ℕ} (h : k ≤ 2 ^ 23) : fac k ≤ 2 := by
  have h1 := fac_bound k
  have h2 : (k : ℚ) * unit ≤ 1 / 2 := by
    have : (k : ℚ) ≤ 2 ^ 23 := by exact_mod_cast h
    unfold unit
    linarith
  have h3 := fac_ge k
  nlinarith

theorem nearest_top : nearest (2 ^ 24 - 1 / 2) = 2 ^ 24 := by decide +kernel

/-- for positive numbers: infinite from half a place below 2^128 on -/
theorem round_top {x : ℚ} (hx : 0 ≤ x) : 2 ^ 128 ≤ round x ↔ (2 : ℚ) ^ 128 - 2 ^ 103 ≤ x := by
  have key : ∀ y : ℚ, (2 : ℚ) ^ 127 ≤ y → y < 2 ^ 128 → place y = 104 := by
    intro y h1 h2
    have h0 : 0 < y := lt_of_lt_of_le (by positivity) h1
    have hl : Int.log 2 |y| = 127 := by
      rw [abs_of_pos h0]
      apply le_antisymm
      · have := (Int.lt_zpow_iff_log_lt (b := 2) (by norm_num) h0 (x := 128)).1 (by
          have e : (((2 : ℕ) : ℚ)) ^ (128 : ℤ) = 2 ^ 128 := by norm_num
          rw [e]; exact h2)
        omega
      · refine (Int.zpow_le_iff_le_log (b := 2) (by norm_num) h0 (x := 127)).1 ?_
        have e : (((2 : ℕ) : ℚ)) ^ (127 : ℤ) = 2 ^ 127 := by norm_num
        rw [e]; exact h1
    unfold place
    rw [hl]
    norm_num
  have e104 : (2 : ℚ) ^ (104 : ℤ) = 2 ^ 104 := zpow_natCast 2 104
  have hpos : (0 : ℚ) < 2 ^ 104 := by positivity
  have s1 : (2 : ℚ) ^ 128 = 2 ^ 24 * 2 ^ 104 := by rw [← pow_add]
  have s2 : (2 : ℚ) ^ 103 = 1 / 2 * 2 ^ 104 := by norm_num
  constructor
  · intro h
    by_contra hc
    rw [not_le] at hc
    have hlt : x < 2 ^ 128 := hc.trans (by
      have : (0 : ℚ) < 2 ^ 103 := by positivity
      linarith)
    by_cases hb : (2 : ℚ) ^ 127 ≤ x
    · have hp := key x hb hlt
      unfold round at h
      rw [hp, e104] at h
      have h1 := (abs_le.1 (nearest_abs (x / 2 ^ 104))).2
      have h2 : x / 2 ^ 104 < 2 ^ 24 - 1 / 2 := by
        rw [div_lt_iff₀ hpos]
        rw [s1, s2] at hc
        linarith
      have h3 : (nearest (x / 2 ^ 104) : ℚ) < 2 ^ 24 := by linarith
      rw [s1] at h
      have := mul_lt_mul_of_pos_right h3 hpos
      linarith
    · have h1 := round_rel x
      rw [abs_of_nonneg hx] at h1
      have h2 := (abs_le.1 h1).2
      rw [not_le] at hb
      have h3 : unit ≤ 1 / 2 := by norm_num [unit]
      have h4 : tiny ≤ 1 := by norm_num [tiny]
      have h5 : unit * x ≤ 1 / 2 * x := mul_le_mul_of_nonneg_right h3 hx
      have s3 : (2 : ℚ) ^ 128 = 2 * 2 ^ 127 := by norm_num
      have s4 : (4 : ℚ) ≤ 2 ^ 127 := by norm_num
      linarith
  · intro h
    by_cases hb : x < 2 ^ 128
    · have hb' : (2 : ℚ) ^ 127 ≤ x := by
        have : (2 : ℚ) ^ 127 ≤ 2 ^ 128 - 2 ^ 103 := by norm_num
        linarith
      have hp := key x hb' hb
      unfold round
      rw [hp, e104, s1]
      have h1 : (2 : ℚ) ^ 24 - 1 / 2 ≤ x / 2 ^ 104 := by
        rw [le_div_iff₀ hpos]
        rw [s1, s2] at h
        linarith
      have h2 := nearest_mono h1
      rw [nearest_top] at h2
      have h3 : (2 : ℚ) ^ 24 ≤ nearest (x / 2 ^ 104) := by exact_mod_cast h2
      exact mul_le_mul_of_nonneg_right h3 hpos.le
    · rw [not_lt] at hb
      have h1 := round_nearest x (m := 1) (e := 128) (by norm_num) (by norm_num)
      have e128 : (2 : ℚ) ^ (128 : ℤ) = 2 ^ 128 := zpow_natCast 2 128
      rw [e128] at h1
      push_cast at h1
      rw [one_mul] at h1
      rw [abs_of_nonpos (by linarith : (2 : ℚ) ^ 128 - x ≤ 0)] at h1
      have := (abs_le.1 h1).1
      linarith

theorem fl_finite_iff (x : ℚ) : (fl x).isFin ↔ |x| < 2 ^ 128 - 2 ^ 103 := by
  rw [fl_isFin]
  rcases le_total 0 x with h | h
  · rw [abs_of_nonneg (round_nonneg h), abs_of_nonneg h, ← not_le, ← not_le, round_top h]
  · have h' : 0 ≤ -x := by linarith
    have e : |round x| = round (-x) := by
      rw [← abs_of_nonneg (round_nonneg h'), round_neg, abs_neg]
    rw [e, abs_of_nonpos h, ← not_le, ← not_le, round_top h']

/-- the square root is rounded to the nearest number: no other is nearer -/
theorem sqrt_near {x v w : ℚ} (hx : 0 ≤ x) (hg : Grid x) (hv : fl (root x) = .fin v) (hw : IsFloat w) (hw0 : 0 ≤ w) :
    (w < v → ((v + w) / 2) ^ 2 ≤ x) ∧ (v < w → x ≤ ((v + w) / 2) ^ 2) := by
  obtain ⟨m, e, hwe, hm, he, _⟩ := hw
  have hn := round_nearest (root x) hm he
  rw [← hwe, ← fl_fin hv] at hn
  have hgv : Grid v := by rw [fl_fin hv]; exact grid_round _
  have hgw : Grid w := by rw [hwe]; exact grid_of_exp he
  have hr0 : 0 ≤ root x := by
    unfold root
    simp only
    split <;> positivity
  have hv0 : 0 ≤ v := by rw [fl_fin hv]; exact round_nonneg hr0
  obtain ⟨p, hp⟩ := hgv.add hgw
  have hp0 : 0 ≤ p := by
    by_contra hc
    have h1 : (p : ℚ) < 0 := by exact_mod_cast not_le.1 hc
    have h2 := mul_neg_of_neg_of_pos h1 (two_pos (-149))
    linarith
  obtain ⟨P, rfl⟩ := Int.eq_ofNat_of_zero_le hp0
  have hmid : (v + w) / 2 = ((P * 2 ^ 50 : ℕ) : ℚ) / 2 ^ 200 := by
    have hc : ((P * 2 ^ 50 : ℕ) : ℚ) = (P : ℚ) * 2 ^ 50 := by rw [Nat.cast_mul, Nat.cast_pow, Nat.cast_ofNat]
    have hP : ((P : ℤ) : ℚ) = (P : ℚ) := Int.cast_natCast P
    rw [hp, hc, hP, zpow_neg]
    have h2 : (2 : ℚ) ^ (149 : ℤ) = 2 ^ 149 := zpow_natCast 2 149
    have h3 : (2 : ℚ) ^ 200 = 2 ^ 50 * (2 * 2 ^ 149) := by norm_num
    rw [h2, h3]
    have h4 : (2 : ℚ) ^ 149 ≠ 0 := by positivity
    have h5 : (2 : ℚ) ^ 50 ≠ 0 := by positivity
    generalize (2 : ℚ) ^ 149 = A at *
    generalize (2 : ℚ) ^ 50 = B at *
    rw [div_eq_div_iff (by norm_num) (by positivity), ← div_eq_mul_inv]
    field_simp
  obtain ⟨s1, s2⟩ := root_side hx hg (P * 2 ^ 50)
  rw [← hmid] at s1 s2
  constructor
  · intro h
    rw [← not_lt, ← s1, not_lt]
    by_contra hc
    rw [not_le] at hc
    rw [abs_of_pos (by linarith : 0 < v - root x)] at hn
    rcases abs_cases (w - root x) with ⟨h1, _⟩ | ⟨h1, _⟩ <;> linarith
  · intro h
    rw [← not_lt, ← s2, not_lt]
    by_contra hc
    rw [not_le] at hc
    rw [abs_of_neg (by linarith : v - root x < 0)] at hn
    rcases abs_cases (w - root x) with ⟨h1, _⟩ | ⟨h1, _⟩ <;> linarith

end F32
end Fave

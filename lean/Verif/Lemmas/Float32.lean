import Verif.Spec.Float32
import Mathlib.Tactic.Linarith
import Mathlib.Tactic.Ring
import Mathlib.Tactic.Positivity
import Mathlib.Tactic.NormNum
import Mathlib.Tactic.FieldSimp
import Mathlib.Algebra.Order.Field.Power
/-!
# Rounding: lemmas
-/
namespace Fave
namespace F32

theorem nearest_int (n : ℤ) : nearest (n : ℚ) = n := by
  unfold nearest
  simp

theorem nearest_abs (x : ℚ) : |(nearest x : ℚ) - x| ≤ 1 / 2 := by
  have h1 := Int.floor_le x
  have h2 := Int.lt_floor_add_one x
  unfold nearest
  split
  · rename_i h
    rw [abs_le]
    constructor <;> linarith
  · rename_i h
    split
    · rename_i h'
      push_cast
      rw [abs_le]
      constructor <;> linarith
    · rename_i h'
      split
      · rw [abs_le]
        constructor <;> linarith
      · push_cast
        rw [abs_le]
        constructor <;> linarith

/-- no integer is nearer -/
theorem nearest_le (x : ℚ) (n : ℤ) : |(nearest x : ℚ) - x| ≤ |(n : ℚ) - x| := by
  have h := nearest_abs x
  by_cases hn : n = nearest x
  · rw [hn]
  · have h3 : (1 : ℚ) ≤ |((n - nearest x : ℤ) : ℚ)| := by
      rw [← Int.cast_abs]
      exact_mod_cast Int.one_le_abs (sub_ne_zero.2 hn)
    push_cast at h3
    have h4 : |(n : ℚ) - nearest x| ≤ |(n : ℚ) - x| + |(nearest x : ℚ) - x| := by
      have h5 := abs_sub_le (n : ℚ) x (nearest x)
      rw [abs_sub_comm x] at h5
      exact h5
    linarith

theorem nearest_neg (x : ℚ) : nearest (-x) = -nearest x := by
  by_cases hx : x = ⌊x⌋
  · have : nearest x = ⌊x⌋ := by
      conv_lhs => rw [hx]
      exact nearest_int _
    rw [this]
    conv_lhs => rw [hx]
    rw [← Int.cast_neg, nearest_int]
  · have h1 := Int.floor_le x
    have h2 := Int.lt_floor_add_one x
    have h3 : (⌊x⌋ : ℚ) < x := lt_of_le_of_ne h1 (Ne.symm hx)
    have hf : ⌊-x⌋ = -⌊x⌋ - 1 := by
      rw [Int.floor_eq_iff]
      push_cast
      constructor <;> linarith
    unfold nearest
    rw [hf]
    push_cast
    by_cases c1 : 2 * (x - ⌊x⌋) < 1
    · rw [if_neg (by linarith), if_pos (by linarith), if_pos c1]
      omega
    · by_cases c2 : 1 < 2 * (x - ⌊x⌋)
      · rw [if_pos (by linarith), if_neg c1, if_pos c2]
        omega
      · rw [if_neg (by linarith), if_neg (by linarith), if_neg c1, if_neg c2]
        by_cases c3 : ⌊x⌋ % 2 = 0
        · rw [if_pos c3, if_neg (by omega)]
          omega
        · rw [if_neg c3, if_pos (by omega)]
          omega

theorem nearest_mono {x y : ℚ} (h : x ≤ y) : nearest x ≤ nearest y := by
  by_contra hc
  have hc' : nearest y + 1 ≤ nearest x := by omega
  have hq : (nearest y : ℚ) + 1 ≤ nearest x := by exact_mod_cast hc'
  have h1 := abs_le.1 (nearest_abs x)
  have h2 := abs_le.1 (nearest_abs y)
  have hxy : x = y := by linarith [h1.1, h1.2, h2.1, h2.2]
  rw [hxy] at hc
  exact hc (le_refl _)

theorem place_neg (x : ℚ) : place (-x) = place x := by simp [place]

theorem place_ge (x : ℚ) : -149 ≤ place x := le_max_right _ _

theorem round_neg (x : ℚ) : round (-x) = -round x := by
  unfold round
  rw [place_neg, neg_div, nearest_neg]
  push_cast
  ring

theorem round_zero : round 0 = 0 := by
  unfold round
  rw [zero_div]
  have : nearest 0 = 0 := by exact_mod_cast nearest_int 0
  rw [this]
  simp

theorem two_pos (e : ℤ) : (0 : ℚ) < 2 ^ e := by positivity

theorem round_err (x : ℚ) : |round x - x| ≤ 2 ^ place x / 2 := by
  have h := nearest_abs (x / 2 ^ place x)
  have hp := two_pos (place x)
  unfold round
  have e : (nearest (x / 2 ^ place x) : ℚ) * 2 ^ place x - x = ((nearest (x / 2 ^ place x) : ℚ) - x / 2 ^ place x) * 2 ^ place x := by
    field_simp
  rw [e, abs_mul, abs_of_pos hp]
  nlinarith

/-- a multiple of the smallest positive number -/
def Grid (x : ℚ) : Prop := ∃ m : ℤ, x = m * 2 ^ (-149 : ℤ)

theorem Grid.zero : Grid 0 := ⟨0, by simp⟩

theorem Grid.neg {x : ℚ} (h : Grid x) : Grid (-x) := by
  obtain ⟨m, rfl⟩ := h
  exact ⟨-m, by push_cast; ring⟩

theorem Grid.add {x y : ℚ} (h : Grid x) (h' : Grid y) : Grid (x + y) := by
  obtain ⟨m, rfl⟩ := h
  obtain ⟨n, rfl⟩ := h'
  exact ⟨m + n, by push_cast; ring⟩

theorem Grid.sub {x y : ℚ} (h : Grid x) (h' : Grid y) : Grid (x - y) := by
  rw [sub_eq_add_neg]
  exact h.add h'.neg

theorem grid_of_exp {m e : ℤ} (he : -149 ≤ e) : Grid (m * 2 ^ e) := by
  obtain ⟨k, hk⟩ := Int.eq_ofNat_of_zero_le (show 0 ≤ e + 149 by omega)
  have : e = (k : ℤ) + (-149) := by omega
  refine ⟨m * 2 ^ k, ?_⟩
  rw [this, zpow_add₀ (by norm_num), zpow_natCast]
  push_cast
  ring

theorem Grid.int (n : ℤ) : Grid n := by
  have := grid_of_exp (m := n) (e := 0) (by omega)
  simpa using this

theorem grid_round (x : ℚ) : Grid (round x) := grid_of_exp (place_ge x)

theorem Grid.of_float {x : ℚ} (h : IsFloat x) : Grid x := by
  obtain ⟨m, e, rfl, _, he, _⟩ := h
  exact grid_of_exp he

theorem unit_pos : 0 < unit := by norm_num [unit]
theorem tiny_pos : 0 < tiny := by norm_num [tiny]

theorem place_cases (x : ℚ) :
    (x ≠ 0 ∧ place x = Int.log 2 |x| - 23 ∧ (2 : ℚ) ^ place x / 2 ≤ unit * |x|) ∨ place x = -149 ∨ x = 0 := by
  by_cases hx : x = 0
  · exact .inr (.inr hx)
  · by_cases h : -149 ≤ Int.log 2 |x| - 23
    · left
      have hp : place x = Int.log 2 |x| - 23 := max_eq_left h
      refine ⟨hx, hp, ?_⟩
      have h2 := Int.zpow_log_le_self (b := 2) (r := |x|) (by norm_num) (abs_pos.2 hx)
      rw [hp, zpow_sub₀ (by norm_num)]
      push_cast at h2
      unfold unit
      norm_num
      linarith
    · exact .inr (.inl (max_eq_right (by omega)))

theorem round_rel (x : ℚ) : |round x - x| ≤ unit * |x| + tiny := by
  have h := round_err x
  have ht := tiny_pos
  have hu := mul_nonneg unit_pos.le (abs_nonneg x)
  rcases place_cases x with ⟨_, _, h'⟩ | h' | rfl
  · linarith
  · rw [h'] at h
    have : (2 : ℚ) ^ (-149 : ℤ) / 2 = tiny := by norm_num [tiny, zpow_neg]
    linarith
  · rw [round_zero]
    simp
    exact tiny_pos.le

theorem round_grid_err {x : ℚ} (hx : Grid x) : |round x - x| ≤ unit * |x| := by
  rcases place_cases x with ⟨_, _, h'⟩ | h' | rfl
  · exact (round_err x).trans h'
  · obtain ⟨m, hm⟩ := hx
    have e : round x = x := by
      unfold round
      rw [h']
      have : x / 2 ^ (-149 : ℤ) = m := by
        rw [hm]
        field_simp
      rw [this, nearest_int, hm]
    rw [e, sub_self, abs_zero]
    exact mul_nonneg unit_pos.le (abs_nonneg x)
  · rw [round_zero]; simp

theorem fl_fin {x v : ℚ} (h : fl x = .fin v) : v = round x := by
  unfold fl at h
  split at h
  · exact (Num.fin.inj h).symm
  · cases h

/-- is a number, neither infinite nor not a number -/
def Num.isFin : Num → Prop
  | .fin _ => True
  | _ => False

theorem fl_isFin {x : ℚ} : (fl x).isFin ↔ |round x| < 2 ^ 128 := by
  unfold fl
  split
  · rename_i h; exact ⟨fun _ => h, fun _ => trivial⟩
  · rename_i h; exact ⟨fun hh => hh.elim, fun hh => absurd hh h⟩

theorem fl_neg {x : ℚ} : fl (-x) = neg (fl x) := by
  unfold fl
  rw [round_neg, abs_neg]
  by_cases h : |round x| < 2 ^ 128
  · rw [if_pos h, if_pos h]
    rfl
  · rw [if_neg h, if_neg h]
    have h0 : x ≠ 0 := by
      rintro rfl
      apply h
      rw [round_zero, abs_zero]
      positivity
    show Num.inf _ = Num.inf _
    congr 1
    rcases lt_or_gt_of_ne h0 with h1 | h1
    · simp [h1, h1.le]
    · simp [h1, h1.le]

/-! Values that need no rounding, and nearness. -/

theorem log_lt {x : ℚ} {m e : ℤ} (hx : x = m * 2 ^ e) (hm : |m| < 2 ^ 24) (h0 : x ≠ 0) : Int.log 2 |x| - 23 ≤ e := by
  have h1 : |x| < (2 : ℚ) ^ (e + 24) := by
    rw [hx, abs_mul, abs_of_pos (two_pos e), zpow_add₀ (by norm_num), mul_comm]
    have : |(m : ℚ)| < 2 ^ (24 : ℤ) := by
      rw [← Int.cast_abs]
      exact_mod_cast hm
    nlinarith [two_pos e]
  have h2 := (Int.lt_zpow_iff_log_lt (b := 2) (by norm_num) (abs_pos.2 h0) (x := e + 24)).1 (by exact_mod_cast h1)
  omega

theorem mult_of_le {m e p : ℤ} (h : p ≤ e) : ∃ n : ℤ, (m : ℚ) * 2 ^ e = n * 2 ^ p := by
  obtain ⟨k, hk⟩ := Int.eq_ofNat_of_zero_le (show 0 ≤ e - p by omega)
  refine ⟨m * 2 ^ k, ?_⟩
  rw [show e = (k : ℤ) + p by omega, zpow_add₀ (by norm_num), zpow_natCast]
  push_cast
  ring

theorem round_float {x : ℚ} (h : IsFloat x) : round x = x := by
  by_cases h0 : x = 0
  · rw [h0, round_zero]
  · obtain ⟨m, e, hx, hm, he, _⟩ := h
    have hp : place x ≤ e := max_le (log_lt hx hm h0) he
    obtain ⟨n, hn⟩ := mult_of_le (m := m) hp
    unfold round
    have : x / 2 ^ place x = n := by
      rw [← hx] at hn
      have hp := (two_pos (place x)).ne'
      rw [div_eq_iff hp]
      exact hn
    rw [this, nearest_int, ← hn, hx]

theorem fl_float {x : ℚ} (h : IsFloat x) : fl x = .fin x := by
  unfold fl
  rw [round_float h, if_pos h.choose_spec.choose_spec.2.2.2]

/-- nothing with as few places is nearer -/
theorem round_nearest (x : ℚ) {m e : ℤ} (hm : |m| < 2 ^ 24) (he : -149 ≤ e) : |round x - x| ≤ |(m : ℚ) * 2 ^ e - x| := by
  have hscale : ∀ n : ℤ, |round x - x| ≤ |(n : ℚ) * 2 ^ place x - x| := by
    intro n
    have h := nearest_le (x / 2 ^ place x) n
    have hp := two_pos (place x)
    have e1 : ∀ n : ℤ, |(n : ℚ) * 2 ^ place x - x| = |(n : ℚ) - x / 2 ^ place x| * 2 ^ place x := by
      intro n
      rw [← abs_of_pos hp, ← abs_mul, abs_of_pos hp]
      congr 1
      field_simp
    unfold round
    rw [e1, e1]
    exact mul_le_mul_of_nonneg_right h hp.le
  by_cases hpe : place x ≤ e
  · obtain ⟨n, hn⟩ := mult_of_le (m := m) hpe
    rw [hn]
    exact hscale n
  · have hx0 : x ≠ 0 ∨ x = 0 := (em (x = 0)).symm
    rcases hx0 with hx | hx
    · rcases place_cases x with ⟨_, hp, _⟩ | hp | h0
      · have hlog := Int.zpow_log_le_self (b := 2) (r := |x|) (by norm_num) (abs_pos.2 hx)
        push_cast at hlog
        have hy : |(m : ℚ) * 2 ^ e| ≤ 2 ^ Int.log 2 |x| := by
          rw [abs_mul, abs_of_pos (two_pos e)]
          have hm' : |(m : ℚ)| ≤ 2 ^ (24 : ℤ) := by
            rw [← Int.cast_abs]
            exact_mod_cast hm.le
          have h2 : (2 : ℚ) ^ (24 : ℤ) * 2 ^ e = 2 ^ (24 + e) := (zpow_add₀ (by norm_num) _ _).symm
          have h3 : (2 : ℚ) ^ (24 + e) ≤ 2 ^ Int.log 2 |x| := zpow_le_zpow_right₀ (by norm_num) (by omega)
          nlinarith [two_pos e]
        have hq : (2 : ℚ) ^ Int.log 2 |x| = ((2 ^ 23 : ℤ) : ℚ) * 2 ^ place x := by
          rw [show Int.log 2 |x| = 23 + place x by omega, zpow_add₀ (by norm_num)]
          norm_num
        rcases le_total 0 x with hs | hs
        · have h1 := hscale (2 ^ 23)
          rw [← hq] at h1
          rw [abs_of_nonneg hs] at hlog hy h1
          have h2 := (abs_le.1 hy).2
          rw [abs_of_nonpos (by linarith : (2 : ℚ) ^ Int.log 2 x - x ≤ 0)] at h1
          rw [abs_of_nonpos (by linarith : (m : ℚ) * 2 ^ e - x ≤ 0)]
          linarith
        · have h1 := hscale (-2 ^ 23)
          have hq' : (((-2 ^ 23 : ℤ)) : ℚ) * 2 ^ place x = -2 ^ Int.log 2 |x| := by
            rw [hq]; push_cast; ring
          rw [hq'] at h1
          rw [abs_of_nonpos hs] at hlog hy h1
          have h2 := (abs_le.1 hy).1
          rw [abs_of_nonneg (by linarith : 0 ≤ -(2 : ℚ) ^ Int.log 2 (-x) - x)] at h1
          rw [abs_of_nonneg (by linarith : 0 ≤ (m : ℚ) * 2 ^ e - x)]
          linarith
      · omega
      · exact absurd h0 hx
    · rw [hx, round_zero, sub_zero, abs_zero]
      exact abs_nonneg _

theorem round_nonneg {x : ℚ} (h : 0 ≤ x) : 0 ≤ round x := by
  unfold round
  have h1 : (0 : ℚ) ≤ x / 2 ^ place x := div_nonneg h (two_pos _).le
  have h2 := nearest_mono h1
  have h3 : nearest 0 = 0 := by exact_mod_cast nearest_int 0
  rw [h3] at h2
  have : (0 : ℚ) ≤ nearest (x / 2 ^ place x) := by exact_mod_cast h2
  exact mul_nonneg this (two_pos _).le

/-- rounding a multiple of the smallest number that is not zero does not give zero -/
theorem round_ne_zero {x : ℚ} (hx : Grid x) (h : x ≠ 0) : round x ≠ 0 := by
  intro hc
  have h1 := round_grid_err hx
  rw [hc, zero_sub, abs_neg] at h1
  have h2 := abs_pos.2 h
  have h3 : unit < 1 := by norm_num [unit]
  nlinarith

/-- what rounding gives is a `float32` unless infinite -/
theorem float_round {x : ℚ} (h : |round x| < 2 ^ 128) : IsFloat (round x) := by
  by_cases h0 : x = 0
  · rw [h0, round_zero]
    exact ⟨0, 0, by simp, by norm_num, by norm_num, by norm_num⟩
  have hle : |(nearest (x / 2 ^ place x))| ≤ 2 ^ 24 := by
    have hp := two_pos (place x)
    have h1 : |x / 2 ^ place x| ≤ 2 ^ 24 := by
      rw [abs_div, abs_of_pos hp, div_le_iff₀ hp]
      have h2 := Int.lt_zpow_succ_log_self (b := 2) (by norm_num) |x|
      have h3 : Int.log 2 |x| + 1 ≤ 24 + place x := by
        have : Int.log 2 |x| - 23 ≤ place x := le_max_left _ _
        omega
      have h4 : (2 : ℚ) ^ (Int.log 2 |x| + 1) ≤ 2 ^ (24 + place x) := zpow_le_zpow_right₀ (by norm_num) h3
      have h5 : (2 : ℚ) ^ (24 + place x) = 2 ^ 24 * 2 ^ place x := by
        rw [zpow_add₀ (by norm_num)]
        norm_num
      rw [h5] at h4
      push_cast at h2
      linarith
    have h2 := abs_le.1 h1
    have h3 := nearest_mono h2.1
    have h4 := nearest_mono h2.2
    have e1 : nearest (2 ^ 24 : ℚ) = 2 ^ 24 := by
      have := nearest_int (2 ^ 24)
      push_cast at this
      exact this
    have e2 : nearest (-2 ^ 24 : ℚ) = -2 ^ 24 := by rw [nearest_neg, e1]
    rw [e1] at h4
    rw [e2] at h3
    exact abs_le.2 ⟨h3, h4⟩
  by_cases hlt : |(nearest (x / 2 ^ place x))| < 2 ^ 24
  · exact ⟨nearest (x / 2 ^ place x), place x, rfl, hlt, place_ge x, h⟩
  · have heq : |(nearest (x / 2 ^ place x))| = 2 ^ 24 := le_antisymm hle (not_lt.1 hlt)
    have hs : (2 : ℚ) ^ (place x + 24) = 2 ^ 24 * 2 ^ place x := by
      rw [zpow_add₀ (by norm_num), mul_comm]
      norm_num
    rcases abs_eq (by norm_num : (0 : ℤ) ≤ 2 ^ 24) |>.1 heq with hc | hc
    · refine ⟨1, place x + 24, ?_, by norm_num, by have := place_ge x; omega, h⟩
      rw [hs]
      unfold round
      rw [hc]
      push_cast
      ring
    · refine ⟨-1, place x + 24, ?_, by norm_num, by have := place_ge x; omega, h⟩
      rw [hs]
      unfold round
      rw [hc]
      push_cast
      ring

theorem fl_isFloat {x v : ℚ} (h : fl x = .fin v) : IsFloat v := by
  have h1 := fl_fin h
  rw [h1]
  refine float_round ?_
  exact fl_isFin.1 (by rw [h]; trivial)

end F32
end Fave

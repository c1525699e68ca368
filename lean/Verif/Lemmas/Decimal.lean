import Verif.Spec.Decimal
import Verif.Lemmas.Float32
import Verif.Lemmas.Json
/-!
# Rounding to a format, and the shortest decimal
-/
namespace Fave.Json
open F32 (nearest nearest_int nearest_le nearest_neg nearest_mono nearest_abs two_pos mult_of_le)

theorem f32_good : f32.Good := by unfold Fmt.Good f32; norm_num
theorem f64_good : f64.Good := by unfold Fmt.Good f64; norm_num

theorem Fmt.place_neg (F : Fmt) (x : ℚ) : F.place (-x) = F.place x := by simp [Fmt.place]

theorem Fmt.round_neg (F : Fmt) (x : ℚ) : F.round (-x) = -F.round x := by
  unfold Fmt.round
  rw [F.place_neg, neg_div, nearest_neg]
  push_cast
  ring

theorem Fmt.round_zero (F : Fmt) : F.round 0 = 0 := by
  have h : nearest 0 = 0 := by exact_mod_cast nearest_int 0
  simp [Fmt.round, h]

theorem Fmt.place_ge (F : Fmt) (x : ℚ) : F.low ≤ F.place x := le_max_right _ _

theorem Fmt.log_lt {F : Fmt} {x : ℚ} {m e : ℤ} (hx : x = m * 2 ^ e) (hm : |m| < 2 ^ F.bits) (h0 : x ≠ 0) :
    Int.log 2 |x| - (F.bits - 1) ≤ e := by
  have h1 : |x| < (2 : ℚ) ^ (e + F.bits) := by
    rw [hx, abs_mul, abs_of_pos (two_pos e), zpow_add₀ (by norm_num), mul_comm]
    have : |(m : ℚ)| < 2 ^ (F.bits : ℤ) := by
      rw [← Int.cast_abs]
      exact_mod_cast hm
    nlinarith [two_pos e]
  have h2 := (Int.lt_zpow_iff_log_lt (b := 2) (by norm_num) (abs_pos.2 h0) (x := e + F.bits)).1 (by exact_mod_cast h1)
  omega

/-- a number with few enough places needs no rounding -/
theorem Fmt.round_of {F : Fmt} {x : ℚ} {m e : ℤ} (hx : x = m * 2 ^ e) (hm : |m| < 2 ^ F.bits) (he : F.low ≤ e) : F.round x = x := by
  by_cases h0 : x = 0
  · rw [h0, F.round_zero]
  · have hp : F.place x ≤ e := max_le (Fmt.log_lt hx hm h0) he
    obtain ⟨n, hn⟩ := mult_of_le (m := m) hp
    unfold Fmt.round
    have : x / 2 ^ F.place x = n := by
      rw [← hx] at hn
      have hp := (two_pos (F.place x)).ne'
      rw [div_eq_iff hp]
      exact hn
    rw [this, nearest_int, ← hn, hx]

theorem Fmt.round_is {F : Fmt} {x : ℚ} (h : F.Is x) : F.round x = x := by
  obtain ⟨m, e, hx, hm, he, _⟩ := h
  exact Fmt.round_of hx hm he

/-- what rounding gives has few enough places -/
theorem Fmt.shape {F : Fmt} (hF : F.Good) (x : ℚ) : ∃ m e : ℤ, F.round x = m * 2 ^ e ∧ |m| < 2 ^ F.bits ∧ F.low ≤ e := by
  obtain ⟨hb, -, -⟩ := hF
  by_cases h0 : x = 0
  · rw [h0, F.round_zero]
    exact ⟨0, F.low, by simp, by simp, le_refl _⟩
  have hle : |(nearest (x / 2 ^ F.place x))| ≤ 2 ^ F.bits := by
    have hp := two_pos (F.place x)
    have h1 : |x / 2 ^ F.place x| ≤ 2 ^ F.bits := by
      rw [abs_div, abs_of_pos hp, div_le_iff₀ hp]
      have h2 := Int.lt_zpow_succ_log_self (b := 2) (by norm_num) |x|
      have h3 : Int.log 2 |x| + 1 ≤ F.bits + F.place x := by
        have : Int.log 2 |x| - (F.bits - 1) ≤ F.place x := le_max_left _ _
        omega
      have h4 : (2 : ℚ) ^ (Int.log 2 |x| + 1) ≤ 2 ^ ((F.bits : ℤ) + F.place x) := zpow_le_zpow_right₀ (by norm_num) h3
      have h5 : (2 : ℚ) ^ ((F.bits : ℤ) + F.place x) = 2 ^ F.bits * 2 ^ F.place x := by
        rw [zpow_add₀ (by norm_num), zpow_natCast]
      rw [h5] at h4
      push_cast at h2
      linarith
    have h2 := abs_le.1 h1
    have h3 := nearest_mono h2.1
    have h4 := nearest_mono h2.2
    have e1 : nearest (2 ^ F.bits : ℚ) = 2 ^ F.bits := by
      have := nearest_int (2 ^ F.bits)
      push_cast at this
      exact this
    have e2 : nearest (-2 ^ F.bits : ℚ) = -2 ^ F.bits := by rw [nearest_neg, e1]
    rw [e1] at h4
    rw [e2] at h3
    exact abs_le.2 ⟨h3, h4⟩
  have one : (1 : ℤ) < 2 ^ F.bits := one_lt_pow₀ (by norm_num) (by omega)
  by_cases hlt : |(nearest (x / 2 ^ F.place x))| < 2 ^ F.bits
  · exact ⟨nearest (x / 2 ^ F.place x), F.place x, rfl, hlt, F.place_ge x⟩
  · have heq : |(nearest (x / 2 ^ F.place x))| = 2 ^ F.bits := le_antisymm hle (not_lt.1 hlt)
    have hs : (2 : ℚ) ^ (F.place x + F.bits) = 2 ^ F.bits * 2 ^ F.place x := by
      rw [zpow_add₀ (by norm_num), mul_comm, zpow_natCast]
    rcases abs_eq (by positivity : (0 : ℤ) ≤ 2 ^ F.bits) |>.1 heq with hc | hc
    · refine ⟨1, F.place x + F.bits, ?_, by simpa using one, by have := F.place_ge x; omega⟩
      rw [hs]
      unfold Fmt.round
      rw [hc]
      push_cast
      ring
    · refine ⟨-1, F.place x + F.bits, ?_, by simpa using one, by have := F.place_ge x; omega⟩
      rw [hs]
      unfold Fmt.round
      rw [hc]
      push_cast
      ring

/-- what is read is a number of the format -/
theorem Fmt.read_is {F : Fmt} (hF : F.Good) {q x : ℚ} (h : F.read q = some x) : F.Is x := by
  unfold Fmt.read at h
  split at h
  · rename_i hb
    simp only [Option.some.injEq] at h
    subst h
    obtain ⟨m, e, h1, h2, h3⟩ := Fmt.shape hF q
    exact ⟨m, e, h1, h2, h3, hb⟩
  · simp at h

/-- nothing with as few places is nearer -/
theorem Fmt.round_nearest {F : Fmt} (hF : F.Good) (x : ℚ) {m e : ℤ} (hm : |m| < 2 ^ F.bits) (he : F.low ≤ e) :
    |F.round x - x| ≤ |(m : ℚ) * 2 ^ e - x| := by
  have hscale : ∀ n : ℤ, |F.round x - x| ≤ |(n : ℚ) * 2 ^ F.place x - x| := by
    intro n
    have h := nearest_le (x / 2 ^ F.place x) n
    have hp := two_pos (F.place x)
    have e1 : ∀ n : ℤ, |(n : ℚ) * 2 ^ F.place x - x| = |(n : ℚ) - x / 2 ^ F.place x| * 2 ^ F.place x := by
      intro n
      rw [← abs_of_pos hp, ← abs_mul, abs_of_pos hp]
      congr 1
      field_simp
    unfold Fmt.round
    rw [e1, e1]
    exact mul_le_mul_of_nonneg_right h hp.le
  by_cases hpe : F.place x ≤ e
  · obtain ⟨n, hn⟩ := mult_of_le (m := m) hpe
    rw [hn]
    exact hscale n
  · by_cases hx : x = 0
    · rw [hx, F.round_zero, sub_zero, abs_zero]
      exact abs_nonneg _
    · have hp : F.place x = Int.log 2 |x| - (F.bits - 1) := by
        unfold Fmt.place at hpe ⊢
        rcases max_choice (Int.log 2 |x| - ((F.bits : ℤ) - 1)) F.low with h | h
        · exact h
        · rw [h] at hpe; omega
      have hb := hF.1
      have hlog := Int.zpow_log_le_self (b := 2) (r := |x|) (by norm_num) (abs_pos.2 hx)
      push_cast at hlog
      have hy : |(m : ℚ) * 2 ^ e| ≤ 2 ^ Int.log 2 |x| := by
        rw [abs_mul, abs_of_pos (two_pos e)]
        have hm' : |(m : ℚ)| ≤ 2 ^ (F.bits : ℤ) := by
          rw [← Int.cast_abs]
          exact_mod_cast hm.le
        have h2 : (2 : ℚ) ^ (F.bits : ℤ) * 2 ^ e = 2 ^ ((F.bits : ℤ) + e) := (zpow_add₀ (by norm_num) _ _).symm
        have h3 : (2 : ℚ) ^ ((F.bits : ℤ) + e) ≤ 2 ^ Int.log 2 |x| := zpow_le_zpow_right₀ (by norm_num) (by omega)
        nlinarith [two_pos e]
      have hq : (2 : ℚ) ^ Int.log 2 |x| = ((2 ^ (F.bits - 1) : ℤ) : ℚ) * 2 ^ F.place x := by
        rw [show Int.log 2 |x| = ((F.bits - 1 : ℕ) : ℤ) + F.place x by omega, zpow_add₀ (by norm_num), zpow_natCast]
        push_cast
        rfl
      rcases le_total 0 x with hs | hs
      · have h1 := hscale (2 ^ (F.bits - 1))
        rw [← hq] at h1
        rw [abs_of_nonneg hs] at hlog hy h1
        have h2 := (abs_le.1 hy).2
        rw [abs_of_nonpos (by linarith : (2 : ℚ) ^ Int.log 2 x - x ≤ 0)] at h1
        rw [abs_of_nonpos (by linarith : (m : ℚ) * 2 ^ e - x ≤ 0)]
        linarith
      · have h1 := hscale (-2 ^ (F.bits - 1))
        have hq' : (((-2 ^ (F.bits - 1) : ℤ)) : ℚ) * 2 ^ F.place x = -2 ^ Int.log 2 |x| := by
          rw [hq]; push_cast; ring
        rw [hq'] at h1
        rw [abs_of_nonpos hs] at hlog hy h1
        have h2 := (abs_le.1 hy).1
        rw [abs_of_nonneg (by linarith : 0 ≤ -(2 : ℚ) ^ Int.log 2 (-x) - x)] at h1
        rw [abs_of_nonneg (by linarith : 0 ≤ (m : ℚ) * 2 ^ e - x)]
        linarith

/-- two different numbers with few places are not very near each other -/
theorem Fmt.apart {F : Fmt} {u v : ℚ} {m e m' e' : ℤ} (hu : u = m * 2 ^ e) (hm : |m| < 2 ^ F.bits) (hv : v = m' * 2 ^ e')
    (hm' : |m'| < 2 ^ F.bits) (hne : u ≠ v) : |u| ≤ 2 ^ F.bits * |u - v| := by
  have key : ∀ (a b : ℚ) (m n e : ℤ), a = m * 2 ^ e → b = n * 2 ^ e → a ≠ b → (2 : ℚ) ^ e ≤ |a - b| := by
    intro a b m n e ha hb hab
    have hmn : m - n ≠ 0 := by
      intro h
      exact hab (by rw [ha, hb, show m = n by omega])
    rw [ha, hb, ← sub_mul, abs_mul, abs_of_pos (two_pos e)]
    have h1 : (1 : ℤ) ≤ |m - n| := Int.one_le_abs hmn
    have h2 : (1 : ℚ) ≤ |(m : ℚ) - n| := by
      have : ((1 : ℤ) : ℚ) ≤ ((|m - n| : ℤ) : ℚ) := by exact_mod_cast h1
      rw [Int.cast_abs] at this
      push_cast at this
      exact this
    nlinarith [two_pos e]
  have cm : ∀ n : ℤ, |n| < 2 ^ F.bits → |(n : ℚ)| ≤ 2 ^ F.bits - 1 := by
    intro n hn
    rw [← Int.cast_abs]
    have : |n| ≤ 2 ^ F.bits - 1 := by omega
    exact_mod_cast this
  have big : (1 : ℚ) ≤ 2 ^ F.bits := one_le_pow₀ (by norm_num)
  rcases le_total e e' with h | h
  · obtain ⟨n, hn⟩ := mult_of_le (m := m') h
    have h1 := key u v m n e hu (by rw [hv, hn]) hne
    have h2 := cm m hm
    rw [hu, abs_mul, abs_of_pos (two_pos e), ← hu]
    nlinarith [two_pos e]
  · obtain ⟨n, hn⟩ := mult_of_le (m := m) h
    have h1 := key u v n m' e' (by rw [hu, hn]) hv hne
    have h2 := cm m' hm'
    have h3 : |v| ≤ (2 ^ F.bits - 1) * 2 ^ e' := by
      rw [hv, abs_mul, abs_of_pos (two_pos e')]
      nlinarith [two_pos e']
    have h4 : |u| ≤ |v| + |u - v| := by
      have := abs_add_le v (u - v)
      simpa using this
    have h5 : (2 ^ F.bits - 1) * (2 : ℚ) ^ e' ≤ (2 ^ F.bits - 1) * |u - v| := by
      apply mul_le_mul_of_nonneg_left h1; linarith
    linarith

/-- a decimal with enough digits is read back -/
theorem Fmt.near_back {F : Fmt} (hF : F.Good) {x y : ℚ} (hx : F.Is x) (h0 : x ≠ 0) (h : |y - x| ≤ |x| / (2 * 10 ^ (F.dec - 1))) : F.round y = x := by
  obtain ⟨m, e, h1, h2, h3, -⟩ := hx
  obtain ⟨n, d, g1, g2, g3⟩ := Fmt.shape hF y
  by_contra hne
  have a := Fmt.round_nearest hF y h2 h3
  rw [← h1] at a
  have b := Fmt.apart h1 h2 g1 g2 (fun h => hne h.symm)
  have c : |x - F.round y| ≤ |F.round y - y| + |y - x| := by
    have := abs_add_le (x - y) (y - F.round y)
    rw [abs_sub_comm x y, abs_sub_comm y (F.round y)] at this
    simp at this
    linarith
  have d1 : |x - y| = |y - x| := abs_sub_comm _ _
  have hxp := abs_pos.2 h0
  have ht : (0 : ℚ) < 10 ^ (F.dec - 1) := by positivity
  have hbig : (2 : ℚ) ^ F.bits < 10 ^ (F.dec - 1) := by exact_mod_cast hF.2.2
  have e1 : |x - F.round y| ≤ |x| / 10 ^ (F.dec - 1) := by
    have : |x| / (2 * 10 ^ (F.dec - 1)) + |x| / (2 * 10 ^ (F.dec - 1)) = |x| / 10 ^ (F.dec - 1) := by field_simp; ring
    linarith
  have e2 : |x| ≤ 2 ^ F.bits * (|x| / 10 ^ (F.dec - 1)) := le_trans b (mul_le_mul_of_nonneg_left e1 (by positivity))
  rw [mul_div_assoc', le_div_iff₀ ht] at e2
  nlinarith

/-- some decimal with the number of digits of the format is read back -/
theorem Fmt.pick_dec {F : Fmt} (hF : F.Good) {x : ℚ} (hx : F.Is x) (h0 : 0 < x) : F.pick x F.dec ≠ none := by
  obtain ⟨hb, hd, hbig⟩ := hF
  have hlog := Int.zpow_log_le_self (b := 10) (r := x) (by norm_num) h0
  push_cast at hlog
  have ht : (0 : ℚ) < 10 ^ (Int.log 10 x + 1 - F.dec) := by positivity
  have hk : (10 : ℚ) ^ (Int.log 10 x + 1 - (F.dec : ℤ)) * 10 ^ (F.dec - 1) = 10 ^ Int.log 10 x := by
    rw [← zpow_natCast (10 : ℚ) (F.dec - 1), ← zpow_add₀ (by norm_num)]
    congr 1
    omega
  have hy : 0 ≤ nearest (x / 10 ^ (Int.log 10 x + 1 - (F.dec : ℤ))) := by
    have h1 : (0 : ℚ) ≤ x / 10 ^ (Int.log 10 x + 1 - (F.dec : ℤ)) := div_nonneg h0.le ht.le
    have h2 := nearest_mono h1
    have h3 : nearest 0 = 0 := by exact_mod_cast nearest_int 0
    rwa [h3] at h2
  have hback : F.round ((nearest (x / 10 ^ (Int.log 10 x + 1 - (F.dec : ℤ)))).toNat * 10 ^ (Int.log 10 x + 1 - (F.dec : ℤ))) = x := by
    apply Fmt.near_back ⟨hb, hd, hbig⟩ hx h0.ne'
    have hn := nearest_abs (x / 10 ^ (Int.log 10 x + 1 - (F.dec : ℤ)))
    have hc : (((nearest (x / 10 ^ (Int.log 10 x + 1 - (F.dec : ℤ)))).toNat : ℕ) : ℚ) = (nearest (x / 10 ^ (Int.log 10 x + 1 - (F.dec : ℤ))) : ℚ) := by
      have : ((nearest (x / 10 ^ (Int.log 10 x + 1 - (F.dec : ℤ)))).toNat : ℤ) = nearest (x / 10 ^ (Int.log 10 x + 1 - (F.dec : ℤ))) := Int.toNat_of_nonneg hy
      exact_mod_cast this
    rw [hc]
    generalize nearest (x / 10 ^ (Int.log 10 x + 1 - (F.dec : ℤ))) = a at *
    generalize (10 : ℚ) ^ (Int.log 10 x + 1 - (F.dec : ℤ)) = t at *
    have e1 : |(a : ℚ) * t - x| = |(a : ℚ) - x / t| * t := by
      rw [← abs_of_pos ht, ← abs_mul, abs_of_pos ht]
      congr 1
      field_simp
    rw [e1, abs_of_pos h0, le_div_iff₀ (by positivity)]
    have : |(a : ℚ) - x / t| * t * (2 * 10 ^ (F.dec - 1)) = (2 * |(a : ℚ) - x / t|) * (t * 10 ^ (F.dec - 1)) := by ring
    rw [this, hk]
    have hp : (0 : ℚ) < 10 ^ Int.log 10 x := by positivity
    nlinarith
  unfold Fmt.pick
  simp only [hback, if_true]
  simp

theorem Fmt.pick_back {F : Fmt} {x : ℚ} {n m : ℕ} {k : ℤ} (h : F.pick x n = some (m, k)) : F.round (m * 10 ^ k) = x := by
  unfold Fmt.pick at h
  simp only at h
  split_ifs at h <;> simp only [Option.some.injEq, Prod.mk.injEq, reduceCtorEq] at h <;> obtain ⟨rfl, rfl⟩ := h <;> assumption

/-- there is a shortest decimal, and it is read back -/
theorem Fmt.shortest_back {F : Fmt} (hF : F.Good) {x : ℚ} (hx : F.Is x) (h0 : 0 < x) :
    ∃ m k, F.shortest x = some (m, k) ∧ F.round (m * 10 ^ k) = x := by
  cases h : F.shortest x with
  | none =>
    unfold Fmt.shortest at h
    rw [List.findSome?_eq_none_iff] at h
    have := h (F.dec - 1) (by have := hF.2.1; simp; omega)
    rw [show F.dec - 1 + 1 = F.dec by have := hF.2.1; omega] at this
    exact absurd this (Fmt.pick_dec hF hx h0)
  | some r =>
    obtain ⟨m, k⟩ := r
    refine ⟨m, k, rfl, ?_⟩
    unfold Fmt.shortest at h
    obtain ⟨n, -, hn⟩ := List.exists_of_findSome?_eq_some h
    exact Fmt.pick_back hn

/-! ## Digits -/

theorem num_append (a b : Text) : num (a ++ b) = num a * 10 ^ b.length + num b := by
  unfold num
  rw [Nat.ofDigitChars_append, Nat.ofDigitChars_eq_ofDigitChars_zero, Nat.mul_comm]

theorem num_zeros (n : ℕ) : num (List.replicate n '0') = 0 := by
  unfold num
  rw [Nat.ofDigitChars_replicate_zero, Nat.mul_zero]

theorem num_nat (n : ℕ) : num (nat n) = n := Nat.ofDigitChars_ten_toDigits

theorem nat_digits (n : ℕ) : Digits (nat n) := ⟨Nat.toDigits_ne_nil, fun _ hc => Nat.isDigit_of_mem_toDigits (by norm_num) (by norm_num) hc⟩

theorem nat_head {n : ℕ} (h : n ≠ 0) : (nat n).head? ≠ some '0' := by
  induction n using Nat.strong_induction_on with
  | _ n ih =>
    unfold nat
    rw [Nat.toDigits_eq_if (by norm_num)]
    split
    · simpa using h
    · rename_i hn
      have := ih (n / 10) (by omega) (by omega)
      unfold nat at this
      cases hd : Nat.toDigits 10 (n / 10) with
      | nil => exact absurd hd Nat.toDigits_ne_nil
      | cons c r => rw [hd] at this; simpa using this

theorem takeWhile_zeros (ds : Text) : ds.takeWhile (fun c => decide (c = '0')) = List.replicate (ds.takeWhile (fun c => decide (c = '0'))).length '0' := by
  induction ds with
  | nil => rfl
  | cons c ds ih =>
    by_cases h : c = '0'
    · subst h
      simp only [decide_true, List.takeWhile_cons_of_pos, List.length_cons, List.replicate_succ]
      rw [← ih]
    · simp [h]

/-- only zeros are cut off -/
theorem trim_zeros (ds : Text) : ∃ n, ds = trim ds ++ List.replicate n '0' := by
  refine ⟨(ds.reverse.takeWhile (fun c => decide (c = '0'))).length, ?_⟩
  have h1 := congrArg List.reverse (List.takeWhile_append_dropWhile (p := fun c => decide (c = '0')) (l := ds.reverse))
  rw [List.reverse_append, List.reverse_reverse] at h1
  have h2 := congrArg List.reverse (takeWhile_zeros ds.reverse)
  rw [List.reverse_replicate] at h2
  rw [h2] at h1
  exact h1.symm

theorem trim_nat {m : ℕ} (hm : m ≠ 0) : Digits (trim (nat m)) ∧ (trim (nat m)).head? ≠ some '0' ∧
    (num (trim (nat m)) : ℚ) * 10 ^ (((nat m).length : ℤ) - (trim (nat m)).length) = m := by
  obtain ⟨n, hn⟩ := trim_zeros (nat m)
  have hd := nat_digits m
  have hh := nat_head hm
  have hne : trim (nat m) ≠ [] := by
    intro h
    rw [h, List.nil_append] at hn
    have := num_nat m
    rw [hn, num_zeros] at this
    exact hm this.symm
  refine ⟨⟨hne, fun c hc => hd.2 c (by rw [hn]; simp [hc])⟩, ?_, ?_⟩
  · intro h
    apply hh
    rw [hn]
    cases ht : trim (nat m) with
    | nil => exact absurd ht hne
    | cons c r => rw [ht] at h; simpa using h
  · have h1 := num_nat m
    rw [hn, num_append, num_zeros] at h1
    have h2 : (nat m).length = (trim (nat m)).length + n := by
      have := congrArg List.length hn
      simpa using this
    simp only [List.length_replicate] at h1
    rw [h2]
    push_cast
    rw [add_sub_cancel_left, zpow_natCast]
    exact_mod_cast h1

theorem take_drop_num (ds : Text) (n : ℕ) : num (ds.take n ++ ds.drop n) = num ds := by rw [List.take_append_drop]

theorem digits_sub {ds t : Text} (h : ∀ c ∈ ds, c.isDigit = true) (ht : ∀ c ∈ t, c ∈ ds ∨ c = '0') : ∀ c ∈ t, c.isDigit = true := by
  intro c hc
  rcases ht c hc with h' | h'
  · exact h c h'
  · rw [h']; decide

/-- the text without exponent is a number and has the value -/
theorem plain_ok {ds : Text} {dp : ℤ} (hd : Digits ds) (hh : ds.head? ≠ some '0') (neg : Bool) :
    (⟨neg, (plain ds dp).1, (plain ds dp).2, none⟩ : Lit).Ok ∧
    (⟨neg, (plain ds dp).1, (plain ds dp).2, none⟩ : Lit).value = (if neg then -1 else 1) * (num ds * 10 ^ (dp - ds.length)) := by
  unfold plain
  split
  · rename_i h
    refine ⟨⟨⟨by simp, by simp only [List.mem_singleton, forall_eq]; decide⟩, by simp, ?_, by simp⟩, ?_⟩
    · intro f hf
      simp only [Option.some.injEq] at hf
      subst hf
      refine ⟨by simp [hd.1], digits_sub hd.2 ?_⟩
      intro c hc
      simp only [List.mem_append, List.mem_replicate] at hc
      tauto
    · simp only [Lit.value, Lit.ten, Option.getD_some]
      have h1 : num (['0'] ++ (List.replicate dp.natAbs '0' ++ ds)) = num ds := by
        rw [num_append, num_append, num_zeros]
        simp [num, Nat.ofDigitChars_cons]
      rw [h1]
      congr 3
      simp only [List.length_append, List.length_replicate]
      omega
  · rename_i h
    split
    · rename_i h2
      refine ⟨⟨⟨by simp [hd.1], digits_sub hd.2 ?_⟩, ?_, by simp, by simp⟩, ?_⟩
      · intro c hc
        simp only [List.mem_append, List.mem_replicate] at hc
        tauto
      · intro h3
        cases ds with
        | nil => exact absurd rfl hd.1
        | cons c r => exact absurd (by simpa using h3) hh
      · simp only [Lit.value, Lit.ten, Option.getD_none, List.append_nil, List.length_nil]
        rw [num_append, num_zeros]
        simp only [List.length_replicate]
        push_cast
        have : dp - (ds.length : ℤ) = ((dp - (ds.length : ℤ)).natAbs : ℤ) := by omega
        conv_rhs => rw [this, zpow_natCast]
        simp
    · rename_i h2
      have hlen : dp.natAbs < ds.length := by omega
      refine ⟨⟨⟨?_, fun c hc => hd.2 c (List.mem_of_mem_take hc)⟩, ?_, ?_, by simp⟩, ?_⟩
      · intro h3
        have := congrArg List.length h3
        simp only [List.length_take, List.length_nil] at this
        omega
      · intro h3
        exfalso
        apply hh
        cases ds with
        | nil => exact absurd rfl hd.1
        | cons c r =>
          rw [show dp.natAbs = (dp.natAbs - 1) + 1 by omega] at h3
          simpa using h3
      · intro f hf
        simp only [Option.some.injEq] at hf
        subst hf
        refine ⟨?_, fun c hc => hd.2 c (List.mem_of_mem_drop hc)⟩
        intro h3
        have := congrArg List.length h3
        simp only [List.length_drop, List.length_nil] at this
        omega
      · simp only [Lit.value, Lit.ten, Option.getD_some]
        rw [take_drop_num]
        congr 3
        simp only [List.length_drop]
        omega

/-- the text with exponent is a number and has the value -/
theorem scientific_ok {ds : Text} {dp : ℤ} (hd : Digits ds) (hh : ds.head? ≠ some '0') (neg : Bool) :
    (⟨neg, (scientific ds dp).1, (scientific ds dp).2.1, some (scientific ds dp).2.2⟩ : Lit).Ok ∧
    (⟨neg, (scientific ds dp).1, (scientific ds dp).2.1, some (scientific ds dp).2.2⟩ : Lit).value =
      (if neg then -1 else 1) * (num ds * 10 ^ (dp - ds.length)) := by
  cases ds with
  | nil => exact absurd rfl hd.1
  | cons c r =>
    have hc : c ≠ '0' := by simpa using hh
    refine ⟨⟨⟨by simp [scientific], ?_⟩, ?_, ?_, ?_⟩, ?_⟩
    · simp only [scientific, List.take_succ_cons, List.take_zero, List.mem_singleton, forall_eq]
      exact hd.2 c (by simp)
    · simp [scientific]
    · intro f hf
      simp only [scientific, List.drop_succ_cons, List.drop_zero] at hf
      split at hf
      · simp at hf
      · rename_i h
        simp only [Option.some.injEq] at hf
        subst hf
        exact ⟨h, fun x hx => hd.2 x (by simp [hx])⟩
    · intro n e he
      simp only [scientific, Option.some.injEq, Prod.mk.injEq] at he
      rw [← he.2]
      exact nat_digits _
    · have hten : (⟨neg, (scientific (c :: r) dp).1, (scientific (c :: r) dp).2.1, some (scientific (c :: r) dp).2.2⟩ : Lit).ten = dp - 1 := by
        simp only [Lit.ten, scientific, num_nat, decide_eq_true_eq]
        split <;> omega
      have hfr : (scientific (c :: r) dp).2.1.getD [] = r := by
        simp only [scientific, List.drop_succ_cons, List.drop_zero]
        split
        · rename_i h; rw [h]; rfl
        · rfl
      unfold Lit.value
      rw [hten]
      simp only [hfr]
      have : (scientific (c :: r) dp).1 ++ r = c :: r := rfl
      rw [this]
      congr 3
      simp only [List.length_cons]
      push_cast
      ring

/-- **what is written is read**: every number of the format is written as a JSON number whose value is read back as the number -/
theorem Fmt.lit_back {F : Fmt} (hF : F.Good) {x : ℚ} (hx : F.Is x) : ∃ l, F.lit x = some l ∧ l.Ok ∧ F.read l.value = some x := by
  have hsize : |x| < 2 ^ F.high := hx.choose_spec.choose_spec.2.2.2
  unfold Fmt.lit
  by_cases h0 : x = 0
  · rw [if_pos h0]
    refine ⟨_, rfl, ⟨⟨by simp, by decide⟩, by simp, by simp, by simp⟩, ?_⟩
    have : (⟨false, ['0'], none, none⟩ : Lit).value = 0 := by
      simp [Lit.value, num, Nat.ofDigitChars_cons]
    rw [this]
    unfold Fmt.read
    rw [F.round_zero, h0]
    simp
  · rw [if_neg h0]
    have hp := abs_pos.2 h0
    have hxa : F.Is |x| := by
      obtain ⟨m, e, h1, h2, h3, h4⟩ := hx
      refine ⟨|m|, e, ?_, by rwa [abs_abs], h3, by rwa [abs_abs]⟩
      rw [h1, abs_mul, abs_of_pos (two_pos e), Int.cast_abs]
    obtain ⟨m, k, hs, hb⟩ := Fmt.shortest_back hF hxa hp
    have hm : m ≠ 0 := by
      rintro rfl
      simp [F.round_zero] at hb
      exact h0 (abs_eq_zero.1 hb.symm)
    obtain ⟨t1, t2, t3⟩ := trim_nat hm
    have hv : (num (trim (nat m)) : ℚ) * 10 ^ (((nat m).length : ℤ) + k - (trim (nat m)).length) = m * 10 ^ k := by
      rw [show ((nat m).length : ℤ) + k - (trim (nat m)).length = ((nat m).length - (trim (nat m)).length) + k by ring, zpow_add₀ (by norm_num),
        ← mul_assoc, t3]
    have hread : ∀ l : Lit, l.value = (if decide (x < 0) then -1 else 1) * (m * 10 ^ k) → F.read l.value = some x := by
      intro l hl
      have hr : F.round l.value = x := by
        rw [hl]
        by_cases hn : x < 0
        · simp only [hn, decide_true, if_true, neg_one_mul]
          rw [F.round_neg, hb, abs_of_neg hn, neg_neg]
        · simp only [hn, decide_false, Bool.false_eq_true, if_false, one_mul]
          rw [hb, abs_of_nonneg (not_lt.1 hn)]
      unfold Fmt.read
      rw [hr, if_pos hsize]
    rw [hs]
    simp only
    split
    · obtain ⟨a, b⟩ := scientific_ok (dp := (nat m).length + k) t1 t2 (decide (x < 0))
      exact ⟨_, rfl, a, hread _ (by rw [b, hv])⟩
    · obtain ⟨a, b⟩ := plain_ok (dp := (nat m).length + k) t1 t2 (decide (x < 0))
      exact ⟨_, rfl, a, hread _ (by rw [b, hv])⟩

/-- whatever is written is a JSON number -/
theorem Fmt.lit_ok {F : Fmt} {x : ℚ} {l : Lit} (h : F.lit x = some l) : l.Ok := by
  unfold Fmt.lit at h
  by_cases h0 : x = 0
  · rw [if_pos h0, Option.some.injEq] at h
    subst h
    exact ⟨⟨by simp, by decide⟩, by simp, by simp, by simp⟩
  · rw [if_neg h0] at h
    split at h
    · simp at h
    · rename_i m k hs
      have hm : m ≠ 0 := by
        rintro rfl
        obtain ⟨n, -, hp⟩ := List.exists_of_findSome?_eq_some hs
        have hb : F.round (((0 : ℕ) : ℚ) * 10 ^ k) = |x| := by
          unfold Fmt.pick at hp
          simp only at hp
          generalize nearest (|x| / 10 ^ (Int.log 10 |x| + 1 - ((n + 1 : ℕ) : ℤ))) = a at hp
          generalize (if a = ⌊|x| / 10 ^ (Int.log 10 |x| + 1 - ((n + 1 : ℕ) : ℤ))⌋ then a + 1 else a - 1) = b at hp
          split at hp
          · rename_i ha
            simp only [Option.some.injEq, Prod.mk.injEq] at hp
            rw [hp.1, hp.2] at ha; exact ha
          · split at hp
            · rename_i hb
              simp only [Option.some.injEq, Prod.mk.injEq] at hp
              rw [hp.1, hp.2] at hb; exact hb
            · simp at hp
        rw [Nat.cast_zero, zero_mul, F.round_zero] at hb
        exact h0 (abs_eq_zero.1 hb.symm)
      obtain ⟨t1, t2, -⟩ := trim_nat hm
      simp only at h
      split at h
      · obtain ⟨a, -⟩ := scientific_ok (dp := (nat m).length + k) t1 t2 (decide (x < 0))
        rw [Option.some.injEq] at h
        rw [← h]; exact a
      · obtain ⟨a, -⟩ := plain_ok (dp := (nat m).length + k) t1 t2 (decide (x < 0))
        rw [Option.some.injEq] at h
        rw [← h]; exact a

end Fave.Json

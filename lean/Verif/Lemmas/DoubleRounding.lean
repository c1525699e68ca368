import Verif.Lemmas.Decimal
/-!
# Rounding twice
-/
namespace Fave.Json
open F32 (nearest nearest_int nearest_neg nearest_le nearest_abs two_pos)

theorem Fmt.round_le {F : Fmt} (hF : F.Good) {x : ℚ} {m e : ℤ} (hm : |m| < 2 ^ F.bits) (he : F.low ≤ e) (h : x ≤ m * 2 ^ e) : F.round x ≤ m * 2 ^ e := by
  by_contra hc
  have := Fmt.round_nearest hF x hm he
  rw [abs_of_nonneg (by linarith), abs_of_nonneg (by linarith)] at this
  linarith

theorem Fmt.le_round {F : Fmt} (hF : F.Good) {x : ℚ} {m e : ℤ} (hm : |m| < 2 ^ F.bits) (he : F.low ≤ e) (h : m * 2 ^ e ≤ x) : m * 2 ^ e ≤ F.round x := by
  by_contra hc
  have := Fmt.round_nearest hF x hm he
  rw [abs_of_nonpos (by linarith), abs_of_nonpos (by linarith)] at this
  linarith

/-- between two neighbours the places are those of the lower one, or it makes no difference -/
theorem Fmt.round_between {F : Fmt} (hF : F.Good) {x v : ℚ} (hx : 0 < x) (h1 : (⌊x / 2 ^ F.place x⌋ : ℚ) ≤ v) (h2 : v ≤ ⌊x / 2 ^ F.place x⌋ + 1) :
    F.round (v * 2 ^ F.place x) = nearest v * 2 ^ F.place x := by
  have hp := two_pos (F.place x)
  have hlt : x / 2 ^ F.place x < 2 ^ F.bits := by
    rw [div_lt_iff₀ hp]
    have := Int.lt_zpow_succ_log_self (b := 2) (by norm_num) x
    push_cast at this
    have h3 : Int.log 2 |x| - (F.bits - 1) ≤ F.place x := le_max_left _ _
    rw [abs_of_pos hx] at h3
    refine this.trans_le ?_
    rw [← zpow_natCast, ← zpow_add₀ (by norm_num)]
    exact zpow_le_zpow_right₀ (by norm_num) (by omega)
  have hfl : ⌊x / 2 ^ F.place x⌋ + 1 ≤ 2 ^ F.bits := by
    have : ⌊x / 2 ^ F.place x⌋ < 2 ^ F.bits := Int.floor_lt.2 (by exact_mod_cast hlt)
    omega
  have hv : v ≤ 2 ^ F.bits := h2.trans (by exact_mod_cast hfl)
  have hf0 : 0 ≤ ⌊x / 2 ^ F.place x⌋ := Int.floor_nonneg.2 (by positivity)
  have hv0 : 0 ≤ v := le_trans (by exact_mod_cast hf0) h1
  rcases hv.lt_or_eq with hv | hv
  · rcases hv0.lt_or_eq with hv0 | hv0
    · have hpl : F.place (v * 2 ^ F.place x) = F.place x := by
        have hpos : 0 < v * 2 ^ F.place x := by positivity
        have hb := hF.1
        have up : Int.log 2 (v * 2 ^ F.place x) < F.place x + F.bits := by
          rw [← Int.lt_zpow_iff_log_lt (by norm_num) hpos]
          push_cast
          rw [zpow_add₀ (by norm_num), zpow_natCast, mul_comm]
          exact mul_lt_mul_of_pos_left hv hp
        rcases (F.place_ge x).lt_or_eq with hlow | hlow
        · have hpe : F.place x = Int.log 2 x - (F.bits - 1) := by
            have : F.place x = max (Int.log 2 |x| - (F.bits - 1)) F.low := rfl
            rw [abs_of_pos hx] at this
            omega
          have dn : F.place x + F.bits - 1 ≤ Int.log 2 (v * 2 ^ F.place x) := by
            rw [← Int.zpow_le_iff_le_log (by norm_num) hpos]
            push_cast
            have h3 := Int.zpow_log_le_self (b := 2) (r := x) (by norm_num) hx
            push_cast at h3
            rw [show F.place x + F.bits - 1 = ((F.bits - 1 : ℕ) : ℤ) + F.place x by omega, zpow_add₀ (by norm_num), zpow_natCast]
            refine mul_le_mul_of_nonneg_right ?_ hp.le
            refine le_trans ?_ h1
            have : (2 : ℤ) ^ (F.bits - 1) ≤ ⌊x / 2 ^ F.place x⌋ := by
              rw [Int.le_floor, le_div_iff₀ hp]
              push_cast
              rw [← zpow_natCast, ← zpow_add₀ (by norm_num), show ((F.bits - 1 : ℕ) : ℤ) + F.place x = Int.log 2 x by omega]
              exact h3
            exact_mod_cast this
          have : F.place (v * 2 ^ F.place x) = max (Int.log 2 |v * 2 ^ F.place x| - (F.bits - 1)) F.low := rfl
          rw [this, abs_of_pos hpos]
          omega
        · have : F.place (v * 2 ^ F.place x) = max (Int.log 2 |v * 2 ^ F.place x| - (F.bits - 1)) F.low := rfl
          rw [this, abs_of_pos hpos]
          omega
      unfold Fmt.round
      rw [hpl, mul_div_assoc, div_self hp.ne', mul_one]
    · have h0 : nearest (0 : ℚ) = 0 := by exact_mod_cast nearest_int 0
      rw [← hv0, zero_mul, F.round_zero, h0]
      simp
  · rw [show v = ((2 ^ F.bits : ℤ) : ℚ) by rw [hv]; norm_num, nearest_int]
    refine Fmt.round_of (m := 1) (e := F.place x + F.bits) ?_ ?_ ?_
    · rw [zpow_add₀ (by norm_num), zpow_natCast]; push_cast; ring
    · have := hF.1
      rw [abs_one]
      exact one_lt_pow₀ (by norm_num) (by omega)
    · have := F.place_ge x; omega

theorem nearest_low {u : ℚ} {n : ℤ} (h1 : (n : ℚ) ≤ u) (h2 : u < n + 1 / 2) : nearest u = n := by
  have : ⌊u⌋ = n := Int.floor_eq_iff.2 ⟨h1, by linarith⟩
  unfold nearest
  rw [this, if_pos (by linarith)]

theorem nearest_high {u : ℚ} {n : ℤ} (h1 : (n : ℚ) + 1 / 2 < u) (h2 : u ≤ n + 1) : nearest u = n + 1 := by
  rcases h2.lt_or_eq with h2 | h2
  · have : ⌊u⌋ = n := Int.floor_eq_iff.2 ⟨by linarith, h2⟩
    unfold nearest
    rw [this, if_neg (by linarith), if_pos (by linarith)]
  · rw [h2]
    exact_mod_cast nearest_int (n + 1)

/-- rounding to `G` and then to the shorter `F` is rounding to `F`, unless the first ends exactly between two numbers of `F` without having started
there -/
theorem Fmt.round_twice {F G : Fmt} (hF : F.Good) (hG : G.Good) (hb : F.bits + 2 ≤ G.bits) (hl : G.low < F.low) (x : ℚ) :
    F.round (G.round x) = F.round x ∨ (G.round x ≠ x ∧ |G.round x - F.round (G.round x)| = |G.round x - F.round x|) := by
  have pos : ∀ x : ℚ, 0 < x →
      (F.round (G.round x) = F.round x ∨ (G.round x ≠ x ∧ |G.round x - F.round (G.round x)| = |G.round x - F.round x|)) := by
    intro x hx
    by_cases hy : G.round x = x
    · left; rw [hy]
    have hp := two_pos (F.place x)
    obtain ⟨n, hn⟩ : ∃ n, ⌊x / 2 ^ F.place x⌋ = n := ⟨_, rfl⟩
    have hlt : x / 2 ^ F.place x < 2 ^ F.bits := by
      rw [div_lt_iff₀ hp]
      have := Int.lt_zpow_succ_log_self (b := 2) (by norm_num) x
      push_cast at this
      have h3 : Int.log 2 |x| - (F.bits - 1) ≤ F.place x := le_max_left _ _
      rw [abs_of_pos hx] at h3
      refine this.trans_le ?_
      rw [← zpow_natCast, ← zpow_add₀ (by norm_num)]
      exact zpow_le_zpow_right₀ (by norm_num) (by omega)
    have hn1 : n < 2 ^ F.bits := by
      rw [← hn]; exact Int.floor_lt.2 (by exact_mod_cast hlt)
    have hn0 : 0 ≤ n := by rw [← hn]; exact Int.floor_nonneg.2 (by positivity)
    have hpow : (4 : ℤ) * 2 ^ F.bits ≤ 2 ^ G.bits := by
      calc (4 : ℤ) * 2 ^ F.bits = 2 ^ (F.bits + 2) := by ring
        _ ≤ 2 ^ G.bits := pow_le_pow_right₀ (by norm_num) hb
    have hone : (1 : ℤ) ≤ 2 ^ F.bits := one_le_pow₀ (by norm_num)
    have he : G.low ≤ F.place x - 1 := by have := F.place_ge x; omega
    have hh : ∀ k : ℤ, (k : ℚ) * 2 ^ (F.place x - 1) = (k : ℚ) / 2 * 2 ^ F.place x := by
      intro k; rw [zpow_sub_one₀ (by norm_num)]; ring
    -- what lies below (above) a half stays so
    have up : ∀ k : ℤ, |k| < 2 ^ G.bits → x / 2 ^ F.place x ≤ k / 2 → G.round x / 2 ^ F.place x ≤ k / 2 := by
      intro k hk h
      rw [div_le_iff₀ hp, ← hh] at h ⊢
      exact Fmt.round_le hG hk he h
    have dn : ∀ k : ℤ, |k| < 2 ^ G.bits → (k : ℚ) / 2 ≤ x / 2 ^ F.place x → (k : ℚ) / 2 ≤ G.round x / 2 ^ F.place x := by
      intro k hk h
      rw [le_div_iff₀ hp, ← hh] at h ⊢
      exact Fmt.le_round hG hk he h
    have hu1 : (n : ℚ) ≤ x / 2 ^ F.place x := by rw [← hn]; exact Int.floor_le _
    have hu2 : x / 2 ^ F.place x < n + 1 := by rw [← hn]; exact Int.lt_floor_add_one _
    have hv1 : (n : ℚ) ≤ G.round x / 2 ^ F.place x := by
      have := dn (2 * n) (by rw [abs_of_nonneg (by omega)]; omega) (by push_cast; linarith)
      push_cast at this; linarith
    have hv2 : G.round x / 2 ^ F.place x ≤ n + 1 := by
      have := up (2 * (n + 1)) (by rw [abs_of_nonneg (by omega)]; omega) (by push_cast; linarith)
      push_cast at this; linarith
    have hR : F.round (G.round x) = nearest (G.round x / 2 ^ F.place x) * 2 ^ F.place x := by
      have := Fmt.round_between hF hx (v := G.round x / 2 ^ F.place x) (by rw [hn]; exact hv1) (by rw [hn]; exact hv2)
      rwa [div_mul_cancel₀ _ hp.ne'] at this
    have hR' : F.round x = nearest (x / 2 ^ F.place x) * 2 ^ F.place x := rfl
    by_cases hv : G.round x / 2 ^ F.place x = n + 1 / 2
    · right
      refine ⟨hy, ?_⟩
      have hyv : G.round x = (n + 1 / 2) * 2 ^ F.place x := by rw [← hv, div_mul_cancel₀ _ hp.ne']
      have key : ∀ u : ℚ, (n : ℚ) ≤ u → u ≤ n + 1 → |G.round x - (nearest u : ℚ) * 2 ^ F.place x| = 1 / 2 * 2 ^ F.place x := by
        intro u h1 h2
        have : nearest u = n ∨ nearest u = n + 1 := by
          rcases lt_trichotomy u (n + 1 / 2) with h | h | h
          · left; exact nearest_low h1 h
          · have hf : ⌊u⌋ = n := Int.floor_eq_iff.2 ⟨h1, by linarith⟩
            unfold nearest
            rw [hf]
            split_ifs <;> simp
          · right; exact nearest_high h h2
        rcases this with h | h
        · rw [hyv, h, ← sub_mul, abs_mul, abs_of_pos hp]
          congr 1
          rw [abs_of_pos (by linarith)]; ring
        · rw [hyv, h, ← sub_mul, abs_mul, abs_of_pos hp]
          congr 1
          push_cast
          rw [abs_of_neg (by linarith)]; ring
      rw [hR, hR', key _ hv1 hv2, key _ hu1 hu2.le]
    · left
      rw [hR, hR']
      congr 2
      rcases lt_trichotomy (x / 2 ^ F.place x) (n + 1 / 2) with h | h | h
      · have := up (2 * n + 1) (by rw [abs_of_nonneg (by omega)]; omega) (by push_cast; linarith)
        push_cast at this
        rw [nearest_low hu1 h, nearest_low hv1 (lt_of_le_of_ne (by linarith) hv)]
      · exfalso
        apply hy
        have hxv : x = ((2 * n + 1 : ℤ) : ℚ) * 2 ^ (F.place x - 1) := by
          have h' := (div_eq_iff hp.ne').1 h
          rw [hh]
          refine h'.trans ?_
          push_cast; ring
        exact Fmt.round_of hxv (by rw [abs_of_nonneg (by omega)]; omega) he
      · have := dn (2 * n + 1) (by rw [abs_of_nonneg (by omega)]; omega) (by push_cast; linarith)
        push_cast at this
        rw [nearest_high h hu2.le, nearest_high (lt_of_le_of_ne (by linarith) (Ne.symm hv)) hv2]
  rcases lt_trichotomy x 0 with h | h | h
  · have := pos (-x) (by linarith)
    rw [G.round_neg, F.round_neg, F.round_neg] at this
    rcases this with h | ⟨h1, h2⟩
    · left; linarith
    · right
      refine ⟨fun e => h1 (by rw [e]), ?_⟩
      rw [← abs_neg, show -(G.round x - F.round (G.round x)) = -G.round x - -F.round (G.round x) by ring, h2, ← abs_neg]
      congr 1
      ring
  · left; rw [h, G.round_zero]
  · exact pos x h

/-- how far rounding goes -/
theorem Fmt.round_err (F : Fmt) (hF : F.Good) (x : ℚ) : |F.round x - x| ≤ |x| / 2 ^ F.bits + 2 ^ (F.low - 1) := by
  have hp := two_pos (F.place x)
  by_cases h0 : x = 0
  · rw [h0, F.round_zero]
    simp only [sub_zero, abs_zero, zero_div, zero_add]
    positivity
  have h1 : |F.round x - x| ≤ 1 / 2 * 2 ^ F.place x := by
    have := nearest_abs (x / 2 ^ F.place x)
    have e : F.round x - x = ((nearest (x / 2 ^ F.place x) : ℚ) - x / 2 ^ F.place x) * 2 ^ F.place x := by
      rw [sub_mul, div_mul_cancel₀ _ hp.ne']; rfl
    rw [e, abs_mul, abs_of_pos hp]
    exact mul_le_mul_of_nonneg_right this hp.le
  refine h1.trans ?_
  have hl : (1 : ℚ) / 2 * 2 ^ F.place x = 2 ^ (F.place x - 1) := by rw [zpow_sub_one₀ (by norm_num)]; ring
  rw [hl]
  rcases max_choice (Int.log 2 |x| - ((F.bits : ℤ) - 1)) F.low with h | h
  · have hx := Int.zpow_log_le_self (b := 2) (r := |x|) (by norm_num) (abs_pos.2 h0)
    push_cast at hx
    have hpl : F.place x = Int.log 2 |x| - (F.bits - 1) := h
    have : (2 : ℚ) ^ (F.place x - 1) ≤ |x| / 2 ^ F.bits := by
      rw [hpl, show Int.log 2 |x| - ((F.bits : ℤ) - 1) - 1 = Int.log 2 |x| - F.bits by ring, zpow_sub₀ (by norm_num), zpow_natCast]
      exact div_le_div_of_nonneg_right hx (by positivity)
    have := two_pos (F.low - 1)
    linarith
  · have hpl : F.place x = F.low := h
    rw [hpl]
    have : 0 ≤ |x| / 2 ^ F.bits := by positivity
    linarith

end Fave.Json

import Verif.Lemmas.Rounding3
import Verif.Spec.Float64
/-!
# The square root by way of 64 bits
-/
namespace Fave
namespace F32

/-- rounding to an integer depends on the whole number of halves and on whether anything is left -/
theorem nearest_congr {y z : ℚ} {K : ℤ} (h1 : (K : ℚ) ≤ 2 * y) (h2 : 2 * y < K + 1) (h3 : (K : ℚ) ≤ 2 * z) (h4 : 2 * z < K + 1)
    (h : 2 * y = K ↔ 2 * z = K) : nearest y = nearest z := by
  rcases Int.even_or_odd' K with ⟨c, hc | hc⟩
  · have hcq : (K : ℚ) = 2 * c := by rw [hc]; push_cast; ring
    have f : ∀ u : ℚ, (K : ℚ) ≤ 2 * u → 2 * u < K + 1 → nearest u = c := by
      intro u a b
      have hfl : ⌊u⌋ = c := by rw [Int.floor_eq_iff]; constructor <;> linarith
      unfold nearest
      rw [hfl, if_pos (by linarith)]
    rw [f y h1 h2, f z h3 h4]
  · have hcq : (K : ℚ) = 2 * c + 1 := by rw [hc]; push_cast; ring
    have f : ∀ u : ℚ, (K : ℚ) ≤ 2 * u → 2 * u < K + 1 → ⌊u⌋ = c ∧ ¬ (2 * (u - c) < 1) ∧ (1 < 2 * (u - c) ↔ ¬ 2 * u = K) := by
      intro u a b
      refine ⟨by rw [Int.floor_eq_iff]; constructor <;> linarith, by linarith, ?_⟩
      constructor
      · intro h h'; linarith
      · intro h
        rcases lt_or_eq_of_le a with a | a
        · linarith
        · exact absurd a.symm h
    obtain ⟨a1, a2, a3⟩ := f y h1 h2
    obtain ⟨b1, b2, b3⟩ := f z h3 h4
    unfold nearest
    rw [a1, b1, if_neg a2, if_neg b2]
    by_cases hK : 2 * y = K
    · rw [if_neg (fun hh => (a3.1 hh) hK), if_neg (fun hh => (b3.1 hh) (h.1 hK))]
    · rw [if_pos (a3.2 hK), if_pos (b3.2 (fun hh => hK (h.2 hh)))]

theorem log_eq {a : ℚ} {L : ℤ} (h1 : (2 : ℚ) ^ L ≤ a) (h2 : a < 2 ^ (L + 1)) : Int.log 2 |a| = L := by
  have h0 : 0 < a := lt_of_lt_of_le (two_pos L) h1
  rw [abs_of_pos h0]
  apply le_antisymm
  · have := (Int.lt_zpow_iff_log_lt (b := 2) (by norm_num) h0 (x := L + 1)).1 (by exact_mod_cast h2)
    omega
  · exact (Int.zpow_le_iff_le_log (b := 2) (by norm_num) h0).1 (by exact_mod_cast h1)

theorem shift24 (L : ℤ) : ((2 ^ 24 : ℕ) : ℚ) * 2 ^ (L - 24) = 2 ^ L := by
  have : ((2 ^ 24 : ℕ) : ℚ) = 2 ^ (24 : ℤ) := by norm_num
  rw [this, ← zpow_add₀ (by norm_num)]
  congr 1; ring

/-- two numbers on the same side of every number of 25 binary places are rounded to the same number -/
theorem round_congr {a b : ℚ} (hb : (2 : ℚ) ^ (-100 : ℤ) ≤ b) (hb' : b < 2 ^ (100 : ℤ))
    (h : ∀ (k : ℕ) (j : ℤ), 2 ^ 24 ≤ k → k < 2 ^ 25 → -200 ≤ j → j ≤ 100 → ((k : ℚ) * 2 ^ j ≤ a ↔ (k : ℚ) * 2 ^ j ≤ b) ∧
      (a ≤ (k : ℚ) * 2 ^ j ↔ b ≤ (k : ℚ) * 2 ^ j)) : round a = round b := by
  have hb0 : 0 < b := lt_of_lt_of_le (two_pos _) hb
  set L := Int.log 2 b with hL
  have l1 : (2 : ℚ) ^ L ≤ b := by exact_mod_cast Int.zpow_log_le_self (b := 2) (by norm_num) hb0
  have l2 : b < (2 : ℚ) ^ (L + 1) := by exact_mod_cast Int.lt_zpow_succ_log_self (b := 2) (by norm_num) b
  have r1 : -100 ≤ L := (Int.zpow_le_iff_le_log (b := 2) (by norm_num) hb0).1 (by exact_mod_cast hb)
  have r2 : L < 100 := (Int.lt_zpow_iff_log_lt (b := 2) (by norm_num) hb0).1 (by exact_mod_cast hb')
  have k1 := h (2 ^ 24) (L - 24) (by norm_num) (by norm_num) (by omega) (by omega)
  have k2 := h (2 ^ 24) (L + 1 - 24) (by norm_num) (by norm_num) (by omega) (by omega)
  rw [shift24] at k1 k2
  have a1 : (2 : ℚ) ^ L ≤ a := k1.1.2 l1
  have a2 : a < (2 : ℚ) ^ (L + 1) := by
    rw [← not_le]; intro hc
    exact absurd (k2.1.1 hc) (not_le.2 l2)
  have pa : place a = L - 23 := by unfold place; rw [log_eq a1 a2]; exact max_eq_left (by omega)
  have pb : place b = L - 23 := by unfold place; rw [log_eq l1 l2]; exact max_eq_left (by omega)
  unfold round
  rw [pa, pb]
  congr 2
  set p := L - 23 with hp
  have h2p : (0 : ℚ) < 2 ^ p := two_pos p
  have hj : (2 : ℚ) ^ p = 2 * 2 ^ (p - 1) := by
    rw [← zpow_one_add₀ (by norm_num)]; congr 1; ring
  have hjp : (0 : ℚ) < 2 ^ (p - 1) := two_pos _
  set K := ⌊2 * (b / 2 ^ p)⌋ with hK
  have e : ∀ u : ℚ, 2 * (u / 2 ^ p) = u / 2 ^ (p - 1) := by
    intro u; rw [hj]; field_simp
  have K1 : (K : ℚ) * 2 ^ (p - 1) ≤ b := by
    have := Int.floor_le (2 * (b / 2 ^ p)); rw [← hK, e, le_div_iff₀ hjp] at this; exact this
  have K2 : b < ((K : ℚ) + 1) * 2 ^ (p - 1) := by
    have := Int.lt_floor_add_one (2 * (b / 2 ^ p)); rw [← hK, e, div_lt_iff₀ hjp] at this; exact this
  have hL24 : (2 : ℚ) ^ L = 2 ^ 24 * 2 ^ (p - 1) := by
    have : (2 : ℚ) ^ 24 = 2 ^ (24 : ℤ) := by norm_num
    rw [this, ← zpow_add₀ (by norm_num)]; congr 1; omega
  have hL25 : (2 : ℚ) ^ (L + 1) = 2 ^ 25 * 2 ^ (p - 1) := by
    have : (2 : ℚ) ^ 25 = 2 ^ (25 : ℤ) := by norm_num
    rw [this, ← zpow_add₀ (by norm_num)]; congr 1; omega
  have K3 : 2 ^ 24 ≤ K := by
    have : (2 : ℚ) ^ 24 < K + 1 := by
      have := lt_of_le_of_lt l1 K2
      rw [hL24] at this
      exact lt_of_mul_lt_mul_right this hjp.le
    have : ((2 ^ 24 : ℤ) : ℚ) < ((K + 1 : ℤ) : ℚ) := by push_cast; exact this
    have := Int.cast_lt.1 this
    omega
  have K4 : K < 2 ^ 25 := by
    have : (K : ℚ) < 2 ^ 25 := by
      have := lt_of_le_of_lt K1 l2
      rw [hL25] at this
      exact lt_of_mul_lt_mul_right this hjp.le
    have : (K : ℚ) < ((2 ^ 25 : ℤ) : ℚ) := by push_cast; exact this
    exact Int.cast_lt.1 this
  obtain ⟨N, hN⟩ := Int.eq_ofNat_of_zero_le (show 0 ≤ K by omega)
  have k3 := h N (p - 1) (by omega) (by omega) (by omega) (by omega)
  have hNq : (N : ℚ) = K := by rw [hN]; rfl
  rw [hNq] at k3
  have A1 := k3.1.2 K1
  have A2 : a < ((K : ℚ) + 1) * 2 ^ (p - 1) := by
    rw [← not_le]; intro hc
    by_cases hN1 : N + 1 < 2 ^ 25
    · have k4 := h (N + 1) (p - 1) (by omega) hN1 (by omega) (by omega)
      rw [show ((N + 1 : ℕ) : ℚ) = K + 1 by push_cast; rw [hNq]] at k4
      exact absurd (k4.1.1 hc) (not_le.2 K2)
    · have : (K : ℚ) + 1 = 2 ^ 25 := by
        have : K + 1 = 2 ^ 25 := by omega
        have : ((K + 1 : ℤ) : ℚ) = ((2 ^ 25 : ℤ) : ℚ) := by rw [this]
        push_cast at this; exact this
      rw [this, ← hL25] at hc
      linarith
  apply nearest_congr (K := K)
  · rw [e, le_div_iff₀ hjp]; exact A1
  · rw [e, div_lt_iff₀ hjp]; exact A2
  · rw [e, le_div_iff₀ hjp]; exact K1
  · rw [e, div_lt_iff₀ hjp]; exact K2
  · rw [e, e, div_eq_iff hjp.ne', div_eq_iff hjp.ne']
    constructor
    · intro hh; exact le_antisymm (k3.2.1 hh.le) K1
    · intro hh; exact le_antisymm (k3.2.2 hh.le) A1

/-- a `float32` of at least a quarter of the square of a number of 25 places is a whole multiple of the square of its last place -/
theorem float_mult {x : ℚ} (hf : IsFloat x) {j : ℤ} (h : (2 : ℚ) ^ (2 * j + 46) ≤ x) : ∃ n : ℤ, x = n * 2 ^ (2 * j) := by
  obtain ⟨m, e, he, hm, _, _⟩ := hf
  have hx0 : 0 < x := lt_of_lt_of_le (two_pos _) h
  have h1 := log_lt he hm hx0.ne'
  rw [abs_of_pos hx0] at h1
  have h2 : 2 * j + 46 ≤ Int.log 2 x := (Int.zpow_le_iff_le_log (b := 2) (by norm_num) hx0).1 (by exact_mod_cast h)
  rw [he]
  exact mult_of_le (by omega)

theorem double_near (k : ℕ) (j : ℤ) (hk : 2 ^ 24 ≤ k) (hk' : k < 2 ^ 25) (hj : -200 ≤ j) (hj' : j ≤ 100) (s : ℤ) (hs : |s| ≤ 1) :
    IsDouble ((k : ℚ) * 2 ^ j + s * 2 ^ (j - 28)) := by
  have e : (k : ℚ) * 2 ^ j + s * 2 ^ (j - 28) = ((k * 2 ^ 28 + s : ℤ) : ℚ) * 2 ^ (j - 28) := by
    have : (2 : ℚ) ^ j = 2 ^ 28 * 2 ^ (j - 28) := by
      have : (2 : ℚ) ^ 28 = 2 ^ (28 : ℤ) := by norm_num
      rw [this, ← zpow_add₀ (by norm_num)]; congr 1; ring
    rw [this]; push_cast; ring
  have hm : |(k * 2 ^ 28 + s : ℤ)| < 2 ^ 53 := by
    rw [abs_le] at hs
    rw [abs_lt]
    constructor <;> omega
  refine ⟨_, _, e, hm, by omega, ?_⟩
  rw [e, abs_mul, abs_of_pos (two_pos _)]
  have h1 : |((k * 2 ^ 28 + s : ℤ) : ℚ)| < 2 ^ 53 := by
    rw [← Int.cast_abs]
    have : ((|(k * 2 ^ 28 + s : ℤ)| : ℤ) : ℚ) < ((2 ^ 53 : ℤ) : ℚ) := Int.cast_lt.2 hm
    rw [show ((2 ^ 53 : ℤ) : ℚ) = 2 ^ 53 by norm_num] at this; exact this
  have h2 : (2 : ℚ) ^ (j - 28) ≤ 2 ^ (72 : ℤ) := zpow_le_zpow_right₀ (by norm_num) (by omega)
  calc |((k * 2 ^ 28 + s : ℤ) : ℚ)| * 2 ^ (j - 28) ≤ 2 ^ 53 * 2 ^ (72 : ℤ) := mul_le_mul h1.le h2 (two_pos _).le (by positivity)
    _ = 2 ^ 125 := by norm_num
    _ < 2 ^ 1024 := pow_lt_pow_right₀ (by norm_num) (by norm_num)

/-- the root rounded to 64 bits is on the same side of every number of 25 places as the root -/
theorem double_side {x d : ℚ} (hx : 0 ≤ x) (hf : IsFloat x) (hd : Root64 x d) (k : ℕ) (j : ℤ) (hk : 2 ^ 24 ≤ k) (hk' : k < 2 ^ 25)
    (hj : -200 ≤ j) (hj' : j ≤ 100) :
    (((k : ℚ) * 2 ^ j) ^ 2 < x → (k : ℚ) * 2 ^ j < d) ∧ (x < ((k : ℚ) * 2 ^ j) ^ 2 → d < (k : ℚ) * 2 ^ j) ∧
    (((k : ℚ) * 2 ^ j) ^ 2 = x → d = (k : ℚ) * 2 ^ j) := by
  set t := (k : ℚ) * 2 ^ j with ht
  set ε := (2 : ℚ) ^ (j - 28) with hε
  have hjj : (2 : ℚ) ^ j = 2 ^ 28 * ε := by
    have : (2 : ℚ) ^ 28 = 2 ^ (28 : ℤ) := by norm_num
    rw [this, hε, ← zpow_add₀ (by norm_num)]; congr 1; ring
  have hsq : (2 : ℚ) ^ (2 * j) = 2 ^ j * 2 ^ j := by rw [two_mul, zpow_add₀ (by norm_num)]
  have hε0 : 0 < ε := two_pos _
  have hkq : (2 : ℚ) ^ 24 ≤ k := by exact_mod_cast hk
  have hkq' : (k : ℚ) < 2 ^ 25 := by exact_mod_cast hk'
  have ht0 : 0 < t := mul_pos (by linarith [show (0 : ℚ) < 2 ^ 24 by norm_num]) (two_pos _)
  have hS : (2 : ℚ) ^ (2 * j) = 2 ^ 56 * (ε * ε) := by rw [hsq, hjj]; ring
  have htS : t ^ 2 = (k : ℚ) ^ 2 * 2 ^ (2 * j) := by rw [ht, hsq]; ring
  have htε : 2 * t * ε + ε * ε ≤ 2 ^ (2 * j) := by
    rw [hS, ht, hjj]
    have : (k : ℚ) * (ε * ε) ≤ 2 ^ 25 * (ε * ε) := mul_le_mul_of_nonneg_right hkq'.le (by positivity)
    nlinarith [mul_pos hε0 hε0]
  have hlow : (2 : ℚ) ^ 48 * 2 ^ (2 * j) ≤ t ^ 2 := by
    rw [htS]
    exact mul_le_mul_of_nonneg_right (by nlinarith) (two_pos _).le
  have h46 : (2 : ℚ) ^ (2 * j + 46) = 2 ^ 46 * 2 ^ (2 * j) := by
    rw [zpow_add₀ (by norm_num), mul_comm]; norm_num
  have hS0 : (0 : ℚ) < 2 ^ (2 * j) := two_pos _
  have hsx : Real.sqrt x ^ 2 = (x : ℝ) := Real.sq_sqrt (by exact_mod_cast hx)
  have hs0 := Real.sqrt_nonneg (x : ℝ)
  refine ⟨?_, ?_, ?_⟩
  · intro h
    obtain ⟨n, hn⟩ := float_mult hf (j := j) (by rw [h46]; nlinarith)
    have hgap : t ^ 2 + 2 ^ (2 * j) ≤ x := by
      rw [hn, htS] at h ⊢
      have h1 : ((k ^ 2 : ℤ) : ℚ) < (n : ℚ) := by
        push_cast; exact lt_of_mul_lt_mul_right h hS0.le
      have h2 : ((k ^ 2 + 1 : ℤ) : ℚ) ≤ (n : ℚ) := by exact_mod_cast Int.cast_lt.1 h1
      push_cast at h2
      nlinarith
    have hbelow : (t + ε) ^ 2 ≤ x := by nlinarith
    have hr : ((t + ε : ℚ) : ℝ) ≤ Real.sqrt x := Real.le_sqrt_of_sq_le (by exact_mod_cast hbelow)
    by_contra hc
    rw [not_lt] at hc
    have h1 := hd.2 _ (double_near k j hk hk' hj hj' 1 (by norm_num))
    rw [← ht, ← hε, Int.cast_one, one_mul] at h1
    have hcr : (d : ℝ) ≤ (t : ℝ) := by exact_mod_cast hc
    have hεr : (0 : ℝ) < (ε : ℝ) := by exact_mod_cast hε0
    push_cast at h1 hr
    rw [abs_of_nonpos (by linarith), abs_of_nonpos (by linarith)] at h1
    linarith
  · intro h
    have hgap : x ≤ t ^ 2 - 2 ^ (2 * j) := by
      by_contra hc
      rw [not_le] at hc
      obtain ⟨n, hn⟩ := float_mult hf (j := j) (by rw [h46]; nlinarith)
      rw [hn, htS] at h hc
      have h1 : (n : ℚ) < ((k ^ 2 : ℤ) : ℚ) := by
        push_cast; exact lt_of_mul_lt_mul_right h hS0.le
      have h2 : (n : ℚ) ≤ ((k ^ 2 - 1 : ℤ) : ℚ) := by
        have := Int.cast_lt.1 h1
        exact_mod_cast Int.le_sub_one_of_lt this
      push_cast at h2
      nlinarith
    have hεt : ε ≤ t := by
      rw [ht, hjj]
      nlinarith
    have habove : x ≤ (t - ε) ^ 2 := by nlinarith [mul_pos hε0 hε0]
    have hr : Real.sqrt x ≤ ((t - ε : ℚ) : ℝ) := by
      rw [Real.sqrt_le_iff]
      constructor
      · have : 0 ≤ t - ε := by linarith
        exact_mod_cast this
      · exact_mod_cast habove
    by_contra hc
    rw [not_lt] at hc
    have h1 := hd.2 _ (double_near k j hk hk' hj hj' (-1) (by norm_num))
    rw [← ht, ← hε, Int.cast_neg, Int.cast_one, neg_one_mul, ← sub_eq_add_neg] at h1
    have hcr : (t : ℝ) ≤ (d : ℝ) := by exact_mod_cast hc
    have hεr : (0 : ℝ) < (ε : ℝ) := by exact_mod_cast hε0
    push_cast at h1 hr
    rw [abs_of_nonneg (by linarith), abs_of_nonneg (by linarith)] at h1
    linarith
  · intro h
    have hr : Real.sqrt x = (t : ℝ) := by
      rw [← h]; push_cast
      exact Real.sqrt_sq (by exact_mod_cast ht0.le)
    have h1 := hd.2 _ (double_near k j hk hk' hj hj' 0 (by norm_num))
    rw [← ht, Int.cast_zero, zero_mul, add_zero, hr, sub_self, abs_zero] at h1
    have := abs_nonpos_iff.1 h1
    have : (d : ℝ) = (t : ℝ) := by linarith
    exact_mod_cast this

theorem root_cmp {x : ℚ} (hx : 0 ≤ x) (hg : Grid x) (k : ℕ) (j : ℤ) (hj : -200 ≤ j) :
    (root x < (k : ℚ) * 2 ^ j ↔ x < ((k : ℚ) * 2 ^ j) ^ 2) ∧ ((k : ℚ) * 2 ^ j < root x ↔ ((k : ℚ) * 2 ^ j) ^ 2 < x) := by
  obtain ⟨i, hi⟩ := Int.eq_ofNat_of_zero_le (show 0 ≤ j + 200 by omega)
  have e : (k : ℚ) * 2 ^ j = ((k * 2 ^ i : ℕ) : ℚ) / 2 ^ 200 := by
    have h1 : (2 : ℚ) ^ j = 2 ^ (i : ℤ) / 2 ^ (200 : ℤ) := by rw [← zpow_sub₀ (by norm_num)]; congr 1; omega
    rw [h1, zpow_natCast, show (2 : ℚ) ^ (200 : ℤ) = 2 ^ 200 from zpow_natCast 2 200, Nat.cast_mul, Nat.cast_pow, Nat.cast_ofNat, mul_div_assoc]
  rw [e]
  exact root_side hx hg _

/-- rounding the root to 64 bits and then to 32 bits gives what rounding it to 32 bits at once does -/
theorem sqrt_twice {x d : ℚ} (hx : 0 ≤ x) (hf : IsFloat x) (hd : Root64 x d) : F32.sqrt (.fin x) = fl d := by
  have hg := Grid.of_float hf
  show (if x < 0 then Num.nan else fl (root x)) = fl d
  rw [if_neg (not_lt.2 hx)]
  rcases eq_or_lt_of_le hx with hx0 | hx0
  · have hd0 : d = 0 := by
      have h1 := hd.2 0 ⟨0, 0, by norm_num, by norm_num, by norm_num, by norm_num⟩
      rw [← hx0] at h1
      simp at h1
      exact h1
    rw [hd0, ← hx0]
    decide +kernel
  · have hsmall : (2 : ℚ) ^ (-149 : ℤ) ≤ x := by
      obtain ⟨m, hm⟩ := hg
      rw [hm] at hx0 ⊢
      have h1 : 0 < (m : ℚ) := pos_of_mul_pos_left hx0 (two_pos _).le
      have h2 : 1 ≤ m := by have : 0 < m := by exact_mod_cast h1
                            omega
      have h3 : (1 : ℚ) ≤ m := by exact_mod_cast h2
      nlinarith [two_pos (-149)]
    have hbig : x < 2 ^ 128 := by
      obtain ⟨_, _, _, _, _, h⟩ := hf
      rwa [abs_of_pos hx0] at h
    have key : ∀ (k : ℕ) (j : ℤ), 2 ^ 24 ≤ k → k < 2 ^ 25 → -200 ≤ j → j ≤ 100 → ((k : ℚ) * 2 ^ j ≤ d ↔ (k : ℚ) * 2 ^ j ≤ root x) ∧
      (d ≤ (k : ℚ) * 2 ^ j ↔ root x ≤ (k : ℚ) * 2 ^ j) := by
      intro k j hk hk' hj hj'
      obtain ⟨d1, d2, d3⟩ := double_side hx hf hd k j hk hk' hj hj'
      obtain ⟨c1, c2⟩ := root_cmp hx hg k j hj
      rw [← not_lt (a := root x), ← not_lt (b := root x), c1, c2]
      rcases lt_trichotomy (((k : ℚ) * 2 ^ j) ^ 2) x with h | h | h
      · have := d1 h
        constructor
        · exact ⟨fun _ => not_lt.2 h.le, fun _ => this.le⟩
        · exact ⟨fun h' => absurd h' (not_le.2 this), fun h' => absurd h h'⟩
      · have := d3 h
        constructor
        · exact ⟨fun _ => not_lt.2 h.le, fun _ => this.ge⟩
        · exact ⟨fun _ => not_lt.2 h.ge, fun _ => this.le⟩
      · have := d2 h
        constructor
        · exact ⟨fun h' => absurd h' (not_le.2 this), fun h' => absurd h h'⟩
        · exact ⟨fun _ => not_lt.2 h.le, fun _ => this.le⟩
    have hlo : (2 : ℚ) ^ (-100 : ℤ) ≤ root x := by
      have := (root_cmp hx hg (2 ^ 24) (-100 - 24) (by norm_num)).1
      rw [shift24] at this
      rw [← not_lt, this, not_lt]
      refine le_trans ?_ hsmall
      norm_num
    have hhi : root x < (2 : ℚ) ^ (100 : ℤ) := by
      have := (root_cmp hx hg (2 ^ 24) (100 - 24) (by norm_num)).1
      rw [shift24] at this
      rw [this]
      refine lt_of_lt_of_le hbig ?_
      norm_num
    have hr := round_congr hlo hhi key
    have hd0 : 0 < d := by
      have := (key (2 ^ 24) (-100 - 24) (by norm_num) (by norm_num) (by norm_num) (by norm_num)).1
      rw [shift24] at this
      exact lt_of_lt_of_le (two_pos _) (this.2 hlo)
    have hr0 : 0 < root x := lt_of_lt_of_le (two_pos _) hlo
    unfold fl
    rw [hr, decide_eq_false (not_lt.2 hd0.le), decide_eq_false (not_lt.2 hr0.le)]

end F32
end Fave

import Verif.Lemmas.Level
import Mathlib.Algebra.BigOperators.Field
/-!
# Counting the draws that reach a layer
-/
namespace Fave.Level

theorem le_toNat_floor {l : ℕ} (h : 1 ≤ l) (y : ℚ) : l ≤ ⌊y⌋.toNat ↔ (l : ℝ) ≤ y := by
  have e : l ≤ ⌊y⌋.toNat ↔ (l : ℤ) ≤ ⌊y⌋ := by omega
  rw [e, Int.le_floor]
  exact_mod_cast Iff.rfl

/-- a draw that reaches layer `l` is not much above `M ^ -l` -/
theorem reaches_le {log : ℚ → ℚ} (hl : GoodLog log) {M k l t : ℕ} (hM : 2 ≤ M) (hM' : M ≤ 2 ^ 53) (hk : 1 ≤ k) (hk' : k < 2 ^ 53) (h1 : 1 ≤ l)
    (ht : target log M k = some t) (h : l ≤ t) : (k : ℝ) ≤ 2 ^ 53 * Real.exp (-(l * Real.log M * (1 - 2⁻¹ ^ 50))) := by
  obtain ⟨y, hy, _, hy2⟩ := target_near hl hM hM' hk hk'
  rw [hy, Option.some.injEq] at ht
  rw [← ht, le_toNat_floor h1] at h
  have hB := (log_limits hM hM').1
  have hA := log_uniform_pos hk hk'
  have hA0 : 0 < -Real.log ((k : ℝ) / 2 ^ 53) := lt_of_lt_of_le (by positivity) hA
  have hu : (0 : ℝ) < k / 2 ^ 53 := by
    have : (0 : ℝ) < k := by exact_mod_cast hk
    positivity
  have h3 : (l : ℝ) * Real.log M ≤ (1 + 2⁻¹ ^ 50) * -Real.log (k / 2 ^ 53) := by
    have := h.trans hy2
    unfold share at this
    rw [← mul_div_assoc, le_div_iff₀ (by linarith)] at this
    exact this
  have hl0 : (0 : ℝ) ≤ l * Real.log M := mul_nonneg (Nat.cast_nonneg l) (by linarith)
  have h4 : (l : ℝ) * Real.log M * (1 - 2⁻¹ ^ 50) ≤ -Real.log (k / 2 ^ 53) := by
    have : (l : ℝ) * Real.log M * (1 - 2⁻¹ ^ 50) ≤ (1 + 2⁻¹ ^ 50) * -Real.log (k / 2 ^ 53) * (1 - 2⁻¹ ^ 50) :=
      mul_le_mul_of_nonneg_right h3 (by norm_num)
    nlinarith
  have h5 : Real.log (k / 2 ^ 53) ≤ -((l : ℝ) * Real.log M * (1 - 2⁻¹ ^ 50)) := by linarith
  rw [Real.log_le_iff_le_exp hu, div_le_iff₀ (by positivity)] at h5
  linarith

/-- a draw a little below `M ^ -l` reaches layer `l` -/
theorem reaches_of_le {log : ℚ → ℚ} (hl : GoodLog log) {M k l : ℕ} (hM : 2 ≤ M) (hM' : M ≤ 2 ^ 53) (hk : 1 ≤ k) (hk' : k < 2 ^ 53) (h1 : 1 ≤ l)
    (h : (k : ℝ) ≤ 2 ^ 53 * Real.exp (-(l * Real.log M * (1 + 2 * 2⁻¹ ^ 50)))) : ∃ t, target log M k = some t ∧ l ≤ t := by
  obtain ⟨y, hy, hy1, _⟩ := target_near hl hM hM' hk hk'
  refine ⟨_, hy, ?_⟩
  rw [le_toNat_floor h1]
  refine le_trans ?_ hy1
  have hB := (log_limits hM hM').1
  have hu : (0 : ℝ) < k / 2 ^ 53 := by
    have : (0 : ℝ) < k := by exact_mod_cast hk
    positivity
  have h5 : (k : ℝ) / 2 ^ 53 ≤ Real.exp (-(l * Real.log M * (1 + 2 * 2⁻¹ ^ 50))) := by
    rw [div_le_iff₀ (by positivity)]; linarith
  rw [← Real.log_le_iff_le_exp hu] at h5
  have hl0 : (0 : ℝ) ≤ l * Real.log M := mul_nonneg (Nat.cast_nonneg l) (by linarith)
  unfold share
  rw [← mul_div_assoc, le_div_iff₀ (by linarith)]
  have : (1 - (2 : ℝ)⁻¹ ^ 50) * (l * Real.log M * (1 + 2 * 2⁻¹ ^ 50)) ≤ (1 - 2⁻¹ ^ 50) * -Real.log (k / 2 ^ 53) :=
    mul_le_mul_of_nonneg_left (by linarith) (by norm_num)
  nlinarith

theorem mul_exp_le_one (z : ℝ) : z * Real.exp (-z) ≤ 1 := by
  rw [Real.exp_neg]
  have h := Real.add_one_le_exp z
  have h0 := Real.exp_pos z
  rw [← div_eq_mul_inv, div_le_one h0]
  linarith

theorem exp_shift (z t : ℝ) : Real.exp (-z) - Real.exp (-(z + t)) ≤ t * Real.exp (-z) := by
  have e : Real.exp (-(z + t)) = Real.exp (-z) * Real.exp (-t) := by rw [← Real.exp_add]; ring_nf
  have h := Real.add_one_le_exp (-t)
  have h0 := Real.exp_pos (-z)
  rw [e]
  nlinarith

theorem target_zero (log : ℚ → ℚ) (M : ℕ) : target log M 0 = none := rfl

theorem exp_pow {M : ℕ} (hM : 2 ≤ M) (l : ℕ) : Real.exp (-(l * Real.log M)) = ((M : ℝ) ^ l)⁻¹ := by
  have : (0 : ℝ) < M := by exact_mod_cast (show 0 < M by omega)
  rw [Real.exp_neg, ← Real.log_pow, Real.exp_log (by positivity)]

theorem count_upper {log : ℚ → ℚ} (hl : GoodLog log) {M l : ℕ} (hM : 2 ≤ M) (hM' : M ≤ 2 ^ 53) (h1 : 1 ≤ l) :
    ((reaching log M l).card : ℝ) / 2 ^ 53 ≤ ((M : ℝ) ^ l)⁻¹ + 2⁻¹ ^ 49 := by
  classical
  have hB := (log_limits hM hM').1
  have hl0 : (0 : ℝ) ≤ l * Real.log M := mul_nonneg (Nat.cast_nonneg l) (by linarith)
  have hsub : reaching log M l ⊆ Finset.Icc 1 ⌊2 ^ 53 * Real.exp (-((l : ℝ) * Real.log M * (1 - 2⁻¹ ^ 50)))⌋₊ := by
    intro k hk
    simp only [reaching, Finset.mem_filter, Finset.mem_range] at hk
    obtain ⟨hk', t, ht, hlt⟩ := hk
    have hk1 : 1 ≤ k := by
      rcases Nat.eq_zero_or_pos k with e | e
      · rw [e, target_zero] at ht; cases ht
      · exact e
    rw [Finset.mem_Icc]
    exact ⟨hk1, Nat.le_floor (reaches_le hl hM hM' hk1 hk' h1 ht hlt)⟩
  have hc := Finset.card_le_card hsub
  rw [Nat.card_Icc, Nat.add_sub_cancel] at hc
  have hc' : ((reaching log M l).card : ℝ) ≤ 2 ^ 53 * Real.exp (-((l : ℝ) * Real.log M * (1 - 2⁻¹ ^ 50))) :=
    le_trans (by exact_mod_cast hc) (Nat.floor_le (by positivity))
  rw [div_le_iff₀ (by positivity), ← exp_pow hM]
  clear hsub hc
  generalize ((reaching log M l).card : ℝ) = C at *
  generalize (l : ℝ) * Real.log M = y at *
  have h2 := exp_shift (y * (1 - 2⁻¹ ^ 50)) (y * 2⁻¹ ^ 50)
  rw [show y * (1 - 2⁻¹ ^ 50) + y * 2⁻¹ ^ 50 = y by ring] at h2
  have h3 := mul_exp_le_one (y * (1 - 2⁻¹ ^ 50))
  have h4 : y * 2⁻¹ ^ 50 * Real.exp (-(y * (1 - 2⁻¹ ^ 50))) ≤ 2⁻¹ ^ 49 := by
    generalize Real.exp (-(y * (1 - 2⁻¹ ^ 50))) = E at *
    norm_num at h3 ⊢
    nlinarith
  nlinarith

theorem count_lower {log : ℚ → ℚ} (hl : GoodLog log) {M l : ℕ} (hM : 2 ≤ M) (hM' : M ≤ 2 ^ 53) (h1 : 1 ≤ l) :
    ((M : ℝ) ^ l)⁻¹ - 2⁻¹ ^ 48 ≤ ((reaching log M l).card : ℝ) / 2 ^ 53 := by
  classical
  have hB := (log_limits hM hM').1
  have hl1 : (1 : ℝ) ≤ l := by exact_mod_cast h1
  have hl0 : (0 : ℝ) < l * Real.log M := mul_pos (by linarith) (by linarith)
  have hsub : Finset.Icc 1 ⌊2 ^ 53 * Real.exp (-((l : ℝ) * Real.log M * (1 + 2 * 2⁻¹ ^ 50)))⌋₊ ⊆ reaching log M l := by
    intro k hk
    rw [Finset.mem_Icc] at hk
    have hk2 := (Nat.le_floor_iff (by positivity)).1 hk.2
    have hlt : k < 2 ^ 53 := by
      have : Real.exp (-((l : ℝ) * Real.log M * (1 + 2 * 2⁻¹ ^ 50))) < 1 := by
        rw [Real.exp_lt_one_iff, neg_lt_zero]
        positivity
      have : (k : ℝ) < 2 ^ 53 := by nlinarith
      exact_mod_cast this
    simp only [reaching, Finset.mem_filter, Finset.mem_range]
    exact ⟨hlt, reaches_of_le hl hM hM' hk.1 hlt h1 hk2⟩
  have hc := Finset.card_le_card hsub
  rw [Nat.card_Icc, Nat.add_sub_cancel] at hc
  have hc' : 2 ^ 53 * Real.exp (-((l : ℝ) * Real.log M * (1 + 2 * 2⁻¹ ^ 50))) - 1 ≤ ((reaching log M l).card : ℝ) :=
    le_trans (by linarith [Nat.lt_floor_add_one (2 ^ 53 * Real.exp (-((l : ℝ) * Real.log M * (1 + 2 * 2⁻¹ ^ 50))))])
      (show ((⌊2 ^ 53 * Real.exp (-((l : ℝ) * Real.log M * (1 + 2 * 2⁻¹ ^ 50)))⌋₊ : ℕ) : ℝ) ≤ _ by exact_mod_cast hc)
  rw [le_div_iff₀ (by positivity), ← exp_pow hM]
  clear hsub hc
  generalize ((reaching log M l).card : ℝ) = C at *
  generalize (l : ℝ) * Real.log M = y at *
  have h2 := exp_shift y (y * (2 * 2⁻¹ ^ 50))
  rw [show y + y * (2 * 2⁻¹ ^ 50) = y * (1 + 2 * 2⁻¹ ^ 50) by ring] at h2
  have h3 := mul_exp_le_one y
  generalize Real.exp (-(y * (1 + 2 * 2⁻¹ ^ 50))) = E at *
  generalize Real.exp (-y) = F at *
  norm_num at h2 hc' ⊢
  nlinarith

/-- the highest layer -/
theorem target_pow {log : ℚ → ℚ} (hl : GoodLog log) {M k t : ℕ} (hM : 2 ≤ M) (hM' : M ≤ 2 ^ 53) (hk' : k < 2 ^ 53) (ht : target log M k = some t) :
    M ^ t ≤ 2 ^ 53 + 2 ^ 10 := by
  have hk1 : 1 ≤ k := by
    rcases Nat.eq_zero_or_pos k with e | e
    · rw [e, target_zero] at ht; cases ht
    · exact e
  rcases Nat.eq_zero_or_pos t with e | e
  · rw [e]; norm_num
  have h := reaches_le hl hM hM' hk1 hk' e ht (Nat.le_refl t)
  have hB := (log_limits hM hM').1
  have hM0 : (0 : ℝ) < M := by exact_mod_cast (show 0 < M by omega)
  have hk : (1 : ℝ) ≤ k := by exact_mod_cast hk1
  have h2 : Real.exp ((t : ℝ) * Real.log M * (1 - 2⁻¹ ^ 50)) ≤ 2 ^ 53 := by
    rw [Real.exp_neg, ← div_eq_mul_inv, le_div_iff₀ (Real.exp_pos _)] at h
    nlinarith [Real.exp_pos ((t : ℝ) * Real.log M * (1 - 2⁻¹ ^ 50))]
  have hy : (t : ℝ) * Real.log M * (1 - 2⁻¹ ^ 50) ≤ 53 := by
    rw [← Real.le_log_iff_exp_le (by positivity), Real.log_pow] at h2
    have h3 := Real.log_le_sub_one_of_pos (show (0 : ℝ) < 2 by norm_num)
    push_cast at h2
    linarith
  have h4 : ((M : ℝ) ^ t) = Real.exp (t * Real.log M) := by rw [← Real.log_pow, Real.exp_log (by positivity)]
  have h6 : (M : ℝ) ^ t ≤ 2 ^ 53 + 2 ^ 10 := by
    rw [h4]
    generalize (t : ℝ) * Real.log M = y at *
    have hyy : y ≤ 54 := by norm_num at hy; linarith
    have e1 : Real.exp y = Real.exp (y * (1 - 2⁻¹ ^ 50)) * Real.exp (y * 2⁻¹ ^ 50) := by rw [← Real.exp_add]; ring_nf
    have e2 : Real.exp (y * 2⁻¹ ^ 50) ≤ 1 + 2⁻¹ ^ 43 := by
      have h0 := Real.add_one_le_exp (-(y * 2⁻¹ ^ 50))
      rw [Real.exp_neg] at h0
      have hp := Real.exp_pos (y * 2⁻¹ ^ 50)
      have h9 : (1 - 54 * 2⁻¹ ^ 50) ≤ (Real.exp (y * 2⁻¹ ^ 50))⁻¹ := by norm_num at h0 ⊢; linarith
      have h8 := inv_anti₀ (by norm_num) h9
      rw [inv_inv] at h8
      refine h8.trans ?_
      norm_num
    rw [e1]
    calc _ ≤ (2 : ℝ) ^ 53 * (1 + 2⁻¹ ^ 43) := mul_le_mul h2 e2 (Real.exp_pos _).le (by positivity)
      _ = 2 ^ 53 + 2 ^ 10 := by norm_num
  exact_mod_cast h6

end Fave.Level

namespace Fave.Level
open Classical in
/-- a sum of numbers, counted layer by layer -/
theorem sum_layers (S : Finset ℕ) (f : ℕ → ℕ) (b : ℕ) (h : ∀ k ∈ S, f k ≤ b) :
    ∑ k ∈ S, f k = ∑ l ∈ Finset.range b, (S.filter (fun k => l + 1 ≤ f k)).card := by
  simp only [Finset.card_filter]
  rw [Finset.sum_comm]
  refine Finset.sum_congr rfl (fun k hk => ?_)
  have hb := h k hk
  have e : (Finset.range b).filter (fun l => l + 1 ≤ f k) = Finset.range (f k) := by
    ext l
    simp only [Finset.mem_filter, Finset.mem_range]
    omega
  rw [← Finset.card_filter, e, Finset.card_range]

theorem geom_bound {M : ℕ} (hM : 2 ≤ M) (n : ℕ) : ∑ l ∈ Finset.range n, ((M : ℝ) ^ (l + 1))⁻¹ ≤ 1 / (M - 1) := by
  have h2 : (2 : ℝ) ≤ M := by exact_mod_cast hM
  have key : ∑ l ∈ Finset.range n, ((M : ℝ) ^ (l + 1))⁻¹ = (1 - ((M : ℝ) ^ n)⁻¹) * (1 / (M - 1)) := by
    induction n with
    | zero => simp
    | succ n ih =>
      rw [Finset.sum_range_succ, ih, pow_succ]
      have : (M : ℝ) - 1 ≠ 0 := by linarith
      field_simp
      ring
  rw [key]
  have h3 : (0 : ℝ) < 1 / (M - 1) := by
    have : (0 : ℝ) < (M : ℝ) - 1 := by linarith
    positivity
  have h4 : (0 : ℝ) < ((M : ℝ) ^ n)⁻¹ := by positivity
  nlinarith

theorem target_le_53 {log : ℚ → ℚ} (hl : GoodLog log) {M k : ℕ} (hM : 2 ≤ M) (hM' : M ≤ 2 ^ 53) (hk' : k < 2 ^ 53) :
    (target log M k).getD 0 ≤ 53 := by
  cases ht : target log M k with
  | none => exact Nat.zero_le _
  | some t =>
    have h := target_pow hl hM hM' hk' ht
    have h2 : 2 ^ t ≤ M ^ t := Nat.pow_le_pow_left hM t
    by_contra hc
    have hc : 54 ≤ t := by simp only [Option.getD_some] at hc; omega
    have h3 : 2 ^ 54 ≤ 2 ^ t := Nat.pow_le_pow_right (by norm_num) hc
    have : 2 ^ 54 ≤ 2 ^ 53 + 2 ^ 10 := h3.trans (h2.trans h)
    norm_num at this

theorem average_le {log : ℚ → ℚ} (hl : GoodLog log) {M : ℕ} (hM : 2 ≤ M) (hM' : M ≤ 2 ^ 53) :
    ((∑ k ∈ Finset.range (2 ^ 53), (target log M k).getD 0 : ℕ) : ℝ) / 2 ^ 53 ≤ 1 / (M - 1) + 2⁻¹ ^ 43 := by
  classical
  have e1 := sum_layers (Finset.range (2 ^ 53)) (fun k => (target log M k).getD 0) 53
    (fun k hk => target_le_53 hl hM hM' (Finset.mem_range.1 hk))
  have e2 : ∀ l, (Finset.range (2 ^ 53)).filter (fun k => l + 1 ≤ (target log M k).getD 0) = reaching log M (l + 1) := by
    intro l
    unfold reaching
    refine Finset.filter_congr (fun k _ => ?_)
    cases target log M k with
    | none => simp
    | some t => simp
  rw [e1]
  simp only [e2]
  push_cast
  rw [Finset.sum_div]
  calc ∑ l ∈ Finset.range 53, ((reaching log M (l + 1)).card : ℝ) / 2 ^ 53
      ≤ ∑ l ∈ Finset.range 53, (((M : ℝ) ^ (l + 1))⁻¹ + 2⁻¹ ^ 49) :=
        Finset.sum_le_sum (fun l _ => count_upper hl hM hM' (Nat.succ_le_succ (Nat.zero_le l)))
    _ = (∑ l ∈ Finset.range 53, ((M : ℝ) ^ (l + 1))⁻¹) + 53 * 2⁻¹ ^ 49 := by
        rw [Finset.sum_add_distrib, Finset.sum_const, Finset.card_range, nsmul_eq_mul]
        norm_num
    _ ≤ 1 / (M - 1) + 2⁻¹ ^ 43 := by
        have := geom_bound hM 53
        have h2 : (53 : ℝ) * 2⁻¹ ^ 49 ≤ 2⁻¹ ^ 43 := by norm_num
        exact add_le_add this h2

/-- a logarithm of the required quality exists -/
theorem exists_goodLog : ∃ log, GoodLog log := by
  have key : ∀ x : ℚ, ∃ y : ℚ, 0 < x → |(y : ℝ) - Real.log x| ≤ 2⁻¹ ^ 52 * |Real.log x| := by
    intro x
    by_cases h : Real.log x = 0
    · exact ⟨0, fun _ => by rw [h]; simp⟩
    · have hp : 0 < 2⁻¹ ^ 52 * |Real.log x| := mul_pos (by positivity) (abs_pos.2 h)
      obtain ⟨y, h1, h2⟩ := exists_rat_btwn (show Real.log x < Real.log x + 2⁻¹ ^ 52 * |Real.log x| by linarith)
      exact ⟨y, fun _ => by rw [abs_of_pos (by linarith)]; linarith⟩
  choose f hf using key
  exact ⟨f, fun x hx => hf x hx⟩

end Fave.Level

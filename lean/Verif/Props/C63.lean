import Verif.Lemmas.Rounding3
import Verif.Lemmas.Sqrt64
/-!
# C63: distances in 32-bit arithmetic
-/
namespace Fave
namespace C63
open Distance F32

/-- The rounding of the model is that of `float32`: the result is a `float32`, no other is nearer, and it is finite exactly below
2^128 − 2^103, half a place beyond the largest number. -/
theorem rounds_to_nearest (x : ℚ) :
    (∀ v, fl x = .fin v → IsFloat v ∧ ∀ w, IsFloat w → |v - x| ≤ |w - x|) ∧
    ((∃ v, fl x = .fin v) ↔ |x| < 2 ^ 128 - 2 ^ 103) ∧
    (IsFloat x → fl x = .fin x) := by
  refine ⟨?_, ?_, fl_float⟩
  · intro v hv
    refine ⟨fl_isFloat hv, ?_⟩
    intro w ⟨m, e, hw, hm, he, _⟩
    rw [fl_fin hv, hw]
    exact round_nearest x hm he
  · rw [← fl_finite_iff, isFin_iff]

/-- The square root of the model is rounded to the nearest `float32`: the root of `x` lies on `v`'s side of the middle between `v` and
any other number. -/
theorem sqrt_rounded (x v : ℚ) (hx : 0 ≤ x) (hf : IsFloat x) (hv : F32.sqrt (.fin x) = .fin v) (w : ℚ) (hw : IsFloat w)
    (hw0 : 0 ≤ w) : (w < v → ((v + w) / 2) ^ 2 ≤ x) ∧ (v < w → x ≤ ((v + w) / 2) ^ 2) := by
  have : F32.sqrt (.fin x) = fl (root x) := if_neg (not_lt.2 hx)
  rw [this] at hv
  exact sqrt_near hx (Grid.of_float hf) hv hw hw0

/-- Go computes the root in 64 bits and then rounds to 32 bits (normalize.go:26).  That gives the same as rounding to 32 bits at once, as
the model does. -/
theorem sqrt_by_way_of_64_bits (x d : ℚ) (hx : 0 ≤ x) (hf : IsFloat x) (hd : Root64 x d) : fl d = F32.sqrt (.fin x) :=
  (sqrt_twice hx hf hd).symm

/-- the root of 2 in 64 bits -/
example : Root64 2 (6369051672525773 / 2 ^ 52) ∧ fl (6369051672525773 / 2 ^ 52) = F32.sqrt (.fin 2) := by
  refine ⟨⟨⟨6369051672525773, -52, by norm_num, by norm_num, by norm_num, ?_⟩, ?_⟩, by decide +kernel⟩
  · rw [abs_of_pos (by norm_num)]
    exact lt_of_lt_of_le (show (6369051672525773 : ℚ) / 2 ^ 52 < 2 ^ 1 by norm_num) (pow_le_pow_right₀ (by norm_num) (by norm_num))
  · rintro d' ⟨m, e, rfl, hm, _, _⟩
    have s1 : (12738103345051545 : ℝ) / 2 ^ 53 ≤ Real.sqrt 2 := Real.le_sqrt_of_sq_le (by norm_num)
    have s2 : Real.sqrt 2 ≤ (12738103345051547 : ℝ) / 2 ^ 53 := by rw [Real.sqrt_le_iff]; constructor <;> norm_num
    by_cases he : e < -52
    · have h1 : |((m * 2 ^ e : ℚ) : ℝ)| ≤ 1 := by
        push_cast
        rw [abs_mul, abs_of_pos (show (0 : ℝ) < 2 ^ e by positivity)]
        have h2 : |(m : ℝ)| ≤ 2 ^ 53 := by
          have : ((|m| : ℤ) : ℝ) ≤ ((2 ^ 53 : ℤ) : ℝ) := by exact_mod_cast hm.le
          rw [Int.cast_abs] at this
          norm_num at this ⊢
          exact this
        have h3 : (2 : ℝ) ^ e ≤ 2 ^ (-53 : ℤ) := zpow_le_zpow_right₀ (by norm_num) (by omega)
        calc |(m : ℝ)| * 2 ^ e ≤ 2 ^ 53 * 2 ^ (-53 : ℤ) := mul_le_mul h2 h3 (by positivity) (by positivity)
          _ ≤ 1 := by norm_num
      have h2 := (abs_le.1 h1).2
      push_cast at h2 ⊢
      rw [abs_of_nonpos (a := (m : ℝ) * 2 ^ e - _) (by norm_num at s1 ⊢; linarith)]
      rw [abs_le]
      norm_num at s1 s2 ⊢
      constructor <;> linarith
    · obtain ⟨n, hn⟩ := mult_of_le (m := m) (e := e) (p := -52) (by omega)
      rw [hn]
      push_cast
      by_cases hnD : n = 6369051672525773
      · subst hnD; norm_num
      · have h1 : (n : ℝ) ≤ 6369051672525772 ∨ (6369051672525774 : ℝ) ≤ n := by
          rcases lt_or_gt_of_ne hnD with h | h
          · left; exact_mod_cast Int.le_sub_one_of_lt h
          · right; exact_mod_cast Int.add_one_le_of_lt h
        norm_num at s1 s2 ⊢
        rcases h1 with h1 | h1
        · rw [abs_of_nonpos (a := (n : ℝ) * _ - _) (by linarith), abs_le]
          constructor <;> linarith
        · rw [abs_of_nonneg (a := (n : ℝ) * _ - _) (by linarith), abs_le]
          constructor <;> linarith

/-- a third is rounded up; ties go to the even number; too large sums are infinite -/
example : fl (1 / 3) = .fin (11184811 / 33554432) ∧ fl (2 ^ 24 + 1) = .fin (2 ^ 24) ∧ fl (2 ^ 24 + 3) = .fin (2 ^ 24 + 4) ∧
    fl (2 ^ 127 + 2 ^ 127) = .inf false ∧ F32.sqrt (.fin 2) = .fin (11863283 / 8388608) := by decide +kernel

/-- Every distance of two vectors of `float32` numbers of equal length, computed with or without vector instructions, is a number
within `off` of the true one unless it overflows: the relative error is about as many units of 2^-24 as roundings are passed
(`depth`), relative to the sum of the magnitudes (`size`), and each product may lose another 2^-150.  It does not overflow if the
magnitudes, grown by that much, stay below 2^128. -/
theorem near_truth_partial (avx : Bool) (junk : ℕ → ℕ → Num) (k : Kind) (a b : List ℚ) (hl : a.length = b.length)
    (ha : ∀ x ∈ a, IsFloat x) (hb : ∀ x ∈ b, IsFloat x) :
    ∃ r, distance ops avx junk k (vec a) (vec b) = .ok r ∧
      (∀ v, r = .fin v → |v - truth k a b| ≤ off (depth avx k a.length) (products k a.length) (size k a b)) ∧
      ((size k a b + products k a.length * tiny) * (1 + unit) ^ depth avx k a.length < 2 ^ 128 → ∃ v, r = .fin v) := by
  obtain ⟨r, hr, hh⟩ := distance_holds avx junk k hl (fun z hz => Grid.of_float (ha z hz)) (fun z hz => Grid.of_float (hb z hz))
  exact ⟨r, hr, fun v hv => (hh.near v hv).2, fun hf => isFin_iff.1 (hh.finite hf)⟩

/-- The bound in a simpler form: for vectors of up to 2^22 numbers the factor of the sum is at most two units of 2^-24 per rounding. -/
theorem off_simple (k c : ℕ) (m : ℚ) (hm : 0 ≤ m) (hk : k ≤ 2 ^ 23) : off k c m ≤ 2 * k * unit * m + 2 * c * tiny := by
  rw [off_eq]
  have h1 := fac_le_two hk
  have h2 := fac_bound k
  have h3 := fac_ge k
  have h4 : fac k - 1 ≤ 2 * k * unit := by
    have h5 : (0 : ℚ) ≤ k * unit := mul_nonneg (Nat.cast_nonneg k) unit_pos.le
    nlinarith
  have h6 : (fac k - 1) * m ≤ 2 * k * unit * m := mul_le_mul_of_nonneg_right h4 hm
  have h7 : (0 : ℚ) ≤ c * tiny := mul_nonneg (Nat.cast_nonneg c) tiny_pos.le
  nlinarith

/-- The plain loop and the vector instructions agree up to the sum of the two bounds. -/
theorem implementations_agree (junk junk' : ℕ → ℕ → Num) (k : Kind) (a b : List ℚ) (hl : a.length = b.length)
    (ha : ∀ x ∈ a, IsFloat x) (hb : ∀ x ∈ b, IsFloat x) (v w : ℚ)
    (hv : distance ops true junk k (vec a) (vec b) = .ok (.fin v)) (hw : distance ops false junk' k (vec a) (vec b) = .ok (.fin w)) :
    |v - w| ≤ off (depth true k a.length) (products k a.length) (size k a b) +
      off (depth false k a.length) (products k a.length) (size k a b) := by
  obtain ⟨r, hr, h1, _⟩ := near_truth_partial true junk k a b hl ha hb
  obtain ⟨s, hs, h2, _⟩ := near_truth_partial false junk' k a b hl ha hb
  rw [hv] at hr
  rw [hw] at hs
  have e1 := h1 v (Except.ok.inj hr).symm
  have e2 := h2 w (Except.ok.inj hs).symm
  have h3 := abs_sub_le v (truth k a b) w
  rw [abs_sub_comm (truth k a b) w] at h3
  linarith

/-- Of two vectors the one truly nearer to the query by more than the two bounds is reported nearer. -/
theorem ranking_right (avx : Bool) (junk : ℕ → ℕ → Num) (k : Kind) (q a b : List ℚ) (hla : q.length = a.length)
    (hlb : q.length = b.length) (hq : ∀ x ∈ q, IsFloat x) (ha : ∀ x ∈ a, IsFloat x) (hb : ∀ x ∈ b, IsFloat x) (v w : ℚ)
    (hv : distance ops avx junk k (vec q) (vec a) = .ok (.fin v)) (hw : distance ops avx junk k (vec q) (vec b) = .ok (.fin w))
    (h : off (depth avx k q.length) (products k q.length) (size k q a) + off (depth avx k q.length) (products k q.length) (size k q b) <
      truth k q b - truth k q a) : v < w := by
  obtain ⟨r, hr, h1, _⟩ := near_truth_partial avx junk k q a hla hq ha
  obtain ⟨s, hs, h2, _⟩ := near_truth_partial avx junk k q b hlb hq hb
  rw [hv] at hr
  rw [hw] at hs
  have e1 := (abs_le.1 (h1 v (Except.ok.inj hr).symm)).2
  have e2 := (abs_le.1 (h2 w (Except.ok.inj hs).symm)).1
  linarith

/-- Squared Euclidean, Manhattan and Hamming distances of finite vectors are never negative and never not-a-number. -/
theorem never_negative (avx : Bool) (junk : ℕ → ℕ → Num) (k : Kind) (hk : k = .l2 ∨ k = .manhattan ∨ k = .hamming) (a b : List ℚ)
    (r : Num) (h : distance ops avx junk k (vec a) (vec b) = .ok r) : (∃ v, r = .fin v ∧ 0 ≤ v) ∨ r = .inf false := by
  have hp := distance_pos avx junk hk r h
  cases r with
  | fin v => exact .inl ⟨v, rfl, hp⟩
  | inf s => exact .inr (by rw [show s = false from hp])
  | nan => exact hp.elim

/-- All distances are symmetric to the last place, infinities and not-a-number included. -/
theorem symmetric (avx : Bool) (junk : ℕ → ℕ → Num) (k : Kind) (a b : List Num) :
    distance ops avx junk k a b = distance ops avx junk k b a := by
  unfold distance
  by_cases h : a.length = b.length
  · rw [if_neg (by simpa using h), if_neg (by simpa using h.symm), impl_comm symm_ops avx junk k a b h]
  · rw [if_pos h, if_pos (fun hh => h hh.symm)]

/-- Equal vectors have squared Euclidean, Manhattan and Hamming distance exactly zero. -/
theorem self_zero (avx : Bool) (junk : ℕ → ℕ → Num) (k : Kind) (hk : k = .l2 ∨ k = .manhattan ∨ k = .hamming) (a : List ℚ) :
    distance ops avx junk k (vec a) (vec a) = .ok (.fin 0) := distance_self avx junk hk a

/-- Manhattan distance zero means equal vectors, even for numbers so small that they have lost places. -/
theorem manhattan_zero (avx : Bool) (junk : ℕ → ℕ → Num) (a b : List ℚ) (ha : ∀ x ∈ a, IsFloat x) (hb : ∀ x ∈ b, IsFloat x) :
    distance ops avx junk .manhattan (vec a) (vec b) = .ok (.fin 0) ↔ a = b := by
  constructor
  · intro h
    unfold distance at h
    split at h
    · cases h
    rename_i hl
    have hl' : a.length = b.length := by simpa [vec] using hl
    have hi : impl ops avx junk .manhattan (vec a) (vec b) = step ops .manhattan (vec a) (vec b) := by cases avx <;> rfl
    rw [hi] at h
    split at h
    · cases h
    rename_i s hs
    have : s = .fin 0 := Except.ok.inj h
    rw [this] at hs
    exact (manhattan_loop_zero a b hl' (fun z hz => Grid.of_float (ha z hz)) (fun z hz => Grid.of_float (hb z hz)) (.fin 0)
      ⟨le_refl _, Grid.zero⟩ hs).2
  · rintro rfl
    exact self_zero avx junk .manhattan (.inr (.inl rfl)) a

/-- The Hamming distance counts exactly up to 2^24 and not beyond. -/
theorem hamming_counts (avx : Bool) (junk : ℕ → ℕ → Num) (a b : List ℚ) (hl : a.length = b.length) :
    distance ops avx junk .hamming (vec a) (vec b) =
      .ok (.fin ((min ((List.zip a b).filter fun p => decide (p.1 ≠ p.2)).length (2 ^ 24) : ℕ) : ℚ)) := by
  have hv : (vec a).length = (vec b).length := by simp [vec, hl]
  have h := hamming_loop a b hl 0
  rw [Nat.zero_min, Nat.zero_add] at h
  have hi : impl ops avx junk .hamming (vec a) (vec b) = some (.fin ((min (differ a b) (2 ^ 24) : ℕ) : ℚ)) := by
    cases avx <;> exact h
  unfold distance
  rw [if_neg (by simpa using hv), hi]
  rfl

/-! What fails in 32 bits. -/

private theorem plain (junk : ℕ → ℕ → Num) (k : Kind) (a b : List Num) :
    distance ops false junk k a b = distance ops false (fun _ _ => .nan) k a b := by
  cases k <;> rfl

/-- The distance depends on the processor: here the vector instructions keep a place that the plain loop rounds away. -/
theorem processors_differ (junk : ℕ → ℕ → Num) :
    distance ops true junk .dot (vec [-1, 1 + 1 / 2 ^ 12]) (vec [1, 1 + 1 / 2 ^ 12]) = .ok (.fin (-8193 / 2 ^ 24)) ∧
    distance ops false junk .dot (vec [-1, 1 + 1 / 2 ^ 12]) (vec [1, 1 + 1 / 2 ^ 12]) = .ok (.fin (-8192 / 2 ^ 24)) := by
  constructor
  · have hf : Asm.steps (vec [-1, 1 + 1 / 2 ^ 12]).length ≤ fuel (vec [-1, 1 + 1 / 2 ^ 12]).length := Nat.le_refl _
    unfold distance
    rw [if_neg (by decide)]
    have : impl ops true junk .dot (vec [-1, 1 + 1 / 2 ^ 12]) (vec [1, 1 + 1 / 2 ^ 12]) =
        some (Asm.blocked ops.toArith ops.fma (vec [-1, 1 + 1 / 2 ^ 12]) (vec [1, 1 + 1 / 2 ^ 12])) := by
      show (Asm.dot ops.toArith junk _ _ _).getD none = _
      rw [Asm.dot_blocked _ _ (by rfl) hf]
      rfl
    rw [this]
    decide +kernel
  · rw [plain]
    decide +kernel

/-- Different vectors may have squared Euclidean distance zero: squares below 2^-150 are lost. -/
theorem l2_zero_for_different (junk : ℕ → ℕ → Num) :
    IsFloat (1 / 2 ^ 100) ∧ distance ops false junk .l2 (vec [1 / 2 ^ 100]) (vec [0]) = .ok (.fin 0) := by
  refine ⟨⟨1, -100, by norm_num [zpow_neg], by norm_num, by norm_num, by norm_num⟩, ?_⟩
  rw [plain]
  decide +kernel

/-- The dot product of finite vectors may not be a number: two products overflow with different signs. -/
theorem dot_not_a_number (junk : ℕ → ℕ → Num) :
    IsFloat (2 ^ 100) ∧ distance ops false junk .dot (vec [2 ^ 100, 2 ^ 100]) (vec [2 ^ 100, -2 ^ 100]) = .ok .nan := by
  refine ⟨⟨1, 100, by norm_num, by norm_num, by norm_num, by norm_num⟩, ?_⟩
  rw [plain]
  decide +kernel

/-! Cases for `ranking_right` and `implementations_agree`. -/

example : off (depth false .l2 2) (products .l2 2) (size .l2 [0, 0] [1, 2]) + off (depth false .l2 2) (products .l2 2) (size .l2 [0, 0] [2, 2]) <
      truth .l2 [0, 0] [2, 2] - truth .l2 [0, 0] [1, 2] ∧
    distance ops false (fun _ _ => .nan) .l2 (vec [0, 0]) (vec [1, 2]) = .ok (.fin 5) ∧
    distance ops false (fun _ _ => .nan) .l2 (vec [0, 0]) (vec [2, 2]) = .ok (.fin 8) := by decide +kernel

/-- in the case of `processors_differ` the bound is below twenty units of 2^-24, the difference one -/
example : off (depth true .dot 2) 2 (size .dot [-1, 1 + 1 / 2 ^ 12] [1, 1 + 1 / 2 ^ 12]) +
      off (depth false .dot 2) 2 (size .dot [-1, 1 + 1 / 2 ^ 12] [1, 1 + 1 / 2 ^ 12]) < 20 / 2 ^ 24 := by decide +kernel

/-- a Manhattan distance of the smallest numbers is not lost -/
example : distance ops true (fun _ _ => .nan) .manhattan (vec [1 / 2 ^ 149, 3]) (vec [2 / 2 ^ 149, 3]) = .ok (.fin (1 / 2 ^ 149)) := by
  decide +kernel

/-! A case: 33 numbers, one block of the vector instructions and one number left over. -/
section
private def p : List ℚ := (List.range 33).map fun i : ℕ => (i : ℚ)
private def q : List ℚ := (List.range 33).map fun i : ℕ => (i : ℚ) / 2

private theorem p_float : ∀ x ∈ p, IsFloat x := by
  intro x hx
  obtain ⟨i, hi, rfl⟩ := List.mem_map.1 hx
  have := List.mem_range.1 hi
  exact isFloat_nat (by omega)

private theorem q_float : ∀ x ∈ q, IsFloat x := by
  intro x hx
  obtain ⟨i, hi, rfl⟩ := List.mem_map.1 hx
  have hr := List.mem_range.1 hi
  have h1 : (i : ℚ) ≤ 33 := by exact_mod_cast hr.le
  refine ⟨i, -1, by simp [div_eq_mul_inv], ?_, by norm_num, ?_⟩
  · rw [abs_of_nonneg (by omega)]
    omega
  · rw [abs_of_nonneg (by positivity)]
    have : (33 : ℚ) < 2 ^ 128 := by norm_num
    linarith

example (avx : Bool) (junk : ℕ → ℕ → Num) : ∃ v, distance ops avx junk .l2 (vec p) (vec q) = .ok (.fin v) ∧ |v - 2860| < 1 / 5 := by
  have hl : p.length = q.length := by decide
  have ht : truth .l2 p q = 2860 := by decide +kernel
  have hs : size .l2 p q = 2860 := ht
  have hd : depth avx .l2 p.length ≤ 36 := by cases avx <;> decide
  obtain ⟨r, hr, h1, h2⟩ := near_truth_partial avx junk .l2 p q hl p_float q_float
  have hn : products .l2 p.length = 33 := by decide
  have htiny : tiny ≤ 1 / 2 ^ 24 := by norm_num [tiny]
  have hfac : (1 + unit) ^ depth avx .l2 p.length ≤ 2 := fac_le_two (by omega)
  obtain ⟨v, rfl⟩ := h2 (by
    rw [hs, hn]
    have h3 : (2860 + ((33 : ℕ) : ℚ) * tiny) * (1 + unit) ^ depth avx .l2 p.length ≤ (2860 + 33) * 2 := by
      refine mul_le_mul ?_ hfac (by have := unit_pos; positivity) (by norm_num)
      push_cast
      linarith
    have : ((2860 : ℚ) + 33) * 2 < 2 ^ 128 := by norm_num
    linarith)
  have h5 := h1 v rfl
  rw [ht] at h5
  refine ⟨v, hr, lt_of_le_of_lt h5 ?_⟩
  rw [hs, hn]
  refine lt_of_le_of_lt (off_simple _ _ _ (by norm_num) (by omega)) ?_
  have h4 : ((depth avx .l2 p.length : ℕ) : ℚ) ≤ 36 := by exact_mod_cast hd
  unfold unit tiny
  norm_num
  linarith
end

end C63
end Fave

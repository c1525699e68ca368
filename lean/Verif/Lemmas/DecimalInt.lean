import Verif.Lemmas.Decimal
/-!
# Lemmas about decimal texts: whole numbers are written in full
-/
namespace Fave.Json
open F32 (nearest nearest_int two_pos)

/-- the value of what is written is that of the shortest decimal -/
theorem Fmt.lit_value {F : Fmt} {x : ℚ} {m : ℕ} {k : ℤ} (h0 : x ≠ 0) (hs : F.shortest |x| = some (m, k)) (hm : m ≠ 0) :
    ∃ l, F.lit x = some l ∧ l.value = (if x < 0 then -1 else 1) * (m * 10 ^ k) := by
  obtain ⟨t1, t2, t3⟩ := trim_nat hm
  have hv : (num (trim (nat m)) : ℚ) * 10 ^ (((nat m).length : ℤ) + k - (trim (nat m)).length) = m * 10 ^ k := by
    rw [show ((nat m).length : ℤ) + k - (trim (nat m)).length = ((nat m).length - (trim (nat m)).length) + k by ring, zpow_add₀ (by norm_num),
      ← mul_assoc, t3]
  unfold Fmt.lit
  rw [if_neg h0, hs]
  simp only
  split
  · obtain ⟨a, b⟩ := scientific_ok (dp := (nat m).length + k) t1 t2 (decide (x < 0))
    exact ⟨_, rfl, by rw [b, hv]; simp⟩
  · obtain ⟨a, b⟩ := plain_ok (dp := (nat m).length + k) t1 t2 (decide (x < 0))
    exact ⟨_, rfl, by rw [b, hv]; simp⟩

theorem Fmt.is_int {F : Fmt} (hlow : F.low ≤ 0) (hh : F.bits ≤ F.high) {n : ℤ} (h : |n| < 2 ^ F.bits) : F.Is n := by
  refine ⟨n, 0, by simp, h, hlow, ?_⟩
  have h1 : |(n : ℚ)| < 2 ^ F.bits := by rw [← Int.cast_abs]; exact_mod_cast h
  exact lt_of_lt_of_le h1 (pow_le_pow_right₀ (by norm_num) hh)

/-- a decimal without places that rounds to a whole number below the limit is that number -/
theorem Fmt.round_int {F : Fmt} (hF : F.Good) (hlow : F.low ≤ 0) {n M : ℕ} (hn : n < 2 ^ F.bits) (h : F.round M = n) : M = n := by
  by_cases hM : M < 2 ^ F.bits
  · have := Fmt.round_of (F := F) (x := (M : ℚ)) (m := M) (e := 0) (by simp) (by rw [abs_of_nonneg (by positivity)]; exact_mod_cast hM) hlow
    rw [this] at h
    exact_mod_cast h
  · exfalso
    have hb := hF.1
    have := Fmt.round_nearest hF (M : ℚ) (m := 1) (e := F.bits) (by
      rw [abs_one]
      exact one_lt_pow₀ (by norm_num) (by omega)) (by omega)
    rw [h, Int.cast_one, one_mul, zpow_natCast] at this
    have hn' : (n : ℚ) < 2 ^ F.bits := by exact_mod_cast hn
    have hM' : (2 : ℚ) ^ F.bits ≤ M := by exact_mod_cast not_lt.1 hM
    rw [abs_of_neg (by linarith), abs_of_nonpos (by linarith)] at this
    linarith

/-- the shortest decimal of a whole number below the limit is the number -/
theorem Fmt.shortest_int {F : Fmt} (hF : F.Good) (hlow : F.low ≤ 0) (hh : F.bits ≤ F.high) {n : ℕ} (h0 : n ≠ 0) (hn : n < 2 ^ F.bits) :
    ∃ m k, F.shortest n = some (m, k) ∧ m ≠ 0 ∧ (m : ℚ) * 10 ^ k = n := by
  have hp : (0 : ℚ) < n := by exact_mod_cast Nat.pos_of_ne_zero h0
  have hI : F.Is (n : ℚ) := by
    have := Fmt.is_int hlow hh (n := (n : ℤ)) (by rw [abs_of_nonneg (by positivity)]; exact_mod_cast hn)
    exact_mod_cast this
  obtain ⟨m, k, hs, hb⟩ := Fmt.shortest_back hF hI hp
  -- the number of digits
  have hlog : Int.log 10 (n : ℚ) = (Nat.log 10 n : ℤ) := by
    have := Int.log_natCast (R := ℚ) 10 n
    exact_mod_cast this
  have hD : Nat.log 10 n + 1 ≤ F.dec := by
    have h1 : 10 ^ Nat.log 10 n ≤ n := Nat.pow_log_le_self 10 h0
    have h2 : 10 ^ Nat.log 10 n < 10 ^ (F.dec - 1) := lt_of_le_of_lt h1 (lt_trans hn (by exact_mod_cast hF.2.2))
    have := (Nat.pow_lt_pow_iff_right (a := 10) (by norm_num)).1 h2
    have := hF.2.1
    omega
  have hpick : F.pick n (Nat.log 10 n + 1) ≠ none := by
    unfold Fmt.pick
    simp only
    rw [hlog]
    have e : ((Nat.log 10 n : ℤ) + 1 - ((Nat.log 10 n + 1 : ℕ) : ℤ)) = 0 := by push_cast; ring
    rw [e, zpow_zero, div_one]
    have hnn : nearest (n : ℚ) = n := by exact_mod_cast nearest_int (n : ℤ)
    rw [hnn]
    simp [Fmt.round_is hI]
  have hk : 0 ≤ k := by
    unfold Fmt.shortest at hs
    obtain ⟨l₁, i, l₂, hl, hi, hbefore⟩ := List.findSome?_eq_some_iff.1 hs
    have hkk : k = Int.log 10 (n : ℚ) + 1 - ((i + 1 : ℕ) : ℤ) := by
      unfold Fmt.pick at hi
      simp only at hi
      split_ifs at hi <;> simp only [Option.some.injEq, Prod.mk.injEq, reduceCtorEq] at hi <;> exact hi.2.symm
    have hil : i = l₁.length := by
      have h1 : (List.range F.dec)[l₁.length]? = some i := by rw [hl]; simp
      have h2 := List.getElem?_eq_some_iff.1 h1
      obtain ⟨h3, h4⟩ := h2
      simpa using h4.symm
    by_contra hneg
    have hlt : Nat.log 10 n < i := by rw [hkk, hlog] at hneg; push_cast at hneg; omega
    have hmem : Nat.log 10 n ∈ l₁ := by
      have h1 : (List.range F.dec)[Nat.log 10 n]? = some (Nat.log 10 n) := List.getElem?_range (by omega)
      rw [hl, List.getElem?_append_left (by omega)] at h1
      exact List.mem_of_getElem? h1
    exact hpick (hbefore _ hmem)
  obtain ⟨j, rfl⟩ := Int.eq_ofNat_of_zero_le hk
  have hM : ((m * 10 ^ j : ℕ) : ℚ) = (m : ℚ) * 10 ^ (j : ℤ) := by push_cast; rw [zpow_natCast]
  refine ⟨m, j, hs, ?_, ?_⟩
  · rintro rfl
    simp [F.round_zero] at hb
    exact h0 (by exact_mod_cast hb.symm)
  · rw [← hM] at hb ⊢
    exact_mod_cast Fmt.round_int hF hlow hn hb

/-- a whole number below the limit is written in full -/
theorem Fmt.lit_int {F : Fmt} (hF : F.Good) (hlow : F.low ≤ 0) (hh : F.bits ≤ F.high) {n : ℤ} (hn : |n| < 2 ^ F.bits) :
    ∃ l, F.lit n = some l ∧ l.value = n := by
  by_cases h0 : n = 0
  · subst h0
    exact ⟨⟨false, ['0'], none, none⟩, by rw [Fmt.lit]; simp, by simp [Lit.value, num, Nat.ofDigitChars_cons]⟩
  · have hn' : n.natAbs < 2 ^ F.bits := by zify; exact hn
    obtain ⟨m, k, h1, h2, h3⟩ := Fmt.shortest_int hF hlow hh (Int.natAbs_ne_zero.2 h0) hn'
    have habs : ((n.natAbs : ℕ) : ℚ) = |(n : ℚ)| := by rw [Nat.cast_natAbs]; push_cast; rfl
    rw [habs] at h1 h3
    obtain ⟨l, l1, l2⟩ := Fmt.lit_value (x := (n : ℚ)) (by exact_mod_cast h0) h1 h2
    refine ⟨l, l1, ?_⟩
    rw [l2, h3]
    split
    · rename_i hneg; rw [abs_of_neg hneg]; ring
    · rename_i hneg; rw [abs_of_nonneg (not_lt.1 hneg)]; ring

end Fave.Json

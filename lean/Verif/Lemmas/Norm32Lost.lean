import Verif.Lemmas.Norm32
/-!
# Vectors that lose their direction when normalised in 32-bit arithmetic
-/
namespace Fave
namespace F32
open Distance

theorem fl_zero : fl 0 = .fin 0 := by decide +kernel

theorem mul_zero_left (y : ℚ) : F32.mul (.fin 0) (.fin y) = .fin 0 := by
  show fl (0 * y) = _
  rw [zero_mul, fl_zero]

theorem fma_zero_left (y : ℚ) : F32.fma (.fin 0) (.fin y) (.fin 0) = .fin 0 := by
  show fl (0 * y + 0) = _
  rw [zero_mul, zero_add, fl_zero]

theorem loop_zero (a b : List ℚ) (hl : a.length = b.length) (ha : ∀ x ∈ a, x = 0) :
    loop ops F32.mul (.fin 0) (vec a) (vec b) = some (.fin 0) := by
  induction a generalizing b with
  | nil => rfl
  | cons x a ih => cases b with
    | nil => simp at hl
    | cons y b =>
      show loop ops F32.mul (F32.add (.fin 0) (F32.mul (.fin x) (.fin y))) (vec a) (vec b) = _
      rw [ha x List.mem_cons_self, mul_zero_left, add_zero_zero]
      exact ih b (by simpa using hl) (fun z hz => ha z (List.mem_cons_of_mem _ hz))

theorem getD_zero (a : List ℚ) (ha : ∀ x ∈ a, x = 0) (i : ℕ) : a.getD i 0 = 0 := by
  rw [List.getD_eq_getElem?_getD]
  cases h : a[i]? with
  | none => rfl
  | some x => exact ha x (List.mem_of_getElem? h)

theorem blocked_zero (a b : List ℚ) (ha : ∀ x ∈ a, x = 0) : Asm.blocked ops.toArith ops.fma (vec a) (vec b) = .fin 0 := by
  have hacc : ∀ i j n, Asm.acc ops.toArith ops.fma (vec a) (vec b) i j n = .fin 0 := by
    intro i j n
    induction n with
    | zero => rfl
    | succ n ih =>
      simp only [Asm.acc]
      rw [ih, vec_getD, vec_getD, getD_zero a ha]
      exact fma_zero_left _
  have htail : ∀ p n, Asm.tailAcc ops.toArith ops.fma (vec a) (vec b) p n = .fin 0 := by
    intro p n
    induction n with
    | zero => rfl
    | succ n ih =>
      simp only [Asm.tailAcc]
      rw [ih, vec_getD, vec_getD, getD_zero a ha]
      exact fma_zero_left _
  unfold Asm.blocked
  simp only [hacc, htail]
  decide +kernel

/-- the cosine distance of a zero vector to any finite vector is one -/
theorem cosine_zero (avx : Bool) (junk : ℕ → ℕ → Num) (a b : List ℚ) (hl : a.length = b.length) (ha : ∀ x ∈ a, x = 0) :
    distance ops avx junk .cosine (vec a) (vec b) = .ok (.fin 1) := by
  have hv : (vec a).length = (vec b).length := by simp [vec, hl]
  have hi : impl ops avx junk .cosine (vec a) (vec b) = some (.fin 0) := by
    cases avx
    · exact loop_zero a b hl ha
    · have hf : Asm.steps (vec a).length ≤ fuel (vec a).length := Nat.le_refl _
      show (Asm.dot ops.toArith junk (vec a) (vec b) (fuel (vec a).length)).getD none = _
      rw [Asm.dot_blocked _ _ hv.symm hf, blocked_zero a b ha]
      rfl
  unfold distance
  rw [if_neg (by simpa using hv), hi]
  decide +kernel

/-- squares up to 2^-150 are lost -/
theorem square_lost {x : ℚ} (h : |x| ≤ 1 / 2 ^ 75) : F32.mul (.fin x) (.fin x) = .fin 0 := by
  have h2 : x * x ≤ 1 / 2 ^ 150 := by
    have h0 := abs_nonneg x
    have : |x| * |x| ≤ 1 / 2 ^ 75 * (1 / 2 ^ 75) := mul_le_mul h h h0 (by positivity)
    rw [abs_mul_abs_self] at this
    refine this.trans (by norm_num)
  have h0 := mul_self_nonneg x
  show fl (x * x) = _
  generalize x * x = y at *
  rcases h0.eq_or_lt with h | h
  · rw [← h, fl_zero]
  have hplace : place y = -149 := by
    unfold place
    apply max_eq_right
    have := Int.log_mono_right (b := 2) (by rw [abs_of_pos h]; exact h : 0 < |y|) (by rw [abs_of_pos h]; exact h2 : |y| ≤ 1 / 2 ^ 150)
    have e : (1 / 2 ^ 150 : ℚ) = ((2 : ℕ) : ℚ) ^ (-150 : ℤ) := by rw [zpow_neg]; norm_num
    rw [e, Int.log_zpow (by norm_num)] at this
    omega
  have e149 : (2 : ℚ) ^ (-149 : ℤ) = 1 / 2 ^ 149 := by rw [zpow_neg, one_div]; congr 1
  have hy : y / 2 ^ place y ≤ 1 / 2 := by
    rw [hplace, e149, div_le_iff₀ (by positivity)]
    refine h2.trans (by norm_num)
  have hy0 : 0 ≤ y / 2 ^ place y := div_nonneg h0 (two_pos _).le
  have hnear : nearest (y / 2 ^ place y) = 0 := by
    have hfl : ⌊y / 2 ^ place y⌋ = 0 := by
      rw [Int.floor_eq_zero_iff]
      exact ⟨hy0, by linarith⟩
    unfold nearest
    rw [hfl]
    split
    · rfl
    · rw [if_neg]
      · rw [if_pos (by norm_num)]
      · push_cast; linarith
  have hr : round y = 0 := by
    unfold round
    rw [hnear]
    simp
  unfold fl
  rw [hr]
  simp

theorem norm2_lost (v : List ℚ) (h : ∀ x ∈ v, |x| ≤ 1 / 2 ^ 75) : norm2 (vec v) = .fin 0 := by
  unfold norm2
  induction v with
  | nil => rfl
  | cons x v ih =>
    show (vec v).foldl _ (F32.add (.fin 0) (F32.mul (.fin x) (.fin x))) = _
    rw [square_lost (h x List.mem_cons_self), add_zero_zero]
    exact ih (fun y hy => h y (List.mem_cons_of_mem _ hy))

/-- a sum of squares from 2^129 on overflows -/
theorem norm2_huge (v : List ℚ) (hv : ∀ x ∈ v, IsFloat x) (hn : v.length ≤ 2 ^ 20) (h : 2 ^ 129 ≤ (v.map fun x => x ^ 2).sum) :
    norm2 (vec v) = .inf false := by
  have hpos : Pos (norm2 (vec v)) := fold_pos (vec v) (vec_not_nan v) (le_refl (0 : ℚ))
  cases hr : norm2 (vec v) with
  | nan => rw [hr] at hpos; exact hpos.elim
  | inf b => rw [hr] at hpos; rw [show b = false from hpos]
  | fin r =>
    exfalso
    have hh := norm2_holds v (fun x hx => Grid.of_float (hv x hx))
    obtain ⟨_, hfr, _⟩ := fold_ge v (le_refl 0) isFloat_zero hr
    have h1 := (hh.near r hr).2
    have h2 := isFloat_lt hfr
    have h3 := (abs_lt.1 h2).2
    have hnq : (v.length : ℚ) ≤ 2 ^ 20 := by
      have : ((v.length : ℕ) : ℚ) ≤ ((2 ^ 20 : ℕ) : ℚ) := Nat.cast_le.2 hn
      rwa [Nat.cast_pow, Nat.cast_ofNat] at this
    have hn0 : (0 : ℚ) ≤ v.length := Nat.cast_nonneg _
    generalize (v.map fun x => x ^ 2).sum = N at *
    have hoff : off (v.length + 1) v.length N ≤ 1 / 4 * N + 1 := by
      rw [off_eq]
      have hb := fac_bound (v.length + 1)
      have hf2 : fac (v.length + 1) ≤ 2 := fac_le_two (by omega)
      have hf1 := fac_ge (v.length + 1)
      have h4 : fac (v.length + 1) - 1 ≤ 1 / 4 := by
        have hu : unit = 1 / 2 ^ 24 := rfl
        rw [hu] at hb
        push_cast at hb
        nlinarith
      have h6 : (fac (v.length + 1) - 1) * N ≤ 1 / 4 * N := mul_le_mul_of_nonneg_right h4 (le_trans (by positivity) h)
      have h7 : (v.length : ℚ) * tiny * fac (v.length + 1) ≤ 1 / 2 * 2 := by
        refine mul_le_mul ?_ hf2 (by linarith) (by norm_num)
        have e : (2 : ℚ) ^ 20 * tiny ≤ 1 / 2 := by norm_num [tiny]
        have := mul_le_mul_of_nonneg_right hnq tiny_pos.le
        linarith
      linarith
    have h5 := (abs_le.1 (h1.trans hoff)).1
    have h6 : (2 : ℚ) ^ 129 = 2 * 2 ^ 128 := by norm_num
    have h7 : (16 : ℚ) ≤ 2 ^ 128 := by norm_num
    linarith

/-- an infinite entry makes the sum of squares infinite -/
theorem norm2_inf (v : List Num) (hv : ∀ x ∈ v, x ≠ .nan) (s : Bool) (h : .inf s ∈ v) : norm2 v = .inf false := by
  have hpos : Pos (norm2 v) := fold_pos v hv (le_refl (0 : ℚ))
  have key : ∀ (v : List Num) (t : Num), .inf s ∈ v → ¬(v.foldl (fun n x => F32.add n (F32.mul x x)) t).isFin := by
    intro v
    induction v with
    | nil => intro t h; cases h
    | cons x v ih =>
      intro t h
      rcases List.mem_cons.1 h with h | h
      · subst h
        refine fold_notFin v ?_
        intro hc
        exact (mul_isFin (add_isFin hc).2).1
      · exact ih _ h
  have hn := key v (.fin 0) h
  cases hr : norm2 v with
  | nan => rw [hr] at hpos; exact hpos.elim
  | inf b => rw [hr] at hpos; rw [show b = false from hpos]
  | fin r =>
    exfalso
    unfold norm2 at hr
    rw [hr] at hn
    exact hn trivial

end F32
end Fave

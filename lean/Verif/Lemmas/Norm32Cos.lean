import Verif.Lemmas.Norm32
import Mathlib.Analysis.Real.Sqrt
/-!
# Cosine distances of vectors normalised in 32-bit arithmetic
-/
namespace Fave
namespace F32
open Distance
set_option linter.unusedSectionVars false

section
variable {F : Type} [Field F] [LinearOrder F] [IsStrictOrderedRing F]

/-- half the sum of the squares bounds the products -/
theorem products_le (a b : List F) (hl : a.length = b.length) :
    2 * (List.zipWith (fun x y => |x * y|) a b).sum ≤ (a.map fun x => x ^ 2).sum + (b.map fun x => x ^ 2).sum := by
  induction a generalizing b with
  | nil => cases b with
    | nil => simp
    | cons => simp at hl
  | cons x a ih => cases b with
    | nil => simp at hl
    | cons y b =>
      have := ih b (by simpa using hl)
      simp only [List.zipWith_cons_cons, List.sum_cons, List.map_cons]
      have h : 2 * |x * y| ≤ x ^ 2 + y ^ 2 := by
        rcases abs_cases (x * y) with ⟨h, _⟩ | ⟨h, _⟩ <;> rw [h] <;> nlinarith [sq_nonneg (x - y), sq_nonneg (x + y)]
      linarith

theorem inner_le (a b : List F) : |(List.zipWith (fun x y => x * y) a b).sum| ≤ (List.zipWith (fun x y => |x * y|) a b).sum := by
  induction a generalizing b with
  | nil => simp
  | cons x a ih => cases b with
    | nil => simp
    | cons y b =>
      simp only [List.zipWith_cons_cons, List.sum_cons]
      exact (abs_add_le _ _).trans (add_le_add (le_refl _) (ih b))

theorem inner_scale (a b : List F) (s t : F) :
    (List.zipWith (fun x y => x * y) (a.map fun x => x / s) (b.map fun x => x / t)).sum =
      (List.zipWith (fun x y => x * y) a b).sum / (s * t) := by
  induction a generalizing b with
  | nil => simp
  | cons x a ih => cases b with
    | nil => simp
    | cons y b =>
      simp only [List.zipWith_cons_cons, List.sum_cons, List.map_cons, ih b]
      rw [add_div, div_mul_div_comm]

theorem squares_scale (a : List F) (s : F) : ((a.map fun x => x / s).map fun x => x ^ 2).sum = (a.map fun x => x ^ 2).sum / s ^ 2 := by
  induction a with
  | nil => simp
  | cons x a ih =>
    simp only [List.map_cons, List.sum_cons, ih]
    rw [add_div, div_pow]
end

/-- rounding both factors -/
theorem product_rounded (x y : ℚ) : |round x * round y - x * y| ≤ 5 / 4 * unit * (x ^ 2 + y ^ 2) + 5 * tiny := by
  have h1 := round_rel x
  have h2 := round_rel y
  have e : round x * round y - x * y = (round x - x) * (round y - y) + (round x - x) * y + x * (round y - y) := by ring
  rw [e]
  have k1 : |(round x - x) * (round y - y) + (round x - x) * y + x * (round y - y)| ≤
      |round x - x| * |round y - y| + |round x - x| * |y| + |x| * |round y - y| := by
    refine (abs_add_le _ _).trans ?_
    rw [abs_mul x]
    refine add_le_add_left ((abs_add_le _ _).trans ?_) _
    rw [abs_mul, abs_mul]
  refine k1.trans ?_
  rw [← sq_abs x, ← sq_abs y]
  have hp := abs_nonneg x
  have hq := abs_nonneg y
  have a1 := abs_nonneg (round x - x)
  have a2 := abs_nonneg (round y - y)
  generalize |x| = p at *
  generalize |y| = q at *
  generalize |round x - x| = d at *
  generalize |round y - y| = d' at *
  have ht : tiny ≤ 1 / 2 ^ 30 * unit := by norm_num [tiny, unit]
  have ht0 := tiny_pos
  have hu : unit = 1 / 2 ^ 24 := rfl
  have b1 : d * d' ≤ (unit * p + tiny) * (unit * q + tiny) := mul_le_mul h1 h2 a2 (a1.trans h1)
  have b2 : d * q ≤ (unit * p + tiny) * q := mul_le_mul_of_nonneg_right h1 hq
  have b3 : p * d' ≤ p * (unit * q + tiny) := mul_le_mul_of_nonneg_left h2 hp
  have hpq : 2 * (p * q) ≤ p ^ 2 + q ^ 2 := by nlinarith [sq_nonneg (p - q)]
  have hp1 : 2 * p ≤ 1 + p ^ 2 := by nlinarith [sq_nonneg (p - 1)]
  have hq1 : 2 * q ≤ 1 + q ^ 2 := by nlinarith [sq_nonneg (q - 1)]
  have c1 : tiny * (2 * p) ≤ tiny * (1 + p ^ 2) := mul_le_mul_of_nonneg_left hp1 ht0.le
  have c2 : tiny * (2 * q) ≤ tiny * (1 + q ^ 2) := mul_le_mul_of_nonneg_left hq1 ht0.le
  have c3 : tiny * p ^ 2 ≤ 1 / 2 ^ 30 * unit * p ^ 2 := mul_le_mul_of_nonneg_right ht (sq_nonneg p)
  have c4 : tiny * q ^ 2 ≤ 1 / 2 ^ 30 * unit * q ^ 2 := mul_le_mul_of_nonneg_right ht (sq_nonneg q)
  have c5 : tiny * tiny ≤ tiny * 1 := mul_le_mul_of_nonneg_left (by linarith [show unit ≤ 1 by norm_num [unit]]) ht0.le
  rw [hu] at *
  have p0 := sq_nonneg p
  have q0 := sq_nonneg q
  have tp : 0 ≤ tiny * p := mul_nonneg ht0.le hp
  have tq : 0 ≤ tiny * q := mul_nonneg ht0.le hq
  nlinarith

theorem inner_rounded (a b : List ℚ) (hl : a.length = b.length) :
    |(List.zipWith (fun x y => x * y) (a.map round) (b.map round)).sum - (List.zipWith (fun x y => x * y) a b).sum| ≤
      5 / 4 * unit * ((a.map fun x => x ^ 2).sum + (b.map fun x => x ^ 2).sum) + 5 * a.length * tiny ∧
    (List.zipWith (fun x y => |x * y|) (a.map round) (b.map round)).sum ≤ (List.zipWith (fun x y => |x * y|) a b).sum +
      (5 / 4 * unit * ((a.map fun x => x ^ 2).sum + (b.map fun x => x ^ 2).sum) + 5 * a.length * tiny) := by
  induction a generalizing b with
  | nil => cases b with
    | nil => simp
    | cons => simp at hl
  | cons x a ih => cases b with
    | nil => simp at hl
    | cons y b =>
      obtain ⟨h1, h2⟩ := ih b (by simpa using hl)
      have h := product_rounded x y
      simp only [List.map_cons, List.zipWith_cons_cons, List.sum_cons, List.length_cons]
      push_cast
      constructor
      · rw [add_sub_add_comm]
        refine (abs_add_le _ _).trans ?_
        linarith
      · have := abs_sub_abs_le_abs_sub (round x * round y) (x * y)
        linarith

theorem depth_cosine (avx : Bool) (n : ℕ) : depth avx .cosine n ≤ n + 7 := by
  cases avx
  · show n + 2 ≤ n + 7
    omega
  · show max (n / 32 + 7) (n % 32 + 4) ≤ n + 7
    omega

theorem length_rounded (v : List ℚ) (f : ℚ → ℚ) : (v.map f).length = v.length := List.length_map _

/-- the distance of two rounded vectors of about unit length -/
theorem cosine_rounded (avx : Bool) (junk : ℕ → ℕ → Num) (a b : List ℚ) (hl : a.length = b.length) (hn : a.length ≤ 2 ^ 20)
    (ha : (a.map fun x => x ^ 2).sum ≤ 7 / 6) (hb : (b.map fun x => x ^ 2).sum ≤ 7 / 6) :
    ∃ d, distance ops avx junk .cosine (vec (a.map round)) (vec (b.map round)) = .ok (.fin d) ∧
      |d - (1 - (List.zipWith (fun x y => x * y) a b).sum)| ≤ (5 * a.length + 43) * unit := by
  have hg : ∀ (v : List ℚ), ∀ z ∈ v.map round, Grid z := by
    intro v z hz
    obtain ⟨x, _, rfl⟩ := List.mem_map.1 hz
    exact grid_round x
  have hl' : (a.map round).length = (b.map round).length := by rw [List.length_map, List.length_map, hl]
  obtain ⟨r, hr, hh⟩ := distance_holds avx junk .cosine hl' (hg a) (hg b)
  rw [List.length_map] at hh
  obtain ⟨h1, h2⟩ := inner_rounded a b hl
  have h3 := products_le a b hl
  have hnq : (a.length : ℚ) ≤ 2 ^ 20 := by
    have : ((a.length : ℕ) : ℚ) ≤ ((2 ^ 20 : ℕ) : ℚ) := Nat.cast_le.2 hn
    rwa [Nat.cast_pow, Nat.cast_ofNat] at this
  have hn0 : (0 : ℚ) ≤ a.length := Nat.cast_nonneg _
  have hu : unit = 1 / 2 ^ 24 := rfl
  have htn : (a.length : ℚ) * tiny ≤ 1 / 2 ^ 30 * unit := by
    have e : (2 : ℚ) ^ 20 * tiny ≤ 1 / 2 ^ 30 * unit := by norm_num [tiny, unit]
    have := mul_le_mul_of_nonneg_right hnq tiny_pos.le
    linarith
  have herr : 5 / 4 * unit * ((a.map fun x => x ^ 2).sum + (b.map fun x => x ^ 2).sum) + 5 * a.length * tiny ≤ 3 * unit := by
    have : unit * ((a.map fun x => x ^ 2).sum + (b.map fun x => x ^ 2).sum) ≤ unit * (7 / 3) :=
      mul_le_mul_of_nonneg_left (by linarith) unit_pos.le
    have := unit_pos
    linarith
  have hsize : size .cosine (a.map round) (b.map round) ≤ 9 / 4 := by
    show 1 + _ ≤ _
    have h4 := h2.trans (add_le_add (le_refl _) herr)
    rw [hu] at h4
    linarith
  have hsize0 : 0 ≤ size .cosine (a.map round) (b.map round) := hh.nonneg
  have hdepth := depth_cosine avx a.length
  have hprod : products .cosine a.length = a.length := rfl
  rw [hprod] at hh
  have hfac : fac (depth avx .cosine a.length) ≤ 2 := fac_le_two (by omega)
  have hfac1 := fac_ge (depth avx .cosine a.length)
  have hfin := hh.finite (by
    have : (size .cosine (a.map round) (b.map round) + a.length * tiny) * fac (depth avx .cosine a.length) ≤ (9 / 4 + 1) * 2 := by
      refine mul_le_mul ?_ hfac (by linarith) (by norm_num)
      rw [hu] at htn
      linarith
    have : (9 / 4 + 1 : ℚ) * 2 < 2 ^ 128 := by norm_num
    linarith)
  obtain ⟨d, rfl⟩ := isFin_iff.1 hfin
  refine ⟨d, hr, ?_⟩
  have h5 := (hh.near d rfl).2
  have hoff : off (depth avx .cosine a.length) a.length (size .cosine (a.map round) (b.map round)) ≤ (5 * a.length + 40) * unit := by
    refine (off_mono hdepth (le_refl _) hsize0 hsize).trans ?_
    rw [off_eq]
    have hb' := fac_bound (a.length + 7)
    have hf2 : fac (a.length + 7) ≤ 2 := fac_le_two (by omega)
    have hf1 := fac_ge (a.length + 7)
    have h4 : fac (a.length + 7) - 1 ≤ 10 / 9 * (a.length + 7) * unit := by
      push_cast at hb'
      rw [hu] at hb' ⊢
      nlinarith
    have h7 : (a.length : ℚ) * tiny * fac (a.length + 7) ≤ 1 / 2 ^ 30 * unit * 2 :=
      mul_le_mul htn hf2 (by linarith) (by have := unit_pos; positivity)
    have := unit_pos
    have := mul_nonneg hn0 unit_pos.le
    nlinarith
  have ht : truth .cosine (a.map round) (b.map round) = 1 - (List.zipWith (fun x y => x * y) (a.map round) (b.map round)).sum := rfl
  rw [ht] at h5
  have h6 := abs_sub_le d (1 - (List.zipWith (fun x y => x * y) (a.map round) (b.map round)).sum) (1 - (List.zipWith (fun x y => x * y) a b).sum)
  have h7 : |1 - (List.zipWith (fun x y => x * y) (a.map round) (b.map round)).sum - (1 - (List.zipWith (fun x y => x * y) a b).sum)| =
      |(List.zipWith (fun x y => x * y) (a.map round) (b.map round)).sum - (List.zipWith (fun x y => x * y) a b).sum| := by
    rw [← abs_neg]; congr 1; ring
  rw [h7] at h6
  linarith

/-- the true cosine of two vectors -/
theorem cosine_true_le (a b : List ℝ) (hl : a.length = b.length) (s t : ℝ) (hs : 0 < s) (ht : 0 < t)
    (h1 : (a.map fun x => x ^ 2).sum = s ^ 2) (h2 : (b.map fun x => x ^ 2).sum = t ^ 2) :
    |(List.zipWith (fun x y => x * y) a b).sum / (s * t)| ≤ 1 := by
  have h := products_le (a.map fun x => x / s) (b.map fun x => x / t) (by simpa using hl)
  rw [squares_scale, squares_scale, h1, h2, div_self (by positivity), div_self (by positivity)] at h
  have h3 := inner_le (a.map fun x => x / s) (b.map fun x => x / t)
  rw [inner_scale] at h3
  linarith

theorem cast_inner (a b : List ℚ) : (((List.zipWith (fun x y => x * y) a b).sum : ℚ) : ℝ) =
    (List.zipWith (fun x y => x * y) (a.map fun x : ℚ => (x : ℝ)) (b.map fun x : ℚ => (x : ℝ))).sum := by
  induction a generalizing b with
  | nil => simp
  | cons x a ih => cases b with
    | nil => simp
    | cons y b =>
      simp only [List.zipWith_cons_cons, List.sum_cons, List.map_cons, ← ih b]
      push_cast
      ring

theorem cast_squares (a : List ℚ) : (((a.map fun x => x ^ 2).sum : ℚ) : ℝ) = ((a.map fun x : ℚ => (x : ℝ)).map fun x => x ^ 2).sum := by
  induction a with
  | nil => simp
  | cons x a ih =>
    simp only [List.map_cons, List.sum_cons, ← ih]
    push_cast
    ring

/-- a number whose square is near one -/
theorem near_one {x e : ℝ} (hx : 0 < x) (h : |x ^ 2 - 1| ≤ e) : |x - 1| ≤ e := by
  have h1 : |x ^ 2 - 1| = |x - 1| * (x + 1) := by
    rw [show x ^ 2 - 1 = (x - 1) * (x + 1) by ring, abs_mul, abs_of_pos (by linarith : 0 < x + 1)]
  rw [h1] at h
  have := abs_nonneg (x - 1)
  nlinarith

/-- dividing by a number near the length -/
theorem scale_near {N s n : ℚ} (hN : 0 < N) (hs : 0 < s) (hn0 : 0 ≤ n) (hn : n ≤ 2 ^ 20) (h : |s ^ 2 - N| ≤ (n + 6) / 2 ^ 23 * N) :
    |N / s ^ 2 - 1| ≤ 7 / 6 * ((n + 6) / 2 ^ 23) ∧ N / s ^ 2 ≤ 7 / 6 := by
  have hs2 : 0 < s ^ 2 := by positivity
  have hd : (n + 6) / 2 ^ 23 ≤ 1 / 7 := by linarith
  have hd0 : 0 ≤ (n + 6) / 2 ^ 23 := by positivity
  generalize (n + 6) / 2 ^ 23 = d at *
  have h' := abs_le.1 h
  have hq : N / s ^ 2 ≤ 7 / 6 := by
    rw [div_le_iff₀ hs2]
    nlinarith [h'.1]
  refine ⟨?_, hq⟩
  have e : N / s ^ 2 - 1 = -(s ^ 2 - N) / s ^ 2 := by field_simp; ring
  rw [e, abs_div, abs_neg, abs_of_pos hs2]
  calc |s ^ 2 - N| / s ^ 2 ≤ d * N / s ^ 2 := div_le_div_of_nonneg_right h hs2.le
    _ = d * (N / s ^ 2) := by ring
    _ ≤ d * (7 / 6) := mul_le_mul_of_nonneg_left hq hd0
    _ = 7 / 6 * d := by ring

end F32
end Fave

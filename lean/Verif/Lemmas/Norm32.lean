import Verif.Lemmas.Rounding3
/-!
# Normalising in 32-bit arithmetic
-/
namespace Fave
namespace F32
open Distance

theorem root_nonneg (x : ℚ) : 0 ≤ root x := by
  unfold root
  simp only
  split <;> positivity

theorem grid_pos {x : ℚ} (hx : 0 < x) (hg : Grid x) : 1 / 2 ^ 149 ≤ x := by
  obtain ⟨m, hm⟩ := hg
  have hm0 : 1 ≤ m := by
    by_contra hc
    have h1 : (m : ℚ) ≤ 0 := by exact_mod_cast (by omega : m ≤ 0)
    have h2 := mul_nonpos_of_nonpos_of_nonneg h1 (two_pos (-149)).le
    linarith
  have h1 : (1 : ℚ) ≤ m := by exact_mod_cast hm0
  have h2 : (2 : ℚ) ^ (-149 : ℤ) = 1 / 2 ^ 149 := by
    rw [zpow_neg, one_div]
    congr 1
  rw [hm, h2]
  have : (0 : ℚ) < 1 / 2 ^ 149 := by positivity
  nlinarith

/-- the root of the model is near the true root -/
theorem root_close {x : ℚ} (hx : 0 < x) (hg : Grid x) : |root x ^ 2 - x| ≤ unit * x := by
  have hx2 := grid_pos hx hg
  have hr := root_nonneg x
  have hp : (0 : ℚ) < 2 ^ 200 := by positivity
  obtain ⟨-, s2⟩ := root_side hx.le hg (⌊root x * 2 ^ 200⌋₊ + 1)
  obtain ⟨s1, -⟩ := root_side hx.le hg ⌊root x * 2 ^ 200⌋₊
  have f1 : (⌊root x * 2 ^ 200⌋₊ : ℚ) / 2 ^ 200 ≤ root x := by
    rw [div_le_iff₀ hp]
    exact Nat.floor_le (by positivity)
  have f2 : root x < (⌊root x * 2 ^ 200⌋₊ + 1 : ℕ) / 2 ^ 200 := by
    rw [lt_div_iff₀ hp]
    push_cast
    exact Nat.lt_floor_add_one _
  have g1 : ((⌊root x * 2 ^ 200⌋₊ : ℚ) / 2 ^ 200) ^ 2 ≤ x := by
    rw [← not_lt, ← s1, not_lt]; exact f1
  have g2 : x ≤ ((⌊root x * 2 ^ 200⌋₊ + 1 : ℕ) / 2 ^ 200 : ℚ) ^ 2 := by
    rw [← not_lt, ← s2, not_lt]; exact f2.le
  have e : ((⌊root x * 2 ^ 200⌋₊ + 1 : ℕ) : ℚ) / 2 ^ 200 = (⌊root x * 2 ^ 200⌋₊ : ℚ) / 2 ^ 200 + 1 / 2 ^ 200 := by
    push_cast; rw [add_div]
  rw [e] at f2 g2
  have y0 : (0 : ℚ) ≤ (⌊root x * 2 ^ 200⌋₊ : ℚ) / 2 ^ 200 := by positivity
  generalize (⌊root x * 2 ^ 200⌋₊ : ℚ) / 2 ^ 200 = y at *
  generalize root x = r at *
  have ht : (0 : ℚ) < 1 / 2 ^ 200 := by positivity
  have ht2 : (1 / 2 ^ 200 : ℚ) ^ 2 * (1 + 4 * 2 ^ 24) ≤ 1 / 2 ^ 26 * (1 / 2 ^ 149) := by norm_num
  generalize (1 / 2 ^ 200 : ℚ) = t at *
  generalize (1 / 2 ^ 149 : ℚ) = w at *
  have k1 : 2 * y * t ≤ unit / 4 * y ^ 2 + 4 * 2 ^ 24 * t ^ 2 := by
    have h := sq_nonneg (y * (1 / 2 ^ 13) - 2 ^ 13 * t)
    unfold unit
    nlinarith
  have k2 : (y + t) ^ 2 - y ^ 2 ≤ unit * x := by
    have : unit = 1 / 2 ^ 24 := rfl
    rw [this] at k1 ⊢
    nlinarith
  have k3 : y ^ 2 ≤ r ^ 2 := by nlinarith
  have k4 : r ^ 2 ≤ (y + t) ^ 2 := by nlinarith
  rw [abs_le]
  constructor <;> linarith

/-- the rounded square root of a positive number is near the true root -/
theorem sqrt_close {x : ℚ} (hx : 0 < x) (hg : Grid x) (hb : x < 2 ^ 128) :
    ∃ s, F32.sqrt (.fin x) = .fin s ∧ 0 < s ∧ |s ^ 2 - x| ≤ 6 * unit * x := by
  have hc := abs_le.1 (root_close hx hg)
  have hr := root_nonneg x
  have hx2 := grid_pos hx hg
  have hs : F32.sqrt (.fin x) = fl (root x) := if_neg (not_lt.2 hx.le)
  have hrel := round_rel (root x)
  rw [abs_of_nonneg hr] at hrel
  have htiny : tiny ≤ unit * root x := by
    have h1 : tiny ^ 2 ≤ (unit * root x) ^ 2 := by
      have h2 : x / 2 ≤ root x ^ 2 := by
        have : unit = 1 / 2 ^ 24 := rfl
        rw [this] at hc
        linarith [hc.1]
      have h3 : tiny ^ 2 ≤ unit ^ 2 * (1 / 2 ^ 149 / 2) := by norm_num [tiny, unit]
      have h4 : (0 : ℚ) ≤ unit ^ 2 := by positivity
      have h5 : unit ^ 2 * (1 / 2 ^ 149 / 2) ≤ unit ^ 2 * root x ^ 2 := by
        apply mul_le_mul_of_nonneg_left _ h4
        linarith
      calc tiny ^ 2 ≤ _ := h3
        _ ≤ _ := h5
        _ = _ := by ring
    exact (pow_le_pow_iff_left₀ tiny_pos.le (mul_nonneg unit_pos.le hr) (by norm_num)).1 h1
  have hd : |round (root x) - root x| ≤ 2 * unit * root x := by linarith
  have hd' := abs_le.1 hd
  have hu : unit = 1 / 2 ^ 24 := rfl
  have hr0 : 0 < root x := by
    rcases hr.lt_or_eq with h | h
    · exact h
    · rw [← h] at hc
      rw [hu] at hc
      linarith [hc.1]
  have hs0 : 0 < round (root x) := by
    rw [hu] at hd'
    linarith [hd'.1]
  have hr64 : root x < 2 ^ 65 := by
    by_contra hh
    rw [not_lt] at hh
    have h1 : (2 ^ 65 : ℚ) ^ 2 ≤ root x ^ 2 := pow_le_pow_left₀ (by positivity) hh 2
    rw [hu] at hc
    have h2 : (2 ^ 65 : ℚ) ^ 2 = 4 * 2 ^ 128 := by norm_num
    linarith [hc.2]
  refine ⟨round (root x), ?_, hs0, ?_⟩
  · rw [hs]
    unfold fl
    rw [if_pos]
    rw [abs_of_pos hs0]
    rw [hu] at hd'
    have : (2 : ℚ) ^ 65 * 2 < 2 ^ 128 := by norm_num
    linarith [hd'.2]
  · generalize round (root x) = s at *
    generalize root x = r at *
    rw [hu] at hc hd' ⊢
    have h1 : s ^ 2 - r ^ 2 ≤ 5 / 2 ^ 24 * r ^ 2 * (1 - 1 / 2 ^ 10) := by nlinarith
    have h2 : -(5 / 2 ^ 24 * r ^ 2 * (1 - 1 / 2 ^ 10)) ≤ s ^ 2 - r ^ 2 := by nlinarith
    rw [abs_le]
    constructor <;> linarith [hc.1, hc.2]

/-! ## The sum of the squares -/

/-- the sum `Normalize` computes -/
def norm2 (v : List Num) : Num := v.foldl (fun n x => F32.add n (F32.mul x x)) (.fin 0)

theorem loop_norm (v : List Num) (s : Num) : loop ops F32.mul s v v = some (v.foldl (fun n x => F32.add n (F32.mul x x)) s) := by
  induction v generalizing s with
  | nil => rfl
  | cons x v ih => exact ih _

/-- the true sum of the squares -/
theorem zip_self (v : List ℚ) : (List.zipWith (fun x y => x * y) v v).sum = (v.map fun x => x ^ 2).sum ∧
    (List.zipWith (fun x y => |x * y|) v v).sum = (v.map fun x => x ^ 2).sum := by
  induction v with
  | nil => exact ⟨rfl, rfl⟩
  | cons x v ih =>
    simp only [List.zipWith_cons_cons, List.sum_cons, List.map_cons, ih.1, ih.2, abs_mul_self]
    constructor <;> ring

theorem norm2_holds (v : List ℚ) (hv : ∀ x ∈ v, Grid x) :
    Holds (norm2 (vec v)) (v.length + 1) v.length (v.map fun x => x ^ 2).sum (v.map fun x => x ^ 2).sum := by
  obtain ⟨r, h1, h2⟩ := dot_holds false (fun _ _ => .nan) (kd := .dot) (.inl rfl) (rfl : v.length = v.length) hv hv
  have h3 : impl ops false (fun _ _ => .nan) .dot (vec v) (vec v) = some (norm2 (vec v)) := loop_norm _ _
  rw [h3] at h1
  cases h1
  rw [(zip_self v).1, (zip_self v).2] at h2
  exact h2

theorem normalize_eq32 (v : List Num) : normalize ops v =
    if F32.eq (norm2 v) (.fin 0) then v.map fun _ => .fin 0 else v.map fun x => F32.div x (F32.sqrt (norm2 v)) := rfl

theorem le_round {a z : ℚ} (ha : IsFloat a) (h : a ≤ z) : a ≤ round z := by
  obtain ⟨m, e, hae, hm, he, _⟩ := ha
  have h1 := round_nearest z hm he
  rw [← hae, abs_of_nonpos (by linarith : a - z ≤ 0)] at h1
  linarith [(abs_le.1 h1).1]

theorem fold_notFin (v : List Num) {s : Num} (hs : ¬s.isFin) : ¬(v.foldl (fun n x => F32.add n (F32.mul x x)) s).isFin := by
  induction v generalizing s with
  | nil => exact hs
  | cons x v ih => exact ih (fun h => hs (add_isFin h).1)

/-- a finite sum of squares is no smaller than each of its terms -/
theorem fold_ge (v : List ℚ) {s r : ℚ} (hs0 : 0 ≤ s) (hs : IsFloat s)
    (h : (vec v).foldl (fun n x => F32.add n (F32.mul x x)) (.fin s) = .fin r) :
    s ≤ r ∧ IsFloat r ∧ ∀ x ∈ v, round (x ^ 2) ≤ r := by
  induction v generalizing s with
  | nil => cases h; exact ⟨le_refl _, hs, by simp⟩
  | cons x v ih =>
    have h' : (vec v).foldl (fun n x => F32.add n (F32.mul x x)) (F32.add (.fin s) (F32.mul (.fin x) (.fin x))) = .fin r := h
    have hf : (F32.add (.fin s) (F32.mul (.fin x) (.fin x))).isFin := by
      by_contra hc
      have := fold_notFin (vec v) hc
      rw [h'] at this
      exact this trivial
    obtain ⟨t, ht⟩ := isFin_iff.1 (add_isFin hf).2
    obtain ⟨s', hs'⟩ := isFin_iff.1 hf
    have ht0 : F32.mul (.fin x) (.fin x) = fl (x * x) := rfl
    have hs2 : F32.add (.fin s) (F32.mul (.fin x) (.fin x)) = fl (s + t) := by rw [ht]; rfl
    rw [ht0] at ht
    rw [hs2] at hs'
    rw [hs2, hs'] at h'
    have htv := fl_fin ht
    have hsv := fl_fin hs'
    have htp : 0 ≤ t := by rw [htv]; exact round_nonneg (mul_self_nonneg x)
    have g1 : s ≤ s' := by rw [hsv]; exact le_round hs (by linarith)
    have g2 : t ≤ s' := by rw [hsv]; exact le_round (fl_isFloat ht) (by linarith)
    obtain ⟨i1, i2, i3⟩ := ih (by linarith) (fl_isFloat hs') h'
    refine ⟨by linarith, i2, ?_⟩
    intro y hy
    rcases List.mem_cons.1 hy with rfl | hy
    · rw [pow_two, ← htv]; linarith
    · exact i3 y hy

theorem fold_pos (v : List Num) (hv : ∀ x ∈ v, x ≠ .nan) {s : Num} (hs : Pos s) :
    Pos (v.foldl (fun n x => F32.add n (F32.mul x x)) s) := by
  induction v generalizing s with
  | nil => exact hs
  | cons x v ih => exact ih (fun y hy => hv y (List.mem_cons_of_mem _ hy)) (Pos.add hs (Pos.sq (hv x List.mem_cons_self)))

theorem vec_not_nan (v : List ℚ) : ∀ x ∈ vec v, x ≠ .nan := by
  intro x hx
  obtain ⟨y, _, rfl⟩ := List.mem_map.1 hx
  exact nofun

theorem isFloat_zero : IsFloat 0 := ⟨0, 0, by simp, by norm_num, by norm_num, by norm_num⟩

theorem isFloat_lt {x : ℚ} (h : IsFloat x) : |x| < 2 ^ 128 := by
  obtain ⟨_, _, _, _, _, h⟩ := h
  exact h

/-- what normalising does: everything becomes zero, or everything is divided by a number near the root of the computed sum -/
theorem normalize_shape (v : List ℚ) :
    (normalize ops (vec v) = vec (v.map fun _ => 0) ∧ (norm2 (vec v) = .fin 0 ∨ norm2 (vec v) = .inf false)) ∨
    ∃ r s, norm2 (vec v) = .fin r ∧ 0 < r ∧ 0 < s ∧ |s ^ 2 - r| ≤ 6 * unit * r ∧ (∀ x ∈ v, |x / s| ≤ 4 / 3) ∧
      normalize ops (vec v) = vec (v.map fun x => round (x / s)) := by
  have hpos : Pos (norm2 (vec v)) := fold_pos (vec v) (vec_not_nan v) (le_refl (0 : ℚ))
  rw [normalize_eq32]
  cases hr : norm2 (vec v) with
  | nan => rw [hr] at hpos; exact hpos.elim
  | inf b =>
    rw [hr] at hpos
    have hb : b = false := hpos
    subst hb
    left
    refine ⟨?_, .inr rfl⟩
    show (if false = true then _ else (vec v).map fun x => F32.div x (.inf false)) = _
    rw [if_neg (by decide)]
    unfold vec
    rw [List.map_map, List.map_map]
    rfl
  | fin r =>
    rw [hr] at hpos
    have hr0 : 0 ≤ r := hpos
    rcases hr0.eq_or_lt with h0 | h0
    · left
      refine ⟨?_, .inl (by rw [← h0])⟩
      rw [← h0]
      show (if decide ((0 : ℚ) = 0) = true then (vec v).map (fun _ => Num.fin 0) else _) = _
      rw [if_pos (by decide)]
      unfold vec
      rw [List.map_map, List.map_map]
      rfl
    · right
      obtain ⟨_, hfr, hge⟩ := fold_ge v (le_refl 0) isFloat_zero hr
      obtain ⟨s, hs, hs0, hss⟩ := sqrt_close h0 (Grid.of_float hfr) (by
        have := isFloat_lt hfr
        rwa [abs_of_pos h0] at this)
      have hx : ∀ x ∈ v, |x / s| ≤ 4 / 3 := by
        intro x hx
        have h1 := hge x hx
        have h2 := round_rel (x ^ 2)
        rw [abs_of_nonneg (sq_nonneg x)] at h2
        have h3 := (abs_le.1 h2).1
        have h4 : tiny ≤ r / 2 := by
          have := grid_pos h0 (Grid.of_float hfr)
          have e : tiny = 1 / 2 ^ 149 / 2 := by norm_num [tiny]
          rw [e]
          linarith
        have h5 := (abs_le.1 hss).1
        have hu : unit = 1 / 2 ^ 24 := rfl
        rw [hu] at h3 h5
        have h6 : (x / s) ^ 2 ≤ (4 / 3) ^ 2 := by
          rw [div_pow, div_le_iff₀ (by positivity)]
          linarith
        exact (abs_le_of_sq_le_sq' h6 (by norm_num)).elim fun a b => abs_le.2 ⟨a, b⟩
      refine ⟨r, s, rfl, h0, hs0, hss, hx, ?_⟩
      have hne : F32.eq (.fin r) (.fin 0) = false := by
        show decide (r = 0) = false
        rw [decide_eq_false h0.ne']
      rw [hne, hs]
      show (vec v).map (fun x => F32.div x (.fin s)) = _
      unfold vec
      rw [List.map_map, List.map_map]
      apply List.map_congr_left
      intro x hxm
      show (if s = 0 then _ else fl (x / s)) = _
      rw [if_neg hs0.ne']
      unfold fl
      rw [if_pos]
      · rfl
      have h1 := hx x hxm
      have h2 := round_rel (x / s)
      have h3 := abs_le.1 h2
      have hu : unit ≤ 1 := by norm_num [unit]
      have ht : tiny ≤ 1 := by norm_num [tiny]
      have h4 : |round (x / s)| ≤ |x / s| + (unit * |x / s| + tiny) := by
        have := abs_sub_abs_le_abs_sub (round (x / s)) (x / s)
        linarith
      have h5 : unit * |x / s| ≤ 1 * |x / s| := mul_le_mul_of_nonneg_right hu (abs_nonneg _)
      have : (4 : ℚ) < 2 ^ 128 := by norm_num
      linarith

theorem round_abs_le {y : ℚ} (h : |y| ≤ 4 / 3) : |round y| ≤ 3 / 2 := by
  have h2 := round_rel y
  have hu : unit = 1 / 2 ^ 24 := rfl
  have ht : tiny ≤ 1 / 2 ^ 24 := by norm_num [tiny]
  have := abs_sub_abs_le_abs_sub (round y) y
  rw [hu] at h2
  linarith

/-- within the range of the sum of squares: the number divided by is near the true length -/
theorem normalize_range (v : List ℚ) (hv : ∀ x ∈ v, IsFloat x) (hn : v.length ≤ 2 ^ 20)
    (h1 : 1 / 2 ^ 100 ≤ (v.map fun x => x ^ 2).sum) (h2 : (v.map fun x => x ^ 2).sum ≤ 2 ^ 126) :
    ∃ s, 0 < s ∧ |s ^ 2 - (v.map fun x => x ^ 2).sum| ≤ ((v.length : ℚ) + 6) / 2 ^ 23 * (v.map fun x => x ^ 2).sum ∧
      normalize ops (vec v) = vec (v.map fun x => round (x / s)) := by
  have hh := norm2_holds v (fun x hx => Grid.of_float (hv x hx))
  have hnq : (v.length : ℚ) ≤ 2 ^ 20 := by
    have : ((v.length : ℕ) : ℚ) ≤ ((2 ^ 20 : ℕ) : ℚ) := Nat.cast_le.2 hn
    rwa [Nat.cast_pow, Nat.cast_ofNat] at this
  have hn0 : (0 : ℚ) ≤ v.length := Nat.cast_nonneg _
  generalize (v.map fun x => x ^ 2).sum = N at *
  have hNpos : 0 < N := lt_of_lt_of_le (by positivity) h1
  have hfac : fac (v.length + 1) ≤ 2 := fac_le_two (by omega)
  have hfac1 := fac_ge (v.length + 1)
  have htn : (v.length : ℚ) * tiny ≤ 1 / 2 ^ 30 * N := by
    have e : (2 : ℚ) ^ 20 * tiny ≤ 1 / 2 ^ 30 * (1 / 2 ^ 100) := by norm_num [tiny]
    have := mul_le_mul_of_nonneg_right hnq tiny_pos.le
    linarith
  have hfin := hh.finite (by
    have e : (N + v.length * tiny) * fac (v.length + 1) ≤ (N + 1 / 2 ^ 30 * N) * 2 :=
      mul_le_mul (by linarith) hfac (by linarith) (by positivity)
    have : (2 : ℚ) ^ 128 = 4 * 2 ^ 126 := by norm_num
    linarith)
  obtain ⟨r, hr⟩ := isFin_iff.1 hfin
  have hnear := (hh.near r hr).2
  have hoff : off (v.length + 1) v.length N ≤ (v.length + 2) / 2 ^ 23 * N := by
    rw [off_eq]
    have hb := fac_bound (v.length + 1)
    have h4 : fac (v.length + 1) - 1 ≤ 2 * (v.length + 1) * unit := by
      have h5 : (0 : ℚ) ≤ (v.length + 1) * unit := mul_nonneg (by linarith) unit_pos.le
      push_cast at hb
      nlinarith
    have h6 : (fac (v.length + 1) - 1) * N ≤ 2 * (v.length + 1) * unit * N := mul_le_mul_of_nonneg_right h4 hNpos.le
    have h7 : (v.length : ℚ) * tiny * fac (v.length + 1) ≤ 1 / 2 ^ 30 * N * 2 :=
      mul_le_mul htn hfac (by linarith) (by positivity)
    have hu : unit = 1 / 2 ^ 24 := rfl
    rw [hu] at h6
    have h8 : (0 : ℚ) ≤ v.length * N := mul_nonneg hn0 hNpos.le
    linarith
  have hnear' := abs_le.1 (hnear.trans hoff)
  have hr0 : 0 < r := by
    have h8 : ((v.length : ℚ) + 2) / 2 ^ 23 * N ≤ 1 / 2 * N := by
      apply mul_le_mul_of_nonneg_right _ hNpos.le
      linarith
    linarith [hnear'.1]
  rcases normalize_shape v with ⟨_, h | h⟩ | ⟨r', s, h3, h4, h5, h6, _, h7⟩
  · rw [hr] at h; cases h; exact absurd hr0 (lt_irrefl _)
  · rw [hr] at h; cases h
  · rw [hr] at h3
    cases h3
    refine ⟨s, h5, ?_, h7⟩
    have h6' := abs_le.1 h6
    have hu : unit = 1 / 2 ^ 24 := rfl
    rw [hu] at h6'
    have h8 : ((v.length : ℚ) + 2) / 2 ^ 23 * N ≤ 1 / 7 * N := by
      apply mul_le_mul_of_nonneg_right _ hNpos.le
      linarith
    have h9 : ((v.length : ℚ) + 6) / 2 ^ 23 * N = (v.length + 2) / 2 ^ 23 * N + 4 / 2 ^ 23 * N := by ring
    rw [abs_le, h9]
    generalize ((v.length : ℚ) + 2) / 2 ^ 23 * N = t at *
    constructor <;> linarith [h6'.1, h6'.2, hnear'.1, hnear'.2]

end F32
end Fave

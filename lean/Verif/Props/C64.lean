import Verif.Lemmas.Norm32Cos
import Verif.Lemmas.Norm32Lost
import Verif.Props.C63
/-!
# C64: normalising in 32-bit arithmetic

Full claim: *`Normalize` gives every vector of finite numbers that is not zero the length one and its direction, up to rounding, and the
cosine distance of two normalised vectors is, up to rounding, one minus the cosine of the angle between them.*

True if the sum of the squares is between 2^-100 and 2^126 and there are at most 2^20 numbers (`unit_length_partial`,
`cosine_near_truth_partial` and their consequences).  False beyond: vectors whose squares overflow or underflow become zero vectors, at
distance one from everything (`too_large_is_zero`, `too_small_is_zero`, `lost_direction`); an infinite entry becomes not-a-number
(`infinite_entry_not_a_number`).  Without any assumption on the size the result is always finite (`always_finite`,
`cosine_always_finite`).
-/
namespace Fave
namespace C64
open Distance F32

/-- the sum of the squares -/
def squares (v : List ℚ) : ℚ := (v.map fun x => x ^ 2).sum

/-- Normalising vectors of `float32` numbers, however large or small, gives `float32` numbers of magnitude at most 3/2, none of a sign
opposite to the entry it comes from. -/
theorem always_finite (v : List ℚ) : ∃ w : List ℚ, normalize ops (vec v) = vec w ∧ w.length = v.length ∧
    (∀ y ∈ w, IsFloat y ∧ |y| ≤ 3 / 2) ∧ ∀ i (h : i < v.length) (h' : i < w.length), 0 ≤ v[i] * w[i] := by
  rcases normalize_shape v with ⟨h, _⟩ | ⟨r, s, _, _, hs, _, hx, h⟩
  · refine ⟨_, h, by simp, ?_, ?_⟩
    · intro y hy
      obtain ⟨_, _, rfl⟩ := List.mem_map.1 hy
      exact ⟨isFloat_zero, by norm_num⟩
    · intro i h h'
      simp
  · refine ⟨_, h, by simp, ?_, ?_⟩
    · intro y hy
      obtain ⟨x, hxm, rfl⟩ := List.mem_map.1 hy
      have h1 := round_abs_le (hx x hxm)
      refine ⟨float_round (lt_of_le_of_lt h1 (by norm_num)), h1⟩
    · intro i h h'
      rw [List.getElem_map]
      rcases le_total 0 v[i] with h0 | h0
      · exact mul_nonneg h0 (round_nonneg (div_nonneg h0 hs.le))
      · have h1 := round_nonneg (div_nonneg (neg_nonneg.2 h0) hs.le)
        rw [neg_div, round_neg] at h1
        nlinarith

/-- The cosine distance of two normalised vectors of up to 2^22 finite numbers is always a number, never infinite or not-a-number. -/
theorem cosine_always_finite (avx : Bool) (junk : ℕ → ℕ → Num) (a b : List ℚ) (hl : a.length = b.length) (hn : a.length ≤ 2 ^ 22) :
    ∃ d, distance ops avx junk .cosine (normalize ops (vec a)) (normalize ops (vec b)) = .ok (.fin d) := by
  obtain ⟨w, hw, hwl, hwf, _⟩ := always_finite a
  obtain ⟨u, hu, hul, huf, _⟩ := always_finite b
  rw [hw, hu]
  have hl' : w.length = u.length := by rw [hwl, hul, hl]
  obtain ⟨r, hr, -, hfin⟩ := C63.near_truth_partial avx junk .cosine w u hl' (fun x hx => (hwf x hx).1) (fun x hx => (huf x hx).1)
  have hsum : ∀ (w u : List ℚ), (∀ y ∈ w, |y| ≤ 3 / 2) → (∀ y ∈ u, |y| ≤ 3 / 2) →
      (List.zipWith (fun x y => |x * y|) w u).sum ≤ 9 / 4 * w.length := by
    intro w
    induction w with
    | nil => intro u _ _; simp
    | cons x w ih =>
      intro u h1 h2
      cases u with
      | nil => simp; positivity
      | cons y u =>
        have := ih u (fun z hz => h1 z (List.mem_cons_of_mem _ hz)) (fun z hz => h2 z (List.mem_cons_of_mem _ hz))
        simp only [List.zipWith_cons_cons, List.sum_cons, List.length_cons]
        push_cast
        have h3 : |x * y| ≤ 3 / 2 * (3 / 2) := by
          rw [abs_mul]
          exact mul_le_mul (h1 x List.mem_cons_self) (h2 y List.mem_cons_self) (abs_nonneg _) (by norm_num)
        linarith
  have h1 := hsum w u (fun x hx => (hwf x hx).2) (fun x hx => (huf x hx).2)
  have hd := depth_cosine avx w.length
  have hfac : (1 + unit) ^ depth avx .cosine w.length ≤ 2 := fac_le_two (by omega)
  have hfac1 : 1 ≤ (1 + unit) ^ depth avx .cosine w.length := fac_ge _
  have hnq : (w.length : ℚ) ≤ 2 ^ 22 := by
    have : ((w.length : ℕ) : ℚ) ≤ ((2 ^ 22 : ℕ) : ℚ) := Nat.cast_le.2 (by omega)
    rwa [Nat.cast_pow, Nat.cast_ofNat] at this
  obtain ⟨d, rfl⟩ := hfin (by
    show (1 + (List.zipWith (fun x y => |x * y|) w u).sum + (w.length : ℚ) * tiny) * _ < _
    have ht : (w.length : ℚ) * tiny ≤ w.length * 1 :=
      mul_le_mul_of_nonneg_left (by norm_num [tiny]) (Nat.cast_nonneg _)
    have : (1 + (List.zipWith (fun x y => |x * y|) w u).sum + (w.length : ℚ) * tiny) * (1 + unit) ^ depth avx .cosine w.length ≤
        (1 + 9 / 4 * 2 ^ 22 + 2 ^ 22) * 2 := mul_le_mul (by linarith) hfac (by linarith) (by norm_num)
    refine lt_of_le_of_lt this (by norm_num))
  exact ⟨d, hr⟩

/-- the vectors to which normalising does no harm: at most 2^20 `float32` numbers, the sum of their squares neither too large nor too
small -/
structure Moderate (v : List ℚ) : Prop where
  floats : ∀ x ∈ v, IsFloat x
  short : v.length ≤ 2 ^ 20
  low : 1 / 2 ^ 100 ≤ squares v
  high : squares v ≤ 2 ^ 126

/-- Normalising a moderate vector gives it the length one, up to rounding (the square of the length is off by at most `(n + 8) / 2^22`),
and keeps its direction up to rounding: the result is a multiple of the vector in which every entry is off by at most its 2^24th
part and 2^-150. -/
theorem unit_length_partial (v : List ℚ) (h : Moderate v) : ∃ w : List ℚ, normalize ops (vec v) = vec w ∧
    |squares w - 1| ≤ (v.length + 8) / 2 ^ 22 ∧
    ∃ c : ℚ, 0 < c ∧ w.length = v.length ∧ ∀ i (h : i < v.length) (h' : i < w.length), |w[i] - c * v[i]| ≤ |c * v[i]| / 2 ^ 24 + 1 / 2 ^ 150 := by
  obtain ⟨hf, hn, h1, h2⟩ := h
  obtain ⟨s, hs, hss, hw⟩ := normalize_range v hf hn h1 h2
  refine ⟨_, hw, ?_, s⁻¹, inv_pos.2 hs, by simp, ?_⟩
  · have hnq : (v.length : ℚ) ≤ 2 ^ 20 := by
      have : ((v.length : ℕ) : ℚ) ≤ ((2 ^ 20 : ℕ) : ℚ) := Nat.cast_le.2 hn
      rwa [Nat.cast_pow, Nat.cast_ofNat] at this
    have hn0 : (0 : ℚ) ≤ v.length := Nat.cast_nonneg _
    have hN : 0 < (v.map fun x => x ^ 2).sum := lt_of_lt_of_le (by positivity) h1
    obtain ⟨e1, e2⟩ := scale_near hN hs hn0 hnq hss
    have h3 := (inner_rounded (v.map fun x => x / s) (v.map fun x => x / s) rfl).1
    rw [(zip_self _).1, (zip_self _).1, squares_scale, List.length_map] at h3
    have e : (v.map fun x => F32.round (x / s)) = (v.map fun x => x / s).map F32.round := by rw [List.map_map]; rfl
    unfold squares
    rw [e]
    have hu : unit = 1 / 2 ^ 24 := rfl
    have htn : (v.length : ℚ) * tiny ≤ 1 / 2 ^ 30 * unit := by
      have e : (2 : ℚ) ^ 20 * tiny ≤ 1 / 2 ^ 30 * unit := by norm_num [tiny, unit]
      have := mul_le_mul_of_nonneg_right hnq tiny_pos.le
      linarith
    rw [hu] at h3 htn
    have h4 := abs_sub_le ((((v.map fun x => x / s).map F32.round).map fun x => x ^ 2).sum) ((v.map fun x => x ^ 2).sum / s ^ 2) 1
    linarith
  · intro i h h'
    rw [List.getElem_map]
    have := round_rel (v[i] / s)
    have e : s⁻¹ * v[i] = v[i] / s := by rw [mul_comm, div_eq_mul_inv]
    rw [e]
    have hu : unit = 1 / 2 ^ 24 := rfl
    have ht : tiny = 1 / 2 ^ 150 := rfl
    rw [hu, ht] at this
    linarith

/-- The cosine distance of two normalised moderate vectors, computed with or without vector instructions, is within `(n + 8) / 2^20` of
one minus the cosine of the angle between the vectors given. -/
theorem cosine_near_truth_partial (avx : Bool) (junk : ℕ → ℕ → Num) (a b : List ℚ) (hl : a.length = b.length) (ha : Moderate a)
    (hb : Moderate b) :
    ∃ d : ℚ, distance ops avx junk .cosine (normalize ops (vec a)) (normalize ops (vec b)) = .ok (.fin d) ∧
      |(d : ℝ) - (1 - ((List.zipWith (fun x y => x * y) a b).sum : ℚ) / (Real.sqrt (squares a : ℚ) * Real.sqrt (squares b : ℚ)))| ≤
        ((a.length : ℝ) + 8) / 2 ^ 20 := by
  obtain ⟨haf, hn, ha1, ha2⟩ := ha
  obtain ⟨hbf, hbn, hb1, hb2⟩ := hb
  obtain ⟨s, hs, hss, hw⟩ := normalize_range a haf hn ha1 ha2
  obtain ⟨t, ht, htt, hu⟩ := normalize_range b hbf hbn hb1 hb2
  rw [← hl] at htt
  have hnq : (a.length : ℚ) ≤ 2 ^ 20 := by
    have : ((a.length : ℕ) : ℚ) ≤ ((2 ^ 20 : ℕ) : ℚ) := Nat.cast_le.2 hn
    rwa [Nat.cast_pow, Nat.cast_ofNat] at this
  have hn0 : (0 : ℚ) ≤ a.length := Nat.cast_nonneg _
  have hA : 0 < squares a := lt_of_lt_of_le (by positivity) ha1
  have hB : 0 < squares b := lt_of_lt_of_le (by positivity) hb1
  obtain ⟨e1, e2⟩ := scale_near hA hs hn0 hnq hss
  obtain ⟨g1, g2⟩ := scale_near hB ht hn0 hnq htt
  have ea : (a.map fun x => F32.round (x / s)) = (a.map fun x => x / s).map F32.round := by rw [List.map_map]; rfl
  have eb : (b.map fun x => F32.round (x / t)) = (b.map fun x => x / t).map F32.round := by rw [List.map_map]; rfl
  rw [hw, hu, ea, eb]
  obtain ⟨d, hd, hdd⟩ := cosine_rounded avx junk (a.map fun x => x / s) (b.map fun x => x / t) (by simpa using hl)
    (by simpa using hn) (by rw [squares_scale]; exact e2) (by rw [squares_scale]; exact g2)
  refine ⟨d, hd, ?_⟩
  rw [inner_scale, List.length_map] at hdd
  -- to real numbers
  have hdr : |(d : ℝ) - (1 - ((List.zipWith (fun x y => x * y) a b).sum : ℚ) / ((s : ℝ) * t))| ≤ (5 * (a.length : ℝ) + 43) / 2 ^ 24 := by
    have : ((|d - (1 - (List.zipWith (fun x y => x * y) a b).sum / (s * t))| : ℚ) : ℝ) ≤ (((5 * a.length + 43) * unit : ℚ) : ℝ) := by
      exact_mod_cast hdd
    have hu : ((unit : ℚ) : ℝ) = 1 / 2 ^ 24 := by unfold unit; push_cast; rfl
    push_cast [hu] at this
    rw [mul_one_div] at this
    exact this
  have hsr : (0 : ℝ) < (s : ℝ) := by exact_mod_cast hs
  have htr : (0 : ℝ) < (t : ℝ) := by exact_mod_cast ht
  have hAr : (0 : ℝ) < ((squares a : ℚ) : ℝ) := by exact_mod_cast hA
  have hBr : (0 : ℝ) < ((squares b : ℚ) : ℝ) := by exact_mod_cast hB
  have hcos := cosine_true_le (a.map fun x : ℚ => (x : ℝ)) (b.map fun x : ℚ => (x : ℝ)) (by simpa using hl)
    (Real.sqrt (squares a : ℚ)) (Real.sqrt (squares b : ℚ)) (Real.sqrt_pos.2 hAr) (Real.sqrt_pos.2 hBr)
    (by rw [Real.sq_sqrt hAr.le, ← cast_squares]; rfl) (by rw [Real.sq_sqrt hBr.le, ← cast_squares]; rfl)
  rw [← cast_inner] at hcos
  have near : ∀ (N s : ℚ), 0 < N → 0 < s → |N / s ^ 2 - 1| ≤ 7 / 6 * (((a.length : ℚ) + 6) / 2 ^ 23) →
      |Real.sqrt (N : ℚ) / s - 1| ≤ 7 / 6 * (((a.length : ℝ) + 6) / 2 ^ 23) := by
    intro N s hN hs h
    have hNr : (0 : ℝ) < (N : ℝ) := by exact_mod_cast hN
    have hsr : (0 : ℝ) < (s : ℝ) := by exact_mod_cast hs
    apply near_one (div_pos (Real.sqrt_pos.2 hNr) hsr)
    rw [div_pow, Real.sq_sqrt hNr.le]
    have : ((|N / s ^ 2 - 1| : ℚ) : ℝ) ≤ ((7 / 6 * (((a.length : ℚ) + 6) / 2 ^ 23) : ℚ) : ℝ) := by exact_mod_cast h
    push_cast at this
    exact this
  have k1 := near _ _ hA hs e1
  have k2 := near _ _ hB ht g1
  have hnr : (a.length : ℝ) ≤ 2 ^ 20 := by exact_mod_cast hnq
  have hnr0 : (0 : ℝ) ≤ a.length := Nat.cast_nonneg _
  generalize ((List.zipWith (fun x y => x * y) a b).sum : ℚ) = I at *
  have eq : (I : ℝ) / ((s : ℝ) * t) = (I : ℝ) / (Real.sqrt (squares a : ℚ) * Real.sqrt (squares b : ℚ)) *
      (Real.sqrt (squares a : ℚ) / s * (Real.sqrt (squares b : ℚ) / t)) := by
    have p1 := (Real.sqrt_pos.2 hAr).ne'
    have p2 := (Real.sqrt_pos.2 hBr).ne'
    field_simp
  rw [eq] at hdr
  generalize (I : ℝ) / (Real.sqrt (squares a : ℚ) * Real.sqrt (squares b : ℚ)) = T at *
  generalize Real.sqrt (squares a : ℚ) / (s : ℝ) = p at *
  generalize Real.sqrt (squares b : ℚ) / (t : ℝ) = q at *
  have hq1 : |p * q - 1| ≤ 13 / 6 * (7 / 6 * (((a.length : ℝ) + 6) / 2 ^ 23)) := by
    have hε : 7 / 6 * (((a.length : ℝ) + 6) / 2 ^ 23) ≤ 1 / 6 := by linarith
    generalize 7 / 6 * (((a.length : ℝ) + 6) / 2 ^ 23) = ε at *
    have e : p * q - 1 = (p - 1) * (q - 1) + (p - 1) + (q - 1) := by ring
    rw [e]
    have h1 : |(p - 1) * (q - 1) + (p - 1) + (q - 1)| ≤ |p - 1| * |q - 1| + |p - 1| + |q - 1| := by
      refine (abs_add_le _ _).trans (add_le_add ((abs_add_le _ _).trans ?_) (le_refl _))
      rw [abs_mul]
    have h2 := abs_nonneg (p - 1)
    have h3 := abs_nonneg (q - 1)
    have h4 : |p - 1| * |q - 1| ≤ ε * (1 / 6) := mul_le_mul k1 (k2.trans hε) h3 (h2.trans k1)
    linarith
  have hT : |T * (p * q) - T| ≤ |p * q - 1| := by
    have e : T * (p * q) - T = T * (p * q - 1) := by ring
    rw [e, abs_mul]
    have := abs_nonneg (p * q - 1)
    nlinarith
  have h5 := abs_sub_le (d : ℝ) (1 - T * (p * q)) (1 - T)
  have h6 : |1 - T * (p * q) - (1 - T)| = |T * (p * q) - T| := by rw [← abs_neg]; congr 1; ring
  rw [h6] at h5
  linarith

/-- The distance of moderate vectors lies between 0 and 2, up to rounding. -/
theorem cosine_range_partial (avx : Bool) (junk : ℕ → ℕ → Num) (a b : List ℚ) (hl : a.length = b.length) (ha : Moderate a)
    (hb : Moderate b) :
    ∃ d : ℚ, distance ops avx junk .cosine (normalize ops (vec a)) (normalize ops (vec b)) = .ok (.fin d) ∧
      -((a.length : ℚ) + 8) / 2 ^ 20 ≤ d ∧ d ≤ 2 + ((a.length : ℚ) + 8) / 2 ^ 20 := by
  obtain ⟨d, hd, h⟩ := cosine_near_truth_partial avx junk a b hl ha hb
  refine ⟨d, hd, ?_⟩
  have hAr : (0 : ℝ) < ((squares a : ℚ) : ℝ) := by exact_mod_cast lt_of_lt_of_le (by positivity) ha.low
  have hBr : (0 : ℝ) < ((squares b : ℚ) : ℝ) := by exact_mod_cast lt_of_lt_of_le (by positivity) hb.low
  have hcos := cosine_true_le (a.map fun x : ℚ => (x : ℝ)) (b.map fun x : ℚ => (x : ℝ)) (by simpa using hl)
    (Real.sqrt (squares a : ℚ)) (Real.sqrt (squares b : ℚ)) (Real.sqrt_pos.2 hAr) (Real.sqrt_pos.2 hBr)
    (by rw [Real.sq_sqrt hAr.le, ← cast_squares]; rfl) (by rw [Real.sq_sqrt hBr.le, ← cast_squares]; rfl)
  rw [← cast_inner] at hcos
  generalize (((List.zipWith (fun x y => x * y) a b).sum : ℚ) : ℝ) / (Real.sqrt (squares a : ℚ) * Real.sqrt (squares b : ℚ)) = T at *
  have h1 := abs_le.1 h
  have h2 := abs_le.1 hcos
  have r1 : (-((a.length : ℝ) + 8) / 2 ^ 20) ≤ (d : ℝ) := by
    rw [neg_div]; linarith [h1.1, h2.2]
  have r2 : (d : ℝ) ≤ 2 + ((a.length : ℝ) + 8) / 2 ^ 20 := by linarith [h1.2, h2.1]
  constructor
  · have : (((-((a.length : ℚ) + 8) / 2 ^ 20 : ℚ)) : ℝ) ≤ (d : ℝ) := by push_cast; exact r1
    exact_mod_cast this
  · have : (d : ℝ) ≤ ((2 + ((a.length : ℚ) + 8) / 2 ^ 20 : ℚ) : ℝ) := by push_cast; exact r2
    exact_mod_cast this

/-- Positive multiples of a vector are at distance zero from it, up to rounding; in particular the vector itself is. -/
theorem multiple_near_partial (avx : Bool) (junk : ℕ → ℕ → Num) (a : List ℚ) (c : ℚ) (hc : 0 < c) (ha : Moderate a)
    (hb : Moderate (a.map fun x => c * x)) :
    ∃ d : ℚ, distance ops avx junk .cosine (normalize ops (vec a)) (normalize ops (vec (a.map fun x => c * x))) = .ok (.fin d) ∧
      |d| ≤ ((a.length : ℚ) + 8) / 2 ^ 20 := by
  obtain ⟨d, hd, h⟩ := cosine_near_truth_partial avx junk a _ (by simp) ha hb
  refine ⟨d, hd, ?_⟩
  have hA : 0 < squares a := lt_of_lt_of_le (by positivity) ha.low
  have hAr : (0 : ℝ) < ((squares a : ℚ) : ℝ) := by exact_mod_cast hA
  have e1 : (List.zipWith (fun x y => x * y) a (a.map fun x => c * x)).sum = c * squares a := by
    unfold squares
    clear hd h ha hb hA hAr
    induction a with
    | nil => simp
    | cons x a ih =>
      simp only [List.map_cons, List.zipWith_cons_cons, List.sum_cons, ih]
      ring
  have e2 : squares (a.map fun x => c * x) = c ^ 2 * squares a := by
    unfold squares
    clear hd h ha hb hA hAr e1
    induction a with
    | nil => simp
    | cons x a ih =>
      simp only [List.map_cons, List.sum_cons] at ih ⊢
      rw [ih]
      ring
  have hcr : (0 : ℝ) < (c : ℝ) := by exact_mod_cast hc
  have e3 : Real.sqrt ((squares (a.map fun x => c * x) : ℚ) : ℝ) = c * Real.sqrt (squares a : ℚ) := by
    rw [e2]
    push_cast
    rw [Real.sqrt_mul (by positivity), Real.sqrt_sq hcr.le]
  have e4 : (((List.zipWith (fun x y => x * y) a (a.map fun x => c * x)).sum : ℚ) : ℝ) /
      (Real.sqrt (squares a : ℚ) * Real.sqrt ((squares (a.map fun x => c * x) : ℚ) : ℝ)) = 1 := by
    rw [e1, e3]
    push_cast
    have : Real.sqrt (squares a : ℚ) * (c * Real.sqrt (squares a : ℚ)) = c * (squares a : ℚ) := by
      rw [mul_left_comm, Real.mul_self_sqrt hAr.le]
    rw [this]
    exact div_self (mul_pos hcr hAr).ne'
  rw [e4, sub_self, sub_zero] at h
  have : ((|d| : ℚ) : ℝ) ≤ ((((a.length : ℚ) + 8) / 2 ^ 20 : ℚ) : ℝ) := by
    push_cast
    exact h
  exact_mod_cast this

/-- Vectors are put in the order of their angles to the query, unless the cosines differ by no more than the rounding. -/
theorem cosine_order_partial (avx : Bool) (junk : ℕ → ℕ → Num) (q a b : List ℚ) (hqa : q.length = a.length) (hqb : q.length = b.length)
    (hq : Moderate q) (ha : Moderate a) (hb : Moderate b)
    (h : ((List.zipWith (fun x y => x * y) q b).sum : ℚ) / (Real.sqrt (squares q : ℚ) * Real.sqrt (squares b : ℚ)) +
        ((q.length : ℝ) + 8) / 2 ^ 19 <
      ((List.zipWith (fun x y => x * y) q a).sum : ℚ) / (Real.sqrt (squares q : ℚ) * Real.sqrt (squares a : ℚ))) :
    ∃ d e : ℚ, distance ops avx junk .cosine (normalize ops (vec q)) (normalize ops (vec a)) = .ok (.fin d) ∧
      distance ops avx junk .cosine (normalize ops (vec q)) (normalize ops (vec b)) = .ok (.fin e) ∧ d < e := by
  obtain ⟨d, hd, h1⟩ := cosine_near_truth_partial avx junk q a hqa hq ha
  obtain ⟨e, he, h2⟩ := cosine_near_truth_partial avx junk q b hqb hq hb
  refine ⟨d, e, hd, he, ?_⟩
  have h3 := (abs_le.1 h1).2
  have h4 := (abs_le.1 h2).1
  have : (d : ℝ) < (e : ℝ) := by linarith
  exact_mod_cast this

/-! What fails. -/

/-- A vector whose squares add up to 2^129 or more is normalised to the zero vector. -/
theorem too_large_is_zero (v : List ℚ) (hv : ∀ x ∈ v, IsFloat x) (hn : v.length ≤ 2 ^ 20) (h : 2 ^ 129 ≤ squares v) :
    normalize ops (vec v) = vec (v.map fun _ => 0) := by
  have h1 := norm2_huge v hv hn h
  rcases normalize_shape v with ⟨h, _⟩ | ⟨r, s, h2, _⟩
  · exact h
  · rw [h1] at h2; cases h2

/-- A vector of numbers not above 2^-75 is normalised to the zero vector. -/
theorem too_small_is_zero (v : List ℚ) (h : ∀ x ∈ v, |x| ≤ 1 / 2 ^ 75) : normalize ops (vec v) = vec (v.map fun _ => 0) := by
  have h1 := norm2_lost v h
  rcases normalize_shape v with ⟨h, _⟩ | ⟨r, s, h2, h3, _⟩
  · exact h
  · rw [h1] at h2; cases h2; exact absurd h3 (lt_irrefl _)

/-- Such a vector has distance exactly one from every vector, itself and its opposite included. -/
theorem lost_direction (avx : Bool) (junk : ℕ → ℕ → Num) (a b : List ℚ) (hl : a.length = b.length)
    (ha : (∀ x ∈ a, |x| ≤ 1 / 2 ^ 75) ∨ (∀ x ∈ a, IsFloat x) ∧ a.length ≤ 2 ^ 20 ∧ 2 ^ 129 ≤ squares a) :
    distance ops avx junk .cosine (normalize ops (vec a)) (normalize ops (vec b)) = .ok (.fin 1) ∧
    distance ops avx junk .cosine (normalize ops (vec b)) (normalize ops (vec a)) = .ok (.fin 1) := by
  have hz : normalize ops (vec a) = vec (a.map fun _ => 0) := by
    rcases ha with h | ⟨h1, h2, h3⟩
    · exact too_small_is_zero a h
    · exact too_large_is_zero a h1 h2 h3
  obtain ⟨w, hw, hwl, _⟩ := always_finite b
  have key := cosine_zero avx junk (a.map fun _ => 0) w (by rw [List.length_map, hwl, hl]) (by
    intro x hx
    obtain ⟨_, _, rfl⟩ := List.mem_map.1 hx
    rfl)
  rw [hz, hw]
  exact ⟨key, by rw [C63.symmetric]; exact key⟩

/-- An infinite entry (a number beyond the range of `float32` is read as one, pkg/document/document.go:359-373) becomes not-a-number, and
all finite entries become zero. -/
theorem infinite_entry_not_a_number (v : List Num) (hv : ∀ x ∈ v, x ≠ .nan) (s : Bool) (h : .inf s ∈ v) :
    normalize ops v = v.map fun x => match x with | .fin _ => .fin 0 | _ => .nan := by
  rw [normalize_eq32, norm2_inf v hv s h]
  show (if false = true then _ else v.map fun x => F32.div x (.inf false)) = _
  rw [if_neg (by decide)]
  apply List.map_congr_left
  intro x _
  cases x <;> rfl

private theorem plain (junk : ℕ → ℕ → Num) (a b : List Num) :
    distance ops false junk .cosine a b = distance ops false (fun _ _ => .nan) .cosine a b := rfl

/-- The distance of a normalised vector to itself need not be zero; it may be positive and it may be negative. -/
theorem self_distance_not_zero (junk : ℕ → ℕ → Num) :
    distance ops false junk .cosine (normalize ops (vec [1, 0, 3])) (normalize ops (vec [1, 0, 3])) = .ok (.fin (1 / 2 ^ 24)) ∧
    distance ops false junk .cosine (normalize ops (vec [1, 7, 3])) (normalize ops (vec [1, 7, 3])) = .ok (.fin (-1 / 2 ^ 23)) := by
  rw [plain, plain junk (normalize ops (vec [1, 7, 3]))]
  decide +kernel

/-! Cases. -/

theorem isFloat_int (n : ℤ) (h : |n| < 2 ^ 24) : IsFloat (n : ℚ) := by
  refine ⟨n, 0, by simp, h, by norm_num, ?_⟩
  have : |(n : ℚ)| < 2 ^ 24 := by exact_mod_cast h
  exact this.trans (by norm_num)

/-- small vectors of whole numbers, not all zero, are moderate -/
theorem moderate_int (v : List ℤ) (h : ∀ n ∈ v, |n| < 2 ^ 24) (hn : v.length ≤ 2 ^ 20) (h0 : ∃ n ∈ v, n ≠ 0) :
    Moderate (v.map fun n : ℤ => (n : ℚ)) := by
  refine ⟨?_, by simpa using hn, ?_, ?_⟩
  · intro x hx
    obtain ⟨n, hn, rfl⟩ := List.mem_map.1 hx
    exact isFloat_int n (h n hn)
  · obtain ⟨n, hn, hne⟩ := h0
    have h1 : (n : ℚ) ^ 2 ≤ squares (v.map fun n : ℤ => (n : ℚ)) :=
      List.single_le_sum (by
        intro x hx
        simp only [List.mem_map] at hx
        obtain ⟨_, ⟨_, _, rfl⟩, rfl⟩ := hx
        positivity) _ (by
        simp only [List.mem_map]
        exact ⟨_, ⟨n, hn, rfl⟩, rfl⟩)
    have h2 : (1 : ℚ) ≤ (n : ℚ) ^ 2 := by
      have : 1 ≤ n ^ 2 := by
        have := sq_pos_of_ne_zero hne
        omega
      exact_mod_cast this
    exact le_trans (by norm_num) (h2.trans h1)
  · have key : ∀ v : List ℤ, (∀ n ∈ v, |n| < 2 ^ 24) → squares (v.map fun n : ℤ => (n : ℚ)) ≤ v.length * 2 ^ 48 := by
      intro v
      unfold squares
      induction v with
      | nil => intro _; simp
      | cons n v ih =>
        intro h
        have h1 := ih fun m hm => h m (List.mem_cons_of_mem _ hm)
        have h2 : |(n : ℚ)| < 2 ^ 24 := by exact_mod_cast h n List.mem_cons_self
        have h3 : (n : ℚ) ^ 2 ≤ (2 ^ 24) ^ 2 := by
          rw [← sq_abs]
          exact pow_le_pow_left₀ (abs_nonneg _) h2.le 2
        simp only [List.map_cons, List.sum_cons, List.length_cons]
        push_cast
        rw [← pow_mul] at h3
        norm_num at h3
        linarith
    have hnq : (v.length : ℚ) ≤ 2 ^ 20 := by
      have : ((v.length : ℕ) : ℚ) ≤ ((2 ^ 20 : ℕ) : ℚ) := Nat.cast_le.2 hn
      rwa [Nat.cast_pow, Nat.cast_ofNat] at this
    have := key v h
    refine this.trans ?_
    calc (v.length : ℚ) * 2 ^ 48 ≤ 2 ^ 20 * 2 ^ 48 := mul_le_mul_of_nonneg_right hnq (by positivity)
      _ ≤ 2 ^ 126 := by norm_num

theorem moderate_one_one : Moderate [1, 1] := by
  have := moderate_int [1, 1] (by decide) (by decide) (by decide)
  simpa using this

/-- Normalising twice is not normalising once. -/
theorem not_idempotent : ∃ v, Moderate v ∧ normalize ops (normalize ops (vec v)) ≠ normalize ops (vec v) :=
  ⟨[1, 1], moderate_one_one, by decide +kernel⟩

/-- `unit_length_partial` at [3, 4]: the entries 0.6 and 0.8 rounded, the square of the length off by less than 2^-24 -/
example : Moderate [3, 4] ∧ normalize ops (vec [3, 4]) = vec [5033165 / 2 ^ 23, 13421773 / 2 ^ 24] ∧
    |squares [5033165 / 2 ^ 23, 13421773 / 2 ^ 24] - 1| < 1 / 2 ^ 23 ∧ squares [5033165 / 2 ^ 23, 13421773 / 2 ^ 24] ≠ 1 := by
  refine ⟨by simpa using moderate_int [3, 4] (by decide) (by decide) (by decide), by decide +kernel, by norm_num [squares],
    by norm_num [squares]⟩

/-- `cosine_near_truth_partial` at [3, 4] and [-4, 3] (a right angle), at [3, 4] and [6, 8] (a multiple), at [3, 4] and [-3, -4] (the
opposite) -/
example : Moderate [3, 4] ∧ Moderate [-4, 3] ∧ Moderate ([3, 4].map fun x => 2 * x) ∧ Moderate [-3, -4] := by
  refine ⟨by simpa using moderate_int [3, 4] (by decide) (by decide) (by decide),
    by simpa using moderate_int [-4, 3] (by decide) (by decide) (by decide), ?_,
    by simpa using moderate_int [-3, -4] (by decide) (by decide) (by decide)⟩
  have := moderate_int [6, 8] (by decide) (by decide) (by decide)
  norm_num at this ⊢
  exact this

example : distance ops false (fun _ _ => .nan) .cosine (normalize ops (vec [3, 4])) (normalize ops (vec [-4, 3])) = .ok (.fin 1) ∧
    distance ops false (fun _ _ => .nan) .cosine (normalize ops (vec [3, 4])) (normalize ops (vec [-3, -4])) = .ok (.fin 2) := by
  decide +kernel

/-- `cosine_order_partial`: seen from [3, 4], the vector [6, 8] comes before [-4, 3] -/
example : (((List.zipWith (fun x y => x * y) [3, 4] [-4, 3]).sum : ℚ) : ℝ) / (Real.sqrt (squares [3, 4] : ℚ) * Real.sqrt (squares [-4, 3] : ℚ)) +
        ((([3, 4] : List ℚ).length : ℝ) + 8) / 2 ^ 19 <
      (((List.zipWith (fun x y => x * y) [3, 4] [6, 8]).sum : ℚ) : ℝ) / (Real.sqrt (squares [3, 4] : ℚ) * Real.sqrt (squares [6, 8] : ℚ)) := by
  have e1 : Real.sqrt ((squares [3, 4] : ℚ) : ℝ) = 5 := by
    rw [Real.sqrt_eq_iff_mul_self_eq (by norm_num [squares]) (by norm_num)]; norm_num [squares]
  have e2 : Real.sqrt ((squares [6, 8] : ℚ) : ℝ) = 10 := by
    rw [Real.sqrt_eq_iff_mul_self_eq (by norm_num [squares]) (by norm_num)]; norm_num [squares]
  rw [e1, e2]
  norm_num

/-- `lost_direction`: the numbers 2^100 and -2^100, opposite to each other, are at distance one instead of two -/
example : IsFloat (2 ^ 100) ∧ (2 : ℚ) ^ 129 ≤ squares [2 ^ 100] ∧
    distance ops false (fun _ _ => .nan) .cosine (normalize ops (vec [2 ^ 100])) (normalize ops (vec [-2 ^ 100])) = .ok (.fin 1) := by
  refine ⟨⟨1, 100, by norm_num, by norm_num, by norm_num, by norm_num [abs_of_pos]⟩, by norm_num [squares], by decide +kernel⟩

/-- `too_small_is_zero`: 2^-80; the number 2^-70 still becomes one -/
example : IsFloat (1 / 2 ^ 80) ∧ normalize ops (vec [1 / 2 ^ 80]) = vec [0] ∧ normalize ops (vec [1 / 2 ^ 70]) = vec [1] := by
  refine ⟨⟨1, -80, by norm_num, by norm_num, by norm_num, by norm_num⟩, by decide +kernel, by decide +kernel⟩

/-- `infinite_entry_not_a_number`: the document [1e300, 1, -1e300] -/
example : normalize ops [.inf false, .fin 1, .inf true] = [.nan, .fin 0, .nan] := by decide +kernel

/-- `always_finite`: the largest number beside the smallest one -/
example : normalize ops (vec [2 ^ 127, -1 / 2 ^ 149]) = vec [0, 0] ∧ normalize ops (vec [2 ^ 63, -1]) = vec [1, -1 / 2 ^ 63] := by
  decide +kernel

end C64
end Fave

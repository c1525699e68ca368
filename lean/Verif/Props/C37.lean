import Verif.Lemmas.Normalize
import Verif.Props.C36
import Verif.Props.C09
import Mathlib.Data.List.Forall2
/-!
# C37: cosine search ignores vector length
-/
namespace Fave
namespace C37
open Distance

section
variable {F : Type} [Field F] [LinearOrder F] [IsStrictOrderedRing F] {sqrt : F → F}

/-- Normalising keeps the number of entries; a vector with a non-zero entry gets length one, a zero vector stays as it is. -/
theorem unit_length (hs : IsSqrt sqrt) (v : List F) :
    (normalize (exact sqrt) v).length = v.length ∧
    ((∃ x ∈ v, x ≠ 0) → ((normalize (exact sqrt) v).map fun x => x ^ 2).sum = 1) ∧
    ((∀ x ∈ v, x = 0) → normalize (exact sqrt) v = v) := by
  refine ⟨normalize_length v, ?_, normalize_zero v⟩
  rintro ⟨x, hx, h0⟩
  exact normalize_unit hs v (fun h => h0 ((sq_eq_zero v).1 h x hx))

/-- Normalising keeps the direction: the result is a positive multiple of the vector. -/
theorem same_direction (hs : IsSqrt sqrt) (v : List F) :
    ∃ c, 0 < c ∧ normalize (exact sqrt) v = v.map fun x => c * x := by
  by_cases h : sq v = 0
  · refine ⟨1, zero_lt_one, ?_⟩
    rw [normalize_zero v ((sq_eq_zero v).1 h)]
    simp
  · refine ⟨(sqrt (sq v))⁻¹, inv_pos.2 (sqrt_pos hs (sq_nonneg' v) h), ?_⟩
    rw [Distance.normalize_eq, if_neg h]
    apply List.map_congr_left
    intro x _
    rw [div_eq_mul_inv, mul_comm]

/-- Normalising a positive multiple of a vector gives the same; in particular normalising twice is normalising once. -/
theorem scale_invariant (hs : IsSqrt sqrt) (v : List F) :
    (∀ c, 0 < c → normalize (exact sqrt) (v.map fun x => c * x) = normalize (exact sqrt) v) ∧
    normalize (exact sqrt) (normalize (exact sqrt) v) = normalize (exact sqrt) v := by
  refine ⟨fun c hc => normalize_scale hs hc v, ?_⟩
  obtain ⟨c, hc, h⟩ := same_direction hs v
  conv_lhs => rw [h]
  exact normalize_scale hs hc v

/-- Cosine distances of normalised vectors lie between 0 and 2; with vector instructions or without. -/
theorem cosine_range (hs : IsSqrt sqrt) (avx : Bool) (junk : Nat → Nat → F) (a b : List F) (d : F)
    (h : distance (exact sqrt) avx junk .cosine (normalize (exact sqrt) a) (normalize (exact sqrt) b) = .ok d) :
    0 ≤ d ∧ d ≤ 2 := by
  by_cases hl : (normalize (exact sqrt) a).length = (normalize (exact sqrt) b).length
  · rw [(C36.correct sqrt avx junk _ _ hl).2.1] at h
    injection h with h
    obtain ⟨h1, h2⟩ := inner_range _ _ hl (sq_normalize_le hs a) (sq_normalize_le hs b)
    simp only [Distance.inner] at h1 h2
    rw [← h]
    constructor <;> linarith
  · rw [(C36.error_iff_lengths _ avx junk .cosine _ _).1 hl] at h
    cases h

/-- The distance 0 means the same direction, the distance 2 the opposite one. -/
theorem cosine_extremes (hs : IsSqrt sqrt) (avx : Bool) (junk : Nat → Nat → F) (a b : List F) (hl : a.length = b.length)
    (ha : ∃ x ∈ a, x ≠ 0) (hb : ∃ x ∈ b, x ≠ 0) :
    (distance (exact sqrt) avx junk .cosine (normalize (exact sqrt) a) (normalize (exact sqrt) b) = .ok 0 ↔
      ∃ c, 0 < c ∧ b = a.map fun x => c * x) ∧
    (distance (exact sqrt) avx junk .cosine (normalize (exact sqrt) a) (normalize (exact sqrt) b) = .ok 2 ↔
      ∃ c, c < 0 ∧ b = a.map fun x => c * x) := by
  have hl' : (normalize (exact sqrt) a).length = (normalize (exact sqrt) b).length := by
    rw [normalize_length, normalize_length, hl]
  have hua : sq (normalize (exact sqrt) a) = 1 := (unit_length hs a).2.1 ha
  have hub : sq (normalize (exact sqrt) b) = 1 := (unit_length hs b).2.1 hb
  have hd := (C36.correct sqrt avx junk _ _ hl').2.1
  obtain ⟨p, hp, hpa⟩ := same_direction hs a
  obtain ⟨q, hq, hqb⟩ := same_direction hs b
  have hsub := sq_sub_eq _ _ hl'
  have hadd := sq_add_eq _ _ hl'
  rw [hua, hub] at hsub hadd
  simp only [Distance.inner] at hsub hadd
  rw [hd]
  constructor
  · have h1 := sum_zero_iff (fun x y : F => (x - y) ^ 2) (fun x y => sq_nonneg _)
      (fun x y => by rw [pow_eq_zero_iff two_ne_zero, sub_eq_zero]) _ _ hl'
    constructor
    · intro h
      injection h with h
      have heq := h1.1 (by rw [hsub]; linarith)
      rw [hpa, hqb] at heq
      refine ⟨q⁻¹ * p, mul_pos (inv_pos.2 hq) hp, ?_⟩
      have h2 := congrArg (List.map fun x => q⁻¹ * x) heq
      rw [List.map_map, List.map_map] at h2
      have h3 : b.map ((fun x => q⁻¹ * x) ∘ fun x => q * x) = b := by
        conv_rhs => rw [← List.map_id b]
        apply List.map_congr_left
        intro x _
        show q⁻¹ * (q * x) = x
        rw [← mul_assoc, inv_mul_cancel₀ hq.ne', one_mul]
      rw [h3] at h2
      rw [← h2]
      apply List.map_congr_left
      intro x _
      show q⁻¹ * (p * x) = q⁻¹ * p * x
      ring
    · rintro ⟨c, hc, rfl⟩
      have := normalize_scale hs hc a
      have h2 := h1.2 this.symm
      rw [hsub] at h2
      congr 1
      linarith
  · have key : (List.zipWith (fun x y : F => (x + y) ^ 2) (normalize (exact sqrt) a) (normalize (exact sqrt) b)).sum = 0 ↔
        normalize (exact sqrt) a = (normalize (exact sqrt) b).map fun x => -x := by
      have h2 := sum_zero_iff (fun x y : F => (x - y) ^ 2) (fun x y => sq_nonneg _)
        (fun x y => by rw [pow_eq_zero_iff two_ne_zero, sub_eq_zero]) (normalize (exact sqrt) a)
        ((normalize (exact sqrt) b).map fun x => -x) (by rw [List.length_map, hl'])
      rw [List.zipWith_map_right] at h2
      simpa using h2
    constructor
    · intro h
      injection h with h
      have heq := key.1 (by rw [hadd]; linarith)
      rw [hpa, hqb, List.map_map] at heq
      refine ⟨-(q⁻¹ * p), neg_neg_of_pos (mul_pos (inv_pos.2 hq) hp), ?_⟩
      have h2 := congrArg (List.map fun x => -(q⁻¹ * x)) heq
      rw [List.map_map, List.map_map] at h2
      have h3 : b.map ((fun x => -(q⁻¹ * x)) ∘ ((fun x => -x) ∘ fun x => q * x)) = b := by
        conv_rhs => rw [← List.map_id b]
        apply List.map_congr_left
        intro x _
        show -(q⁻¹ * -(q * x)) = x
        rw [mul_neg, neg_neg, ← mul_assoc, inv_mul_cancel₀ hq.ne', one_mul]
      rw [h3] at h2
      rw [← h2]
      apply List.map_congr_left
      intro x _
      show -(q⁻¹ * (p * x)) = -(q⁻¹ * p) * x
      ring
    · rintro ⟨c, hc, rfl⟩
      have h2 : normalize (exact sqrt) (a.map fun x => c * x) = (normalize (exact sqrt) a).map fun x => -x := by
        have hc' : 0 < -c := neg_pos.2 hc
        have e1 : (a.map fun x => c * x) = (a.map fun x => -x).map fun x => -c * x := by
          rw [List.map_map]
          apply List.map_congr_left
          intro x _
          show c * x = -c * -x
          ring
        have e2 : sq (a.map fun x => -x) = sq a := by
          have := sq_scale (-1) a
          simpa using this
        rw [e1, normalize_scale hs hc', Distance.normalize_eq, Distance.normalize_eq, e2]
        split
        · rw [List.map_map, List.map_map]
          apply List.map_congr_left
          intro x _
          simp
        · simp [neg_div]
      have h3 := key.2 (by rw [h2, List.map_map]; simp)
      rw [hadd] at h3
      congr 1
      linarith

/-- Searching with a positive multiple of the query gives the same answer: every search function, every state of the index. -/
theorem query_scale (hs : IsSqrt sqrt) (avx : Bool) (junk : Nat → Nat → F) (g : Graph (List F) F)
    (hg : IsCosine sqrt avx junk g) (c : F) (hc : 0 < c) (q : List F) :
    letI := fieldDist (F := F)
    (∀ sched max ef allow, g.knnMaxDist sched (q.map fun x => c * x) max ef allow = g.knnMaxDist sched q max ef allow) ∧
    (∀ cfg e sched k allow, g.searchByVector cfg e sched (q.map fun x => c * x) k allow = g.searchByVector cfg e sched q k allow) := by
  have h : g.norm (q.map fun x => c * x) = g.norm q := by rw [hg.2]; exact normalize_scale hs hc q
  constructor
  · intros
    simp only [Graph.knnMaxDist, h]
  · intros
    simp only [Graph.searchByVector, h]

/-- Adding a positive multiple of a vector has the same effect and outcome, in every state. -/
theorem add_scale (hs : IsSqrt sqrt) (avx : Bool) (junk : Nat → Nat → F) (c : F) (hc : 0 < c) (s : Index (List F))
    (vo : Index.VecOracle (List F)) (sched : Graph.Scheds F) (x : Nat) (v : List F) (level : Nat) :
    letI := fieldDist (F := F)
    Index.add (cosParams sqrt avx junk) vo sched s x (v.map fun x => c * x) level =
      Index.add (cosParams sqrt avx junk) vo sched s x v level := by
  have h1 : (cosParams sqrt avx junk).norm (v.map fun x => c * x) = (cosParams sqrt avx junk).norm v := normalize_scale hs hc v
  have h2 : (cosParams sqrt avx junk).metric.len (v.map fun x => c * x) = (cosParams sqrt avx junk).metric.len v :=
    List.length_map _
  simp only [Index.add, h1, h2]

/-- Any state a collection can get into with vectors `vs` it can also get into with any positive multiples of them: nothing it answers
afterwards depends on the lengths of the stored vectors. -/
theorem history_scale (hs : IsSqrt sqrt) (avx : Bool) (junk : Nat → Nat → F) (s : Index (List F)) (vs ws : List (List F))
    (hw : List.Forall₂ (fun v w => ∃ c, 0 < c ∧ w = v.map fun x => c * x) vs ws)
    (h : @Index.Hist (List F) F fieldDist (cosParams sqrt avx junk) s vs) :
    @Index.Hist (List F) F fieldDist (cosParams sqrt avx junk) s ws := by
  let _ := fieldDist (F := F)
  have hlen : ∀ {v w : List F}, (∃ c, 0 < c ∧ w = v.map fun x => c * x) → w.length = v.length := by
    rintro v w ⟨c, _, rfl⟩
    exact List.length_map _
  induction h generalizing ws with
  | init => cases hw; exact .init
  | @add s s' vs vo sched vec level _ hadd ih =>
    obtain ⟨w0, w1, rfl⟩ : ∃ w0 w1, ws = w0 ++ [w1] := by
      have := hw.length_eq
      rcases List.eq_nil_or_concat ws with h | ⟨w0, w1, h⟩
      · rw [h] at this; simp at this
      · exact ⟨w0, w1, by simpa using h⟩
    have hl := hw.length_eq
    have hl' : vs.length = w0.length := by simpa using hl
    have h1 : List.Forall₂ (fun v w => ∃ c, 0 < c ∧ w = v.map fun x => c * x) vs w0 := by
      have := List.forall₂_take vs.length hw
      rwa [List.take_left, hl', List.take_left] at this
    have h2 : List.Forall₂ (fun v w => ∃ c, 0 < c ∧ w = v.map fun x => c * x) [vec] [w1] := by
      have := List.forall₂_drop vs.length hw
      rwa [List.drop_left, hl', List.drop_left] at this
    cases h2 with
    | cons h3 _ =>
      obtain ⟨c, hc, rfl⟩ := h3
      refine .add vo sched _ level (ih w0 h1) ?_
      rw [add_scale hs avx junk c hc, ← hl']
      exact hadd
  | @refused s s' vs e vo sched vec level _ hne hd hadd ih =>
    refine .refused (e := e) vo sched vec level (ih ws hw) ?_ ?_ ?_
    · rintro rfl
      cases hw
      exact hne rfl
    · intro u hu
      obtain ⟨i, hi, rfl⟩ := List.mem_iff_getElem.1 hu
      have hi' : i < vs.length := by rw [hw.length_eq]; exact hi
      have h3 := List.forall₂_iff_get.1 hw
      have h4 := h3.2 i hi' hi
      have := hlen h4
      have h5 := hd _ (List.getElem_mem hi')
      show (ws[i]).length ≠ vec.length
      have h6 : (vs[i]).length ≠ vec.length := h5
      simp only [List.get_eq_getElem] at this
      rw [this]
      exact h6
    · rw [← hw.length_eq]
      exact hadd
  | @flush s s' vs order _ hne hk hf ih =>
    refine .flush order (ih ws hw) ?_ hk ?_
    · rintro rfl
      cases hw
      exact hne rfl
    · rw [← hw.length_eq]
      exact hf
  | load _ ih => exact .load (ih ws hw)
  | unread _ ih => exact .unread (ih ws hw)
  | @restart s vs h ih =>
    have h1 : List.Forall₂ (fun v w : List F => ∃ c, 0 < c ∧ w = v.map fun x => c * x) vs
        (ws ++ vs.drop (s.kvCount.getD 0)) := by
      conv_lhs => rw [← List.take_append_drop (s.kvCount.getD 0) vs]
      refine List.rel_append hw ?_
      exact List.forall₂_same.2 fun v _ => ⟨1, zero_lt_one, by simp⟩
    have h2 := Index.Hist.restart (ih _ h1)
    have h3 : (ws ++ vs.drop (s.kvCount.getD 0)).take (s.kvCount.getD 0) = ws := by
      have hl := hw.length_eq
      rw [List.length_take] at hl
      by_cases hh : s.kvCount.getD 0 ≤ vs.length
      · rw [Nat.min_eq_left hh] at hl
        rw [hl, List.take_left]
      · rw [List.drop_eq_nil_of_le (by omega), List.append_nil, List.take_of_length_le (by omega)]
    rwa [h3] at h2

/-- With cosine distance no hit is dropped for a negative distance: along every history of the collection the stored vectors have
distances between 0 and 2 from every query of their length. -/
theorem stored_range (hs : IsSqrt sqrt) (avx : Bool) (junk : Nat → Nat → F) (s : Index (List F)) (vs : List (List F))
    (h : @Index.Hist (List F) F fieldDist (cosParams sqrt avx junk) s vs) (q u : List F) (id : Nat) (hu : vs[id]? = some u)
    (hl : u.length = q.length) :
    ∃ v d, s.get id = some v ∧ (cosMetric sqrt avx junk).dist (normalize (exact sqrt) q) v.vec = some d ∧ 0 ≤ d ∧ d ≤ 2 := by
  let _ := fieldDist (F := F)
  obtain ⟨v, hv, _, hvec⟩ := C09.stored_vectors_are_the_added_ones _ (cosParams_ok sqrt avx junk) s vs h id u hu
  have hvec' : v.vec = normalize (exact sqrt) u := hvec
  have hl' : (normalize (exact sqrt) q).length = (normalize (exact sqrt) u).length := by
    rw [normalize_length, normalize_length, hl]
  obtain ⟨d, hd⟩ := (C36.error_iff_lengths (exact sqrt) avx junk .cosine _ _).2 hl'
  refine ⟨v, d, hv, ?_, cosine_range hs avx junk q u d hd⟩
  rw [hvec']
  show (distance (exact sqrt) avx junk .cosine _ _).toOption = _
  rw [hd]
  rfl

end

/-! Non-vacuity: the real numbers. -/
theorem realSqrt : IsSqrt Real.sqrt := fun x hx => ⟨Real.sqrt_nonneg x, Real.mul_self_sqrt hx⟩

example : normalize (exact Real.sqrt) [3, 4] = [3 / 5, 4 / 5] ∧ normalize (exact Real.sqrt) [30, 40] = [3 / 5, 4 / 5] := by
  have h1 : normalize (exact Real.sqrt) [3, 4] = [3 / 5, 4 / 5] := by
    have h25 : Distance.sq [(3 : ℝ), 4] = 25 := by simp [Distance.sq]; norm_num
    have h5 : Real.sqrt 25 = 5 := by
      rw [show (25 : ℝ) = 5 ^ 2 by norm_num]
      exact Real.sqrt_sq (by norm_num)
    rw [Distance.normalize_eq, h25, if_neg (by norm_num), h5]
    rfl
  refine ⟨h1, ?_⟩
  have := (scale_invariant realSqrt [3, 4]).1 10 (by norm_num)
  rw [← h1, ← this]
  congr 1
  simp only [List.map_cons, List.map_nil]
  norm_num

/-- a collection that holds the vector `[3, 4]`; by `history_scale` the same state arises from `[6, 8]` -/
example : ∃ s, @Index.Hist (List ℝ) ℝ fieldDist (cosParams Real.sqrt true fun _ _ => 0) s [[6, 8]] := by
  refine ⟨_, history_scale realSqrt _ _ _ [[3, 4]] _ ?_ 
    (@Index.Hist.add _ _ fieldDist _ _ _ _ (fun _ _ _ _ => none) (fun _ => Sched.id) [3, 4] 0 (@Index.Hist.init _ _ fieldDist _) rfl)⟩
  refine .cons ⟨2, by norm_num, ?_⟩ .nil
  simp only [List.map_cons, List.map_nil]
  norm_num

end C37
end Fave

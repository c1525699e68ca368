import Verif.Lemmas.Distance
import Verif.Model.Flat
import Verif.Model.History
/-!
# Normalised vectors in exact arithmetic, and the index as FaVe sets it up
-/
namespace Fave
namespace Distance
set_option linter.unusedSectionVars false

section
variable {F : Type} [Field F] [LinearOrder F] [IsStrictOrderedRing F]

/-- sum of squares -/
def sq (v : List F) : F := (v.map fun x => x ^ 2).sum

/-- the inner product -/
def inner (a b : List F) : F := (List.zipWith (fun x y => x * y) a b).sum

/-- what is used of the square root -/
def IsSqrt (sqrt : F → F) : Prop := ∀ x, 0 ≤ x → 0 ≤ sqrt x ∧ sqrt x * sqrt x = x

variable {sqrt : F → F}

theorem sq_nil : sq ([] : List F) = 0 := rfl

theorem sq_cons (x : F) (v : List F) : sq (x :: v) = x ^ 2 + sq v := by simp [sq]

theorem sq_nonneg' (v : List F) : 0 ≤ sq v := by
  induction v with
  | nil => exact le_refl _
  | cons x v ih => rw [sq_cons]; exact add_nonneg (sq_nonneg x) ih

theorem sq_eq_zero (v : List F) : sq v = 0 ↔ ∀ x ∈ v, x = 0 := by
  induction v with
  | nil => simp [sq_nil]
  | cons x v ih =>
    rw [sq_cons, add_eq_zero_iff_of_nonneg (sq_nonneg x) (sq_nonneg' v), ih]
    simp

theorem sq_scale (c : F) (v : List F) : sq (v.map fun x => c * x) = c ^ 2 * sq v := by
  induction v with
  | nil => simp [sq_nil]
  | cons x v ih => rw [List.map_cons, sq_cons, sq_cons, ih]; ring

theorem foldl_sq (v : List F) (n : F) :
    v.foldl (fun n x => (exact sqrt).add n ((exact sqrt).mul x x)) n = n + sq v := by
  induction v generalizing n with
  | nil => simp [sq_nil]
  | cons x v ih =>
    rw [List.foldl_cons, ih, sq_cons]
    show n + x * x + _ = _
    ring

theorem normalize_eq (v : List F) :
    normalize (exact sqrt) v = if sq v = 0 then v.map fun _ => 0 else v.map fun x => x / sqrt (sq v) := by
  unfold normalize
  simp only [foldl_sq]
  have hz : (exact sqrt).zero + sq v = sq v := zero_add _
  rw [hz]
  by_cases h : sq v = 0
  · rw [if_pos h, if_pos (by exact decide_eq_true (p := sq v = 0) h)]
    rfl
  · rw [if_neg h, if_neg (by
      show ¬(decide (sq v = 0) = true)
      simpa using h)]
    rfl

theorem normalize_length (v : List F) : (normalize (exact sqrt) v).length = v.length := by
  rw [normalize_eq]
  split <;> simp

theorem normalize_zero (v : List F) (h : ∀ x ∈ v, x = 0) : normalize (exact sqrt) v = v := by
  rw [normalize_eq, if_pos ((sq_eq_zero v).2 h)]
  conv_rhs => rw [← List.map_id v]
  apply List.map_congr_left
  intro x hx
  exact (h x hx).symm

theorem sqrt_pos (hs : IsSqrt sqrt) {x : F} (hx : 0 ≤ x) (h0 : x ≠ 0) : 0 < sqrt x := by
  obtain ⟨h1, h2⟩ := hs x hx
  rcases lt_or_eq_of_le h1 with h | h
  · exact h
  · rw [← h] at h2
    exact (h0 (by rw [← h2]; ring)).elim

theorem normalize_unit (hs : IsSqrt sqrt) (v : List F) (h : sq v ≠ 0) : sq (normalize (exact sqrt) v) = 1 := by
  rw [normalize_eq, if_neg h]
  have hp := sqrt_pos hs (sq_nonneg' v) h
  obtain ⟨_, h2⟩ := hs _ (sq_nonneg' v)
  have : (v.map fun x => x / sqrt (sq v)) = v.map fun x => (sqrt (sq v))⁻¹ * x := by
    apply List.map_congr_left
    intro x _
    rw [div_eq_mul_inv, mul_comm]
  rw [this, sq_scale, inv_pow, pow_two, h2]
  exact inv_mul_cancel₀ h

theorem sqrt_mul_sq (hs : IsSqrt sqrt) {c x : F} (hc : 0 < c) (hx : 0 ≤ x) : sqrt (c ^ 2 * x) = c * sqrt x := by
  obtain ⟨h1, h2⟩ := hs x hx
  obtain ⟨h3, h4⟩ := hs (c ^ 2 * x) (mul_nonneg (sq_nonneg c) hx)
  have h5 : 0 ≤ c * sqrt x := mul_nonneg hc.le h1
  have h6 : sqrt (c ^ 2 * x) * sqrt (c ^ 2 * x) = (c * sqrt x) * (c * sqrt x) := by
    rw [h4, show (c * sqrt x) * (c * sqrt x) = c ^ 2 * (sqrt x * sqrt x) by ring, h2]
  rcases mul_self_eq_mul_self_iff.1 h6 with h | h
  · exact h
  · have : c * sqrt x = 0 := by linarith
    rw [this] at h ⊢
    simpa using h

theorem normalize_scale (hs : IsSqrt sqrt) {c : F} (hc : 0 < c) (v : List F) :
    normalize (exact sqrt) (v.map fun x => c * x) = normalize (exact sqrt) v := by
  rw [normalize_eq, normalize_eq, sq_scale]
  by_cases h : sq v = 0
  · rw [if_pos h, if_pos (by rw [h, mul_zero]), List.map_map]
    rfl
  · have hc2 : c ^ 2 * sq v ≠ 0 := mul_ne_zero (pow_ne_zero 2 hc.ne') h
    rw [if_neg h, if_neg hc2, List.map_map, sqrt_mul_sq hs hc (sq_nonneg' v)]
    apply List.map_congr_left
    intro x _
    exact mul_div_mul_left x _ hc.ne'

theorem sq_sub_eq (a b : List F) (h : a.length = b.length) :
    (List.zipWith (fun x y => (x - y) ^ 2) a b).sum = sq a + sq b - 2 * inner a b := by
  induction a generalizing b with
  | nil => cases b with
    | nil => simp [sq_nil, inner]
    | cons => simp at h
  | cons x a ih => cases b with
    | nil => simp at h
    | cons y b =>
      have := ih b (by simpa using h)
      simp only [inner] at this ⊢
      simp only [List.zipWith_cons_cons, List.sum_cons, sq_cons, this]
      ring

theorem sq_add_eq (a b : List F) (h : a.length = b.length) :
    (List.zipWith (fun x y => (x + y) ^ 2) a b).sum = sq a + sq b + 2 * inner a b := by
  induction a generalizing b with
  | nil => cases b with
    | nil => simp [sq_nil, inner]
    | cons => simp at h
  | cons x a ih => cases b with
    | nil => simp at h
    | cons y b =>
      have := ih b (by simpa using h)
      simp only [inner] at this ⊢
      simp only [List.zipWith_cons_cons, List.sum_cons, sq_cons, this]
      ring

theorem sq_normalize_le (hs : IsSqrt sqrt) (v : List F) : sq (normalize (exact sqrt) v) ≤ 1 := by
  by_cases h : sq v = 0
  · rw [normalize_zero v ((sq_eq_zero v).1 h), h]
    exact zero_le_one
  · exact le_of_eq (normalize_unit hs v h)

/-- the inner product of vectors of length at most one is between −1 and 1 -/
theorem inner_range (a b : List F) (h : a.length = b.length) (ha : sq a ≤ 1) (hb : sq b ≤ 1) :
    -1 ≤ inner a b ∧ inner a b ≤ 1 := by
  have h1 := sum_nonneg' (fun x y : F => (x - y) ^ 2) (fun x y => sq_nonneg _) a b
  have h2 := sum_nonneg' (fun x y : F => (x + y) ^ 2) (fun x y => sq_nonneg _) a b
  rw [sq_sub_eq a b h] at h1
  rw [sq_add_eq a b h] at h2
  constructor <;> linarith

end

section
variable {F : Type} [Field F] [LinearOrder F] [IsStrictOrderedRing F] (sqrt : F → F)

/-- distances of a field: Go's `<`, `0` and `math.MaxFloat32` — pkg/hnsw/priorityqueue/queue.go:28, 37,
pkg/hnsw/search_with_max_dist.go:74, pkg/hnsw/search.go:366 -/
@[reducible] def fieldDist : Dist F where
  lt a b := decide (a < b)
  zero := 0
  maxVal := 340282346638528859811704183484516925440

theorem fieldLawful : @LawfulDist F fieldDist := by
  refine @LawfulDist.mk F fieldDist ?_ ?_ ?_
  · intro a
    simp [Dist.lt]
  · intro a b c h1 h2
    simp only [Dist.lt, decide_eq_true_eq] at h1 h2 ⊢
    exact lt_trans h1 h2
  · intro a b c h
    simp only [Dist.lt, decide_eq_true_eq] at h ⊢
    rcases lt_or_ge a b with h' | h'
    · exact Or.inl h'
    · exact Or.inr (lt_of_le_of_lt h' h)

/-- the metric of a collection: cosine distance — pkg/document/document.go:193, 316, 483, 585, pkg/hnsw/distancer/cosine_dist.go:23-48 -/
def cosMetric (avx : Bool) (junk : Nat → Nat → F) : Metric (List F) F where
  dist a b := (distance (exact sqrt) avx junk .cosine a b).toOption
  len := List.length

/-- the index of a collection: cosine distance, normalised vectors — pkg/document/document.go:189-199, pkg/hnsw/insert.go:70-74 -/
def cosParams (avx : Bool) (junk : Nat → Nat → F) : Params (List F) F :=
  @Index.faveParams (List F) F (cosMetric sqrt avx junk) (normalize (exact sqrt)) (fun _ => true)

/-- the search side of the index: queries are normalised too — pkg/hnsw/search_with_max_dist.go:25-29, search.go:74-78 -/
def IsCosine (avx : Bool) (junk : Nat → Nat → F) (g : Graph (List F) F) : Prop :=
  g.metric = cosMetric sqrt avx junk ∧ g.norm = normalize (exact sqrt)

theorem cosParams_ok (avx : Bool) (junk : Nat → Nat → F) : (cosParams sqrt avx junk).Ok where
  conn := by show (30 : Nat) ≤ 60; decide
  sizes := by show (25000 : Nat) ≤ 25500; decide
  lens := by
    intro a b h
    show (distance (exact sqrt) avx junk .cosine a b).toOption = none
    have h' : a.length ≠ b.length := h
    unfold distance
    rw [if_pos h']
    rfl
  norm := normalize_length

end

end Distance
end Fave

import Verif.Lemmas.Float32
import Verif.Lemmas.Distance
import Mathlib.Tactic.GCongr
/-!
# Rounded sums
-/
namespace Fave
namespace F32
open Distance

/-- the factor by which `k` roundings can grow a magnitude -/
def fac (k : ℕ) : ℚ := (1 + unit) ^ k

theorem fac_zero : fac 0 = 1 := pow_zero _
theorem fac_succ (k : ℕ) : fac (k + 1) = fac k * (1 + unit) := pow_succ _ _
theorem fac_ge (k : ℕ) : 1 ≤ fac k := one_le_pow₀ (by linarith [unit_pos])
theorem fac_mono {k k' : ℕ} (h : k ≤ k') : fac k ≤ fac k' := pow_le_pow_right₀ (by linarith [unit_pos]) h
theorem off_eq (k c : ℕ) (m : ℚ) : off k c m = (fac k - 1) * m + c * tiny * fac k := rfl

theorem off_nonneg {k c : ℕ} {m : ℚ} (hm : 0 ≤ m) : 0 ≤ off k c m := by
  rw [off_eq]
  have h1 := fac_ge k
  have h2 := tiny_pos
  have h3 : (0 : ℚ) ≤ c := Nat.cast_nonneg c
  have h4 : 0 ≤ (fac k - 1) * m := mul_nonneg (by linarith) hm
  have h5 : 0 ≤ (c : ℚ) * tiny * fac k := mul_nonneg (mul_nonneg h3 h2.le) (by linarith)
  linarith

theorem off_mono {k k' c c' : ℕ} {m m' : ℚ} (hk : k ≤ k') (hc : c ≤ c') (hm : 0 ≤ m) (hmm : m ≤ m') : off k c m ≤ off k' c' m' := by
  rw [off_eq, off_eq]
  have h1 := fac_ge k
  have h2 := fac_mono hk
  have h3 : (c : ℚ) ≤ c' := Nat.cast_le.2 hc
  have h4 : (0 : ℚ) ≤ c := Nat.cast_nonneg c
  have h5 := tiny_pos
  have h6 : (fac k - 1) * m ≤ (fac k' - 1) * m' := mul_le_mul (by linarith) hmm hm (by linarith)
  have h7 : (c : ℚ) * tiny * fac k ≤ c' * tiny * fac k' :=
    mul_le_mul (mul_le_mul_of_nonneg_right h3 h5.le) h2 (by linarith) (mul_nonneg (by linarith) h5.le)
  linarith

/-- a computed number: near the true value `e`, which is at most `m`, and finite if `m` is not too large -/
structure Holds (x : Num) (k c : ℕ) (e m : ℚ) : Prop where
  small : |e| ≤ m
  near : ∀ v, x = .fin v → Grid v ∧ |v - e| ≤ off k c m
  finite : (m + c * tiny) * fac k < 2 ^ 128 → x.isFin

variable {x y : Num} {k k' c c' : ℕ} {e e' m m' : ℚ}

theorem Holds.nonneg (h : Holds x k c e m) : 0 ≤ m := (abs_nonneg _).trans h.small

theorem Holds.zero (k c : ℕ) : Holds (.fin 0) k c 0 0 where
  small := by simp
  near := by
    intro v hv
    cases hv
    refine ⟨Grid.zero, ?_⟩
    rw [sub_zero, abs_zero]
    exact off_nonneg (le_refl _)
  finite _ := trivial

theorem Holds.exact {v : ℚ} (hv : Grid v) (k c : ℕ) : Holds (.fin v) k c v |v| where
  small := le_refl _
  near := by
    intro w hw
    cases hw
    refine ⟨hv, ?_⟩
    rw [sub_self, abs_zero]
    exact off_nonneg (abs_nonneg _)
  finite _ := trivial

theorem Holds.weaken (h : Holds x k c e m) (hk : k ≤ k') (hc : c ≤ c') : Holds x k' c' e m where
  small := h.small
  near v hv := ⟨(h.near v hv).1, (h.near v hv).2.trans (off_mono hk hc h.nonneg (le_refl _))⟩
  finite hf := by
    apply h.finite
    refine lt_of_le_of_lt ?_ hf
    have h1 := fac_mono hk
    have h2 := fac_ge k
    have h3 : (c : ℚ) ≤ c' := Nat.cast_le.2 hc
    have h4 : (0 : ℚ) ≤ c := Nat.cast_nonneg c
    have h5 := tiny_pos
    have h6 := h.nonneg
    have h7 : (c : ℚ) * tiny ≤ c' * tiny := mul_le_mul_of_nonneg_right h3 h5.le
    have h8 : 0 ≤ (c : ℚ) * tiny := mul_nonneg h4 h5.le
    exact mul_le_mul (by linarith) h1 (by linarith) (by linarith)

theorem round_holds_aux {z t : ℚ} (hs : |e| ≤ m) (hz : |z - e| ≤ off k c m) (hr : |round z - z| ≤ unit * |z| + t * tiny) :
    |round z - e| ≤ ((fac (k + 1)) - 1) * m + (c * fac (k + 1) + t) * tiny := by
  have h1 : |round z - e| ≤ |round z - z| + |z - e| := abs_sub_le _ _ _
  have h2 : |z| ≤ |z - e| + |e| := by
    have := abs_add_le (z - e) e
    simpa using this
  have hu := unit_pos
  have h3 : unit * |z| ≤ unit * (off k c m + m) := mul_le_mul_of_nonneg_left (by linarith) hu.le
  have h4 : |round z - e| ≤ off k c m * (1 + unit) + unit * m + t * tiny := by nlinarith
  refine h4.trans (le_of_eq ?_)
  rw [off_eq, fac_succ]
  ring

theorem holds_of_bound {z : ℚ} (hs : |e| ≤ m) (h : |round z - e| ≤ off k c m) : Holds (fl z) k c e m where
  small := hs
  near v hv := by
    rw [fl_fin hv]
    exact ⟨grid_round z, h⟩
  finite hf := by
    rw [fl_isFin]
    refine lt_of_le_of_lt ?_ hf
    have h2 : |round z| ≤ |round z - e| + |e| := by
      have := abs_add_le (round z - e) e
      simpa using this
    rw [off_eq] at h
    have : (m + c * tiny) * fac k = (fac k - 1) * m + c * tiny * fac k + m := by ring
    rw [this]
    linarith

/-- rounding a multiple of the smallest number -/
theorem holds_round_grid {z : ℚ} (hs : |e| ≤ m) (hz : |z - e| ≤ off k c m) (hg : Grid z) : Holds (fl z) (k + 1) c e m := by
  refine holds_of_bound hs ?_
  have := round_holds_aux (t := 0) hs hz (by simpa using round_grid_err hg)
  rw [off_eq]
  refine this.trans (le_of_eq ?_)
  ring

/-- rounding anything -/
theorem holds_round {z : ℚ} (hs : |e| ≤ m) (hz : |z - e| ≤ off k c m) : Holds (fl z) (k + 1) (c + 1) e m := by
  refine holds_of_bound hs ?_
  have := round_holds_aux (t := 1) hs hz (by simpa using round_rel z)
  rw [off_eq]
  refine this.trans ?_
  push_cast
  have h1 := fac_ge (k + 1)
  nlinarith [tiny_pos]


theorem off_add (k c c' : ℕ) (m m' : ℚ) : off k c m + off k c' m' = off k (c + c') (m + m') := by
  rw [off_eq, off_eq, off_eq]
  push_cast
  ring

/-- a result that is not finite because an operand is not -/
theorem Holds.notFin {r : Num} (h : Holds x k c e m) (hx : ¬x.isFin) (hr : ¬r.isFin) (hs : |e'| ≤ m') (hk : k ≤ k') (hc : c ≤ c')
    (hm : m ≤ m') : Holds r k' c' e' m' where
  small := hs
  near v hv := by
    rw [hv] at hr
    exact absurd trivial hr
  finite hf := by
    exfalso
    refine hx (h.finite (lt_of_le_of_lt ?_ hf))
    have h1 := fac_mono hk
    have h2 := fac_ge k
    have h3 : (c : ℚ) ≤ c' := Nat.cast_le.2 hc
    have h4 : (0 : ℚ) ≤ c := Nat.cast_nonneg c
    have h5 := tiny_pos
    have h6 := h.nonneg
    have h7 : (c : ℚ) * tiny ≤ c' * tiny := mul_le_mul_of_nonneg_right h3 h5.le
    have h8 : 0 ≤ (c : ℚ) * tiny := mul_nonneg h4 h5.le
    exact mul_le_mul (by linarith) h1 (by linarith) (by linarith)

theorem isFin_iff {x : Num} : x.isFin ↔ ∃ v, x = .fin v := by
  cases x with
  | fin v => exact ⟨fun _ => ⟨v, rfl⟩, fun _ => trivial⟩
  | inf s => exact ⟨fun h => h.elim, fun ⟨v, hv⟩ => by cases hv⟩
  | nan => exact ⟨fun h => h.elim, fun ⟨v, hv⟩ => by cases hv⟩

theorem neg_isFin {x : Num} : (neg x).isFin ↔ x.isFin := by cases x <;> exact Iff.rfl
theorem abs_isFin {x : Num} : (abs x).isFin ↔ x.isFin := by cases x <;> exact Iff.rfl

theorem add_isFin {x y : Num} (h : (add x y).isFin) : x.isFin ∧ y.isFin := by
  cases x with
  | fin v => cases y with
    | fin w => exact ⟨trivial, trivial⟩
    | inf s => exact h.elim
    | nan => exact h.elim
  | inf s => cases y with
    | fin w => exact h.elim
    | inf s' =>
      simp only [add] at h
      split at h <;> exact h.elim
    | nan => exact h.elim
  | nan => cases y <;> exact h.elim

theorem infMul_isFin {s : Bool} {b : ℚ} : ¬(infMul s b).isFin := by
  unfold infMul
  split <;> exact id

theorem mul_isFin {x y : Num} (h : (mul x y).isFin) : x.isFin ∧ y.isFin := by
  cases x with
  | fin v => cases y with
    | fin w => exact ⟨trivial, trivial⟩
    | inf s => exact (infMul_isFin h).elim
    | nan => exact h.elim
  | inf s => cases y with
    | fin w => exact (infMul_isFin h).elim
    | inf s' => exact h.elim
    | nan => exact h.elim
  | nan => cases y <;> exact h.elim

theorem sub_isFin {x y : Num} (h : (sub x y).isFin) : x.isFin ∧ y.isFin := ⟨(add_isFin h).1, neg_isFin.1 (add_isFin h).2⟩

theorem fma_isFin {x y z : Num} (h : (fma x y z).isFin) : x.isFin ∧ y.isFin ∧ z.isFin := by
  have key : (¬(x.isFin ∧ y.isFin) → (add (mul x y) z).isFin) := by
    intro hh
    cases x with
    | fin v => cases y with
      | fin w => exact absurd ⟨trivial, trivial⟩ hh
      | inf s => exact h
      | nan => exact h
    | inf s => exact h
    | nan => exact h
  by_cases hh : x.isFin ∧ y.isFin
  · refine ⟨hh.1, hh.2, ?_⟩
    obtain ⟨v, rfl⟩ := isFin_iff.1 hh.1
    obtain ⟨w, rfl⟩ := isFin_iff.1 hh.2
    cases z with
    | fin u => trivial
    | inf s => exact h.elim
    | nan => exact h.elim
  · exact absurd (mul_isFin (add_isFin (key hh)).1) hh

theorem sub_fin (a b : ℚ) : sub (.fin a) (.fin b) = fl (a - b) := by
  show fl (a + -b) = _
  rw [sub_eq_add_neg]

theorem Holds.add (h : Holds x k c e m) (h' : Holds y k c' e' m') :
    Holds (add x y) (k + 1) (c + c') (e + e') (m + m') := by
  have hs : |e + e'| ≤ m + m' := (abs_add_le _ _).trans (add_le_add h.small h'.small)
  by_cases hx : x.isFin
  · by_cases hy : y.isFin
    · obtain ⟨v, rfl⟩ := isFin_iff.1 hx
      obtain ⟨w, rfl⟩ := isFin_iff.1 hy
      obtain ⟨g1, n1⟩ := h.near v rfl
      obtain ⟨g2, n2⟩ := h'.near w rfl
      refine holds_round_grid hs ?_ (g1.add g2)
      rw [← off_add]
      have : v + w - (e + e') = (v - e) + (w - e') := by ring
      rw [this]
      exact (abs_add_le _ _).trans (add_le_add n1 n2)
    · exact h'.notFin hy (fun hh => hy (add_isFin hh).2) hs (Nat.le_succ k) (Nat.le_add_left _ _) (by linarith [h.nonneg])
  · exact h.notFin hx (fun hh => hx (add_isFin hh).1) hs (Nat.le_succ k) (Nat.le_add_right _ _) (by linarith [h'.nonneg])

/-- `a - x`, for the cosine distance -/
theorem Holds.sub_from {a : ℚ} (ha : Grid a) (h : Holds x k c e m) : Holds (sub (.fin a) x) (k + 1) c (a - e) (|a| + m) := by
  have hs : |a - e| ≤ |a| + m := (abs_sub _ _).trans (add_le_add (le_refl _) h.small)
  by_cases hx : x.isFin
  · obtain ⟨v, rfl⟩ := isFin_iff.1 hx
    obtain ⟨g1, n1⟩ := h.near v rfl
    rw [sub_fin]
    refine holds_round_grid hs ?_ (ha.sub g1)
    have : a - v - (a - e) = -(v - e) := by ring
    rw [this, abs_neg]
    exact n1.trans (off_mono (le_refl _) (le_refl _) h.nonneg (by linarith [abs_nonneg a]))
  · exact h.notFin hx (fun hh => hx (sub_isFin hh).2) hs (Nat.le_succ k) (le_refl _) (by linarith [abs_nonneg a])

/-- adding a product in one operation; the product of the operands is near the one meant, `g` -/
theorem Holds.fma {a b g : ℚ} (h : Holds x k c e m) (hg : |a * b - g| ≤ off k 0 |g|) :
    Holds (fma (.fin a) (.fin b) x) (k + 1) (c + 1) (g + e) (|g| + m) := by
  have hs : |g + e| ≤ |g| + m := (abs_add_le _ _).trans (add_le_add (le_refl _) h.small)
  by_cases hx : x.isFin
  · obtain ⟨v, rfl⟩ := isFin_iff.1 hx
    obtain ⟨_, n1⟩ := h.near v rfl
    refine holds_round hs ?_
    have h1 := off_add k 0 c |g| m
    rw [Nat.zero_add] at h1
    rw [← h1]
    have : a * b + v - (g + e) = (a * b - g) + (v - e) := by ring
    rw [this]
    exact (abs_add_le _ _).trans (add_le_add hg n1)
  · exact h.notFin hx (fun hh => hx (fma_isFin hh).2.2) hs (Nat.le_succ k) (Nat.le_succ c) (by linarith [abs_nonneg g])

theorem Holds.mul {a b g : ℚ} (hg : |a * b - g| ≤ off k 0 |g|) : Holds (mul (.fin a) (.fin b)) (k + 1) 1 g |g| := by
  have := holds_round (z := a * b) (c := 0) (le_refl |g|) hg
  rwa [Nat.zero_add] at this

theorem Holds.neg (h : Holds x k c e m) : Holds (neg x) k c (-e) m where
  small := by rw [abs_neg]; exact h.small
  near := by
    intro v hv
    cases x with
    | fin w =>
      cases hv
      obtain ⟨g, n⟩ := h.near w rfl
      refine ⟨g.neg, ?_⟩
      have : -w - -e = -(w - e) := by ring
      rw [this, abs_neg]
      exact n
    | inf s => cases hv
    | nan => cases hv
  finite hf := neg_isFin.2 (h.finite hf)

/-- the difference of two given numbers -/
theorem Holds.sub {a b : ℚ} (ha : Grid a) (hb : Grid b) : Holds (sub (.fin a) (.fin b)) 1 0 (a - b) |a - b| := by
  rw [sub_fin]
  have := holds_round_grid (z := a - b) (e := a - b) (k := 0) (c := 0) (le_refl _)
    (by rw [sub_self, abs_zero]; exact off_nonneg (abs_nonneg _)) (ha.sub hb)
  exact this

theorem Grid.abs {w : ℚ} (g : Grid w) : Grid |w| := by
  rcases abs_choice w with hw | hw
  · rw [hw]; exact g
  · rw [hw]; exact g.neg

theorem Holds.abs (h : Holds x k c e m) : Holds (abs x) k c |e| m where
  small := by rw [abs_abs]; exact h.small
  near := by
    intro v hv
    cases x with
    | fin w =>
      cases hv
      obtain ⟨g, n⟩ := h.near w rfl
      exact ⟨g.abs, (abs_abs_sub_abs_le _ _).trans n⟩
    | inf s => cases hv
    | nan => cases hv
  finite hf := abs_isFin.2 (h.finite hf)

/-! The terms. -/

theorem sq_near {d g : ℚ} (h : |d - g| ≤ unit * |g|) : |d * d - g * g| ≤ off 2 0 |g * g| := by
  have e1 : d * d - g * g = (d - g) * (d - g) + 2 * (g * (d - g)) := by ring
  rw [e1, off_eq, abs_mul]
  have h1 : |(d - g) * (d - g)| ≤ (unit * |g|) * (unit * |g|) := by
    rw [abs_mul]
    exact mul_le_mul h h (abs_nonneg _) (mul_nonneg unit_pos.le (abs_nonneg _))
  have h2 : |2 * (g * (d - g))| ≤ 2 * (|g| * (unit * |g|)) := by
    rw [abs_mul, abs_mul, abs_of_pos (by norm_num : (0 : ℚ) < 2)]
    have := mul_le_mul_of_nonneg_left h (abs_nonneg g)
    linarith
  have h3 := abs_add_le ((d - g) * (d - g)) (2 * (g * (d - g)))
  have h4 : (fac 2 - 1) * (|g| * |g|) = (unit * |g|) * (unit * |g|) + 2 * (|g| * (unit * |g|)) := by
    unfold fac
    ring
  push_cast
  linarith

/-- the difference of two numbers is near the true one, or so large that its square is far beyond the largest number -/
theorem sub_cases {a b : ℚ} (ha : Grid a) (hb : Grid b) :
    (∃ d, sub (.fin a) (.fin b) = .fin d ∧ |d * d - (a - b) * (a - b)| ≤ off 2 0 |(a - b) * (a - b)|) ∨
    (¬(sub (.fin a) (.fin b)).isFin ∧ 2 ^ 128 ≤ |(a - b) * (a - b)|) := by
  by_cases h : (sub (.fin a) (.fin b)).isFin
  · left
    obtain ⟨d, hd⟩ := isFin_iff.1 h
    refine ⟨d, hd, sq_near ?_⟩
    rw [sub_fin] at hd
    rw [fl_fin hd]
    exact round_grid_err (ha.sub hb)
  · right
    refine ⟨h, ?_⟩
    have h1 : 2 ^ 128 ≤ |a - b| * (1 + unit) := by
      by_contra hc
      exact h ((Holds.sub ha hb).finite (by simp [fac]; exact not_le.1 hc))
    have h2 : (2 : ℚ) ^ 127 ≤ |a - b| := by
      have : (1 : ℚ) + unit ≤ 2 := by norm_num [unit]
      have h3 := mul_le_mul_of_nonneg_left this (abs_nonneg (a - b))
      linarith
    rw [abs_mul]
    have h4 : (2 : ℚ) ^ 127 * 2 ^ 127 ≤ |a - b| * |a - b| := mul_le_mul h2 h2 (by positivity) (abs_nonneg _)
    refine le_trans ?_ h4
    norm_num

/-- an infinite result is right if the true value is beyond the largest number -/
theorem Holds.infinite {r : Num} (hr : ¬r.isFin) (hs : |e| ≤ m) (h : 2 ^ 128 ≤ m) : Holds r k c e m where
  small := hs
  near v hv := by
    rw [hv] at hr
    exact absurd trivial hr
  finite hf := by
    exfalso
    have h1 := fac_ge k
    have h2 : (0 : ℚ) ≤ c * tiny := mul_nonneg (Nat.cast_nonneg c) tiny_pos.le
    have h3 : (2 : ℚ) ^ 128 * 1 ≤ (m + c * tiny) * fac k := mul_le_mul (by linarith) h1 (by norm_num) (by
      have : (0 : ℚ) ≤ 2 ^ 128 := by positivity
      linarith)
    linarith

/-- the square of a difference, rounded three times -/
theorem Holds.sq {a b : ℚ} (ha : Grid a) (hb : Grid b) :
    Holds (F32.mul (F32.sub (.fin a) (.fin b)) (F32.sub (.fin a) (.fin b))) 3 1
      ((a - b) * (a - b)) |(a - b) * (a - b)| := by
  rcases sub_cases ha hb with ⟨d, hd, hn⟩ | ⟨hd, hn⟩
  · rw [hd]
    exact Holds.mul (k := 2) hn
  · exact Holds.infinite (fun hh => hd (mul_isFin hh).1) (le_refl _) hn

theorem Holds.fma_sq {a b : ℚ} (ha : Grid a) (hb : Grid b) (hk : 2 ≤ k) (h : Holds x k c e m) :
    Holds (Asm.sqTerm ops.toArith (.fin a) (.fin b) x) (k + 1) (c + 1) ((a - b) * (a - b) + e) (|(a - b) * (a - b)| + m) := by
  show Holds (F32.fma (F32.sub (.fin a) (.fin b)) (F32.sub (.fin a) (.fin b)) x) _ _ _ _
  rcases sub_cases ha hb with ⟨d, hd, hn⟩ | ⟨hd, hn⟩
  · rw [hd]
    exact Holds.fma h (hn.trans (off_mono hk (le_refl _) (abs_nonneg _) (le_refl _)))
  · refine Holds.infinite (fun hh => hd (fma_isFin hh).1) ((abs_add_le _ _).trans (add_le_add (le_refl _) h.small)) ?_
    linarith [h.nonneg]

/-! The sums. -/

theorem loop_holds (f : Num → Num → Num) (g : ℚ → ℚ → ℚ) {k0 c0 : ℕ}
    (hf : ∀ a b, Grid a → Grid b → Holds (f (.fin a) (.fin b)) k0 c0 (g a b) |g a b|)
    (a b : List ℚ) (hl : a.length = b.length) (ha : ∀ z ∈ a, Grid z) (hb : ∀ z ∈ b, Grid z) (s : Num)
    (hk : k0 ≤ k) (hs : Holds s k c e m) :
    ∃ r, loop ops f s (vec a) (vec b) = some r ∧
      Holds r (k + a.length) (c + a.length * c0) (e + (List.zipWith g a b).sum) (m + (List.zipWith (fun x y => |g x y|) a b).sum) := by
  induction a generalizing s b k c e m with
  | nil => cases b with
    | nil => exact ⟨s, rfl, by simpa using hs⟩
    | cons => simp at hl
  | cons p a ih => cases b with
    | nil => simp at hl
    | cons q b =>
      have hl' : a.length = b.length := by simpa using hl
      have h1 := Holds.add hs ((hf p q (ha p (by simp)) (hb q (by simp))).weaken hk (le_refl _))
      obtain ⟨r, hr, hh⟩ := ih (k := k + 1) b hl' (fun z hz => ha z (by simp [hz])) (fun z hz => hb z (by simp [hz]))
        (ops.add s (f (.fin p) (.fin q))) (Nat.le_succ_of_le hk) h1
      refine ⟨r, hr, ?_⟩
      simp only [List.zipWith_cons_cons, List.sum_cons, List.length_cons]
      simp only [← add_assoc]
      refine hh.weaken ?_ ?_
      · omega
      · rw [Nat.add_mul]
        omega

theorem vec_getD (a : List ℚ) (i : ℕ) : (vec a).getD i ops.zero = .fin (a.getD i 0) := by
  show (a.map Num.fin).getD i (.fin 0) = _
  rw [List.getD_eq_getElem?_getD, List.getD_eq_getElem?_getD, List.getElem?_map]
  cases a[i]? <;> rfl

theorem grid_getD {a : List ℚ} (ha : ∀ z ∈ a, Grid z) (i : ℕ) : Grid (a.getD i 0) := by
  rw [List.getD_eq_getElem?_getD]
  cases h : a[i]? with
  | none => exact Grid.zero
  | some z => exact ha z (List.mem_of_getElem? h)

/-- what one step of the vector instructions does to an accumulator -/
def Steps (t : Num → Num → Num → Num) (g : ℚ → ℚ → ℚ) (k0 : ℕ) : Prop :=
  ∀ a b x k c e m, Grid a → Grid b → k0 ≤ k → Holds x k c e m → Holds (t (.fin a) (.fin b) x) (k + 1) (c + 1) (g a b + e) (|g a b| + m)

variable {t : Num → Num → Num → Num} {g : ℚ → ℚ → ℚ} {k0 : ℕ} {a b : List ℚ}

theorem acc_holds (ht : Steps t g k0) (ha : ∀ z ∈ a, Grid z) (hb : ∀ z ∈ b, Grid z) (i j n : ℕ) :
    Holds (Asm.acc ops.toArith t (vec a) (vec b) i j n) (k0 + n) n
      (upTo (fun b' => g (a.getD (32 * b' + 8 * i + j) 0) (b.getD (32 * b' + 8 * i + j) 0)) n)
      (upTo (fun b' => |g (a.getD (32 * b' + 8 * i + j) 0) (b.getD (32 * b' + 8 * i + j) 0)|) n) := by
  induction n with
  | zero => exact Holds.zero _ _
  | succ n ih =>
    simp only [Asm.acc, upTo]
    rw [vec_getD, vec_getD, add_comm (upTo _ _), add_comm (upTo _ _)]
    exact ht _ _ _ _ _ _ _ (grid_getD ha _) (grid_getD hb _) (Nat.le_add_right _ _) ih

theorem tail_holds (ht : Steps t g k0) (ha : ∀ z ∈ a, Grid z) (hb : ∀ z ∈ b, Grid z) (p n : ℕ) :
    Holds (Asm.tailAcc ops.toArith t (vec a) (vec b) p n) (k0 + n) n
      (upTo (fun i => g (a.getD (p + i) 0) (b.getD (p + i) 0)) n)
      (upTo (fun i => |g (a.getD (p + i) 0) (b.getD (p + i) 0)|) n) := by
  induction n with
  | zero => exact Holds.zero _ _
  | succ n ih =>
    simp only [Asm.tailAcc, upTo]
    rw [vec_getD, vec_getD, add_comm (upTo _ _), add_comm (upTo _ _)]
    exact ht _ _ _ _ _ _ _ (grid_getD ha _) (grid_getD hb _) (Nat.le_add_right _ _) ih

theorem reduce_holds {G : ℕ → ℕ → Num} {T : Num} {E M : ℕ → ℕ → ℚ} {k c k' c' : ℕ} {e m : ℚ}
    (hG : ∀ i j, Holds (G i j) k c (E i j) (M i j)) (hT : Holds T k' c' e m) :
    Holds (Asm.reduce ops.toArith G T) (max (k + 6) (k' + 3)) (32 * c + c')
      (upTo (fun i => upTo (fun j => E i j) 8) 4 + e) (upTo (fun i => upTo (fun j => M i j) 8) 4 + m) := by
  have h4 : ∀ j, Holds (Asm.four ops.toArith G j) (k + 1 + 1) (c + c + (c + c))
      (Asm.four (exact (id : ℚ → ℚ)).toArith E j) (Asm.four (exact (id : ℚ → ℚ)).toArith M j) :=
    fun j => ((hG 3 j).add (hG 2 j)).add ((hG 1 j).add (hG 0 j))
  have hh0 : Holds (Asm.half ops.toArith G T 0) (max (k + 3) k' + 1) (8 * c + c')
      (Asm.half (exact (id : ℚ → ℚ)).toArith E e 0) (Asm.half (exact (id : ℚ → ℚ)).toArith M m 0) := by
    have h := (hT.weaken (le_max_right (k + 3) k') (le_refl _)).add 
      (((h4 (4 + 0)).add (h4 0)).weaken (le_max_left (k + 3) k') (le_refl _))
    exact h.weaken (le_refl _) (by omega)
  have hh : ∀ j, j ≠ 0 → Holds (Asm.half ops.toArith G T j) (max (k + 3) k' + 1) (8 * c)
      (Asm.half (exact (id : ℚ → ℚ)).toArith E e j) (Asm.half (exact (id : ℚ → ℚ)).toArith M m j) := by
    intro j hj
    have h := (Holds.zero (max (k + 3) k') 0).add 
      (((h4 (4 + j)).add (h4 j)).weaken (le_max_left (k + 3) k') (le_refl _))
    unfold Asm.half
    rw [if_neg hj, if_neg hj, if_neg hj]
    exact h.weaken (le_refl _) (by omega)
  have h := ((hh 3 (by decide)).add (hh 2 (by decide))).add ((hh 1 (by decide)).add hh0)
  have hr := reduce_exact (id : ℚ → ℚ) E e
  have hr' := reduce_exact (id : ℚ → ℚ) M m
  rw [← hr, ← hr']
  exact h.weaken (by omega) (by omega)

theorem blocked_holds (ht : Steps t g k0) (hl : a.length = b.length) (ha : ∀ z ∈ a, Grid z) (hb : ∀ z ∈ b, Grid z) :
    Holds (Asm.blocked ops.toArith t (vec a) (vec b)) (max (k0 + a.length / 32 + 6) (k0 + a.length % 32 + 3)) a.length
      (List.zipWith g a b).sum (List.zipWith (fun x y => |g x y|) a b).sum := by
  have hv : (vec a).length = a.length := by simp [vec]
  have h := reduce_holds (fun i j => acc_holds ht ha hb i j (a.length / 32))
    (tail_holds ht ha hb (32 * (a.length / 32)) (a.length % 32))
  rw [upTo_blocks (fun i => g (a.getD i 0) (b.getD i 0)), ← upTo_add (fun i => g (a.getD i 0) (b.getD i 0)),
    upTo_blocks (fun i => |g (a.getD i 0) (b.getD i 0)|), ← upTo_add (fun i => |g (a.getD i 0) (b.getD i 0)|),
    show 32 * (a.length / 32) + a.length % 32 = a.length by omega, upTo_zipWith g a b hl,
    upTo_zipWith (fun x y => |g x y|) a b hl] at h
  unfold Asm.blocked
  rw [hv]
  exact h

/-! The implementations. -/

theorem mul_steps : Steps ops.fma (fun a b => a * b) 0 := by
  intro a b x k c e m _ _ _ h
  exact Holds.fma h (by rw [sub_self, abs_zero]; exact off_nonneg (abs_nonneg _))

theorem sq_steps : Steps (Asm.sqTerm ops.toArith) (fun a b => (a - b) * (a - b)) 2 := by
  intro a b x k c e m ha hb hk h
  exact Holds.fma_sq ha hb hk h

theorem dot_holds (avx : Bool) (junk : ℕ → ℕ → Num) {kd : Kind} (hkd : kd = .dot ∨ kd = .cosine)
    (hl : a.length = b.length) (ha : ∀ z ∈ a, Grid z) (hb : ∀ z ∈ b, Grid z) :
    ∃ r, impl ops avx junk kd (vec a) (vec b) = some r ∧ Holds r (depth avx .dot a.length) a.length
      (List.zipWith (fun x y => x * y) a b).sum (List.zipWith (fun x y => |x * y|) a b).sum := by
  cases avx
  · have h := loop_holds (k := 1) (c := 0) mul (fun x y => x * y) (k0 := 1) (c0 := 1)
      (fun x y _ _ => Holds.mul (k := 0) (by rw [sub_self, abs_zero]; exact off_nonneg (abs_nonneg _)))
      a b hl ha hb (.fin 0) (le_refl _) (Holds.zero _ _)
    obtain ⟨r, hr, hh⟩ := h
    simp only [zero_add] at hh
    refine ⟨r, ?_, hh.weaken ?_ ?_⟩
    · rcases hkd with rfl | rfl <;> exact hr
    · simp only [depth]; omega
    · omega
  · have hv : (vec a).length = (vec b).length := by simp [vec, hl]
    have hf : Asm.steps (vec a).length ≤ fuel (vec a).length := Nat.le_refl _
    refine ⟨Asm.blocked ops.toArith ops.fma (vec a) (vec b), ?_,
      (blocked_holds (mul_steps ) hl ha hb).weaken (by simp [depth]) (le_refl _)⟩
    have : (Asm.dot ops.toArith junk (vec a) (vec b) (fuel (vec a).length)).getD none =
        some (Asm.blocked ops.toArith ops.fma (vec a) (vec b)) := by
      rw [Asm.dot_blocked _ _ hv.symm hf]
      rfl
    rcases hkd with rfl | rfl <;> exact this

theorem l2_holds (avx : Bool) (junk : ℕ → ℕ → Num)
    (hl : a.length = b.length) (ha : ∀ z ∈ a, Grid z) (hb : ∀ z ∈ b, Grid z) :
    ∃ r, impl ops avx junk .l2 (vec a) (vec b) = some r ∧ Holds r (depth avx .l2 a.length) a.length
      (List.zipWith (fun x y => (x - y) * (x - y)) a b).sum (List.zipWith (fun x y => |(x - y) * (x - y)|) a b).sum := by
  cases avx
  · have h := loop_holds (k := 3) (c := 0) (term ops .l2) (fun x y => (x - y) * (x - y)) (k0 := 3) (c0 := 1)
      (fun x y hx hy => Holds.sq hx hy) a b hl ha hb (.fin 0) (le_refl _) (Holds.zero _ _)
    obtain ⟨r, hr, hh⟩ := h
    simp only [zero_add] at hh
    refine ⟨r, hr, hh.weaken ?_ ?_⟩
    · simp only [depth]; omega
    · omega
  · have hv : (vec a).length = (vec b).length := by simp [vec, hl]
    have hf : Asm.steps (vec a).length ≤ fuel (vec a).length := Nat.le_refl _
    refine ⟨Asm.blocked ops.toArith (Asm.sqTerm ops.toArith) (vec a) (vec b), ?_,
      (blocked_holds (sq_steps ) hl ha hb).weaken (by simp only [depth]; omega) (le_refl _)⟩
    show (Asm.l2 ops.toArith junk (vec a) (vec b) (fuel (vec a).length)).getD none = _
    rw [Asm.l2_blocked _ _ hv.symm hf]
    rfl

theorem manhattan_holds (avx : Bool) (junk : ℕ → ℕ → Num)
    (hl : a.length = b.length) (ha : ∀ z ∈ a, Grid z) (hb : ∀ z ∈ b, Grid z) :
    ∃ r, impl ops avx junk .manhattan (vec a) (vec b) = some r ∧ Holds r (depth avx .manhattan a.length) 0
      (List.zipWith (fun x y => |x - y|) a b).sum (List.zipWith (fun x y => |(|x - y|)|) a b).sum := by
  have h := loop_holds (k := 1) (c := 0) (term ops .manhattan) (fun x y => |x - y|) (k0 := 1) (c0 := 0)
    (fun x y hx hy => by rw [abs_abs]; exact (Holds.sub hx hy).abs ) a b hl ha hb (.fin 0) (le_refl _) (Holds.zero _ _)
  obtain ⟨r, hr, hh⟩ := h
  simp only [zero_add] at hh
  refine ⟨r, ?_, hh.weaken ?_ ?_⟩
  · cases avx <;> exact hr
  · cases avx <;> simp only [depth] <;> omega
  · omega

end F32
end Fave

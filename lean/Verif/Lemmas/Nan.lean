import Verif.Model.Collection32
import Verif.Lemmas.Asm
import Verif.Lemmas.Norm32Lost
/-!
# Not-a-number
-/
namespace Fave
namespace F32
open Distance

theorem add_nan (x : Num) : F32.add x .nan = .nan := by cases x <;> rfl
theorem nan_add (x : Num) : F32.add .nan x = .nan := by cases x <;> rfl
theorem mul_nan (x : Num) : F32.mul x .nan = .nan := by cases x <;> rfl
theorem nan_mul (x : Num) : F32.mul .nan x = .nan := by cases x <;> rfl
theorem fma_nan (a b : Num) : fma a b .nan = .nan := by
  cases a <;> cases b <;> first | rfl | (unfold fma; exact add_nan _)
theorem nan_fma (b c : Num) : fma .nan b c = .nan := by
  unfold fma; simp only [nan_mul, nan_add]

theorem div_nan (x : Num) : F32.div x .nan = .nan := by cases x <;> rfl

theorem acc_nan {x y : List Num} {i j k : ℕ} (hx : x[32 * k + 8 * i + j]? = some .nan) :
    ∀ n, k < n → Asm.acc ops.toArith ops.toArith.fma x y i j n = .nan := by
  intro n
  induction n with
  | zero => intro h; omega
  | succ n ih =>
    intro h
    unfold Asm.acc
    by_cases hk : k = n
    · subst hk
      rw [List.getD_eq_getElem?_getD, hx]
      rfl
    · rw [ih (by omega)]
      exact fma_nan _ _

theorem tailAcc_nan {x y : List Num} {b t : ℕ} (hx : x[b + t]? = some .nan) :
    ∀ n, t < n → Asm.tailAcc ops.toArith ops.toArith.fma x y b n = .nan := by
  intro n
  induction n with
  | zero => intro h; omega
  | succ n ih =>
    intro h
    unfold Asm.tailAcc
    by_cases hk : t = n
    · subst hk
      rw [List.getD_eq_getElem?_getD, hx]
      rfl
    · rw [ih (by omega)]
      exact fma_nan _ _

theorem reduce_nan (g : ℕ → ℕ → Num) (t : Num) (h : t = .nan ∨ ∃ i j, i < 4 ∧ j < 8 ∧ g i j = .nan) : Asm.reduce ops.toArith g t = .nan := by
  have ha : ops.toArith.add = F32.add := rfl
  rcases h with rfl | ⟨i, j, hi, hj, h⟩
  · unfold Asm.reduce Asm.half
    simp only [ha, if_true, nan_add, add_nan]
  · have hf : Asm.four ops.toArith g j = .nan := by
      unfold Asm.four
      rw [ha]
      have : i = 0 ∨ i = 1 ∨ i = 2 ∨ i = 3 := by omega
      rcases this with rfl | rfl | rfl | rfl <;> simp only [h, nan_add, add_nan]
    have hh : Asm.half ops.toArith g t (j % 4) = .nan := by
      unfold Asm.half
      rw [ha]
      by_cases h4 : j < 4
      · rw [Nat.mod_eq_of_lt h4, hf, add_nan, add_nan]
      · rw [show 4 + j % 4 = j by omega, hf, nan_add, add_nan]
    unfold Asm.reduce
    rw [ha]
    have : j % 4 = 0 ∨ j % 4 = 1 ∨ j % 4 = 2 ∨ j % 4 = 3 := by omega
    rcases this with hj | hj | hj | hj <;> rw [hj] at hh <;> simp only [hh, nan_add, add_nan]

theorem blocked_nan {x y : List Num} (hx : .nan ∈ x) : Asm.blocked ops.toArith ops.toArith.fma x y = .nan := by
  obtain ⟨p, hp, he⟩ := List.mem_iff_getElem.1 hx
  have he : x[p]? = some .nan := by rw [List.getElem?_eq_getElem hp, he]
  unfold Asm.blocked
  apply reduce_nan
  by_cases hb : p < 32 * (x.length / 32)
  · right
    refine ⟨p % 32 / 8, p % 8, by omega, by omega, acc_nan (k := p / 32) ?_ _ (by omega)⟩
    rw [show 32 * (p / 32) + 8 * (p % 32 / 8) + p % 8 = p by omega]
    exact he
  · left
    refine tailAcc_nan (t := p - 32 * (x.length / 32)) ?_ _ (by omega)
    rw [show 32 * (x.length / 32) + (p - 32 * (x.length / 32)) = p by omega]
    exact he

theorem loop_nan {a b : List Num} (hl : a.length = b.length) (f : Num → Num → Num) (hf : ∀ y, f .nan y = .nan) (s : Num) (h : s = .nan ∨ .nan ∈ a) :
    loop ops f s a b = some .nan := by
  induction a generalizing b s with
  | nil =>
    rcases h with rfl | h
    · rfl
    · cases h
  | cons x a ih =>
    cases b with
    | nil => cases hl
    | cons y b =>
      unfold loop
      refine ih (by simpa using hl) _ ?_
      rcases h with rfl | h
      · left
        rfl
      · rcases List.mem_cons.1 h with rfl | h
        · left; rw [hf]; exact add_nan _
        · exact .inr h

/-- a vector with a not-a-number has distance not-a-number to every vector of its length -/
theorem distance_nan (avx : Bool) (junk : ℕ → ℕ → Num) {a b : List Num} (hl : a.length = b.length) (h : .nan ∈ a) :
    distance ops avx junk .cosine a b = .ok .nan := by
  unfold distance
  rw [if_neg (by simpa using hl)]
  have : impl ops avx junk .cosine a b = some .nan := by
    cases avx with
    | false => exact loop_nan hl _ nan_mul _ (.inr h)
    | true =>
      show (Asm.dot ops.toArith junk a b (fuel a.length)).getD none = _
      rw [Asm.dot_blocked ops.toArith junk hl.symm (fuel := fuel a.length) (Nat.le_refl _), blocked_nan h]
      rfl
  rw [this]
  rfl

/-- the squares of a vector with a not-a-number -/
theorem fold_nan (v : List Num) (s : Num) (h : s = .nan ∨ .nan ∈ v) : v.foldl (fun n x => F32.add n (F32.mul x x)) s = .nan := by
  induction v generalizing s with
  | nil =>
    rcases h with rfl | h
    · rfl
    · cases h
  | cons x v ih =>
    refine ih _ ?_
    rcases h with rfl | h
    · exact .inl (nan_add _)
    · rcases List.mem_cons.1 h with rfl | h
      · exact .inl (add_nan _)
      · exact .inr h

theorem normalize_nan (v : List Num) (h : .nan ∈ v) : normalize ops v = v.map fun _ => .nan := by
  unfold normalize
  have : v.foldl (fun n x => ops.add n (ops.mul x x)) ops.zero = .nan := fold_nan v _ (.inr h)
  simp only [this]
  rw [if_neg (by decide)]
  exact List.map_congr_left fun x _ => div_nan x

end F32
end Fave

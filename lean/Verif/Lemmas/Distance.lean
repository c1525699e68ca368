import Verif.Model.Distance
import Verif.Lemmas.Asm
import Mathlib.Algebra.Order.Field.Basic
import Mathlib.Algebra.BigOperators.Group.List.Basic
import Mathlib.Tactic.Ring
import Mathlib.Tactic.Linarith
/-!
# Exact arithmetic for the distance functions
-/
namespace Fave
namespace Distance

section
set_option linter.unusedSectionVars false
variable {F : Type} [Field F] [LinearOrder F] [IsStrictOrderedRing F]

/-- exact arithmetic for pkg/hnsw/distancer/*.go: the operations of a field with an order; the square root is given -/
def exact (sqrt : F → F) : Ops F where
  zero := 0
  add a b := a + b
  sub a b := a - b
  fma a b c := a * b + c
  one := 1
  mul a b := a * b
  neg a := -a
  div a b := a / b
  abs a := |a|
  sqrt := sqrt
  eq a b := decide (a = b)

variable (sqrt : F → F)

theorem loop_exact (f : F → F → F) (s : F) (a b : List F) (h : a.length = b.length) :
    loop (exact sqrt) f s a b = some (s + (List.zipWith f a b).sum) := by
  induction a generalizing s b with
  | nil => cases b with
    | nil => simp [loop]
    | cons => simp at h
  | cons x a ih => cases b with
    | nil => simp at h
    | cons y b =>
      have h' : a.length = b.length := by simpa using h
      simp only [loop, List.zipWith_cons_cons, List.sum_cons]
      rw [ih _ b h']
      show some (s + f x y + _) = _
      rw [add_assoc]

/-- sum of `f 0 … f (n-1)` -/
def upTo (f : Nat → F) : Nat → F
  | 0 => 0
  | n + 1 => upTo f n + f n

theorem upTo_add (f : Nat → F) (m n : Nat) : upTo f (m + n) = upTo f m + upTo (fun i => f (m + i)) n := by
  induction n with
  | zero => simp [upTo]
  | succ n ih => rw [← Nat.add_assoc]; simp only [upTo, ih]; ring

theorem upTo_zipWith (g : F → F → F) (a b : List F) (h : a.length = b.length) :
    upTo (fun i => g (a.getD i 0) (b.getD i 0)) a.length = (List.zipWith g a b).sum := by
  induction a generalizing b with
  | nil => simp [upTo]
  | cons x a ih => cases b with
    | nil => simp at h
    | cons y b =>
      have h' : a.length = b.length := by simpa using h
      rw [List.length_cons, Nat.add_comm, upTo_add, List.zipWith_cons_cons, List.sum_cons]
      rw [← ih b h']
      simp [upTo, Nat.add_comm 1]

/-- a term of the blocked computation that adds `g x y` -/
def Adds (t : F → F → F → F) (g : F → F → F) : Prop := ∀ a b c, t a b c = g a b + c

theorem acc_exact {t : F → F → F → F} {g : F → F → F} (ht : Adds t g) (x y : List F) (i j k : Nat) :
    Asm.acc (exact sqrt).toArith t x y i j k =
      upTo (fun b => g (x.getD (32 * b + 8 * i + j) 0) (y.getD (32 * b + 8 * i + j) 0)) k := by
  induction k with
  | zero => rfl
  | succ k ih => simp only [Asm.acc, upTo, ih, ht _ _ _]; rw [add_comm]; rfl

theorem tail_exact {t : F → F → F → F} {g : F → F → F} (ht : Adds t g) (x y : List F) (b k : Nat) :
    Asm.tailAcc (exact sqrt).toArith t x y b k = upTo (fun i => g (x.getD (b + i) 0) (y.getD (b + i) 0)) k := by
  induction k with
  | zero => rfl
  | succ k ih => simp only [Asm.tailAcc, upTo, ih, ht _ _ _]; rw [add_comm]; rfl

theorem reduce_exact (g : Nat → Nat → F) (t : F) :
    Asm.reduce (exact sqrt).toArith g t = upTo (fun i => upTo (fun j => g i j) 8) 4 + t := by
  have hadd : ∀ a b : F, (exact sqrt).toArith.add a b = a + b := fun _ _ => rfl
  have hz : (exact sqrt).toArith.zero = (0 : F) := rfl
  simp only [Asm.reduce, Asm.half, Asm.four, hadd, hz, upTo]
  norm_num
  ring

theorem upTo_blocks (f : Nat → F) (k : Nat) :
    upTo (fun i => upTo (fun j => upTo (fun b => f (32 * b + 8 * i + j)) k) 8) 4 = upTo f (32 * k) := by
  induction k with
  | zero => simp [upTo]
  | succ k ih =>
    rw [show 32 * (k + 1) = 32 * k + 32 by omega, upTo_add, ← ih]
    simp only [upTo, Nat.add_zero, Nat.mul_zero, Nat.mul_one, zero_add]
    norm_num [Nat.add_assoc]
    ring

theorem blocked_exact {t : F → F → F → F} {g : F → F → F} (ht : Adds t g) (x y : List F) (h : x.length = y.length) :
    Asm.blocked (exact sqrt).toArith t x y = (List.zipWith g x y).sum := by
  unfold Asm.blocked
  rw [reduce_exact]
  simp only [acc_exact sqrt ht, tail_exact sqrt ht]
  rw [upTo_blocks (fun i => g (x.getD i 0) (y.getD i 0)), ← upTo_zipWith g x y h]
  conv_rhs => rw [show x.length = 32 * (x.length / 32) + x.length % 32 by omega]
  rw [upTo_add]

theorem impl_exact (avx : Bool) (junk : Nat → Nat → F) (k : Kind) (a b : List F) (h : a.length = b.length) :
    impl (exact sqrt) avx junk k a b = some (List.zipWith (term (exact sqrt) k) a b).sum := by
  have hp : step (exact sqrt) k a b = some (List.zipWith (term (exact sqrt) k) a b).sum := by
    unfold step
    rw [loop_exact sqrt _ _ _ _ h]
    show some (0 + _) = _
    rw [zero_add]
  have hf : Asm.steps a.length ≤ fuel a.length := Nat.le_refl _
  cases avx
  · cases k <;> exact hp
  · cases k
    · show (Asm.dot _ _ _ _ _).getD none = _
      rw [Asm.dot_blocked _ _ h.symm hf, blocked_exact sqrt (t := (exact sqrt).fma) (g := fun a b => a * b) (fun _ _ _ => rfl) a b h]
      rfl
    · show (Asm.dot _ _ _ _ _).getD none = _
      rw [Asm.dot_blocked _ _ h.symm hf, blocked_exact sqrt (t := (exact sqrt).fma) (g := fun a b => a * b) (fun _ _ _ => rfl) a b h]
      rfl
    · show (Asm.l2 _ _ _ _ _).getD none = _
      rw [Asm.l2_blocked _ _ h.symm hf, blocked_exact sqrt (t := Asm.sqTerm (exact sqrt).toArith) (g := fun a b => (a - b) * (a - b)) (fun _ _ _ => rfl) a b h]
      rfl
    · exact hp
    · exact hp

theorem distance_exact (avx : Bool) (junk : Nat → Nat → F) (k : Kind) (a b : List F) (h : a.length = b.length) :
    distance (exact sqrt) avx junk k a b =
      .ok (wrap (exact sqrt) k (List.zipWith (term (exact sqrt) k) a b).sum) := by
  unfold distance
  rw [if_neg (by simpa using h), impl_exact sqrt avx junk k a b h]

theorem sum_nonneg' (f : F → F → F) (hf : ∀ x y, 0 ≤ f x y) (a b : List F) : 0 ≤ (List.zipWith f a b).sum := by
  induction a generalizing b with
  | nil => simp
  | cons x a ih => cases b with
    | nil => simp
    | cons y b => simpa using add_nonneg (hf x y) (ih b)

theorem sum_zero_iff (f : F → F → F) (hf : ∀ x y, 0 ≤ f x y) (h0 : ∀ x y, f x y = 0 ↔ x = y) (a b : List F)
    (h : a.length = b.length) : (List.zipWith f a b).sum = 0 ↔ a = b := by
  induction a generalizing b with
  | nil => cases b with
    | nil => simp
    | cons => simp at h
  | cons x a ih => cases b with
    | nil => simp at h
    | cons y b =>
      have h' : a.length = b.length := by simpa using h
      have := ih b h'
      have h1 := hf x y
      have h2 := sum_nonneg' f hf a b
      rw [List.zipWith_cons_cons, List.sum_cons, add_eq_zero_iff_of_nonneg h1 h2, h0, this]
      simp

theorem sum_comm' (f : F → F → F) (hf : ∀ x y, f x y = f y x) (a b : List F) :
    (List.zipWith f a b).sum = (List.zipWith f b a).sum := by
  rw [List.zipWith_comm]
  congr 2
  funext x y
  exact hf y x

theorem sum_triangle (f : F → F → F) (hf : ∀ x y z, f x z ≤ f x y + f y z) (a b c : List F)
    (h : a.length = b.length) (h2 : b.length = c.length) :
    (List.zipWith f a c).sum ≤ (List.zipWith f a b).sum + (List.zipWith f b c).sum := by
  induction a generalizing b c with
  | nil => cases b with
    | nil => simp_all
    | cons => simp at h
  | cons x a ih => cases b with
    | nil => simp at h
    | cons y b => cases c with
      | nil => simp at h2
      | cons z c =>
        have := ih b c (by simpa using h) (by simpa using h2)
        have h3 := hf x y z
        simp only [List.zipWith_cons_cons, List.sum_cons]
        linarith

theorem term_nonneg {k : Kind} (hk : k = .l2 ∨ k = .manhattan ∨ k = .hamming) (x y : F) : 0 ≤ term (exact sqrt) k x y := by
  rcases hk with rfl | rfl | rfl
  · exact mul_self_nonneg (x - y)
  · exact abs_nonneg (x - y)
  · show 0 ≤ (if decide (x = y) = true then (0 : F) else 1)
    split
    · exact le_refl _
    · exact zero_le_one

theorem term_zero {k : Kind} (hk : k = .l2 ∨ k = .manhattan ∨ k = .hamming) (x y : F) :
    term (exact sqrt) k x y = 0 ↔ x = y := by
  rcases hk with rfl | rfl | rfl
  · show (x - y) * (x - y) = 0 ↔ _
    rw [mul_self_eq_zero, sub_eq_zero]
  · show |x - y| = 0 ↔ _
    rw [abs_eq_zero, sub_eq_zero]
  · show (if decide (x = y) = true then (0 : F) else 1) = 0 ↔ _
    by_cases hxy : x = y <;> simp [hxy]

end

section
variable {F : Type} {O : Ops F}

theorem loop_comm (f : F → F → F) (hf : ∀ x y, f x y = f y x) (s : F) (a b : List F) (h : a.length = b.length) :
    loop O f s a b = loop O f s b a := by
  induction a generalizing s b with
  | nil => cases b with
    | nil => rfl
    | cons => simp at h
  | cons x a ih => cases b with
    | nil => simp at h
    | cons y b =>
      simp only [loop]
      rw [hf x y]
      exact ih _ b (by simpa using h)

theorem loop_some (f : F → F → F) (s : F) (a b : List F) (h : a.length = b.length) : (loop O f s a b).isSome := by
  induction a generalizing s b with
  | nil => rfl
  | cons x a ih => cases b with
    | nil => simp at h
    | cons y b => exact ih _ b (by simpa using h)

theorem blocked_comm {A : Asm.Arith F} (t : F → F → F → F) (ht : ∀ a b c, t a b c = t b a c) (x y : List F)
    (h : x.length = y.length) : Asm.blocked A t x y = Asm.blocked A t y x := by
  have h1 : ∀ i j k, Asm.acc A t x y i j k = Asm.acc A t y x i j k := by
    intro i j k
    induction k with
    | zero => rfl
    | succ k ih => simp only [Asm.acc, ih]; rw [ht]
  have h2 : ∀ b k, Asm.tailAcc A t x y b k = Asm.tailAcc A t y x b k := by
    intro b k
    induction k with
    | zero => rfl
    | succ k ih => simp only [Asm.tailAcc, ih]; rw [ht]
  unfold Asm.blocked
  simp only [h1, h2, h]

/-- the laws that make a distance symmetric; floating-point numbers satisfy them, rounding included -/
structure Symm (O : Ops F) : Prop where
  mul_comm : ∀ a b, O.mul a b = O.mul b a
  fma_comm : ∀ a b c, O.fma a b c = O.fma b a c
  sq_sub : ∀ a b, O.mul (O.sub a b) (O.sub a b) = O.mul (O.sub b a) (O.sub b a)
  fma_sub : ∀ a b c, O.fma (O.sub a b) (O.sub a b) c = O.fma (O.sub b a) (O.sub b a) c
  abs_sub : ∀ a b, O.abs (O.sub a b) = O.abs (O.sub b a)
  eq_comm : ∀ a b, O.eq a b = O.eq b a

theorem term_comm (hO : Symm O) (k : Kind) (x y : F) : term O k x y = term O k y x := by
  cases k
  · exact hO.mul_comm _ _
  · exact hO.mul_comm _ _
  · exact hO.sq_sub _ _
  · exact hO.abs_sub _ _
  · simp only [term, hO.eq_comm x y]

theorem impl_comm (hO : Symm O) (avx : Bool) (junk : Nat → Nat → F) (k : Kind) (a b : List F) (h : a.length = b.length) :
    impl O avx junk k a b = impl O avx junk k b a := by
  have hp : step O k a b = step O k b a := loop_comm _ (term_comm hO k) _ _ _ h
  have hf : Asm.steps a.length ≤ fuel a.length := Nat.le_refl _
  have hf' : Asm.steps b.length ≤ fuel b.length := Nat.le_refl _
  cases avx
  · cases k <;> exact hp
  · cases k
    · show (Asm.dot _ _ _ _ _).getD none = (Asm.dot _ _ _ _ _).getD none
      rw [Asm.dot_blocked _ _ h.symm hf, Asm.dot_blocked _ _ h hf', blocked_comm _ hO.fma_comm _ _ h]
    · show (Asm.dot _ _ _ _ _).getD none = (Asm.dot _ _ _ _ _).getD none
      rw [Asm.dot_blocked _ _ h.symm hf, Asm.dot_blocked _ _ h hf', blocked_comm _ hO.fma_comm _ _ h]
    · show (Asm.l2 _ _ _ _ _).getD none = (Asm.l2 _ _ _ _ _).getD none
      rw [Asm.l2_blocked _ _ h.symm hf, Asm.l2_blocked _ _ h hf', blocked_comm (Asm.sqTerm O.toArith) hO.fma_sub _ _ h]
    · exact hp
    · exact hp

theorem impl_some (avx : Bool) (junk : Nat → Nat → F) (k : Kind) (a b : List F) (h : a.length = b.length) :
    (impl O avx junk k a b).isSome := by
  have hp : (step O k a b).isSome := loop_some _ _ _ _ h
  have hf : Asm.steps a.length ≤ fuel a.length := Nat.le_refl _
  cases avx
  · cases k <;> exact hp
  · cases k
    · show ((Asm.dot _ _ _ _ _).getD none).isSome
      rw [Asm.dot_blocked _ _ h.symm hf]; rfl
    · show ((Asm.dot _ _ _ _ _).getD none).isSome
      rw [Asm.dot_blocked _ _ h.symm hf]; rfl
    · show ((Asm.l2 _ _ _ _ _).getD none).isSome
      rw [Asm.l2_blocked _ _ h.symm hf]; rfl
    · exact hp
    · exact hp

end

end Distance
end Fave

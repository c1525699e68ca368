import Verif.Model.Float32
/-!
# How far off rounded sums may be
-/
namespace Fave
namespace F32

/-- the values of `float32`: whole multiples, below 2^24, of a power of two not below 2^-149 and such that the value is below 2^128 -/
def IsFloat (x : ℚ) : Prop := ∃ (m e : ℤ), x = m * 2 ^ e ∧ |m| < 2 ^ 24 ∧ -149 ≤ e ∧ |x| < 2 ^ 128

/-- half the distance from 1 to the next number: the largest relative error of one operation -/
def unit : ℚ := 1 / 2 ^ 24

/-- half the smallest positive number: the largest error of one product too small for the relative error -/
def tiny : ℚ := 1 / 2 ^ 150

/-- how far off a sum of magnitude `m` can be after `k` roundings, each term having passed at most `k` of them, `c` terms being
products -/
def off (k c : ℕ) (m : ℚ) : ℚ := ((1 + unit) ^ k - 1) * m + c * tiny * (1 + unit) ^ k

/-- the true distance of two vectors -/
def truth : Distance.Kind → List ℚ → List ℚ → ℚ
  | .dot, a, b => -(List.zipWith (fun x y => x * y) a b).sum
  | .cosine, a, b => 1 - (List.zipWith (fun x y => x * y) a b).sum
  | .l2, a, b => (List.zipWith (fun x y => (x - y) ^ 2) a b).sum
  | .manhattan, a, b => (List.zipWith (fun x y => |x - y|) a b).sum
  | .hamming, a, b => ((List.zip a b).filter fun p => decide (p.1 ≠ p.2)).length

/-- the sum of the magnitudes of everything that is added up -/
def size : Distance.Kind → List ℚ → List ℚ → ℚ
  | .dot, a, b => (List.zipWith (fun x y => |x * y|) a b).sum
  | .cosine, a, b => 1 + (List.zipWith (fun x y => |x * y|) a b).sum
  | k, a, b => truth k a b

/-- how many products are rounded -/
def products : Distance.Kind → ℕ → ℕ
  | .dot, n | .cosine, n | .l2, n => n
  | _, _ => 0

/-- the vector of these rationals -/
def vec (a : List ℚ) : List Num := a.map .fin

/-- how many roundings a term passes at most: in the plain loops one per term that follows, in the vector instructions one per block of
32 or per number left over, and a few when the accumulators are added up; before that the term itself is rounded once (product,
magnitude) or three times (square of a difference) -/
def depth (avx : Bool) (k : Distance.Kind) (n : ℕ) : ℕ :=
  match k, avx with
  | .dot, false => n + 1
  | .dot, true => max (n / 32 + 6) (n % 32 + 3)
  | .cosine, false => n + 2
  | .cosine, true => max (n / 32 + 7) (n % 32 + 4)
  | .l2, false => n + 3
  | .l2, true => max (n / 32 + 8) (n % 32 + 5)
  | .manhattan, _ => n + 1
  | .hamming, _ => n

end F32
end Fave

/-!
# Basic types shared by all parts of the model

Go `float32` values that are only ever compared (distances) are kept abstract.
-/

namespace Fave

/-- Go's comparison `a < b` on `float32` distances (pkg/hnsw/priorityqueue/queue.go:28,37;
pkg/hnsw/search.go:203,282; pkg/hnsw/heuristic.go:109).  Go's `a > b` is `lt b a`, also for NaN.
`zero` is the literal `0` (pkg/hnsw/search_with_max_dist.go:74) and `maxVal` is `math.MaxFloat32`
(pkg/hnsw/search.go:366,374). -/
class Dist (D : Type) where
  lt : D → D → Bool
  zero : D
  maxVal : D

/-- `float32` without NaN: `<` is a strict weak order. -/
class LawfulDist (D : Type) [Dist D] : Prop where
  irrefl : ∀ a : D, Dist.lt a a = false
  trans : ∀ a b c : D, Dist.lt a b = true → Dist.lt b c = true → Dist.lt a c = true
  cotrans : ∀ a b c : D, Dist.lt a c = true → Dist.lt a b = true ∨ Dist.lt b c = true

instance : Dist Nat where
  lt a b := decide (a < b)
  zero := 0
  maxVal := 340282346638528859811704183484516925440

instance : LawfulDist Nat where
  irrefl := by simp [Dist.lt]
  trans := by simp only [Dist.lt, decide_eq_true_eq]; omega
  cotrans := by simp only [Dist.lt, decide_eq_true_eq]; omega

instance : Dist Int where
  lt a b := decide (a < b)
  zero := 0
  maxVal := 340282346638528859811704183484516925440

instance : LawfulDist Int where
  irrefl := by simp [Dist.lt]
  trans := by simp only [Dist.lt, decide_eq_true_eq]; omega
  cotrans := by simp only [Dist.lt, decide_eq_true_eq]; omega

/-- A number type with NaN (`none`): every comparison with NaN is false, as in Go.
Used only to show that a statement really covers NaN. -/
instance : Dist (Option Int) where
  lt a b := match a, b with
    | some x, some y => decide (x < y)
    | _, _ => false
  zero := some 0
  maxVal := some 340282346638528859811704183484516925440

deriving instance DecidableEq for Except

/-- Kinds of failure that occur as Go `error` values or as run-time panics. -/
inductive Err where
  /-- a Go `error` value is returned -/
  | error
  /-- the Go code panics (index out of range, nil dereference, failed type assertion) -/
  | panic
  /-- fuel of a model loop ran out (proved impossible where it matters) -/
  | fuel
  deriving DecidableEq, Repr

end Fave

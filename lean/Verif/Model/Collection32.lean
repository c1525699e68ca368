import Verif.Model.Float32
import Verif.Spec.Float32
import Verif.Lemmas.Normalize
/-!
# Collections in 32-bit arithmetic

The index of a collection with the vectors, the normalisation and the cosine distance of `float32`.  Vectors and distances are the
rational numbers that the finite `float32` values are: C65 `always_numbers` shows that no other values come up.
-/
namespace Fave
namespace F32
open Distance

/-- the number; zero for the values that do not come up — normalize.go:28, cosine_dist.go:45 -/
def Num.val : Num → ℚ
  | .fin x => x
  | _ => 0

/-- `distancer.Normalize` — pkg/hnsw/insert.go:73, search_with_max_dist.go:28, distancer/normalize.go:16-32 -/
def norm32 (v : List ℚ) : List ℚ := (normalize ops (vec v)).map Num.val

/-- the metric of a collection: cosine distance — pkg/document/document.go:193, 316, 483, 585, pkg/hnsw/distancer/cosine_dist.go:23-48 -/
def metric32 (avx : Bool) (junk : ℕ → ℕ → Num) : Metric (List ℚ) ℚ where
  dist a b := (distance ops avx junk .cosine (vec a) (vec b)).toOption.map Num.val
  len := List.length

/-- the index of a collection: cosine distance, normalised vectors — pkg/document/document.go:189-199, pkg/hnsw/insert.go:70-74 -/
def params32 (avx : Bool) (junk : ℕ → ℕ → Num) : Params (List ℚ) ℚ :=
  @Index.faveParams (List ℚ) ℚ (metric32 avx junk) norm32 (fun _ => true)

/-! The same with infinities and not-a-number, which the numbers of a document beyond the range of `float32` become. -/

/-- `<`: false if either side is not a number — pkg/hnsw/search.go:203, 282,
search_with_max_dist.go:74, 77, heuristic.go:68, 109, priorityqueue/queue.go:28, 37.  The model compares distances with `<` and `>` exactly
where the code does, so it holds for not-a-number too. -/
def Num.lt : Num → Num → Bool
  | .fin a, .fin b => decide (a < b)
  | .fin _, .inf s => !s
  | .inf s, .fin _ => s
  | .inf s, .inf s' => s && !s'
  | _, _ => false

/-- comparisons of distances; `math.MaxFloat32` — pkg/hnsw/search_with_max_dist.go:74, search.go:366, 374 -/
abbrev numDist : Dist Num where
  lt := Num.lt
  zero := .fin 0
  maxVal := .fin ((2 ^ 24 - 1) * 2 ^ 104)

/-- `json.Marshal` of a vector: fails on infinities and not-a-number — pkg/hnsw/vertex.go:25, insert.go:129-132 -/
def marshals (v : List Num) : Bool := v.all fun x => match x with | .fin _ => true | _ => false

/-- the metric with all values of `float32` — pkg/document/document.go:193, 316, 483, 585, pkg/hnsw/distancer/cosine_dist.go:23-48 -/
def metricNum (avx : Bool) (junk : ℕ → ℕ → Num) : Metric (List Num) Num where
  dist a b := (distance ops avx junk .cosine a b).toOption
  len := List.length

/-- the index with all values of `float32` — pkg/document/document.go:189-199, pkg/hnsw/insert.go:70-74, 129-132 -/
def paramsNum (avx : Bool) (junk : ℕ → ℕ → Num) : Params (List Num) Num :=
  @Index.faveParams (List Num) Num (metricNum avx junk) (normalize ops) marshals

end F32
end Fave

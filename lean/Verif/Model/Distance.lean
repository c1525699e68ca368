import Verif.Model.Asm
/-!
# Distance functions and normalisation

Model of pkg/hnsw/distancer/*.go.  Arithmetic is abstract (`Ops`): the theorems say which laws they use.  The variables
`dotProductImplementation` and `l2SquaredImpl` hold the plain loops, or the vector instructions if the processor has AVX2
(dot_product_amd64.go, l2_amd64.go): `avx`.  (On processors other than amd64 Go may fuse `sum + a*b`; not modelled.)
-/
namespace Fave
namespace Distance

/-- `float32` operations of the Go code — distancer/*.go -/
structure Ops (F : Type) extends Asm.Arith F where
  one : F
  mul : F → F → F
  neg : F → F
  div : F → F → F
  /-- `math.Abs`, manhattan.go:26 -/
  abs : F → F
  /-- `math.Sqrt`, normalize.go:26 -/
  sqrt : F → F
  /-- `==`, normalize.go:22, hamming.go:22 -/
  eq : F → F → Bool

/-- how a distance can fail: "vector lengths don't match"; "distance vectors must have len 2"; a run-time panic -/
inductive DErr where
  | lengths
  | notTwo
  | panic
  deriving DecidableEq, Repr

/-- the providers — cosine_dist.go:33, dot_product.go:46, l2.go:40, manhattan.go:45, hamming.go:43 (geo: `geoDist` below) -/
inductive Kind where
  | cosine | dot | l2 | manhattan | hamming
  deriving DecidableEq, Repr

variable {F : Type} (O : Ops F)

/-- a loop `for i := range a { sum += f(a[i], b[i]) }` — dot_product.go:24-28, l2.go:19-22, manhattan.go:23-27, hamming.go:21-25;
`none` is the panic "index out of range" -/
def loop (f : F → F → F) : F → List F → List F → Option F
  | s, [], _ => some s
  | _, _ :: _, [] => none
  | s, a :: as, b :: bs => loop f (O.add s (f a b)) as bs

/-- what is added per element — dot_product.go:26, l2.go:20-21, manhattan.go:26, hamming.go:22-24 (adding nothing is modelled as
adding zero) -/
def term : Kind → F → F → F
  | .cosine, a, b => O.mul a b
  | .dot, a, b => O.mul a b
  | .l2, a, b => O.mul (O.sub a b) (O.sub a b)
  | .manhattan, a, b => O.abs (O.sub a b)
  | .hamming, a, b => if O.eq a b then O.zero else O.one

/-- `Step` — cosine_dist.go:58-65, dot_product.go:80-87, l2.go:63-72, manhattan.go:68-78, hamming.go:66-76: always the plain loop -/
def step (k : Kind) (a b : List F) : Option F := loop O (term O k) O.zero a b

/-- `Wrap` — cosine_dist.go:67-69, dot_product.go:89-91, l2.go:74-76, manhattan.go:80-82, hamming.go:78-80 -/
def wrap : Kind → F → F
  | .cosine, s => O.sub O.one s
  | .dot, s => O.neg s
  | _, s => s

/-- steps given to the vector instructions; always enough (C36) -/
def fuel (n : Nat) : Nat := 32 + 20 * n

/-- the implementation variables — dot_product.go:23-30, dot_product_amd64.go, l2.go:16-25, l2_amd64.go, manhattan.go:20-30,
hamming.go:18-28; `junk` is what the vector registers hold before -/
def impl (avx : Bool) (junk : Nat → Nat → F) (k : Kind) (a b : List F) : Option F :=
  match k, avx with
  | .cosine, true => (Asm.dot O.toArith junk a b (fuel a.length)).getD none
  | .dot, true => (Asm.dot O.toArith junk a b (fuel a.length)).getD none
  | .l2, true => (Asm.l2 O.toArith junk a b (fuel a.length)).getD none
  | k, _ => step O k a b

/-- `SingleDist(a, b)` and `New(a).Distance(b)` — cosine_dist.go:23-48, dot_product.go:36-44, 61-70, l2.go:31-38, 46-53,
manhattan.go:36-43, 51-58, hamming.go:34-41, 49-56 -/
def distance (avx : Bool) (junk : Nat → Nat → F) (k : Kind) (a b : List F) : Except DErr F :=
  if a.length ≠ b.length then .error .lengths
  else match impl O avx junk k a b with
    | none => .error .panic
    | some s => .ok (wrap O k s)

/-- `Normalize` — normalize.go:16-32 -/
def normalize (v : List F) : List F :=
  let norm := v.foldl (fun n x => O.add n (O.mul x x)) O.zero
  if O.eq norm O.zero then v.map fun _ => O.zero
  else v.map fun x => O.div x (O.sqrt norm)

/-- trigonometric functions for `geoDist` — geo_spatial.go:29-40; `rad` is multiplication by π/180, `radius` the constant `R` -/
structure Trig (F : Type) where
  sin : F → F
  cos : F → F
  atan2 : F → F → F
  rad : F → F
  halve : F → F
  double : F → F
  radius : F

/-- `geoDist` — geo_spatial.go:19-41 (without the conversions between `float32` and `float64`) -/
def geoDist (T : Trig F) (a b : List F) : Except DErr F :=
  match a, b with
  | [latA, lonA], [latB, lonB] =>
    let dLat := T.halve (T.rad (O.sub latB latA))
    let dLon := T.halve (T.rad (O.sub lonB lonA))
    let h := O.add (O.mul (T.sin dLat) (T.sin dLat))
      (O.mul (O.mul (O.mul (T.cos (T.rad latA)) (T.cos (T.rad latB))) (T.sin dLon)) (T.sin dLon))
    .ok (O.mul T.radius (T.double (T.atan2 (O.sqrt h) (O.sqrt (O.sub O.one h)))))
  | _, _ => .error .notTwo

end Distance
end Fave

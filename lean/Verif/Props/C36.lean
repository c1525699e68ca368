import Verif.Lemmas.Distance
import Verif.Lemmas.AsmReads
import Mathlib.Algebra.Order.Ring.Rat
import Mathlib.Analysis.Real.Sqrt
import Mathlib.Analysis.SpecialFunctions.Complex.Arg
/-!
# C36: distance functions are symmetric, correct and length checked
-/
namespace Fave
namespace C36
open Distance

section
variable {F : Type}

/-- For vectors of different length every distance reports an error; for vectors of equal length none does, with or without vector
instructions, whatever the arithmetic: the vector instructions end and never read outside the two slices. -/
theorem error_iff_lengths (O : Ops F) (avx : Bool) (junk : Nat → Nat → F) (k : Kind) (a b : List F) :
    (a.length ≠ b.length → distance O avx junk k a b = .error .lengths) ∧
    (a.length = b.length → ∃ d, distance O avx junk k a b = .ok d) := by
  constructor
  · intro h
    exact if_pos h
  · intro h
    obtain ⟨s, hs⟩ := Option.isSome_iff_exists.1 (impl_some (O := O) avx junk k a b h)
    refine ⟨wrap O k s, ?_⟩
    unfold distance
    rw [if_neg (by simpa using h), hs]

/-- Every distance is symmetric, for every arithmetic with commutative products and in which `a - b` and `b - a` have equal squares
and equal magnitudes — rounded arithmetic included. -/
theorem symmetric (O : Ops F) (hO : Symm O) (avx : Bool) (junk : Nat → Nat → F) (k : Kind) (a b : List F) :
    distance O avx junk k a b = distance O avx junk k b a := by
  unfold distance
  by_cases h : a.length = b.length
  · rw [if_neg (by simpa using h), if_neg (by simpa using h.symm), impl_comm hO avx junk k a b h]
  · rw [if_pos h, if_pos (fun hh => h hh.symm)]

/-- No instruction executed by `Dot` or `L2`, for slices of equal length and whatever the registers held before, reads a byte after the end of the
slice it reads from (four bytes to a number). -/
theorem reads_inside (A : Asm.Arith F) (junk : Nat → Nat → F) (a b : List F) (h : a.length = b.length) (prog : List Asm.Instr)
    (hp : prog = Asm.dotProg ∨ prog = Asm.l2Prog) (fuel : Nat) :
    ∀ e ∈ Asm.trace A a b prog fuel 0 (Asm.entry a junk), ∀ q ∈ e.1.reads,
      e.2.ptr q.1 + q.2.1 + q.2.2 ≤ 4 * (Asm.slice a b q.1).length := by
  intro e he
  have mono : ∀ (n m pc : Nat) (s : Asm.St F), n ≤ m → ∀ e ∈ Asm.trace A a b prog n pc s, e ∈ Asm.trace A a b prog m pc s := by
    intro n
    induction n with
    | zero => intro m pc s _ e he; cases he
    | succ n ih =>
      intro m pc s hm e he
      obtain ⟨m, rfl⟩ : ∃ k, m = k + 1 := ⟨m - 1, by omega⟩
      simp only [Asm.trace] at he ⊢
      cases hpc : prog[pc]? with
      | none => rw [hpc] at he; exact he
      | some i =>
        rw [hpc] at he
        simp only at he ⊢
        rcases List.mem_cons.1 he with rfl | he
        · exact List.mem_cons_self
        · refine List.mem_cons_of_mem _ ?_
          cases hx : Asm.exec A a b s i with
          | next s' => rw [hx] at he; exact ih m _ _ (by omega) e he
          | goto t s' => rw [hx] at he; exact ih m _ _ (by omega) e he
          | done r => rw [hx] at he; exact he
          | fault => rw [hx] at he; exact he
  have he := mono fuel (max fuel (Asm.steps a.length)) 0 _ (Nat.le_max_left _ _) e he
  rcases hp with rfl | rfl
  · exact Asm.trace_reads (Asm.dot_blocked A junk h.symm (Nat.le_max_right _ _)) e he
  · exact Asm.trace_reads (Asm.l2_blocked A junk h.symm (Nat.le_max_right _ _)) e he

/-- What the vector registers held before does not matter. -/
theorem no_junk (O : Ops F) (avx : Bool) (junk junk' : Nat → Nat → F) (k : Kind) (a b : List F) :
    distance O avx junk k a b = distance O avx junk' k a b := by
  unfold distance
  by_cases h : a.length = b.length
  · rw [if_neg (by simpa using h), if_neg (by simpa using h)]
    have hf : Asm.steps a.length ≤ fuel a.length := Nat.le_refl _
    have : impl O avx junk k a b = impl O avx junk' k a b := by
      cases avx
      · cases k <;> rfl
      · cases k
        · show (Asm.dot _ _ _ _ _).getD none = (Asm.dot _ _ _ _ _).getD none
          rw [Asm.dot_blocked _ _ h.symm hf, Asm.dot_blocked _ _ h.symm hf]
        · show (Asm.dot _ _ _ _ _).getD none = (Asm.dot _ _ _ _ _).getD none
          rw [Asm.dot_blocked _ _ h.symm hf, Asm.dot_blocked _ _ h.symm hf]
        · show (Asm.l2 _ _ _ _ _).getD none = (Asm.l2 _ _ _ _ _).getD none
          rw [Asm.l2_blocked _ _ h.symm hf, Asm.l2_blocked _ _ h.symm hf]
        · rfl
        · rfl
    rw [this]
  · rw [if_pos h, if_pos h]
end

section
variable {F : Type} [Field F] [LinearOrder F] [IsStrictOrderedRing F] (sqrt : F → F)

/-- In exact arithmetic each distance is the sum it is named after, with or without vector instructions. -/
theorem correct (avx : Bool) (junk : Nat → Nat → F) (a b : List F) (h : a.length = b.length) :
    distance (exact sqrt) avx junk .dot a b = .ok (-(List.zipWith (fun x y => x * y) a b).sum) ∧
    distance (exact sqrt) avx junk .cosine a b = .ok (1 - (List.zipWith (fun x y => x * y) a b).sum) ∧
    distance (exact sqrt) avx junk .l2 a b = .ok (List.zipWith (fun x y => (x - y) ^ 2) a b).sum ∧
    distance (exact sqrt) avx junk .manhattan a b = .ok (List.zipWith (fun x y => |x - y|) a b).sum ∧
    distance (exact sqrt) avx junk .hamming a b =
      .ok (((List.zip a b).filter fun p => decide (p.1 ≠ p.2)).length : F) := by
  refine ⟨?_, ?_, ?_, ?_, ?_⟩
  · exact distance_exact sqrt avx junk .dot a b h
  · exact distance_exact sqrt avx junk .cosine a b h
  · rw [distance_exact sqrt avx junk .l2 a b h]
    have : (term (exact sqrt) .l2 : F → F → F) = fun x y => (x - y) ^ 2 := by
      funext x y
      exact (pow_two (x - y)).symm
    rw [this]
    rfl
  · exact distance_exact sqrt avx junk .manhattan a b h
  · rw [distance_exact sqrt avx junk .hamming a b h]
    show Except.ok (List.zipWith (term (exact sqrt) .hamming) a b).sum = _
    congr 1
    clear h
    induction a generalizing b with
    | nil => simp
    | cons x a ih => cases b with
      | nil => simp
      | cons y b =>
        rw [List.zipWith_cons_cons, List.sum_cons, ih b, List.zip_cons_cons, List.filter_cons]
        show (if decide (x = y) = true then (0 : F) else 1) + _ = _
        by_cases hxy : x = y
        · simp [hxy]
        · simp [hxy, add_comm]

/-- The vector instructions compute the same as the plain loop. -/
theorem avx_same (junk : Nat → Nat → F) (k : Kind) (a b : List F) :
    distance (exact sqrt) true junk k a b = distance (exact sqrt) false junk k a b := by
  by_cases h : a.length = b.length
  · rw [distance_exact sqrt true junk k a b h, distance_exact sqrt false junk k a b h]
  · rw [(error_iff_lengths _ true junk k a b).1 h, (error_iff_lengths _ false junk k a b).1 h]

/-- `Wrap` of `Step` — how compressed vectors are compared — is the distance. -/
theorem step_wrap (avx : Bool) (junk : Nat → Nat → F) (k : Kind) (a b : List F) (h : a.length = b.length) :
    ((step (exact sqrt) k a b).map fun s => wrap (exact sqrt) k s) = (distance (exact sqrt) avx junk k a b).toOption := by
  have h1 : step (exact sqrt) k a b = impl (exact sqrt) false junk k a b := by cases k <;> rfl
  rw [h1, impl_exact sqrt false junk k a b h, distance_exact sqrt avx junk k a b h]
  rfl

/-- Squared Euclidean, Manhattan and Hamming distances are never negative, and are zero exactly for equal vectors. -/
theorem zero_iff_equal (avx : Bool) (junk : Nat → Nat → F) {k : Kind} (hk : k = .l2 ∨ k = .manhattan ∨ k = .hamming)
    (a b : List F) (d : F) (hd : distance (exact sqrt) avx junk k a b = .ok d) : 0 ≤ d ∧ (d = 0 ↔ a = b) := by
  by_cases h : a.length = b.length
  · rw [distance_exact sqrt avx junk k a b h] at hd
    have hw : ∀ s : F, wrap (exact sqrt) k s = s := by
      intro s
      rcases hk with rfl | rfl | rfl <;> rfl
    rw [hw] at hd
    cases hd
    exact ⟨sum_nonneg' _ (term_nonneg sqrt hk) a b, sum_zero_iff _ (term_nonneg sqrt hk) (term_zero sqrt hk) a b h⟩
  · rw [(error_iff_lengths _ avx junk k a b).1 h] at hd
    cases hd

/-- Manhattan and Hamming distances satisfy the triangle inequality. -/
theorem triangle (avx : Bool) (junk : Nat → Nat → F) {k : Kind} (hk : k = .manhattan ∨ k = .hamming)
    (a b c : List F) (x y z : F) (hx : distance (exact sqrt) avx junk k a b = .ok x)
    (hy : distance (exact sqrt) avx junk k b c = .ok y) (hz : distance (exact sqrt) avx junk k a c = .ok z) : z ≤ x + y := by
  have hl : ∀ {u v : List F} {d : F}, distance (exact sqrt) avx junk k u v = .ok d → u.length = v.length := by
    intro u v d h
    by_cases hh : u.length = v.length
    · exact hh
    · rw [(error_iff_lengths _ avx junk k u v).1 hh] at h
      cases h
  have h1 := hl hx
  have h2 := hl hy
  have h3 := hl hz
  rw [distance_exact sqrt avx junk k _ _ h1] at hx
  rw [distance_exact sqrt avx junk k _ _ h2] at hy
  rw [distance_exact sqrt avx junk k _ _ h3] at hz
  have hw : ∀ s : F, wrap (exact sqrt) k s = s := by
    intro s
    rcases hk with rfl | rfl <;> rfl
  rw [hw] at hx hy hz
  cases hx
  cases hy
  cases hz
  refine sum_triangle _ ?_ a b c h1 h2
  intro x y z
  rcases hk with rfl | rfl
  · exact abs_sub_le x y z
  · show (if decide (x = z) = true then (0 : F) else 1) ≤ (if decide (x = y) = true then (0 : F) else 1) +
      (if decide (y = z) = true then (0 : F) else 1)
    by_cases h1 : x = y
    · simp [h1]
    · by_cases h2 : y = z
      · subst h2
        simp [h1]
      · by_cases h3 : x = z
        · subst h3; simp [h1, h2]
        · simp [h1, h2, h3]

/-- Of two equal vectors the dot-product distance is minus the squared length, and the cosine distance is zero exactly for vectors of
length one.  Missing from the full claim: the cosine distance of other equal vectors is not zero (`cosine_self_not_zero`) — the
provider relies on its caller having normalised them. -/
theorem self_partial (avx : Bool) (junk : Nat → Nat → F) (a : List F) :
    distance (exact sqrt) avx junk .dot a a = .ok (-(a.map fun x => x ^ 2).sum) ∧
    (distance (exact sqrt) avx junk .cosine a a = .ok 0 ↔ (a.map fun x => x ^ 2).sum = 1) := by
  have hs : List.zipWith (fun x y => x * y) a a = a.map fun x => x ^ 2 := by
    rw [List.zipWith_self]
    congr 1
    funext x
    exact (pow_two x).symm
  have hc := correct sqrt avx junk a a rfl
  rw [hs] at hc
  refine ⟨hc.1, ?_⟩
  rw [hc.2.1]
  constructor
  · intro h
    injection h with h
    linarith
  · intro h
    rw [h, sub_self]

/-- The cosine distance of `[2]` to itself is −3. -/
theorem cosine_self_not_zero (avx : Bool) (junk : Nat → Nat → F) :
    distance (exact sqrt) avx junk .cosine [2] [2] = .ok (-3) := by
  rw [(correct sqrt avx junk [2] [2] rfl).2.1]
  congr 1
  norm_num
end

/-! Geographic distance. -/
section
variable {F : Type}

/-- Geographic distance reports an error exactly if one of the two is not a pair. -/
theorem geo_error_iff (O : Ops F) (T : Trig F) (a b : List F) :
    (∃ e, geoDist O T a b = .error e) ↔ ¬(a.length = 2 ∧ b.length = 2) := by
  constructor
  · rintro ⟨e, he⟩ ⟨ha, hb⟩
    match a, ha, b, hb with
    | [_, _], _, [_, _], _ => cases he
  · intro h
    match a, b with
    | [], b => exact ⟨_, rfl⟩
    | [_], b => exact ⟨_, rfl⟩
    | _ :: _ :: _ :: _, b => exact ⟨_, rfl⟩
    | [_, _], [] => exact ⟨_, rfl⟩
    | [_, _], [_] => exact ⟨_, rfl⟩
    | [_, _], _ :: _ :: _ :: _ => exact ⟨_, rfl⟩
    | [_, _], [_, _] => exact (h ⟨rfl, rfl⟩).elim

/-- Geographic distance does not report an error *exactly* if the lengths differ: two vectors of length three are refused. -/
theorem geo_refuses_equal_lengths (O : Ops F) (T : Trig F) (x : F) : geoDist O T [x, x, x] [x, x, x] = .error .notTwo := rfl

/-- Geographic distance is symmetric if products commute and sines of opposite angles have equal squares.  (The order of the factors
matters in rounded arithmetic; here products are also associative.) -/
theorem geo_symmetric (O : Ops F) (T : Trig F) (hc : ∀ a b, O.mul a b = O.mul b a)
    (ha : ∀ a b c, O.mul (O.mul a b) c = O.mul a (O.mul b c))
    (hs : ∀ x y, O.mul (T.sin (T.halve (T.rad (O.sub x y)))) (T.sin (T.halve (T.rad (O.sub x y)))) =
      O.mul (T.sin (T.halve (T.rad (O.sub y x)))) (T.sin (T.halve (T.rad (O.sub y x))))) (a b : List F) :
    geoDist O T a b = geoDist O T b a := by
  by_cases h : a.length = 2 ∧ b.length = 2
  · obtain ⟨h1, h2⟩ := h
    match a, h1, b, h2 with
    | [p, q], _, [r, s], _ =>
      simp only [geoDist]
      rw [ha (O.mul (T.cos (T.rad p)) (T.cos (T.rad r))), ha (O.mul (T.cos (T.rad r)) (T.cos (T.rad p))),
        hs p r, hs q s, hc (T.cos (T.rad p))]
  · obtain ⟨e, he⟩ := (geo_error_iff O T a b).2 h
    obtain ⟨e', he'⟩ := (geo_error_iff O T b a).2 (fun hh => h ⟨hh.2, hh.1⟩)
    have : ∀ e : DErr, ∀ a b, geoDist O T a b = .error e → e = .notTwo := by
      intro e a b hh
      unfold geoDist at hh
      split at hh
      · cases hh
      · cases hh; rfl
    rw [he, he', this _ _ _ he, this _ _ _ he']
end

/-- the real trigonometric functions for pkg/hnsw/distancer/geo_spatial.go:29-40; `atan2` and its double are angles of complex numbers -/
noncomputable def realTrig : Trig ℝ where
  sin := Real.sin
  cos := Real.cos
  atan2 y x := Complex.arg ⟨x, y⟩
  rad x := x * Real.pi / 180
  halve x := x / 2
  double x := 2 * x
  radius := 6371000

/-- Over the real numbers the geographic distance of a point to itself is zero, and no geographic distance is negative. -/
theorem geo_self_nonneg (a b : List ℝ) :
    (a.length = 2 → geoDist (exact Real.sqrt) realTrig a a = .ok 0) ∧
    (∀ d, geoDist (exact Real.sqrt) realTrig a b = .ok d → 0 ≤ d) := by
  constructor
  · intro h
    match a, h with
    | [p, q], _ =>
      have hz : ∀ x : ℝ, realTrig.sin (realTrig.halve (realTrig.rad ((exact Real.sqrt).sub x x))) = 0 := by
        intro x
        show Real.sin ((x - x) * Real.pi / 180 / 2) = 0
        simp
      simp only [geoDist, hz]
      have h0 : ∀ c : ℝ, (exact Real.sqrt).add ((exact Real.sqrt).mul 0 0)
          ((exact Real.sqrt).mul ((exact Real.sqrt).mul c 0) 0) = (0 : ℝ) := by
        intro c
        show (0 : ℝ) * 0 + c * 0 * 0 = 0
        simp
      rw [h0]
      show Except.ok ((6371000 : ℝ) * (2 * Complex.arg ⟨Real.sqrt (1 - 0), Real.sqrt 0⟩)) = _
      have h1 : (⟨Real.sqrt (1 - 0), Real.sqrt 0⟩ : ℂ) = 1 := by
        apply Complex.ext <;> simp
      rw [h1, Complex.arg_one]
      simp
  · intro d hd
    unfold geoDist at hd
    split at hd
    · injection hd with hd
      rw [← hd]
      refine mul_nonneg (a := (6371000 : ℝ)) (by norm_num) (mul_nonneg (a := (2 : ℝ)) (by norm_num) ?_)
      exact Complex.arg_nonneg_iff.2 (Real.sqrt_nonneg _)
    · cases hd

/-- the laws used for symmetry hold over the real numbers -/
example (a b : List ℝ) : geoDist (exact Real.sqrt) realTrig a b = geoDist (exact Real.sqrt) realTrig b a := by
  refine geo_symmetric _ _ (fun x y => mul_comm (x : ℝ) y) (fun x y z => mul_assoc (x : ℝ) y z) ?_ a b
  intro x y
  show Real.sin ((x - y) * Real.pi / 180 / 2) * Real.sin ((x - y) * Real.pi / 180 / 2) =
    Real.sin ((y - x) * Real.pi / 180 / 2) * Real.sin ((y - x) * Real.pi / 180 / 2)
  rw [show (x - y) * Real.pi / 180 / 2 = -((y - x) * Real.pi / 180 / 2) by ring, Real.sin_neg]
  ring

/-- non-trivial case: 35 numbers, one block of 32 and a rest of three; computed by the vector instructions -/
example : distance (exact (F := ℚ) id) true (fun _ _ => 7) .l2 (List.replicate 35 2) (List.replicate 35 5) = .ok 315 := by
  rw [(correct id true _ (List.replicate 35 2) (List.replicate 35 5) rfl).2.2.1]
  congr 1
  norm_num [List.zipWith_replicate']

example : distance (exact (F := ℚ) id) true (fun _ _ => 7) .dot [1, 2, 3] [4, 5] = .error .lengths :=
  (error_iff_lengths _ _ _ _ _ _).1 (by simp)

/-- non-trivial case: the reads of `Dot` for 35 numbers (140 bytes): eight of 32 bytes, six of four -/
example : ((Asm.trace (exact (F := ℚ) id).toArith (List.replicate 35 2) (List.replicate 35 5) Asm.dotProg 200 0
      (Asm.entry (List.replicate 35 2) fun _ _ => 7)).filter fun e => e.1.reads ≠ []).map (fun e => (e.1, e.2.ax)) =
    [(.load 0 .ax 4, 0), (.load 32 .ax 5, 0), (.load 64 .ax 6, 0), (.load 96 .ax 7, 0), (.fmaMem 0 .cx 4 0, 0), (.fmaMem 32 .cx 5 1, 0),
      (.fmaMem 64 .cx 6 2, 0), (.fmaMem 96 .cx 7 3, 0), (.load1 .ax 5, 128), (.fmaMem1 .cx 5 4, 128), (.load1 .ax 5, 132), (.fmaMem1 .cx 5 4, 132),
      (.load1 .ax 5, 136), (.fmaMem1 .cx 5 4, 136)] := by
  rfl

/-- non-trivial case: the laws used for symmetry hold of exact arithmetic; floating-point numbers satisfy them as well -/
example : Symm (exact (F := ℚ) id) where
  mul_comm a b := mul_comm a b
  fma_comm a b c := by show a * b + c = b * a + c; ring
  sq_sub a b := by show (a - b) * (a - b) = (b - a) * (b - a); ring
  fma_sub a b c := by show (a - b) * (a - b) + c = (b - a) * (b - a) + c; ring
  abs_sub a b := abs_sub_comm a b
  eq_comm a b := by simp [exact, eq_comm]

end C36
end Fave

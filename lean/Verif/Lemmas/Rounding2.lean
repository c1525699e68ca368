import Verif.Lemmas.Rounding
/-!
# Rounded distances
-/
namespace Fave
namespace F32
open Distance

variable {a b : List ℚ}

theorem zip_sq : List.zipWith (fun x y : ℚ => (x - y) * (x - y)) a b = List.zipWith (fun x y => (x - y) ^ 2) a b := by
  congr 1
  funext x y
  ring

theorem zip_sq_abs : List.zipWith (fun x y : ℚ => |(x - y) * (x - y)|) a b = List.zipWith (fun x y => (x - y) ^ 2) a b := by
  congr 1
  funext x y
  rw [abs_mul_self]
  ring

theorem zip_abs_abs : List.zipWith (fun x y : ℚ => |(|x - y|)|) a b = List.zipWith (fun x y => |x - y|) a b := by
  congr 1
  funext x y
  rw [abs_abs]

theorem zip_count : (List.zipWith (fun x y : ℚ => if x = y then (0 : ℚ) else 1) a b).sum = truth .hamming a b := by
  induction a generalizing b with
  | nil => simp [truth]
  | cons x a ih => cases b with
    | nil => simp [truth]
    | cons y b =>
      rw [List.zipWith_cons_cons, List.sum_cons, ih]
      simp only [truth, List.zip_cons_cons, List.filter_cons]
      by_cases h : x = y
      · simp [h]
      · simp [h]
        ring

theorem hamming_holds (avx : Bool) (junk : ℕ → ℕ → Num)
    (hl : a.length = b.length) (ha : ∀ z ∈ a, Grid z) (hb : ∀ z ∈ b, Grid z) :
    ∃ r, impl ops avx junk .hamming (vec a) (vec b) = some r ∧ Holds r (depth avx .hamming a.length) 0
      (truth .hamming a b) (size .hamming a b) := by
  have h := loop_holds (k := 0) (c := 0) (e := 0) (m := 0) (term ops .hamming) (fun x y => if x = y then (0 : ℚ) else 1) (k0 := 0) (c0 := 0)
    (fun x y hx hy => by
      show Holds (if decide (x = y) = true then Num.fin 0 else Num.fin 1) 0 0 _ _
      by_cases hxy : x = y
      · simp only [hxy, decide_true, if_true, abs_zero]
        exact Holds.zero 0 0
      · simp only [hxy, decide_false, if_false, Bool.false_eq_true]
        exact Holds.exact (by simpa using Grid.int 1) 0 0)
    a b hl ha hb (.fin 0) (le_refl _) (Holds.zero _ _)
  obtain ⟨r, hr, hh⟩ := h
  simp only [zero_add] at hh
  have habs : List.zipWith (fun x y : ℚ => |if x = y then (0 : ℚ) else 1|) a b = List.zipWith (fun x y => if x = y then (0 : ℚ) else 1) a b := by
    congr 1
    funext x y
    split <;> simp
  rw [habs, zip_count] at hh
  refine ⟨r, ?_, hh.weaken ?_ ?_⟩
  · cases avx <;> exact hr
  · cases avx <;> simp only [depth] <;> omega
  · omega

theorem distance_holds (avx : Bool) (junk : ℕ → ℕ → Num) (k : Kind)
    (hl : a.length = b.length) (ha : ∀ z ∈ a, Grid z) (hb : ∀ z ∈ b, Grid z) :
    ∃ r, distance ops avx junk k (vec a) (vec b) = .ok r ∧
      Holds r (depth avx k a.length) (products k a.length) (truth k a b) (size k a b) := by
  have hv : (vec a).length = (vec b).length := by simp [vec, hl]
  have fin : ∀ {s}, impl ops avx junk k (vec a) (vec b) = some s → distance ops avx junk k (vec a) (vec b) = .ok (wrap ops k s) := by
    intro s hs
    unfold distance
    rw [if_neg (by simpa using hv), hs]
  cases k with
  | dot =>
    obtain ⟨r, hr, hh⟩ := dot_holds avx junk (.inl rfl) hl ha hb
    exact ⟨_, fin hr, hh.neg⟩
  | cosine =>
    obtain ⟨r, hr, hh⟩ := dot_holds avx junk (.inr rfl) hl ha hb
    have h1 := hh.sub_from (a := 1) (by simpa using Grid.int 1)
    rw [abs_one] at h1
    refine ⟨_, fin hr, h1.weaken ?_ (le_refl _)⟩
    cases avx <;> simp only [depth] <;> omega
  | l2 =>
    obtain ⟨r, hr, hh⟩ := l2_holds avx junk hl ha hb
    rw [zip_sq, zip_sq_abs] at hh
    exact ⟨_, fin hr, hh⟩
  | manhattan =>
    obtain ⟨r, hr, hh⟩ := manhattan_holds avx junk hl ha hb
    rw [zip_abs_abs] at hh
    exact ⟨_, fin hr, hh⟩
  | hamming =>
    obtain ⟨r, hr, hh⟩ := hamming_holds avx junk hl ha hb
    exact ⟨_, fin hr, hh⟩

/-! Never negative. -/

/-- a number that is not negative, or positive infinity -/
def Pos : Num → Prop
  | .fin v => 0 ≤ v
  | .inf s => s = false
  | .nan => False

theorem fl_pos {x : ℚ} (h : 0 ≤ x) : Pos (fl x) := by
  unfold fl
  split
  · exact round_nonneg h
  · exact decide_eq_false (not_lt.2 h)

theorem Pos.add {x y : Num} (hx : Pos x) (hy : Pos y) : Pos (add x y) := by
  cases x with
  | fin v => cases y with
    | fin w => exact fl_pos (add_nonneg hx hy)
    | inf s => exact hy
    | nan => exact hy.elim
  | inf s => cases y with
    | fin w => exact hx
    | inf s' =>
      have h1 : s = false := hx
      have h2 : s' = false := hy
      subst h1 h2
      exact rfl
    | nan => exact hy.elim
  | nan => exact hx.elim

theorem fl_not_nan (x : ℚ) : fl x ≠ .nan := by
  unfold fl
  split <;> simp

theorem sub_fin_not_nan (x y : ℚ) : sub (.fin x) (.fin y) ≠ .nan := by
  rw [sub_fin]
  exact fl_not_nan _

theorem Pos.sq {d : Num} (h : d ≠ .nan) : Pos (mul d d) := by
  cases d with
  | fin v => exact fl_pos (mul_self_nonneg v)
  | inf s => cases s <;> exact rfl
  | nan => exact absurd rfl h

theorem Pos.abs {d : Num} (h : d ≠ .nan) : Pos (F32.abs d) := by
  cases d with
  | fin v => exact abs_nonneg v
  | inf s => exact rfl
  | nan => exact absurd rfl h

theorem Pos.fma {d c : Num} (h : d ≠ .nan) (hc : Pos c) : Pos (fma d d c) := by
  cases d with
  | fin v => cases c with
    | fin w => exact fl_pos (add_nonneg (mul_self_nonneg v) hc)
    | inf s => exact hc
    | nan => exact hc
  | inf s => exact Pos.add (Pos.sq h) hc
  | nan => exact absurd rfl h

theorem loop_pos (f : Num → Num → Num) (hf : ∀ x y : ℚ, Pos (f (.fin x) (.fin y))) (a b : List ℚ) (s : Num) (hs : Pos s) (r : Num)
    (h : loop ops f s (vec a) (vec b) = some r) : Pos r := by
  induction a generalizing b s with
  | nil => cases h; exact hs
  | cons x a ih => cases b with
    | nil => cases h
    | cons y b => exact ih b _ (Pos.add hs (hf x y)) h

theorem reduce_pos {G : ℕ → ℕ → Num} {T : Num} (hG : ∀ i j, Pos (G i j)) (hT : Pos T) : Pos (Asm.reduce ops.toArith G T) := by
  have h4 : ∀ j, Pos (Asm.four ops.toArith G j) := fun j => ((hG 3 j).add (hG 2 j)).add ((hG 1 j).add (hG 0 j))
  have hh : ∀ j, Pos (Asm.half ops.toArith G T j) := by
    intro j
    refine Pos.add ?_ ((h4 _).add (h4 _))
    split
    · exact hT
    · exact le_refl (0 : ℚ)
  exact ((hh 3).add (hh 2)).add ((hh 1).add (hh 0))

theorem blocked_pos : Pos (Asm.blocked ops.toArith (Asm.sqTerm ops.toArith) (vec a) (vec b)) := by
  refine reduce_pos ?_ ?_
  · intro i j
    generalize (vec a).length / 32 = n
    induction n with
    | zero => exact le_refl (0 : ℚ)
    | succ n ih =>
      simp only [Asm.acc]
      rw [vec_getD, vec_getD]
      exact Pos.fma (sub_fin_not_nan _ _) ih
  · generalize (vec a).length % 32 = n
    induction n with
    | zero => exact le_refl (0 : ℚ)
    | succ n ih =>
      simp only [Asm.tailAcc]
      rw [vec_getD, vec_getD]
      exact Pos.fma (sub_fin_not_nan _ _) ih

theorem term_pos {k : Kind} (hk : k = .l2 ∨ k = .manhattan ∨ k = .hamming) (x y : ℚ) : Pos (term ops k (.fin x) (.fin y)) := by
  rcases hk with rfl | rfl | rfl
  · exact Pos.sq (sub_fin_not_nan x y)
  · exact Pos.abs (sub_fin_not_nan x y)
  · show Pos (if _ then Num.fin 0 else Num.fin 1)
    split
    · exact le_refl (0 : ℚ)
    · exact zero_le_one (α := ℚ)

theorem distance_pos (avx : Bool) (junk : ℕ → ℕ → Num) {k : Kind} (hk : k = .l2 ∨ k = .manhattan ∨ k = .hamming) (r : Num)
    (h : distance ops avx junk k (vec a) (vec b) = .ok r) : Pos r := by
  unfold distance at h
  split at h
  · cases h
  rename_i hl
  have hl' : (vec a).length = (vec b).length := by simpa using hl
  split at h
  · cases h
  rename_i s hs
  have hw : wrap ops k s = s := by rcases hk with rfl | rfl | rfl <;> rfl
  rw [hw] at h
  cases h
  have hp : step ops k (vec a) (vec b) = some r → Pos r :=
    fun h' => loop_pos _ (term_pos hk) a b (.fin 0) (le_refl (0 : ℚ)) r h'
  cases avx
  · rcases hk with rfl | rfl | rfl <;> exact hp hs
  · rcases hk with rfl | rfl | rfl
    · have hf : Asm.steps (vec a).length ≤ fuel (vec a).length := Nat.le_refl _
      have : (Asm.l2 ops.toArith junk (vec a) (vec b) (fuel (vec a).length)).getD none = some r := hs
      rw [Asm.l2_blocked _ _ hl'.symm hf] at this
      have := Option.some.inj this
      rw [← this]
      exact blocked_pos
    · exact hp hs
    · exact hp hs

/-! Symmetry. -/

theorem neg_sub (x y : Num) : sub y x = neg (sub x y) := by
  cases x with
  | fin v => cases y with
    | fin w => rw [sub_fin, sub_fin, ← fl_neg]; congr 1; ring
    | inf s => cases s <;> rfl
    | nan => rfl
  | inf s => cases y with
    | fin w => cases s <;> rfl
    | inf s' => cases s <;> cases s' <;> rfl
    | nan => rfl
  | nan => cases y <;> rfl

theorem mul_comm' (x y : Num) : mul x y = mul y x := by
  cases x with
  | fin v => cases y with
    | fin w => show fl _ = fl _; rw [mul_comm]
    | inf s => rfl
    | nan => rfl
  | inf s => cases y with
    | fin w => rfl
    | inf s' => cases s <;> cases s' <;> rfl
    | nan => rfl
  | nan => cases y <;> rfl

theorem mul_neg_neg (x : Num) : mul (neg x) (neg x) = mul x x := by
  cases x with
  | fin v => show fl _ = fl _; congr 1; ring
  | inf s => cases s <;> rfl
  | nan => rfl

theorem fma_nonfin {x y z : Num} (h : ¬(x.isFin ∧ y.isFin)) : fma x y z = add (mul x y) z := by
  cases x with
  | fin v => cases y with
    | fin w => exact absurd ⟨trivial, trivial⟩ h
    | inf s => rfl
    | nan => rfl
  | inf s => rfl
  | nan => rfl

theorem symm_ops : Symm ops where
  mul_comm := mul_comm'
  fma_comm x y z := by
    show fma x y z = fma y x z
    by_cases h : x.isFin ∧ y.isFin
    · obtain ⟨v, rfl⟩ := isFin_iff.1 h.1
      obtain ⟨w, rfl⟩ := isFin_iff.1 h.2
      cases z with
      | fin u => show fl _ = fl _; rw [mul_comm]
      | inf s => rfl
      | nan => rfl
    · rw [fma_nonfin h, fma_nonfin (fun hh => h hh.symm), mul_comm']
  sq_sub x y := by
    show mul (sub x y) (sub x y) = mul (sub y x) (sub y x)
    rw [neg_sub x y, mul_neg_neg]
  fma_sub x y z := by
    show fma (sub x y) (sub x y) z = fma (sub y x) (sub y x) z
    rw [neg_sub x y]
    generalize sub x y = d
    cases d with
    | fin v => cases z with
      | fin u => show fl _ = fl _; congr 1; ring
      | inf s => rfl
      | nan => rfl
    | inf s => cases s <;> rfl
    | nan => rfl
  abs_sub x y := by
    show abs (sub x y) = abs (sub y x)
    rw [neg_sub x y]
    generalize sub x y = d
    cases d with
    | fin v => show Num.fin _ = Num.fin _; rw [abs_neg]
    | inf s => rfl
    | nan => rfl
  eq_comm x y := by
    show eq x y = eq y x
    cases x with
    | fin v => cases y with
      | fin w => show decide _ = decide _; simp only [eq_comm]
      | inf s => rfl
      | nan => rfl
    | inf s => cases y with
      | fin w => rfl
      | inf s' => cases s <;> cases s' <;> rfl
      | nan => rfl
    | nan => cases y <;> rfl

/-! Small whole numbers need no rounding. -/

theorem isFloat_nat {n : ℕ} (h : n ≤ 2 ^ 24) : IsFloat n := by
  rcases lt_or_eq_of_le h with h | h
  · refine ⟨n, 0, by simp, ?_, by norm_num, ?_⟩
    · rw [abs_of_nonneg (by omega)]
      exact_mod_cast h
    · rw [abs_of_nonneg (Nat.cast_nonneg n)]
      have : (n : ℚ) < 2 ^ 24 := by exact_mod_cast h
      refine this.trans ?_
      norm_num
  · refine ⟨1, 24, ?_, by norm_num, by norm_num, ?_⟩
    · rw [h]; norm_num
    · rw [h]; norm_num

theorem fl_nat {n : ℕ} (h : n ≤ 2 ^ 24) : fl n = .fin n := fl_float (isFloat_nat h)

theorem fl_stuck : fl (2 ^ 24 + 1) = .fin (2 ^ 24) := by decide +kernel

/-- counting gets stuck -/
theorem count_one (n : ℕ) : add (.fin ((min n (2 ^ 24) : ℕ) : ℚ)) (.fin 1) = .fin ((min (n + 1) (2 ^ 24) : ℕ) : ℚ) := by
  show fl _ = _
  by_cases h : n < 2 ^ 24
  · rw [min_eq_left (by omega), min_eq_left (by omega)]
    have := fl_nat (n := n + 1) (by omega)
    push_cast at this ⊢
    exact this
  · rw [min_eq_right (by omega), min_eq_right (by omega)]
    push_cast
    exact fl_stuck

theorem count_zero (n : ℕ) : add (.fin ((min n (2 ^ 24) : ℕ) : ℚ)) (.fin 0) = .fin ((min n (2 ^ 24) : ℕ) : ℚ) := by
  show fl _ = _
  rw [add_zero]
  exact fl_nat (min_le_right _ _)

/-- how many positions differ -/
def differ (a b : List ℚ) : ℕ := ((List.zip a b).filter fun p => decide (p.1 ≠ p.2)).length

theorem hamming_loop (a b : List ℚ) (hl : a.length = b.length) (n : ℕ) :
    loop ops (term ops .hamming) (.fin ((min n (2 ^ 24) : ℕ) : ℚ)) (vec a) (vec b) =
      some (.fin ((min (n + differ a b) (2 ^ 24) : ℕ) : ℚ)) := by
  induction a generalizing b n with
  | nil => cases b with
    | nil => rfl
    | cons => simp at hl
  | cons x a ih => cases b with
    | nil => simp at hl
    | cons y b =>
      have hl' : a.length = b.length := by simpa using hl
      show loop ops (term ops .hamming) (add _ (if decide (x = y) = true then Num.fin 0 else Num.fin 1)) (vec a) (vec b) = _
      by_cases h : x = y
      · have e : differ (x :: a) (y :: b) = differ a b := by simp [differ, h]
        rw [if_pos (by simpa using h), count_zero, ih b hl', e]
      · have e : differ (x :: a) (y :: b) = differ a b + 1 := by simp [differ, h]
        rw [if_neg (by simpa using h), count_one, ih b hl' (n + 1), e]
        congr 4
        omega

/-! Distances of equal vectors. -/

theorem loop_self (f : Num → Num → Num) (hf : ∀ x : ℚ, f (.fin x) (.fin x) = .fin 0) (a : List ℚ) :
    loop ops f (.fin 0) (vec a) (vec a) = some (.fin 0) := by
  induction a with
  | nil => rfl
  | cons x a ih =>
    show loop ops f (add (.fin 0) (f (.fin x) (.fin x))) (vec a) (vec a) = _
    rw [hf]
    have : add (.fin 0) (.fin 0) = .fin 0 := by
      show fl (0 + 0) = _
      rw [add_zero]
      exact fl_float ⟨0, 0, by simp, by norm_num, by norm_num, by norm_num⟩
    rw [this]
    exact ih

theorem add_zero_zero : add (.fin 0) (.fin 0) = .fin 0 := by decide +kernel

theorem sub_self' (x : ℚ) : sub (.fin x) (.fin x) = .fin 0 := by
  rw [sub_fin, sub_self]
  exact fl_float ⟨0, 0, by simp, by norm_num, by norm_num, by norm_num⟩

theorem sqTerm_self (x : ℚ) : Asm.sqTerm ops.toArith (.fin x) (.fin x) (.fin 0) = .fin 0 := by
  show fma (sub (.fin x) (.fin x)) (sub (.fin x) (.fin x)) (.fin 0) = _
  rw [sub_self']
  decide +kernel

theorem blocked_self : Asm.blocked ops.toArith (Asm.sqTerm ops.toArith) (vec a) (vec a) = .fin 0 := by
  have h1 : ∀ i j n, Asm.acc ops.toArith (Asm.sqTerm ops.toArith) (vec a) (vec a) i j n = .fin 0 := by
    intro i j n
    induction n with
    | zero => rfl
    | succ n ih =>
      simp only [Asm.acc]
      rw [ih, vec_getD, sqTerm_self]
  have h2 : ∀ p n, Asm.tailAcc ops.toArith (Asm.sqTerm ops.toArith) (vec a) (vec a) p n = .fin 0 := by
    intro p n
    induction n with
    | zero => rfl
    | succ n ih =>
      simp only [Asm.tailAcc]
      rw [ih, vec_getD, sqTerm_self]
  unfold Asm.blocked
  simp only [h1, h2]
  have hz : ops.toArith.zero = .fin 0 := rfl
  have ha : ops.toArith.add (.fin 0) (.fin 0) = .fin 0 := add_zero_zero
  simp only [Asm.reduce, Asm.half, Asm.four, hz, ha, ite_self]

theorem distance_self (avx : Bool) (junk : ℕ → ℕ → Num) {k : Kind} (hk : k = .l2 ∨ k = .manhattan ∨ k = .hamming) (a : List ℚ) :
    distance ops avx junk k (vec a) (vec a) = .ok (.fin 0) := by
  have ht : ∀ x : ℚ, term ops k (.fin x) (.fin x) = .fin 0 := by
    intro x
    rcases hk with rfl | rfl | rfl
    · show mul (sub (.fin x) (.fin x)) (sub (.fin x) (.fin x)) = _
      rw [sub_self']
      decide +kernel
    · show abs (sub (.fin x) (.fin x)) = _
      rw [sub_self']
      decide +kernel
    · show (if decide (x = x) = true then Num.fin 0 else Num.fin 1) = _
      simp
  have hp : step ops k (vec a) (vec a) = some (.fin 0) := loop_self _ ht a
  have hi : impl ops avx junk k (vec a) (vec a) = some (.fin 0) := by
    cases avx
    · rcases hk with rfl | rfl | rfl <;> exact hp
    · rcases hk with rfl | rfl | rfl
      · show (Asm.l2 ops.toArith junk (vec a) (vec a) (fuel (vec a).length)).getD none = _
        have hf : Asm.steps (vec a).length ≤ fuel (vec a).length := Nat.le_refl _
        rw [Asm.l2_blocked _ _ rfl hf]
        show some _ = some _
        rw [blocked_self]
      · exact hp
      · exact hp
  unfold distance
  rw [if_neg (by simp), hi]
  rcases hk with rfl | rfl | rfl <;> rfl

/-- a multiple of the smallest number that is not negative, or not a number at all -/
def PosGrid : Num → Prop
  | .fin v => 0 ≤ v ∧ Grid v
  | _ => True

theorem PosGrid.add {x y : Num} (hx : PosGrid x) (hy : PosGrid y) : PosGrid (add x y) := by
  by_cases h : (F32.add x y).isFin
  · obtain ⟨h1, h2⟩ := add_isFin h
    obtain ⟨v, rfl⟩ := isFin_iff.1 h1
    obtain ⟨w, rfl⟩ := isFin_iff.1 h2
    obtain ⟨u, hu⟩ := isFin_iff.1 h
    rw [hu]
    have : u = round (v + w) := fl_fin hu
    rw [this]
    exact ⟨round_nonneg (add_nonneg hx.1 hy.1), grid_round _⟩
  · cases hh : F32.add x y with
    | fin v => rw [hh] at h; exact absurd trivial h
    | inf s => trivial
    | nan => trivial

theorem add_eq_zero' {x y : Num} (hx : PosGrid x) (hy : PosGrid y) (h : add x y = .fin 0) : x = .fin 0 ∧ y = .fin 0 := by
  obtain ⟨h1, h2⟩ := add_isFin (x := x) (y := y) (by rw [h]; trivial)
  obtain ⟨v, rfl⟩ := isFin_iff.1 h1
  obtain ⟨w, rfl⟩ := isFin_iff.1 h2
  have h3 : 0 = round (v + w) := fl_fin h
  have h4 : v + w = 0 := by
    by_contra hc
    exact round_ne_zero (hx.2.add hy.2) hc h3.symm
  have h5 := hx.1
  have h6 := hy.1
  have h7 : v = 0 := by linarith
  have h8 : w = 0 := by linarith
  rw [h7, h8]
  exact ⟨rfl, rfl⟩

theorem abs_sub_posGrid (x y : ℚ) : PosGrid (abs (sub (.fin x) (.fin y))) := by
  rw [sub_fin]
  cases h : fl (x - y) with
  | fin v =>
    refine ⟨abs_nonneg v, Grid.abs ?_⟩
    rw [fl_fin h]
    exact grid_round _
  | inf s => trivial
  | nan => trivial

theorem abs_sub_eq_zero {x y : ℚ} (hx : Grid x) (hy : Grid y) (h : abs (sub (.fin x) (.fin y)) = .fin 0) : x = y := by
  rw [sub_fin] at h
  cases hh : fl (x - y) with
  | fin v =>
    rw [hh] at h
    have h1 : |v| = 0 := Num.fin.inj h
    have h2 : v = 0 := abs_eq_zero.1 h1
    have h3 := fl_fin hh
    by_contra hc
    exact round_ne_zero (hx.sub hy) (sub_ne_zero.2 hc) (h3.symm.trans h2)
  | inf s => rw [hh] at h; cases h
  | nan => rw [hh] at h; cases h

theorem manhattan_loop_zero (a b : List ℚ) (hl : a.length = b.length) (ha : ∀ z ∈ a, Grid z) (hb : ∀ z ∈ b, Grid z) (s : Num)
    (hs : PosGrid s) (h : loop ops (term ops .manhattan) s (vec a) (vec b) = some (.fin 0)) : s = .fin 0 ∧ a = b := by
  induction a generalizing b s with
  | nil => cases b with
    | nil => exact ⟨Option.some.inj h, rfl⟩
    | cons => simp at hl
  | cons x a ih => cases b with
    | nil => simp at hl
    | cons y b =>
      have hl' : a.length = b.length := by simpa using hl
      obtain ⟨h1, h2⟩ := ih b hl' (fun z hz => ha z (by simp [hz])) (fun z hz => hb z (by simp [hz]))
        (add s (abs (sub (.fin x) (.fin y)))) (hs.add (abs_sub_posGrid x y)) h
      obtain ⟨h3, h4⟩ := add_eq_zero' hs (abs_sub_posGrid x y) h1
      exact ⟨h3, by rw [h2, abs_sub_eq_zero (ha x (by simp)) (hb y (by simp)) h4]⟩

/-! Square roots. -/

theorem root_side {x : ℚ} (hx : 0 ≤ x) (hg : Grid x) (n : ℕ) :
    (root x < n / 2 ^ 200 ↔ x < (n / 2 ^ 200) ^ 2) ∧ ((n : ℚ) / 2 ^ 200 < root x ↔ ((n : ℚ) / 2 ^ 200) ^ 2 < x) := by
  obtain ⟨m, hm⟩ := hg
  have hm0 : 0 ≤ m := by
    by_contra hc
    have h1 : (m : ℚ) < 0 := by exact_mod_cast not_le.1 hc
    have h2 := mul_neg_of_neg_of_pos h1 (two_pos (-149))
    linarith
  obtain ⟨M, rfl⟩ := Int.eq_ofNat_of_zero_le hm0
  -- x * 2^400 is a whole number
  have hN : x * 2 ^ 400 = ((M * 2 ^ 251 : ℕ) : ℚ) := by
    rw [hm]
    push_cast
    have : (2 : ℚ) ^ 400 = 2 ^ 251 * 2 ^ 149 := by rw [← pow_add]
    rw [this, zpow_neg]
    have h2 : (2 : ℚ) ^ (149 : ℤ) = 2 ^ 149 := zpow_natCast 2 149
    rw [h2]
    have h3 : (2 : ℚ) ^ 149 ≠ 0 := pow_ne_zero _ (by norm_num)
    rw [mul_assoc, mul_comm _ ((2 : ℚ) ^ 251 * 2 ^ 149), mul_assoc, mul_inv_cancel₀ h3, mul_one]
    rfl
  set N := M * 2 ^ 251 with hNdef
  have hfl : ⌊x * 2 ^ 400⌋₊ = N := by rw [hN]; exact Nat.floor_natCast N
  have hx' : x = (N : ℚ) / (2 ^ 200) ^ 2 := by
    rw [eq_div_iff (pow_ne_zero _ (pow_ne_zero _ (by norm_num))), ← hN]
    rw [← pow_mul]
  have hp : (0 : ℚ) < 2 ^ 200 := by positivity
  generalize hP : (2 : ℚ) ^ 200 = P at *
  have hP1 : (2 : ℚ) ^ 201 = 2 * P := by rw [← hP, ← pow_succ']
  have hlt : ∀ r s : ℚ, r / P ^ 2 < s / P ^ 2 ↔ r < s := fun r s => div_lt_div_iff_of_pos_right (by positivity)
  have hlt1 : ∀ r s : ℚ, r / P < s / P ↔ r < s := fun r s => div_lt_div_iff_of_pos_right hp
  have e1 : ((n : ℚ) / P) ^ 2 = ((n * n : ℕ) : ℚ) / P ^ 2 := by push_cast; rw [div_pow]; ring
  have hroot : root x = if N.sqrt * N.sqrt = N then (N.sqrt : ℚ) / P else ((N.sqrt : ℚ) + 1 / 2) / P := by
    unfold root
    simp only [hfl]
    split
    · rw [hP]
    · rw [hP1, div_eq_div_iff (by positivity) (by positivity)]
      ring
  rw [hroot, e1, hx', hlt, hlt]
  by_cases hs : N.sqrt * N.sqrt = N
  · rw [if_pos hs, hlt1, hlt1]
    constructor
    · rw [Nat.cast_lt, Nat.cast_lt]
      conv_rhs => rw [← hs]
      exact Nat.mul_self_lt_mul_self_iff.symm
    · rw [Nat.cast_lt, Nat.cast_lt]
      conv_rhs => rw [← hs]
      exact Nat.mul_self_lt_mul_self_iff.symm
  · rw [if_neg hs, hlt1, hlt1, Nat.cast_lt, Nat.cast_lt]
    have l1 : N.sqrt * N.sqrt < N := lt_of_le_of_ne (Nat.sqrt_le N) hs
    have l2 : N < (N.sqrt + 1) * (N.sqrt + 1) := Nat.lt_succ_sqrt N
    have c1 : (N.sqrt : ℚ) + 1 / 2 < n ↔ N.sqrt < n := by
      constructor
      · intro h
        have : (N.sqrt : ℚ) < n := by linarith
        exact_mod_cast this
      · intro h
        have : (N.sqrt : ℚ) + 1 ≤ n := by exact_mod_cast h
        linarith
    have c2 : (n : ℚ) < N.sqrt + 1 / 2 ↔ n < N.sqrt + 1 := by
      constructor
      · intro h
        have : (n : ℚ) < N.sqrt + 1 := by linarith
        exact_mod_cast this
      · intro h
        have : (n : ℚ) ≤ N.sqrt := by exact_mod_cast Nat.lt_succ_iff.1 h
        linarith
    rw [c1, c2]
    constructor
    · constructor
      · intro h
        exact lt_of_lt_of_le l2 (Nat.mul_self_le_mul_self h)
      · intro h
        exact Nat.mul_self_lt_mul_self_iff.1 (l1.trans h)
    · constructor
      · intro h
        exact lt_of_le_of_lt (Nat.mul_self_le_mul_self (Nat.lt_succ_iff.1 h)) l1
      · intro h
        exact Nat.mul_self_lt_mul_self_iff.1 (h.trans l2)

end F32
end Fave

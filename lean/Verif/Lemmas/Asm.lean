import Verif.Model.Asm
/-!
# What the vector instructions compute, for any arithmetic
-/
namespace Fave
namespace Asm

variable {F : Type}

/-- one lane of an accumulator after `k` blocks of 32: `term` gives the new value from the two numbers and the old value -/
def acc (A : Arith F) (term : F → F → F → F) (x y : List F) (i j : Nat) : Nat → F
  | 0 => A.zero
  | k + 1 => term (x.getD (32 * k + 8 * i + j) A.zero) (y.getD (32 * k + 8 * i + j) A.zero) (acc A term x y i j k)

/-- the accumulator of the rest after `t` further numbers from position `b` -/
def tailAcc (A : Arith F) (term : F → F → F → F) (x y : List F) (b : Nat) : Nat → F
  | 0 => A.zero
  | t + 1 => term (x.getD (b + t) A.zero) (y.getD (b + t) A.zero) (tailAcc A term x y b t)

/-- lane `j` of the sum of the four accumulators -/
def four (A : Arith F) (g : Nat → Nat → F) (j : Nat) : F := A.add (A.add (g 3 j) (g 2 j)) (A.add (g 1 j) (g 0 j))

/-- lane `j` after adding the upper half and the rest -/
def half (A : Arith F) (g : Nat → Nat → F) (t : F) (j : Nat) : F :=
  A.add (if j = 0 then t else A.zero) (A.add (four A g (4 + j)) (four A g j))

/-- the final sum over the lanes -/
def reduce (A : Arith F) (g : Nat → Nat → F) (t : F) : F :=
  A.add (A.add (half A g t 3) (half A g t 2)) (A.add (half A g t 1) (half A g t 0))

/-- the whole blocked computation -/
def blocked (A : Arith F) (term : F → F → F → F) (x y : List F) : F :=
  reduce A (fun i j => acc A term x y i j (x.length / 32))
    (tailAcc A term x y (32 * (x.length / 32)) (x.length % 32))

section machine
variable (A : Arith F) (x y : List F) (prog : List Instr)

/-- from instruction `pc` and registers `s` the machine gets to `pc'` and `s'` in `n` steps -/
def Goes (n pc : Nat) (s : St F) (pc' : Nat) (s' : St F) : Prop :=
  ∀ fuel, run A x y prog (fuel + n) pc s = run A x y prog fuel pc' s'

variable {A x y prog}

theorem Goes.refl (pc : Nat) (s : St F) : Goes A x y prog 0 pc s pc s := fun _ => rfl

theorem Goes.next {n pc pc' : Nat} {s s' s'' : St F} (h : Goes A x y prog n pc s pc' s') (i : Instr) (hi : prog[pc']? = some i)
    (he : exec A x y s' i = .next s'') : Goes A x y prog (n + 1) pc s (pc' + 1) s'' := fun fuel => by
  rw [show fuel + (n + 1) = (fuel + 1) + n by omega, h]
  simp only [run, hi, he]

theorem Goes.goto {n pc pc' to : Nat} {s s' s'' : St F} (h : Goes A x y prog n pc s pc' s') (i : Instr) (hi : prog[pc']? = some i)
    (he : exec A x y s' i = .goto to s'') : Goes A x y prog (n + 1) pc s to s'' := fun fuel => by
  rw [show fuel + (n + 1) = (fuel + 1) + n by omega, h]
  simp only [run, hi, he]

theorem Goes.done {n pc pc' : Nat} {s s' : St F} {r : F} (h : Goes A x y prog n pc s pc' s') (i : Instr) (hi : prog[pc']? = some i)
    (he : exec A x y s' i = .done r) (fuel : Nat) : run A x y prog (fuel + (n + 1)) pc s = some (some r) := by
  rw [show fuel + (n + 1) = (fuel + 1) + n by omega, h]
  simp only [run, hi, he]

theorem Goes.trans {n m pc pc' pc'' : Nat} {s s' s'' : St F} (h : Goes A x y prog n pc s pc' s')
    (h' : Goes A x y prog m pc' s' pc'' s'') : Goes A x y prog (n + m) pc s pc'' s'' := fun fuel => by
  rw [show fuel + (n + m) = (fuel + m) + n by omega, h, h']

end machine

theorem readable_of {l : List F} {b n c : Nat} (hb : b = 4 * c) (h : c + n ≤ l.length) : readable l b n = true := by
  subst hb
  simp [readable]
  omega

theorem lane_of (A : Arith F) {l : List F} {b c j : Nat} (hb : b = 4 * c) : lane A l b j = l.getD (c + j) A.zero := by
  subst hb
  unfold lane
  congr 1
  omega

/-! ## Dot -/

/-- registers at `blockloop` of `Dot` after `k` blocks -/
structure DotInv (A : Arith F) (x y : List F) (k : Nat) (s : St F) : Prop where
  ax : s.ax = 128 * k
  cx : s.cx = 128 * k
  dx : s.dx = (x.length : Int) - 32 * k
  accs : ∀ i j, i < 4 → j < 8 → s.y i j = acc A A.fma x y i j k

theorem dot_block (A : Arith F) {x y : List F} {k : Nat} {s : St F} (h : DotInv A x y k s) (hx : 32 * (k + 1) ≤ x.length)
    (hy : 32 * (k + 1) ≤ y.length) : ∃ s', DotInv A x y (k + 1) s' ∧ Goes A x y dotProg 14 4 s 4 s' := by
  obtain ⟨ax, cx, dx, cmp, r⟩ := s
  obtain ⟨h1, h2, h3, h4⟩ := h
  dsimp only at h1 h2 h3 h4
  subst h1 h2 h3
  have ra : ∀ i, i < 4 → readable x (128 * k + 32 * i) 8 = true := fun i hi =>
    readable_of (c := 32 * k + 8 * i) (by omega) (by omega)
  have rc : ∀ i, i < 4 → readable y (128 * k + 32 * i) 8 = true := fun i hi =>
    readable_of (c := 32 * k + 8 * i) (by omega) (by omega)
  have la : ∀ i j, lane A x (128 * k + 32 * i) j = x.getD (32 * k + 8 * i + j) A.zero := fun i j =>
    lane_of A (c := 32 * k + 8 * i) (by omega)
  have lc : ∀ i j, lane A y (128 * k + 32 * i) j = y.getD (32 * k + 8 * i + j) A.zero := fun i j =>
    lane_of A (c := 32 * k + 8 * i) (by omega)
  have e := (Goes.refl (A := A) (x := x) (y := y) (prog := dotProg) 4 ⟨128 * k, 128 * k, (x.length : Int) - 32 * k, cmp, r⟩).next
    (.cmp 0x20) rfl rfl
  have e := e.next (.jl 18) rfl (if_neg (by dsimp only; omega))
  have e := e.next (.load 0 .ax 4) rfl (if_pos (ra 0 (by omega)))
  have e := e.next (.load 32 .ax 5) rfl (if_pos (ra 1 (by omega)))
  have e := e.next (.load 64 .ax 6) rfl (if_pos (ra 2 (by omega)))
  have e := e.next (.load 96 .ax 7) rfl (if_pos (ra 3 (by omega)))
  have e := e.next (.fmaMem 0 .cx 4 0) rfl (if_pos (rc 0 (by omega)))
  have e := e.next (.fmaMem 32 .cx 5 1) rfl (if_pos (rc 1 (by omega)))
  have e := e.next (.fmaMem 64 .cx 6 2) rfl (if_pos (rc 2 (by omega)))
  have e := e.next (.fmaMem 96 .cx 7 3) rfl (if_pos (rc 3 (by omega)))
  have e := e.next (.addPtr 0x80 .ax) rfl rfl
  have e := e.next (.addPtr 0x80 .cx) rfl rfl
  have e := e.next (.subDx 0x20) rfl rfl
  have e := e.goto (.jmp 4) rfl rfl
  refine ⟨_, ⟨by simp only [St.set]; omega, by simp only [St.set]; omega, by simp only [St.set]; omega, fun i j hi hj => ?_⟩, e⟩
  have la0 := la 0; have la1 := la 1; have la2 := la 2; have la3 := la 3
  have lc0 := lc 0; have lc1 := lc 1; have lc2 := lc 2; have lc3 := lc 3
  simp only [Nat.mul_zero, Nat.add_zero, Nat.mul_one, show 32 * 2 = 64 from rfl, show 32 * 3 = 96 from rfl,
    show 8 * 2 = 16 from rfl, show 8 * 3 = 24 from rfl] at la0 la1 la2 la3 lc0 lc1 lc2 lc3
  have hi' : i = 0 ∨ i = 1 ∨ i = 2 ∨ i = 3 := by omega
  rcases hi' with rfl | rfl | rfl | rfl <;>
    simp [St.set, St.ptr, slice, acc, h4, hj, la0, la1, la2, la3, lc0, lc1, lc2, lc3]

theorem dot_blocks (A : Arith F) {x y : List F} (hy : y.length = x.length) (m k : Nat) {s : St F} (h : DotInv A x y k s)
    (hm : 32 * (k + m) ≤ x.length) : ∃ s', DotInv A x y (k + m) s' ∧ Goes A x y dotProg (14 * m) 4 s 4 s' := by
  induction m generalizing k s with
  | zero => exact ⟨s, h, Goes.refl _ _⟩
  | succ m ih =>
    obtain ⟨s1, h1, e1⟩ := dot_block A h (by omega) (by omega)
    obtain ⟨s2, h2, e2⟩ := ih (k + 1) h1 (by omega)
    refine ⟨s2, ?_, ?_⟩
    · rw [show k + (m + 1) = k + 1 + m by omega]; exact h2
    · rw [show 14 * (m + 1) = 14 + 14 * m by omega]; exact e1.trans e2

/-- registers at `tailloop` of `Dot` after `B` blocks and `t` further numbers -/
structure DotTail (A : Arith F) (x y : List F) (B t : Nat) (s : St F) : Prop where
  ax : s.ax = 4 * (32 * B + t)
  cx : s.cx = 4 * (32 * B + t)
  dx : s.dx = (x.length : Int) - 32 * B - t
  accs : ∀ i j, i < 4 → j < 8 → s.y i j = acc A A.fma x y i j B
  t0 : s.y 4 0 = tailAcc A A.fma x y (32 * B) t
  t1 : ∀ j, 0 < j → s.y 4 j = A.zero

theorem dot_to_tail (A : Arith F) {x y : List F} {B : Nat} {s : St F} (h : DotInv A x y B s) (hB : x.length < 32 * B + 32) :
    ∃ s', DotTail A x y B 0 s' ∧ Goes A x y dotProg 3 4 s 19 s' := by
  obtain ⟨ax, cx, dx, cmp, r⟩ := s
  obtain ⟨h1, h2, h3, h4⟩ := h
  dsimp only at h1 h2 h3 h4
  subst h1 h2 h3
  have e := (Goes.refl (A := A) (x := x) (y := y) (prog := dotProg) 4 ⟨128 * B, 128 * B, (x.length : Int) - 32 * B, cmp, r⟩).next
    (.cmp 0x20) rfl rfl
  have e := e.goto (.jl 18) rfl (if_pos (by dsimp only; omega))
  have e := e.next (.clear 4) rfl rfl
  refine ⟨_, ⟨by simp only [St.set]; omega, by simp only [St.set]; omega, by simp only [St.set]; omega, fun i j hi hj => ?_, ?_,
    fun j hj => ?_⟩, e⟩
  · simp only [St.set]; rw [if_neg (by omega)]; exact h4 i j hi hj
  · simp [St.set, tailAcc]
  · simp [St.set]

theorem dot_tail (A : Arith F) {x y : List F} {B t : Nat} {s : St F} (h : DotTail A x y B t s) (hx : 32 * B + t < x.length)
    (hy : 32 * B + t < y.length) : ∃ s', DotTail A x y B (t + 1) s' ∧ Goes A x y dotProg 8 19 s 19 s' := by
  obtain ⟨ax, cx, dx, cmp, r⟩ := s
  obtain ⟨h1, h2, h3, h4, h5, h6⟩ := h
  dsimp only at h1 h2 h3 h4 h5 h6
  subst h1 h2 h3
  have ra : readable x (4 * (32 * B + t)) 1 = true := readable_of rfl (by omega)
  have rc : readable y (4 * (32 * B + t)) 1 = true := readable_of rfl (by omega)
  have e := (Goes.refl (A := A) (x := x) (y := y) (prog := dotProg) 19
    ⟨4 * (32 * B + t), 4 * (32 * B + t), (x.length : Int) - 32 * B - t, cmp, r⟩).next (.cmp 0) rfl rfl
  have e := e.next (.je 27) rfl (if_neg (by dsimp only; omega))
  have e := e.next (.load1 .ax 5) rfl (if_pos ra)
  have e := e.next (.fmaMem1 .cx 5 4) rfl (if_pos rc)
  have e := e.next (.addPtr 4 .ax) rfl rfl
  have e := e.next (.addPtr 4 .cx) rfl rfl
  have e := e.next (.subDx 1) rfl rfl
  have e := e.goto (.jmp 19) rfl rfl
  refine ⟨_, ⟨by simp only [St.set]; omega, by simp only [St.set]; omega, by simp only [St.set]; omega, fun i j hi hj => ?_, ?_,
    fun j hj => ?_⟩, e⟩
  · simp only [St.set]; rw [if_neg (by omega), if_neg (by omega)]; exact h4 i j hi hj
  · simp [St.set, St.ptr, slice, low, tailAcc, h5, lane_of A (c := 32 * B + t) rfl]
  · simp [St.set, low, show j ≠ 0 by omega, h6 j hj]

theorem dot_tails (A : Arith F) {x y : List F} (hy : y.length = x.length) {B : Nat} (m t : Nat) {s : St F} (h : DotTail A x y B t s)
    (hm : 32 * B + (t + m) ≤ x.length) : ∃ s', DotTail A x y B (t + m) s' ∧ Goes A x y dotProg (8 * m) 19 s 19 s' := by
  induction m generalizing t s with
  | zero => exact ⟨s, h, Goes.refl _ _⟩
  | succ m ih =>
    obtain ⟨s1, h1, e1⟩ := dot_tail A h (by omega) (by omega)
    obtain ⟨s2, h2, e2⟩ := ih (t + 1) h1 (by omega)
    refine ⟨s2, ?_, ?_⟩
    · rw [show t + (m + 1) = t + 1 + m by omega]; exact h2
    · rw [show 8 * (m + 1) = 8 + 8 * m by omega]; exact e1.trans e2

theorem dot_reduce (A : Arith F) {x y : List F} {B t : Nat} {s : St F} (h : DotTail A x y B t s) (hx : x.length = 32 * B + t)
    (fuel : Nat) : run A x y dotProg (fuel + 11) 19 s =
      some (some (reduce A (fun i j => acc A A.fma x y i j B) (tailAcc A A.fma x y (32 * B) t))) := by
  obtain ⟨ax, cx, dx, cmp, r⟩ := s
  obtain ⟨h1, h2, h3, h4, h5, h6⟩ := h
  dsimp only at h1 h2 h3 h4 h5 h6
  subst h1 h2 h3
  have e := (Goes.refl (A := A) (x := x) (y := y) (prog := dotProg) 19
    ⟨4 * (32 * B + t), 4 * (32 * B + t), (x.length : Int) - 32 * B - t, cmp, r⟩).next (.cmp 0) rfl rfl
  have e := e.goto (.je 27) rfl (if_pos (by dsimp only; omega))
  have e := e.next (.addY 0 1 0) rfl rfl
  have e := e.next (.addY 2 3 2) rfl rfl
  have e := e.next (.addY 0 2 0) rfl rfl
  have e := e.next (.upper 0 1) rfl rfl
  have e := e.next (.addX 0 1 0) rfl rfl
  have e := e.next (.addX 0 4 0) rfl rfl
  have e := e.next (.haddX 0 0 0) rfl rfl
  have e := e.next (.haddX 0 0 0) rfl rfl
  rw [e.done (.ret 0) rfl rfl fuel]
  simp [St.set, low, reduce, half, four, h4, h5, h6]

/-- steps that are always enough for vectors of length `n` -/
def steps (n : Nat) : Nat := 32 + 20 * n

/-- `Dot` ends, never reads outside the slices, and returns the blocked sum, whatever the registers held before. -/
theorem dot_blocked (A : Arith F) (junk : Nat → Nat → F) {x y : List F} (hy : y.length = x.length) {fuel : Nat}
    (hf : steps x.length ≤ fuel) : dot A junk x y fuel = some (some (blocked A A.fma x y)) := by
  have e := (Goes.refl (A := A) (x := x) (y := y) (prog := dotProg) 0 (entry x junk)).next (.clear 0) rfl rfl
  have e := e.next (.clear 1) rfl rfl
  have e := e.next (.clear 2) rfl rfl
  have e := e.next (.clear 3) rfl rfl
  obtain ⟨s1, h1, e1⟩ := dot_blocks A hy (x.length / 32) 0 (s := (((((entry x junk).set 0 fun _ => A.zero).set 1 fun _ => A.zero).set 2
    fun _ => A.zero).set 3 fun _ => A.zero)) ⟨rfl, rfl, by simp [St.set, entry], fun i j hi hj => by
      have hi' : i = 0 ∨ i = 1 ∨ i = 2 ∨ i = 3 := by omega
      rcases hi' with rfl | rfl | rfl | rfl <;> simp [St.set, acc]⟩ (by omega)
  rw [Nat.zero_add] at h1
  obtain ⟨s2, h2, e2⟩ := dot_to_tail A h1 (by omega)
  obtain ⟨s3, h3, e3⟩ := dot_tails A hy (x.length % 32) 0 h2 (by omega)
  rw [Nat.zero_add] at h3
  have e4 := ((e.trans e1).trans e2).trans e3
  have hr := dot_reduce A h3 (by omega)
  unfold steps at hf
  unfold dot blocked
  obtain ⟨f, rfl⟩ : ∃ f, fuel = f + 11 + (0 + 1 + 1 + 1 + 1 + 14 * (x.length / 32) + 3 + 8 * (x.length % 32)) :=
    ⟨fuel - (11 + (0 + 1 + 1 + 1 + 1 + 14 * (x.length / 32) + 3 + 8 * (x.length % 32))), by omega⟩
  rw [e4, hr]

/-! ## L2 -/

/-- `a, b, c ↦ (a - b) * (a - b) + c` as `L2` computes it — asm/l2_amd64.s:32-35, 48-49 -/
def sqTerm (A : Arith F) (a b c : F) : F := A.fma (A.sub a b) (A.sub a b) c

/-- registers at `blockloop` of `L2` after `k` blocks -/
structure L2Inv (A : Arith F) (x y : List F) (k : Nat) (s : St F) : Prop where
  ax : s.ax = 128 * k
  cx : s.cx = 128 * k
  dx : s.dx = (x.length : Int) - 32 * k
  accs : ∀ i j, i < 4 → j < 8 → s.y (2 * i) j = acc A (sqTerm A) x y i j k

theorem l2_block (A : Arith F) {x y : List F} {k : Nat} {s : St F} (h : L2Inv A x y k s) (hx : 32 * (k + 1) ≤ x.length)
    (hy : 32 * (k + 1) ≤ y.length) : ∃ s', L2Inv A x y (k + 1) s' ∧ Goes A x y l2Prog 18 8 s 8 s' := by
  obtain ⟨ax, cx, dx, cmp, r⟩ := s
  obtain ⟨h1, h2, h3, h4⟩ := h
  dsimp only at h1 h2 h3 h4
  subst h1 h2 h3
  have ra : ∀ i, i < 4 → readable x (128 * k + 32 * i) 8 = true := fun i hi =>
    readable_of (c := 32 * k + 8 * i) (by omega) (by omega)
  have rc : ∀ i, i < 4 → readable y (128 * k + 32 * i) 8 = true := fun i hi =>
    readable_of (c := 32 * k + 8 * i) (by omega) (by omega)
  have la : ∀ i j, lane A x (128 * k + 32 * i) j = x.getD (32 * k + 8 * i + j) A.zero := fun i j =>
    lane_of A (c := 32 * k + 8 * i) (by omega)
  have lc : ∀ i j, lane A y (128 * k + 32 * i) j = y.getD (32 * k + 8 * i + j) A.zero := fun i j =>
    lane_of A (c := 32 * k + 8 * i) (by omega)
  have e := (Goes.refl (A := A) (x := x) (y := y) (prog := l2Prog) 8 ⟨128 * k, 128 * k, (x.length : Int) - 32 * k, cmp, r⟩).next
    (.cmp 0x20) rfl rfl
  have e := e.next (.jl 26) rfl (if_neg (by dsimp only; omega))
  have e := e.next (.load 0 .ax 1) rfl (if_pos (ra 0 (by omega)))
  have e := e.next (.load 32 .ax 3) rfl (if_pos (ra 1 (by omega)))
  have e := e.next (.load 64 .ax 5) rfl (if_pos (ra 2 (by omega)))
  have e := e.next (.load 96 .ax 7) rfl (if_pos (ra 3 (by omega)))
  have e := e.next (.subMem 0 .cx 1 1) rfl (if_pos (rc 0 (by omega)))
  have e := e.next (.subMem 32 .cx 3 3) rfl (if_pos (rc 1 (by omega)))
  have e := e.next (.subMem 64 .cx 5 5) rfl (if_pos (rc 2 (by omega)))
  have e := e.next (.subMem 96 .cx 7 7) rfl (if_pos (rc 3 (by omega)))
  have e := e.next (.fmaReg 1 1 0) rfl rfl
  have e := e.next (.fmaReg 3 3 2) rfl rfl
  have e := e.next (.fmaReg 5 5 4) rfl rfl
  have e := e.next (.fmaReg 7 7 6) rfl rfl
  have e := e.next (.addPtr 0x80 .ax) rfl rfl
  have e := e.next (.addPtr 0x80 .cx) rfl rfl
  have e := e.next (.subDx 0x20) rfl rfl
  have e := e.goto (.jmp 8) rfl rfl
  refine ⟨_, ⟨by simp only [St.set]; omega, by simp only [St.set]; omega, by simp only [St.set]; omega, fun i j hi hj => ?_⟩, e⟩
  have la0 := la 0; have la1 := la 1; have la2 := la 2; have la3 := la 3
  have lc0 := lc 0; have lc1 := lc 1; have lc2 := lc 2; have lc3 := lc 3
  have h40 := h4 0 j (by omega) hj; have h41 := h4 1 j (by omega) hj
  have h42 := h4 2 j (by omega) hj; have h43 := h4 3 j (by omega) hj
  simp only [Nat.mul_zero, Nat.add_zero, Nat.mul_one, show 32 * 2 = 64 from rfl, show 32 * 3 = 96 from rfl,
    show 8 * 2 = 16 from rfl, show 8 * 3 = 24 from rfl, show 2 * 2 = 4 from rfl, show 2 * 3 = 6 from rfl]
    at la0 la1 la2 la3 lc0 lc1 lc2 lc3 h40 h41 h42 h43
  have hi' : i = 0 ∨ i = 1 ∨ i = 2 ∨ i = 3 := by omega
  rcases hi' with rfl | rfl | rfl | rfl <;>
    simp [St.set, St.ptr, slice, acc, sqTerm, h40, h41, h42, h43, la0, la1, la2, la3, lc0, lc1, lc2, lc3]

theorem l2_blocks (A : Arith F) {x y : List F} (hy : y.length = x.length) (m k : Nat) {s : St F} (h : L2Inv A x y k s)
    (hm : 32 * (k + m) ≤ x.length) : ∃ s', L2Inv A x y (k + m) s' ∧ Goes A x y l2Prog (18 * m) 8 s 8 s' := by
  induction m generalizing k s with
  | zero => exact ⟨s, h, Goes.refl _ _⟩
  | succ m ih =>
    obtain ⟨s1, h1, e1⟩ := l2_block A h (by omega) (by omega)
    obtain ⟨s2, h2, e2⟩ := ih (k + 1) h1 (by omega)
    refine ⟨s2, ?_, ?_⟩
    · rw [show k + (m + 1) = k + 1 + m by omega]; exact h2
    · rw [show 18 * (m + 1) = 18 + 18 * m by omega]; exact e1.trans e2

/-- registers at `tailloop` of `L2` after `B` blocks and `t` further numbers -/
structure L2Tail (A : Arith F) (x y : List F) (B t : Nat) (s : St F) : Prop where
  ax : s.ax = 4 * (32 * B + t)
  cx : s.cx = 4 * (32 * B + t)
  dx : s.dx = (x.length : Int) - 32 * B - t
  accs : ∀ i j, i < 4 → j < 8 → s.y (2 * i) j = acc A (sqTerm A) x y i j B
  t0 : s.y 1 0 = tailAcc A (sqTerm A) x y (32 * B) t
  t1 : ∀ j, 0 < j → s.y 1 j = A.zero

theorem l2_to_tail (A : Arith F) {x y : List F} {B : Nat} {s : St F} (h : L2Inv A x y B s) (hB : x.length < 32 * B + 32) :
    ∃ s', L2Tail A x y B 0 s' ∧ Goes A x y l2Prog 3 8 s 27 s' := by
  obtain ⟨ax, cx, dx, cmp, r⟩ := s
  obtain ⟨h1, h2, h3, h4⟩ := h
  dsimp only at h1 h2 h3 h4
  subst h1 h2 h3
  have e := (Goes.refl (A := A) (x := x) (y := y) (prog := l2Prog) 8 ⟨128 * B, 128 * B, (x.length : Int) - 32 * B, cmp, r⟩).next
    (.cmp 0x20) rfl rfl
  have e := e.goto (.jl 26) rfl (if_pos (by dsimp only; omega))
  have e := e.next (.clear 1) rfl rfl
  refine ⟨_, ⟨by simp only [St.set]; omega, by simp only [St.set]; omega, by simp only [St.set]; omega, fun i j hi hj => ?_, ?_,
    fun j hj => ?_⟩, e⟩
  · simp only [St.set]; rw [if_neg (by omega)]; exact h4 i j hi hj
  · simp [St.set, tailAcc]
  · simp [St.set]

theorem l2_tail (A : Arith F) {x y : List F} {B t : Nat} {s : St F} (h : L2Tail A x y B t s) (hx : 32 * B + t < x.length)
    (hy : 32 * B + t < y.length) : ∃ s', L2Tail A x y B (t + 1) s' ∧ Goes A x y l2Prog 9 27 s 27 s' := by
  obtain ⟨ax, cx, dx, cmp, r⟩ := s
  obtain ⟨h1, h2, h3, h4, h5, h6⟩ := h
  dsimp only at h1 h2 h3 h4 h5 h6
  subst h1 h2 h3
  have ra : readable x (4 * (32 * B + t)) 1 = true := readable_of rfl (by omega)
  have rc : readable y (4 * (32 * B + t)) 1 = true := readable_of rfl (by omega)
  have e := (Goes.refl (A := A) (x := x) (y := y) (prog := l2Prog) 27
    ⟨4 * (32 * B + t), 4 * (32 * B + t), (x.length : Int) - 32 * B - t, cmp, r⟩).next (.cmp 0) rfl rfl
  have e := e.next (.je 36) rfl (if_neg (by dsimp only; omega))
  have e := e.next (.load1 .ax 3) rfl (if_pos ra)
  have e := e.next (.subMem1 .cx 3 3) rfl (if_pos rc)
  have e := e.next (.fmaReg1 3 3 1) rfl rfl
  have e := e.next (.addPtr 4 .ax) rfl rfl
  have e := e.next (.addPtr 4 .cx) rfl rfl
  have e := e.next (.subDx 1) rfl rfl
  have e := e.goto (.jmp 27) rfl rfl
  refine ⟨_, ⟨by simp only [St.set]; omega, by simp only [St.set]; omega, by simp only [St.set]; omega, fun i j hi hj => ?_, ?_,
    fun j hj => ?_⟩, e⟩
  · simp only [St.set]; rw [if_neg (by omega), if_neg (by omega), if_neg (by omega)]; exact h4 i j hi hj
  · simp [St.set, St.ptr, slice, low, tailAcc, sqTerm, h5, lane_of A (c := 32 * B + t) rfl]
  · simp [St.set, low, show j ≠ 0 by omega, h6 j hj]

theorem l2_tails (A : Arith F) {x y : List F} (hy : y.length = x.length) {B : Nat} (m t : Nat) {s : St F} (h : L2Tail A x y B t s)
    (hm : 32 * B + (t + m) ≤ x.length) : ∃ s', L2Tail A x y B (t + m) s' ∧ Goes A x y l2Prog (9 * m) 27 s 27 s' := by
  induction m generalizing t s with
  | zero => exact ⟨s, h, Goes.refl _ _⟩
  | succ m ih =>
    obtain ⟨s1, h1, e1⟩ := l2_tail A h (by omega) (by omega)
    obtain ⟨s2, h2, e2⟩ := ih (t + 1) h1 (by omega)
    refine ⟨s2, ?_, ?_⟩
    · rw [show t + (m + 1) = t + 1 + m by omega]; exact h2
    · rw [show 9 * (m + 1) = 9 + 9 * m by omega]; exact e1.trans e2

theorem l2_reduce (A : Arith F) {x y : List F} {B t : Nat} {s : St F} (h : L2Tail A x y B t s) (hx : x.length = 32 * B + t)
    (fuel : Nat) : run A x y l2Prog (fuel + 11) 27 s =
      some (some (reduce A (fun i j => acc A (sqTerm A) x y i j B) (tailAcc A (sqTerm A) x y (32 * B) t))) := by
  obtain ⟨ax, cx, dx, cmp, r⟩ := s
  obtain ⟨h1, h2, h3, h4, h5, h6⟩ := h
  dsimp only at h1 h2 h3 h4 h5 h6
  subst h1 h2 h3
  have e := (Goes.refl (A := A) (x := x) (y := y) (prog := l2Prog) 27
    ⟨4 * (32 * B + t), 4 * (32 * B + t), (x.length : Int) - 32 * B - t, cmp, r⟩).next (.cmp 0) rfl rfl
  have e := e.goto (.je 36) rfl (if_pos (by dsimp only; omega))
  have e := e.next (.addY 0 2 0) rfl rfl
  have e := e.next (.addY 4 6 4) rfl rfl
  have e := e.next (.addY 0 4 0) rfl rfl
  have e := e.next (.upper 0 2) rfl rfl
  have e := e.next (.addX 0 2 0) rfl rfl
  have e := e.next (.addX 0 1 0) rfl rfl
  have e := e.next (.haddX 0 0 0) rfl rfl
  have e := e.next (.haddX 0 0 0) rfl rfl
  rw [e.done (.ret 0) rfl rfl fuel]
  have h40 : ∀ j, j < 8 → r 0 j = _ := fun j => h4 0 j (by omega)
  have h41 : ∀ j, j < 8 → r 2 j = _ := fun j => h4 1 j (by omega)
  have h42 : ∀ j, j < 8 → r 4 j = _ := fun j => h4 2 j (by omega)
  have h43 : ∀ j, j < 8 → r 6 j = _ := fun j => h4 3 j (by omega)
  simp [St.set, low, reduce, half, four, h40, h41, h42, h43, h5, h6]

/-- `L2` ends, never reads outside the slices, and returns the blocked sum, whatever the registers held before. -/
theorem l2_blocked (A : Arith F) (junk : Nat → Nat → F) {x y : List F} (hy : y.length = x.length) {fuel : Nat}
    (hf : steps x.length ≤ fuel) : l2 A junk x y fuel = some (some (blocked A (sqTerm A) x y)) := by
  have e := (Goes.refl (A := A) (x := x) (y := y) (prog := l2Prog) 0 (entry x junk)).next (.clear 0) rfl rfl
  have e := e.next (.clear 1) rfl rfl
  have e := e.next (.clear 2) rfl rfl
  have e := e.next (.clear 3) rfl rfl
  have e := e.next (.clear 4) rfl rfl
  have e := e.next (.clear 5) rfl rfl
  have e := e.next (.clear 6) rfl rfl
  have e := e.next (.clear 7) rfl rfl
  obtain ⟨s1, h1, e1⟩ := l2_blocks A hy (x.length / 32) 0 (s := (((((((((entry x junk).set 0 fun _ => A.zero).set 1
    fun _ => A.zero).set 2 fun _ => A.zero).set 3 fun _ => A.zero).set 4 fun _ => A.zero).set 5 fun _ => A.zero).set 6
    fun _ => A.zero).set 7 fun _ => A.zero)) ⟨rfl, rfl, by simp [St.set, entry], fun i j hi hj => by
      have hi' : i = 0 ∨ i = 1 ∨ i = 2 ∨ i = 3 := by omega
      rcases hi' with rfl | rfl | rfl | rfl <;> simp [St.set, acc]⟩ (by omega)
  rw [Nat.zero_add] at h1
  obtain ⟨s2, h2, e2⟩ := l2_to_tail A h1 (by omega)
  obtain ⟨s3, h3, e3⟩ := l2_tails A hy (x.length % 32) 0 h2 (by omega)
  rw [Nat.zero_add] at h3
  have e4 := ((e.trans e1).trans e2).trans e3
  have hr := l2_reduce A h3 (by omega)
  unfold steps at hf
  unfold l2 blocked
  obtain ⟨f, rfl⟩ : ∃ f, fuel = f + 11 + (0 + 1 + 1 + 1 + 1 + 1 + 1 + 1 + 1 + 18 * (x.length / 32) + 3 + 9 * (x.length % 32)) :=
    ⟨fuel - (11 + (0 + 1 + 1 + 1 + 1 + 1 + 1 + 1 + 1 + 18 * (x.length / 32) + 3 + 9 * (x.length % 32))), by omega⟩
  rw [e4, hr]

end Asm
end Fave

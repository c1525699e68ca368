/-!
# The vector instructions of the distance functions

Model of pkg/hnsw/distancer/asm/dot_amd64.s and l2_amd64.s: the instructions one by one, and a machine for the instructions used.
Arithmetic on `float32` is abstract (`Arith`).  Pointers are byte offsets from the start of the slice they were loaded from; reading
outside the slice is a fault.  A register has eight lanes (the `X` registers are the lower four; instructions on them clear the upper
four, as VEX-encoded instructions do).  Go writes operands in reverse order of the Intel manual: the destination comes last.
The length of a slice is below 2^63, so the 64-bit comparisons and subtractions are those of integers.
-/
namespace Fave
namespace Asm

/-- `float32` operations of the instructions: `VADDPS`, `VSUBPS`, `VFMADD231PS` — asm/dot_amd64.s:23-26, 46-53, asm/l2_amd64.s:27-34, 55-62 -/
structure Arith (F : Type) where
  zero : F
  add : F → F → F
  sub : F → F → F
  /-- `fma a b c` is `a * b + c`, rounded once -/
  fma : F → F → F → F

/-- `AX` points into the first slice, `CX` into the second — asm/dot_amd64.s:8-9 -/
inductive Ptr where
  | ax | cx
  deriving DecidableEq, Repr

/-- the instructions used — asm/dot_amd64.s:8-55, asm/l2_amd64.s:8-64; jumps name the instruction they go to -/
inductive Instr where
  /-- `VXORPS Yr, Yr, Yr` or `VXORPS Xr, Xr, Xr`: clears the register -/
  | clear (r : Nat)
  /-- `CMPQ DX, $k` -/
  | cmp (k : Int)
  /-- `JL`: jump if the last comparison was less -/
  | jl (to : Nat)
  /-- `JE`: jump if the last comparison was equal -/
  | je (to : Nat)
  | jmp (to : Nat)
  /-- `VMOVUPS off(p), Yd` -/
  | load (off : Nat) (p : Ptr) (d : Nat)
  /-- `VFMADD231PS off(p), Ya, Yd` -/
  | fmaMem (off : Nat) (p : Ptr) (a d : Nat)
  /-- `VFMADD231PS Yb, Ya, Yd` -/
  | fmaReg (b a d : Nat)
  /-- `VSUBPS off(p), Ya, Yd` -/
  | subMem (off : Nat) (p : Ptr) (a d : Nat)
  /-- `VMOVSS (p), Xd` -/
  | load1 (p : Ptr) (d : Nat)
  /-- `VFMADD231SS (p), Xa, Xd` -/
  | fmaMem1 (p : Ptr) (a d : Nat)
  /-- `VFMADD231SS Xb, Xa, Xd` -/
  | fmaReg1 (b a d : Nat)
  /-- `VSUBSS (p), Xa, Xd` -/
  | subMem1 (p : Ptr) (a d : Nat)
  /-- `ADDQ $k, p` -/
  | addPtr (k : Nat) (p : Ptr)
  /-- `SUBQ $k, DX`; `DECQ DX` is `subDx 1` -/
  | subDx (k : Int)
  /-- `VADDPS Yb, Ya, Yd` -/
  | addY (b a d : Nat)
  /-- `VADDPS Xb, Xa, Xd` -/
  | addX (b a d : Nat)
  /-- `VEXTRACTF128 $1, Ya, Xd` -/
  | upper (a d : Nat)
  /-- `VHADDPS Xb, Xa, Xd` -/
  | haddX (b a d : Nat)
  /-- `MOVSS Xa, ret` followed by `RET` -/
  | ret (a : Nat)
  deriving DecidableEq, Repr

/-- registers: pointers (in bytes), `DX`, the operands of the last comparison, the vector registers -/
structure St (F : Type) where
  ax : Nat
  cx : Nat
  dx : Int
  cmp : Int × Int
  y : Nat → Nat → F

/-- what an instruction does: go on (with the next instruction or elsewhere), return, or fault -/
inductive Eff (F : Type) where
  | next (s : St F)
  | goto (to : Nat) (s : St F)
  | done (r : F)
  | fault

variable {F : Type}

/-- value of a pointer -/
def St.ptr (s : St F) : Ptr → Nat
  | .ax => s.ax
  | .cx => s.cx

/-- the slice of a pointer: the arguments `x` and `y` — asm/dot_amd64.s:8-9 -/
def slice (x y : List F) : Ptr → List F
  | .ax => x
  | .cx => y

/-- set a register -/
def St.set (s : St F) (d : Nat) (v : Nat → F) : St F := { s with y := fun r => if r = d then v else s.y r }

/-- `n` numbers of four bytes can be read at byte `b` of the slice -/
def readable (l : List F) (b n : Nat) : Bool := b % 4 == 0 && decide (b / 4 + n ≤ l.length)

/-- the number in lane `j` of a read at byte `b` -/
def lane (A : Arith F) (l : List F) (b j : Nat) : F := l.getD (b / 4 + j) A.zero

/-- an `X` register: the upper lanes are cleared -/
def low (A : Arith F) (v : Nat → F) : Nat → F := fun j => if j < 4 then v j else A.zero

/-- one instruction (Intel manual, volume 2) -/
def exec (A : Arith F) (x y : List F) (s : St F) : Instr → Eff F
  | .clear r => .next (s.set r fun _ => A.zero)
  | .cmp k => .next { s with cmp := (s.dx, k) }
  | .jl to => if s.cmp.1 < s.cmp.2 then .goto to s else .next s
  | .je to => if s.cmp.1 = s.cmp.2 then .goto to s else .next s
  | .jmp to => .goto to s
  | .load off p d =>
    if readable (slice x y p) (s.ptr p + off) 8 then .next (s.set d (lane A (slice x y p) (s.ptr p + off))) else .fault
  | .fmaMem off p a d =>
    if readable (slice x y p) (s.ptr p + off) 8 then
      .next (s.set d fun j => A.fma (s.y a j) (lane A (slice x y p) (s.ptr p + off) j) (s.y d j))
    else .fault
  | .fmaReg b a d => .next (s.set d fun j => A.fma (s.y a j) (s.y b j) (s.y d j))
  | .subMem off p a d =>
    if readable (slice x y p) (s.ptr p + off) 8 then
      .next (s.set d fun j => A.sub (s.y a j) (lane A (slice x y p) (s.ptr p + off) j))
    else .fault
  | .load1 p d =>
    if readable (slice x y p) (s.ptr p) 1 then
      .next (s.set d fun j => if j = 0 then lane A (slice x y p) (s.ptr p) 0 else A.zero)
    else .fault
  | .fmaMem1 p a d =>
    if readable (slice x y p) (s.ptr p) 1 then
      .next (s.set d (low A fun j => if j = 0 then A.fma (s.y a 0) (lane A (slice x y p) (s.ptr p) 0) (s.y d 0) else s.y d j))
    else .fault
  | .fmaReg1 b a d =>
    .next (s.set d (low A fun j => if j = 0 then A.fma (s.y a 0) (s.y b 0) (s.y d 0) else s.y d j))
  | .subMem1 p a d =>
    if readable (slice x y p) (s.ptr p) 1 then
      .next (s.set d (low A fun j => if j = 0 then A.sub (s.y a 0) (lane A (slice x y p) (s.ptr p) 0) else s.y a j))
    else .fault
  | .addPtr k .ax => .next { s with ax := s.ax + k }
  | .addPtr k .cx => .next { s with cx := s.cx + k }
  | .subDx k => .next { s with dx := s.dx - k }
  | .addY b a d => .next (s.set d fun j => A.add (s.y a j) (s.y b j))
  | .addX b a d => .next (s.set d (low A fun j => A.add (s.y a j) (s.y b j)))
  | .upper a d => .next (s.set d (low A fun j => s.y a (4 + j)))
  | .haddX b a d => .next (s.set d (low A fun j =>
      if j = 0 then A.add (s.y a 1) (s.y a 0) else if j = 1 then A.add (s.y a 3) (s.y a 2)
      else if j = 2 then A.add (s.y b 1) (s.y b 0) else A.add (s.y b 3) (s.y b 2)))
  | .ret a => .done (s.y a 0)

/-- the machine: `none` if the fuel runs out, `some none` on a fault -/
def run (A : Arith F) (x y : List F) (prog : List Instr) : Nat → Nat → St F → Option (Option F)
  | 0, _, _ => none
  | fuel + 1, pc, s =>
    match prog[pc]? with
    | none => some none
    | some i => match exec A x y s i with
      | .next s => run A x y prog fuel (pc + 1) s
      | .goto to s => run A x y prog fuel to s
      | .done r => some (some r)
      | .fault => some none

/-- `Dot` — asm/dot_amd64.s:8-55: instructions 4 to 17 are `blockloop`, 18 `tail`, 19 to 26 `tailloop`, 27 on `reduce` -/
def dotProg : List Instr := [
  .clear 0, .clear 1, .clear 2, .clear 3,
  .cmp 0x20, .jl 18,
  .load 0 .ax 4, .load 32 .ax 5, .load 64 .ax 6, .load 96 .ax 7,
  .fmaMem 0 .cx 4 0, .fmaMem 32 .cx 5 1, .fmaMem 64 .cx 6 2, .fmaMem 96 .cx 7 3,
  .addPtr 0x80 .ax, .addPtr 0x80 .cx, .subDx 0x20, .jmp 4,
  .clear 4,
  .cmp 0, .je 27,
  .load1 .ax 5, .fmaMem1 .cx 5 4,
  .addPtr 4 .ax, .addPtr 4 .cx, .subDx 1, .jmp 19,
  .addY 0 1 0, .addY 2 3 2, .addY 0 2 0, .upper 0 1, .addX 0 1 0, .addX 0 4 0, .haddX 0 0 0, .haddX 0 0 0, .ret 0]

/-- `L2` — asm/l2_amd64.s:8-64: instructions 8 to 25 are `blockloop`, 26 `tail`, 27 to 35 `tailloop`, 36 on `reduce` -/
def l2Prog : List Instr := [
  .clear 0, .clear 1, .clear 2, .clear 3, .clear 4, .clear 5, .clear 6, .clear 7,
  .cmp 0x20, .jl 26,
  .load 0 .ax 1, .load 32 .ax 3, .load 64 .ax 5, .load 96 .ax 7,
  .subMem 0 .cx 1 1, .subMem 32 .cx 3 3, .subMem 64 .cx 5 5, .subMem 96 .cx 7 7,
  .fmaReg 1 1 0, .fmaReg 3 3 2, .fmaReg 5 5 4, .fmaReg 7 7 6,
  .addPtr 0x80 .ax, .addPtr 0x80 .cx, .subDx 0x20, .jmp 8,
  .clear 1,
  .cmp 0, .je 36,
  .load1 .ax 3, .subMem1 .cx 3 3, .fmaReg1 3 3 1,
  .addPtr 4 .ax, .addPtr 4 .cx, .subDx 1, .jmp 27,
  .addY 0 2 0, .addY 4 6 4, .addY 0 4 0, .upper 0 2, .addX 0 2 0, .addX 0 1 0, .haddX 0 0 0, .haddX 0 0 0, .ret 0]

/-- the registers at the call: `AX`, `CX` at the start of the slices, `DX` the length of `x`, the rest whatever it was —
asm/dot_amd64.s:8-10 -/
def entry (x : List F) (junk : Nat → Nat → F) : St F := ⟨0, 0, x.length, (0, 0), junk⟩

/-- calling `Dot` — asm/dot_amd64.s:7 -/
def dot (A : Arith F) (junk : Nat → Nat → F) (x y : List F) (fuel : Nat) : Option (Option F) :=
  run A x y dotProg fuel 0 (entry x junk)

/-- calling `L2` — asm/l2_amd64.s:7 -/
def l2 (A : Arith F) (junk : Nat → Nat → F) (x y : List F) (fuel : Nat) : Option (Option F) :=
  run A x y l2Prog fuel 0 (entry x junk)

end Asm
end Fave

import Verif.Model.Asm
/-!
# Which bytes the vector instructions read, and the states a call goes through
-/
namespace Fave.Asm
variable {F : Type}

/-- the reads of an instruction: the pointer, the offset and the number of bytes (Intel manual, volume 2: 32 bytes for a packed, 4 bytes for a
scalar operand) -/
def Instr.reads : Instr → List (Ptr × Nat × Nat)
  | .load off p _ => [(p, off, 32)]
  | .fmaMem off p _ _ => [(p, off, 32)]
  | .subMem off p _ _ => [(p, off, 32)]
  | .load1 p _ => [(p, 0, 4)]
  | .fmaMem1 p _ _ => [(p, 0, 4)]
  | .subMem1 p _ _ => [(p, 0, 4)]
  | _ => []

/-- the instructions executed within so many steps, each with the registers before it -/
def trace (A : Arith F) (x y : List F) (prog : List Instr) : Nat → Nat → St F → List (Instr × St F)
  | 0, _, _ => []
  | fuel + 1, pc, s =>
    match prog[pc]? with
    | none => []
    | some i => (i, s) :: match exec A x y s i with
      | .next s => trace A x y prog fuel (pc + 1) s
      | .goto to s => trace A x y prog fuel to s
      | .done _ => []
      | .fault => []

end Fave.Asm

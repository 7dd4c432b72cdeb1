import Verif.Spec.X64
import Verif.Model.X64Link

/-! What C64 talks about: which calls of the assembler are jumps, and reading a word of memory. -/
namespace Verif.X64

/-- A jump, a conditional jump or a call: its label, and the machine instruction for a distance. -/
def Op.jump : Op → Option (Nat × (Int → Instr))
  | .jmp l => some (l, .jmp)
  | .jmp32 l => some (l, .jmp)
  | .j cc l => some (l, .jcc cc)
  | .j32 cc l => some (l, .jcc cc)
  | .call l => some (l, .call)
  | _ => none

/-- The 64-bit word at an offset of a memory image, little endian. -/
def qword (bs : List Byte) (p : Int) : Option (BitVec 64) :=
  if 0 ≤ p then
    match bs.drop p.toNat with
    | a :: b :: c :: d :: e :: f :: g :: h :: _ => some (h ++ g ++ f ++ e ++ d ++ c ++ b ++ a)
    | _ => none
  else none

/-- Where the code of an image begins: after the table. -/
def Asm.entry (A : Asm) (chunk : BitVec 64) : BitVec 64 := chunk + BitVec.ofNat 64 (A.table.length * 8)

/-- The memory from offset `p` of the code on. -/
def Asm.code (A : Asm) (chunk : BitVec 64) (p : Nat) : List Byte := (A.image chunk).drop (A.table.length * 8 + p)

end Verif.X64

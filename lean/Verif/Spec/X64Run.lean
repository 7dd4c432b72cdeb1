import Verif.Spec.X64Exec
import Verif.Spec.X64Link

/-!
A processor that runs a piece of code in memory: fetch, decode, execute.

`Verif.Spec.X64Exec` says what single instructions do to registers and memory; here are the instruction
pointer, jumps, calls and the reads from the table that lies in front of the code.
-/
namespace Verif.X64

/-- Code in memory: `bytes` lie at the address `base`, and the code proper begins `start` bytes later. -/
structure Image where
  bytes : List Byte
  base : BitVec 64
  start : Nat

/-- The address of the first instruction. -/
def Image.entry (I : Image) : BitVec 64 := I.base + BitVec.ofNat 64 I.start

/-- The bytes from offset `p` of the code on. -/
def Image.at (I : Image) (p : Nat) : List Byte := I.bytes.drop (I.start + p)

/-- The instruction pointer becomes `p`; it is kept as an offset from the first instruction. -/
def jumpTo (p : Int) (m : Mach) : Option (Nat × Mach) := if 0 ≤ p then some (p.toNat, m) else none

/-- One instruction.  `none`: the bytes are no instruction, or the instruction is none of those modelled, or it
leaves the memory it may use. -/
def cpu (H : Host) (I : Image) (pc : Nat) (m : Mach) : Option (Nat × Mach) :=
  match decode (I.at pc) with
  | none => none
  | some (i, rest) =>
    let next := pc + ((I.at pc).length - rest.length)
    match i with
    | .jmp rel => jumpTo (next + rel) m
    | .jcc cc rel => match m.flags with
      | none => none
      | some f => if cond f cc then jumpTo (next + rel) m else some (next, m)
    | .call rel => jumpTo (next + rel) { m with stack := (I.entry + BitVec.ofNat 64 next) :: m.stack }
    | .jmpRM (.reg r) => some ((m.reg r - I.entry).toNat, m)
    | .lea .q r (.rip d) => some (next, m.setReg r (I.entry + BitVec.ofInt 64 (next + d)))
    | .movL .q r (.mem x) => match exec H (.movL .q r (.mem x)) m with
      | some m => some (next, m)
      | none => match qword I.bytes ((ea m x - I.base).toNat : Nat) with
        | some v => some (next, m.setReg r v)
        | none => none
    | i => match exec H i m with
      | some m => some (next, m)
      | none => none

/-- The processor gets from one place and state to another. -/
inductive Reach (H : Host) (I : Image) : Nat → Mach → Nat → Mach → Prop where
  | here (pc : Nat) (m : Mach) : Reach H I pc m pc m
  | step {pc pc' pc'' : Nat} {m m' m'' : Mach} : cpu H I pc m = some (pc', m') → Reach H I pc' m' pc'' m'' → Reach H I pc m pc'' m''

/-- The code lies in the address space, outside the plugin's memory block. -/
structure ImageOk (H : Host) (I : Image) : Prop where
  fits : I.bytes.length < 18446744073709551616
  apart : ∀ p, p < I.bytes.length → H.memSize ≤ H.offset (I.base + BitVec.ofNat 64 p)

/-- The linked code of an assembler, put at `chunk`. -/
def Asm.toImage (A : Asm) (chunk : BitVec 64) : Image := ⟨A.image chunk, chunk, A.table.length * 8⟩

/-- How far the code had got before call number `n` of the assembler. -/
def pos (ops : List Op) (n : Nat) : Nat :=
  match Asm.run true {} (ops.take n) with
  | some A => A.pc
  | none => 0

end Verif.X64

import Verif.Model.X64Asm

/-! Labels, the address table and the final memory image of the x64 assembler:
vm/label.h, vm/x64/assembler-x64.h:373-562, 580-592, 920-954 and vm/x64/assembler-x64.cpp:25-51.

Left out: `call(PatchCodeLabel*)` (thunk calls), `RipCodeLabel`, and the growth of the buffer.
The buffer is a list of bytes; `none` means that an assertion fails or that a write would leave
the buffer. One assertion, that of `CodeLabelBase::use`, can be turned off with `checks`, because
what happens without it is of interest: release builds compile assertions out. -/
namespace Verif.X64

/-- vm/assembler.h:157-163, vm/label.h:119, 182, assembler-x64.h members address_table_ and
address_table_reloc_: the assembler and the labels it knows. Labels are numbered; `lab` are the
status words of the jump labels (`Label`), `adr` those of the code addresses (`PatchCodeLabel`)
and `tab` those of the table labels (`RipDataLabel`). -/
structure Asm where
  buf : List Byte := []
  lab : Nat → BitVec 32 := fun _ => 0
  adr : Nat → BitVec 32 := fun _ => 0
  tab : Nat → BitVec 32 := fun _ => 0
  table : List (BitVec 64) := []
  reloc : List Nat := []

/-- vm/assembler.h:75-78 pc. -/
def Asm.pc (A : Asm) : Nat := A.buf.length

/-- The dereferences of an `int32_t*` in the code buffer, assembler-x64.h:391. -/
def peek32 (buf : List Byte) (p : Nat) : Option (BitVec 32) :=
  match buf.drop p with
  | a :: b :: c :: d :: _ => some (d ++ c ++ b ++ a)
  | _ => none

/-- The stores through an `int32_t*` in the code buffer, assembler-x64.h:392, 405, 416, 952. -/
def poke32 (buf : List Byte) (p : Nat) (v : BitVec 32) : Option (List Byte) :=
  if p + 4 ≤ buf.length then some (buf.take p ++ le32 v ++ buf.drop (p + 4)) else none

/-- One label's status word is replaced. -/
def upd {α : Type} (f : Nat → α) (k : Nat) (v : α) : Nat → α := fun i => if i = k then v else f i

/-- vm/label.h:85-87, 159-161 bound. -/
def boundSt (s : BitVec 32) : Bool := s.getLsbD 0
/-- vm/label.h:78-80 ToOffset of a `Label`: a logical shift. -/
def toOffset (s : BitVec 32) : Nat := (s >>> 1).toNat
/-- vm/label.h:152-154 ToOffset of a `CodeLabelBase`: an arithmetic shift. -/
def toOffsetS (s : BitVec 32) : Int := (s.sshiftRight 1).toInt
/-- vm/label.h:82-84, 156-158 used. -/
def usedSt (s : BitVec 32) : Bool := boundSt s || s >>> 1 != 0
/-- vm/label.h:102-106, 175-179 bind: the new status word. -/
def boundAt (pc : Nat) : BitVec 32 := (BitVec.ofNat 32 pc <<< 1) ||| 1
/-- vm/label.h:96-101 addPending and 170-174 use: the new status word. -/
def pendingAt (pc : Nat) : BitVec 32 := BitVec.ofNat 32 pc <<< 1

/-- Bytes are appended: vm/assembler.h:83-107. -/
def Asm.add (A : Asm) (bs : List Byte) : Asm := { A with buf := A.buf ++ bs }

/-- assembler-x64.h:931-939 emitJumpTarget. -/
def Asm.target (A : Asm) (l : Nat) : Asm :=
  if boundSt (A.lab l) then
    A.add (le32 (BitVec.ofInt 32 ((toOffset (A.lab l) : Int) - (A.pc + 4))))
  else { A with buf := A.buf ++ le32 (A.lab l), lab := upd A.lab l (pendingAt (A.pc + 4)) }

/-- assembler-x64.h:920-930 canEmitSmallJump: the distance, if the label is near. -/
def Asm.small (A : Asm) (l : Nat) : Option (BitVec 8) :=
  if boundSt (A.lab l) then
    let delta : Int := (toOffset (A.lab l) : Int) - (A.pc + 2)
    if delta < -128 ∨ delta > 127 then none else some (BitVec.ofInt 8 delta)
  else none

/-- assembler-x64.h:383-394: the loop of bind, which walks the list threaded through the code.
`fuel` bounds the number of turns; the length of the buffer is enough (`C64_bind_total`). -/
def patch (pc : Nat) : Nat → List Byte → BitVec 32 → Option (List Byte)
  | 0, buf, s => if s = 0 then some buf else none
  | n + 1, buf, s =>
    if s = 0 then some buf
    else
      let o := toOffset s
      if o < 5 then none
      else match peek32 buf (o - 4) with
        | none => none
        | some next => match poke32 buf (o - 4) (BitVec.ofInt 32 ((pc : Int) - o)) with
          | none => none
          | some buf => patch pc n buf next

/-- assembler-x64.h:373-397 bind(Label*). -/
def Asm.bind (A : Asm) (l : Nat) : Option Asm :=
  if boundSt (A.lab l) then none
  else match patch A.pc A.pc A.buf (A.lab l) with
    | none => none
    | some buf => some { A with buf := buf, lab := upd A.lab l (boundAt A.pc) }

/-- assembler-x64.h:237-244: the bytes of `Operand(rip)`. The constructor writes its offset one
byte too far and leaves the first displacement byte as it was (`junk`); every user overwrites all
four of them. -/
def ripOpd (junk : Byte) : Opd := { rex := 0, bytes := [0x05, junk, 0, 0, 0] }

/-- assembler-x64.h:941-954 emitRipRelativeConstant. Running out of offsets is `none`. -/
def Asm.ripConst (A : Asm) (v : BitVec 64) : Option Asm :=
  let size := (A.table.length + 1) * 8
  if A.pc > 2147483647 - size then none
  else match poke32 A.buf (A.pc - 4) (BitVec.ofInt 32 (-((A.pc : Int) + size))) with
    | none => none
    | some buf => some { A with buf := buf, table := A.table ++ [v] }

/-- assembler-x64.h:580-592 lea(Register, RipLabel*) of a label that is not bound. (The branch for
a bound label, which stores a single byte of the wrong sign, has no user; it is `none` here.) -/
def Asm.leaTab (checks : Bool) (A : Asm) (r : Gpr) (k : Nat) (junk : Byte) : Option Asm :=
  let A := A.add (emit1_64 0x8d (.gpr r) (.mem (ripOpd junk)))
  if boundSt (A.tab k) then none
  else if checks && usedSt (A.tab k) then none
  else some { A with tab := upd A.tab k (pendingAt A.pc) }

/-- assembler-x64.h:409-419 bind(RipDataLabel*): the label names the last entry put into the
table so far. -/
def Asm.bindTab (A : Asm) (k : Nat) : Option Asm :=
  if boundSt (A.tab k) then none
  else if usedSt (A.tab k) then
    let orig := toOffsetS (A.tab k)
    let delta : Int := -(orig + A.table.length * 8)
    if orig < 4 ∨ delta < -2147483648 then none
    else match poke32 A.buf (orig.toNat - 4) (BitVec.ofInt 32 delta) with
      | none => none
      | some buf => some { A with buf := buf, tab := upd A.tab k (boundAt A.pc) }
  else some { A with tab := upd A.tab k (boundAt A.pc) }

/-- assembler-x64.h:496-504 emit_absolute_address: one entry of the table is the address of a
label. The last check is the assertion of vm/label.h:173. -/
def Asm.abs (checks : Bool) (A : Asm) (a : Nat) : Option Asm :=
  if boundSt (A.adr a) then
    some { A with table := A.table ++ [BitVec.ofInt 64 (toOffsetS (A.adr a))],
                  reloc := A.reloc ++ [A.table.length] }
  else if checks && usedSt (A.adr a) then none
  else
    let st := BitVec.ofInt 32 (-(A.table.length + 1 : Int)) <<< 1
    if toOffsetS st ≠ -(A.table.length + 1 : Int) then none
    else some { A with table := A.table ++ [0], adr := upd A.adr a st,
                       reloc := A.reloc ++ [A.table.length] }

/-- assembler-x64.h:420-456 bind(PatchCodeLabel*). Labels used by thunk calls are not modelled, so
a used label has a negative offset. -/
def Asm.bindAdr (A : Asm) (a : Nat) : Option Asm :=
  if boundSt (A.adr a) then none
  else if usedSt (A.adr a) then
    let src := toOffsetS (A.adr a)
    if 0 ≤ src then none
    else
      let i := (-src - 1).toNat
      if i < A.table.length then
        some { A with table := A.table.set i (BitVec.ofNat 64 A.pc), adr := upd A.adr a (boundAt A.pc) }
      else none
  else some { A with adr := upd A.adr a (boundAt A.pc) }

/-- A call of the assembler's interface. -/
inductive Op where
  | raw (bs : List Byte)
  | jmp (l : Nat) | jmp32 (l : Nat) | j (cc : Fin 16) (l : Nat) | j32 (cc : Fin 16) (l : Nat)
  | call (l : Nat) | bind (l : Nat)
  | callConst (v : BitVec 64) (junk : Byte) | jmpConst (v : BitVec 64) (junk : Byte)
  | leaTab (r : Gpr) (k : Nat) (junk : Byte) | bindTab (k : Nat)
  | abs (a : Nat) | bindAdr (a : Nat)

/-- The methods of the assembler: jmp 522-530, jmp32 541-544, j 546-554, j32 556-559, call 472-482,
jmp to an address 536-539; the rest as defined above. `raw` is any other instruction
(`Model/X64Asm`). -/
def Asm.step (checks : Bool) (A : Asm) : Op → Option Asm
  | .raw bs => some (A.add bs)
  | .jmp l => match A.small l with
    | some d => some (A.add [0xeb, d])
    | none => some ((A.add [0xe9]).target l)
  | .jmp32 l => some ((A.add [0xe9]).target l)
  | .j cc l => match A.small l with
    | some d => some (A.add [0x70 + BitVec.ofNat 8 cc.val, d])
    | none => some ((A.add [0x0f, 0x80 + BitVec.ofNat 8 cc.val]).target l)
  | .j32 cc l => some ((A.add [0x0f, 0x80 + BitVec.ofNat 8 cc.val]).target l)
  | .call l => some ((A.add [0xe8]).target l)
  | .bind l => A.bind l
  | .callConst v junk => (A.add (emit1 0xff (.num 2) (.mem (ripOpd junk)))).ripConst v
  | .jmpConst v junk => (A.add (emit1 0xff (.num 4) (.mem (ripOpd junk)))).ripConst v
  | .leaTab r k junk => A.leaTab checks r k junk
  | .bindTab k => A.bindTab k
  | .abs a => A.abs checks a
  | .bindAdr a => A.bindAdr a

/-- A sequence of calls. The code may not outgrow the largest buffer: vm/assembler.h:111-141 doubles
4096 bytes while the result is at most `INT_MAX / 2`, which stops at 2^29. -/
def Asm.run (checks : Bool) : Asm → List Op → Option Asm
  | A, [] => some A
  | A, op :: ops => match A.step checks op with
    | none => none
    | some A => if A.pc ≤ 536870912 then Asm.run checks A ops else none

/-- vm/x64/assembler-x64.cpp:33-39: the relocated table; `entry` is where the code starts. -/
def relocate (entry : BitVec 64) : List Nat → List (BitVec 64) → List (BitVec 64)
  | [], t => t
  | i :: is, t => relocate entry is (t.set i (entry + t.getD i 0))

/-- vm/x64/assembler-x64.cpp:25-51 emitToExecutableMemory: what is written at `chunk`. The table
comes first, backwards, and then the code. -/
def Asm.image (A : Asm) (chunk : BitVec 64) : List Byte :=
  let entry := chunk + BitVec.ofNat 64 (A.table.length * 8)
  (relocate entry A.reloc A.table).reverse.flatMap le64 ++ A.buf

end Verif.X64

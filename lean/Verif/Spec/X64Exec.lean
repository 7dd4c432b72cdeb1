import Verif.Spec.X64
import Verif.Model.Interp

/-!
What the x64 instructions of `Verif.X64.Instr` do to a processor that runs the code of a plugin: a
small specification written from the processor manuals, for the instructions the just-in-time
compiler uses.

The processor sees the host's 64-bit address space.  Two places of it matter here: the memory block
of the plugin, and four 32-bit members of its context object.  An access to any other place is a
`none`: the code has left its sandbox.  Jumps and calls have no meaning here, nor have the instructions that make
and leave frames of the native stack by computing with rsp: they are in `Verif.Spec.X64Frames`.
-/
namespace Verif.X64
open Verif.VM (rd32 wr32 wr8 rd64 wr64)

/-- The members of the context object that compiled code uses. -/
inductive Field where | hp | sp | frm | scope
deriving DecidableEq, Repr

/-- Outcome of comparing two floats. -/
inductive FRel where | lt | eq | gt | un
deriving DecidableEq, Repr

/-- Single precision arithmetic on bit patterns. Arbitrary. -/
structure Fpu where
  add : BitVec 32 → BitVec 32 → BitVec 32
  sub : BitVec 32 → BitVec 32 → BitVec 32
  mul : BitVec 32 → BitVec 32 → BitVec 32
  div : BitVec 32 → BitVec 32 → BitVec 32
  /-- the C library's `fmodf` -/
  fmod : BitVec 32 → BitVec 32 → BitVec 32
  cmp : BitVec 32 → BitVec 32 → FRel
  ofInt : BitVec 32 → BitVec 32

/-- Where things are in the host's address space. -/
structure Host where
  /-- address of the plugin's memory block -/
  base : BitVec 64
  memSize : Int
  /-- address of the context object -/
  ctx : BitVec 64
  /-- offsets of its members -/
  off : Field → BitVec 32
  fpu : Fpu
  /-- what a call of a C function leaves in the registers it need not preserve -/
  junk : (Gpr → BitVec 64) → Gpr → BitVec 64

/-- Status flags. -/
structure Flags where
  zf : Bool
  cf : Bool
  sf : Bool
  of : Bool
  pf : Bool
deriving DecidableEq, Repr

/-- State of the processor and of the memory it may touch.  `flags` is `none` after an instruction
whose effect on the flags is not modelled.  Of the float registers only the low 32 bits are kept. -/
structure Mach where
  reg : Gpr → BitVec 64
  xmm : Xmm → BitVec 32
  flags : Option Flags
  /-- the direction flag -/
  df : Bool
  mem : Int → BitVec 8
  field : Field → BitVec 32
  /-- what has been pushed on the native stack -/
  stack : List (BitVec 64)

/-- Assign a register. -/
def Mach.setReg (m : Mach) (r : Gpr) (v : BitVec 64) : Mach :=
  { m with reg := fun x => if x = r then v else m.reg x }
/-- Assign a float register. -/
def Mach.setXmm (m : Mach) (r : Xmm) (v : BitVec 32) : Mach :=
  { m with xmm := fun x => if x = r then v else m.xmm x }
/-- Assign a member of the context. -/
def Mach.setField (m : Mach) (f : Field) (v : BitVec 32) : Mach :=
  { m with field := fun x => if x = f then v else m.field x }

/-- Address of a member of the context. -/
def Host.addr (H : Host) (f : Field) : BitVec 64 := H.ctx + (H.off f).signExtend 64

/-- The member at an address. -/
def Host.fieldAt (H : Host) (a : BitVec 64) : Option Field :=
  if a = H.addr .hp then some .hp
  else if a = H.addr .sp then some .sp
  else if a = H.addr .frm then some .frm
  else if a = H.addr .scope then some .scope
  else none

/-- Offset of an address in the plugin's block. -/
def Host.offset (H : Host) (a : BitVec 64) : Int := ((a - H.base).toNat : Int)

/-- The `n` bytes from `a` on belong to the plugin's block. -/
def Host.inBlock (H : Host) (a : BitVec 64) (n : Int) : Bool := decide (H.offset a + n ≤ H.memSize)

/-- Read four bytes. -/
def load32 (H : Host) (m : Mach) (a : BitVec 64) : Option (BitVec 32) :=
  match H.fieldAt a with
  | some f => some (m.field f)
  | none => if H.inBlock a 4 then some (rd32 m.mem (H.offset a)) else none

/-- Read eight bytes. -/
def load64 (H : Host) (m : Mach) (a : BitVec 64) : Option (BitVec 64) :=
  match H.fieldAt a with
  | some _ => none
  | none => if H.inBlock a 8 then some (rd64 m.mem (H.offset a)) else none

/-- Write one byte. -/
def store8 (H : Host) (m : Mach) (a : BitVec 64) (v : BitVec 8) : Option Mach :=
  match H.fieldAt a with
  | some _ => none
  | none => if H.inBlock a 1 then some { m with mem := wr8 m.mem (H.offset a) v } else none

/-- Write two bytes. -/
def store16 (H : Host) (m : Mach) (a : BitVec 64) (v : BitVec 16) : Option Mach :=
  match H.fieldAt a with
  | some _ => none
  | none => if H.inBlock a 2 then
      some { m with mem := wr8 (wr8 m.mem (H.offset a) (v.extractLsb' 0 8)) (H.offset a + 1) (v.extractLsb' 8 8) }
    else none

/-- Write four bytes. -/
def store32 (H : Host) (m : Mach) (a : BitVec 64) (v : BitVec 32) : Option Mach :=
  match H.fieldAt a with
  | some f => some (m.setField f v)
  | none => if H.inBlock a 4 then some { m with mem := wr32 m.mem (H.offset a) v } else none

/-- Write eight bytes. -/
def store64 (H : Host) (m : Mach) (a : BitVec 64) (v : BitVec 64) : Option Mach :=
  match H.fieldAt a with
  | some _ => none
  | none => if H.inBlock a 8 then some { m with mem := wr64 m.mem (H.offset a) v } else none

/-- Effective address of an operand. -/
def ea (m : Mach) (x : Mem) : BitVec 64 :=
  (match x.base with | some b => m.reg b | none => 0) +
  (match x.index with | some (i, s) => m.reg i <<< s.val | none => 0) + BitVec.ofInt 64 x.disp

/-- Low half of a register. -/
def Mach.lo (m : Mach) (r : Gpr) : BitVec 32 := (m.reg r).setWidth 32

/-- Read a 32-bit operand. -/
def get32 (H : Host) (m : Mach) : RM → Option (BitVec 32)
  | .reg r => some (m.lo r)
  | .mem x => load32 H m (ea m x)
  | .rip _ => none

/-- Read a 64-bit operand. -/
def get64 (H : Host) (m : Mach) : RM → Option (BitVec 64)
  | .reg r => some (m.reg r)
  | .mem x => load64 H m (ea m x)
  | .rip _ => none

/-- Write a 32-bit operand: a register's upper half is cleared. -/
def put32 (H : Host) (m : Mach) (d : RM) (v : BitVec 32) : Option Mach :=
  match d with
  | .reg r => some (m.setReg r (v.setWidth 64))
  | .mem x => store32 H m (ea m x) v
  | .rip _ => none

/-- Write a 64-bit operand. -/
def put64 (H : Host) (m : Mach) (d : RM) (v : BitVec 64) : Option Mach :=
  match d with
  | .reg r => some (m.setReg r v)
  | .mem x => store64 H m (ea m x) v
  | .rip _ => none

/-- Write the low byte of a register: the other bits stay. -/
def withByte (x : BitVec 64) (b : BitVec 8) : BitVec 64 := x.extractLsb' 8 56 ++ b

/-- Flags of `a - b`.  The parity flag is that of the low byte. -/
def cmpFlags {n : Nat} (a b : BitVec n) : Flags :=
  { zf := a == b
    cf := decide (a.toNat < b.toNat)
    sf := decide ((a - b).toInt < 0)
    of := decide (a.toInt - b.toInt ≠ (a - b).toInt)
    pf := decide (((List.range 8).filter fun i => (a - b).getLsbD i).length % 2 = 0) }

/-- Flags of `a & b`. -/
def testFlags {n : Nat} (a b : BitVec n) : Flags :=
  { zf := (a &&& b) == 0
    cf := false
    sf := decide ((a &&& b).toInt < 0)
    of := false
    pf := decide (((List.range 8).filter fun i => (a &&& b).getLsbD i).length % 2 = 0) }

/-- Flags of UCOMISS. -/
def ucomFlags : FRel → Flags
  | .un => ⟨true, true, false, false, true⟩
  | .gt => ⟨false, false, false, false, false⟩
  | .lt => ⟨false, true, false, false, false⟩
  | .eq => ⟨true, false, false, false, false⟩

/-- The condition a condition code stands for. -/
def cond (f : Flags) (cc : Cc) : Bool :=
  match cc.val with
  | 0 => f.of | 1 => !f.of
  | 2 => f.cf | 3 => !f.cf
  | 4 => f.zf | 5 => !f.zf
  | 6 => f.cf || f.zf | 7 => !(f.cf || f.zf)
  | 8 => f.sf | 9 => !f.sf
  | 10 => f.pf | 11 => !f.pf
  | 12 => f.sf != f.of | 13 => f.sf == f.of
  | 14 => f.zf || (f.sf != f.of) | _ => !(f.zf || (f.sf != f.of))

/-- Result of a two-operand instruction; those with carry are not modelled. -/
def aluFn {n : Nat} (op : Alu) (a b : BitVec n) : Option (BitVec n) :=
  match op with
  | .add => some (a + b) | .or => some (a ||| b) | .and => some (a &&& b)
  | .sub => some (a - b) | .xor => some (a ^^^ b) | .cmp => some (a - b)
  | .adc => none | .sbb => none

/-- A 32-bit two-operand instruction. -/
def alu32 (H : Host) (m : Mach) (op : Alu) (d : RM) (b : BitVec 32) : Option Mach :=
  match get32 H m d with
  | none => none
  | some a =>
    match op with
    | .cmp => some { m with flags := some (cmpFlags a b) }
    | op => match aluFn op a b with
      | none => none
      | some v => put32 H { m with flags := none } d v

/-- A 64-bit two-operand instruction. -/
def alu64 (H : Host) (m : Mach) (op : Alu) (d : RM) (b : BitVec 64) : Option Mach :=
  match get64 H m d with
  | none => none
  | some a =>
    match op with
    | .cmp => some { m with flags := some (cmpFlags a b) }
    | op => match aluFn op a b with
      | none => none
      | some v => put64 H { m with flags := none } d v

/-- Result of a shift; the processor uses the amount modulo the operand size. -/
def shiftFn {n : Nat} (op : Shift) (a : BitVec n) (k : Nat) : BitVec n :=
  match op with
  | .shl => a <<< (k % n) | .shr => a >>> (k % n) | .sar => a.sshiftRight (k % n)

/-- Signed division of `hi:lo` by `d`: quotient and remainder, or the divide error. -/
def idivFn {n : Nat} (hi lo d : BitVec n) : Option (BitVec n × BitVec n) :=
  let x := (hi ++ lo).toInt
  let q := x.tdiv d.toInt
  if d = 0 ∨ q < -(2 ^ (n - 1)) ∨ 2 ^ (n - 1) ≤ q then none
  else some (BitVec.ofInt n q, BitVec.ofInt n (x.tmod d.toInt))

/-- `n` rounds of MOVSD with the direction flag clear. -/
def movsd (H : Host) : Nat → Mach → Option Mach
  | 0, m => some m
  | n+1, m =>
    match load32 H m (m.reg 6) with
    | none => none
    | some v => match store32 H m (m.reg 7) v with
      | none => none
      | some m => movsd H n ((m.setReg 6 (m.reg 6 + 4)).setReg 7 (m.reg 7 + 4))

/-- `n` rounds of MOVSB with the direction flag clear. -/
def movsb (H : Host) : Nat → Mach → Option Mach
  | 0, m => some m
  | n+1, m =>
    if H.fieldAt (m.reg 6) = none ∧ H.inBlock (m.reg 6) 1 then
      match store8 H m (m.reg 7) (m.mem (H.offset (m.reg 6))) with
      | none => none
      | some m => movsb H n ((m.setReg 6 (m.reg 6 + 1)).setReg 7 (m.reg 7 + 1))
    else none

/-- `n` rounds of STOSD with the direction flag clear. -/
def stosd (H : Host) : Nat → Mach → Option Mach
  | 0, m => some m
  | n+1, m =>
    match store32 H m (m.reg 7) (m.lo 0) with
    | none => none
    | some m => stosd H n (m.setReg 7 (m.reg 7 + 4))

/-- A string instruction with REP: as many rounds as rcx says, and rcx ends at zero. -/
def rep (f : Nat → Mach → Option Mach) (m : Mach) : Option Mach :=
  if m.df then none
  else match f (m.reg 1).toNat m with
    | none => none
    | some m => some (m.setReg 1 0)

/-- Execute one instruction. -/
def exec (H : Host) (i : Instr) (m : Mach) : Option Mach :=
  match i with
  | .alu op .l d s => alu32 H m op d (m.lo s)
  | .alu op .q d s => alu64 H m op d (m.reg s)
  | .aluL op .l d s => match get32 H m s with
    | none => none
    | some b => alu32 H m op (.reg d) b
  | .aluI op .l d imm => alu32 H m op d (BitVec.ofInt 32 imm)
  | .aluI op .q d imm => if d = .reg 4 then none else alu64 H m op d (BitVec.ofInt 64 imm)
  | .test .l d s => match get32 H m d with
    | none => none
    | some a => some { m with flags := some (testFlags a (m.lo s)) }
  | .test .q d s => match get64 H m d with
    | none => none
    | some a => some { m with flags := some (testFlags a (m.reg s)) }
  | .mov .w (.mem x) s => store16 H m (ea m x) ((m.reg s).setWidth 16)
  | .mov .l d s => put32 H m d (m.lo s)
  | .mov .q d s => put64 H m d (m.reg s)
  | .movL .l d s => match get32 H m s with
    | none => none
    | some v => put32 H m (.reg d) v
  | .movL .q d s => if s = .reg 4 then none else match get64 H m s with
    | none => none
    | some v => put64 H m (.reg d) v
  | .movI .l d imm => put32 H m d (BitVec.ofInt 32 imm)
  | .movI .q d imm => put64 H m d (BitVec.ofInt 64 imm)
  | .movA .l d imm => put32 H m (.reg d) (BitVec.ofInt 32 imm)
  | .movA .q d imm => put64 H m (.reg d) (BitVec.ofInt 64 imm)
  | .movB (.mem x) (.lo s) => store8 H m (ea m x) ((m.reg s).setWidth 8)
  | .lea .q d (.mem x) => some (m.setReg d (ea m x))
  | .movsxd .q d s => match get32 H m s with
    | none => none
    | some v => some (m.setReg d (v.signExtend 64))
  | .movzxb .l d (.reg (.lo s)) => some (m.setReg d (((m.reg s).setWidth 8).setWidth 64))
  | .imul .l d s => match get32 H m s with
    | none => none
    | some v => put32 H { m with flags := none } (.reg d) (m.lo d * v)
  | .imul .q d s => match get64 H m s with
    | none => none
    | some v => put64 H { m with flags := none } (.reg d) (m.reg d * v)
  | .imulI .l d s imm => match get32 H m s with
    | none => none
    | some v => put32 H { m with flags := none } (.reg d) (v * BitVec.ofInt 32 imm)
  | .not .l d => match get32 H m d with
    | none => none
    | some v => put32 H m d (~~~ v)
  | .not .q d => match get64 H m d with
    | none => none
    | some v => put64 H m d (~~~ v)
  | .neg .l d => match get32 H m d with
    | none => none
    | some v => put32 H { m with flags := none } d (-v)
  | .neg .q d => match get64 H m d with
    | none => none
    | some v => put64 H { m with flags := none } d (-v)
  | .idiv .l s => match get32 H m s with
    | none => none
    | some d => match idivFn (m.lo 2) (m.lo 0) d with
      | none => none
      | some (q, r) => some (({ m with flags := none }.setReg 0 (q.setWidth 64)).setReg 2 (r.setWidth 64))
  | .idiv .q s => match get64 H m s with
    | none => none
    | some d => match idivFn (m.reg 2) (m.reg 0) d with
      | none => none
      | some (q, r) => some (({ m with flags := none }.setReg 0 q).setReg 2 r)
  | .shiftI op .l d n => match get32 H m d with
    | none => none
    | some v => put32 H { m with flags := none } d (shiftFn op v n)
  | .shiftI op .q d n => match get64 H m d with
    | none => none
    | some v => put64 H { m with flags := none } d (shiftFn op v n)
  | .shiftCl op .l d => match get32 H m d with
    | none => none
    | some v => put32 H { m with flags := none } d (shiftFn op v ((m.reg 1).setWidth 8).toNat)
  | .shiftCl op .q d => match get64 H m d with
    | none => none
    | some v => put64 H { m with flags := none } d (shiftFn op v ((m.reg 1).setWidth 8).toNat)
  | .xchg .q (.reg d) s => some ((m.setReg d (m.reg s)).setReg s (m.reg d))
  | .set cc (.reg (.lo d)) => match m.flags with
    | none => none
    | some f => some (m.setReg d (withByte (m.reg d) (if cond f cc then 1 else 0)))
  | .push r => some { m with stack := m.reg r :: m.stack }
  | .pop r => match m.stack with
    | [] => none
    | v :: st => some ({ m with stack := st }.setReg r v)
  | .cld => some { m with df := false }
  | .repMovsb => rep (movsb H) m
  | .repMovsd => rep (movsd H) m
  | .repStosd => rep (stosd H) m
  | .sse op d (.reg s) => some (m.setXmm d (match op with
      | .addss => H.fpu.add (m.xmm d) (m.xmm s) | .mulss => H.fpu.mul (m.xmm d) (m.xmm s)
      | .subss => H.fpu.sub (m.xmm d) (m.xmm s) | .divss => H.fpu.div (m.xmm d) (m.xmm s)))
  | .xorps d (.reg s) => some (m.setXmm d (m.xmm d ^^^ m.xmm s))
  | .ucomiss d (.reg s) => some { m with flags := some (ucomFlags (H.fpu.cmp (m.xmm d) (m.xmm s))) }
  | .movdOut (.reg d) s => some (m.setReg d ((m.xmm s).setWidth 64))
  | .movdIn d (.reg s) => some (m.setXmm d (m.lo s))
  | .cvtsi2ss d (.reg s) => some (m.setXmm d (H.fpu.ofInt (m.lo s)))
  | _ => none

end Verif.X64

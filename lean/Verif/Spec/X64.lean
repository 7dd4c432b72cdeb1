/-!
A small specification of the x86-64 processor's instruction format (64-bit mode), written from the
processor manuals and independent of the assembler of vm/x64: which instruction a byte sequence
denotes.  Only the part of the instruction set the assembler can emit is covered; `decode` answers
`none` for everything else.
-/
namespace Verif.X64

/-- A byte. -/
abbrev Byte := BitVec 8
/-- General purpose registers rax, rcx, rdx, rbx, rsp, rbp, rsi, rdi, r8 ... r15. -/
abbrev Gpr := Fin 16
/-- Float registers xmm0 ... xmm15. -/
abbrev Xmm := Fin 16
/-- Condition codes in the numbering of Jcc and SETcc. -/
abbrev Cc := Fin 16

/-- Operand size: 16, 32 or 64 bits. -/
inductive Width where | w | l | q
deriving DecidableEq, Repr

/-- A memory operand: `base + index * 2^scale + disp`. -/
structure Mem where
  base : Option Gpr
  index : Option (Gpr × Fin 4)
  disp : Int
deriving DecidableEq, Repr

/-- What the r/m field of an instruction denotes; `rip` is relative to the next instruction. -/
inductive RM where
  | reg (r : Gpr) | mem (m : Mem) | rip (disp : Int)
deriving DecidableEq, Repr

/-- An eight-bit register: the low byte of a register, or bits 8..15 of rax, rcx, rdx, rbx. -/
inductive Reg8 where | lo (r : Gpr) | hi (r : Fin 4)
deriving DecidableEq, Repr

/-- An eight-bit operand. -/
inductive RM8 where | reg (r : Reg8) | mem (m : Mem) | rip (disp : Int)
deriving DecidableEq, Repr

/-- Two-operand integer instructions in the numbering of their opcodes. -/
inductive Alu where | add | or | adc | sbb | and | sub | xor | cmp
deriving DecidableEq, Repr

/-- Shifts. -/
inductive Shift where | shl | shr | sar
deriving DecidableEq, Repr

/-- Scalar single precision arithmetic. -/
inductive Sse where | addss | mulss | subss | divss
deriving DecidableEq, Repr

/-- Instructions. -/
inductive Instr where
  /-- destination op= source -/
  | alu (op : Alu) (w : Width) (d : RM) (s : Gpr)
  | aluL (op : Alu) (w : Width) (d : Gpr) (s : RM)
  | aluI (op : Alu) (w : Width) (d : RM) (imm : Int)
  | test (w : Width) (d : RM) (s : Gpr)
  | testI (w : Width) (d : RM) (imm : Int)
  | mov (w : Width) (d : RM) (s : Gpr)
  | movL (w : Width) (d : Gpr) (s : RM)
  | movI (w : Width) (d : RM) (imm : Int)
  /-- move an immediate of the operand's full size -/
  | movA (w : Width) (d : Gpr) (imm : Int)
  | movB (d : RM8) (s : Reg8)
  | lea (w : Width) (d : Gpr) (s : RM)
  | movsxd (w : Width) (d : Gpr) (s : RM)
  | movzxb (w : Width) (d : Gpr) (s : RM8)
  | imul (w : Width) (d : Gpr) (s : RM)
  | imulI (w : Width) (d : Gpr) (s : RM) (imm : Int)
  | not (w : Width) (d : RM) | neg (w : Width) (d : RM) | idiv (w : Width) (s : RM)
  | shiftI (op : Shift) (w : Width) (d : RM) (n : Nat)
  | shiftCl (op : Shift) (w : Width) (d : RM)
  | xchg (w : Width) (d : RM) (s : Gpr)
  | set (cc : Cc) (d : RM8)
  | push (r : Gpr) | pushI (imm : Int) | pop (r : Gpr)
  | callRM (t : RM) | jmpRM (t : RM)
  | call (rel : Int) | jmp (rel : Int) | jcc (cc : Cc) (rel : Int)
  | leave | ret | cld | int3 | repMovsb | repMovsd | repStosd
  | sse (op : Sse) (d : Xmm) (s : RM)
  | xorps (d : Xmm) (s : RM)
  | ucomiss (d : Xmm) (s : RM)
  /-- move 32 bits from a float register to a general operand, and back -/
  | movdOut (d : RM) (s : Xmm) | movdIn (d : Xmm) (s : RM)
  | cvtsi2ss (d : Xmm) (s : RM) | cvtss2si (d : Gpr) (s : RM) | cvttss2si (d : Gpr) (s : RM)
  | roundss (d : Xmm) (s : RM) (mode : Nat)
deriving DecidableEq, Repr

/-- Prefixes of an instruction: at most one of 0x66 and 0xf3, then at most one REX byte. -/
structure Pre where
  p66 : Bool
  f3 : Bool
  rex : Bool
  w : Bool
  r : Bool
  x : Bool
  b : Bool
deriving DecidableEq, Repr

/-- Read a REX prefix (0x40 ... 0x4f: 0100WRXB). -/
def rexPrefix (p66 f3 : Bool) : List Byte → Option (Pre × List Byte)
  | [] => none
  | b :: t =>
    if b.toNat / 16 = 4 then
      some (⟨p66, f3, true, b.toNat.testBit 3, b.toNat.testBit 2, b.toNat.testBit 1, b.toNat.testBit 0⟩, t)
    else some (⟨p66, f3, false, false, false, false, false⟩, b :: t)

/-- Read the prefixes. -/
def prefixes : List Byte → Option (Pre × List Byte)
  | [] => none
  | b :: t =>
    if b = 0x66 then rexPrefix true false t
    else if b = 0xf3 then rexPrefix false true t
    else rexPrefix false false (b :: t)

/-- Operand size. -/
def Pre.width (p : Pre) : Width := if p.w then .q else if p.p66 then .w else .l

/-- A register number from its REX bit and its three low bits. -/
def ext (hi : Bool) (lo : Nat) : Fin 16 := Fin.ofNat 16 ((if hi then 8 else 0) + lo % 8)

/-- Signed byte. -/
def imm8 : List Byte → Option (Int × List Byte)
  | b :: t => some (b.toInt, t)
  | [] => none

/-- Signed 32-bit value, little endian. -/
def imm32 : List Byte → Option (Int × List Byte)
  | a :: b :: c :: d :: t => some ((d ++ c ++ b ++ a).toInt, t)
  | _ => none

/-- Signed 64-bit value, little endian. -/
def imm64 : List Byte → Option (Int × List Byte)
  | a :: b :: c :: d :: e :: f :: g :: h :: t => some ((h ++ g ++ f ++ e ++ d ++ c ++ b ++ a).toInt, t)
  | _ => none

/-- Displacement for a mode field. -/
def dispOf (mode : Nat) (bs : List Byte) : Option (Int × List Byte) :=
  if mode = 0 then some (0, bs) else if mode = 1 then imm8 bs else imm32 bs

/-- The SIB byte and displacement. -/
def sib (p : Pre) (mode : Nat) : List Byte → Option (RM × List Byte)
  | [] => none
  | b :: t =>
    let scale : Fin 4 := Fin.ofNat 4 (b.toNat / 64)
    let index := ext p.x (b.toNat / 8)
    let idx := if index = 4 then none else some (index, scale)
    if mode = 0 ∧ b.toNat % 8 = 5 then
      (imm32 t).map fun (d, t) => (.mem ⟨none, idx, d⟩, t)
    else (dispOf mode t).map fun (d, t) => (.mem ⟨some (ext p.b b.toNat), idx, d⟩, t)

/-- The ModRM byte: the value of the reg field (three bits), the r/m operand and what follows. -/
def modrm (p : Pre) : List Byte → Option (Nat × RM × List Byte)
  | [] => none
  | b :: t =>
    let mode := b.toNat / 64
    let reg := b.toNat / 8 % 8
    let rm := b.toNat % 8
    if mode = 3 then some (reg, .reg (ext p.b rm), t)
    else if rm = 4 then (sib p mode t).map fun (o, t) => (reg, o, t)
    else if mode = 0 ∧ rm = 5 then (imm32 t).map fun (d, t) => (reg, .rip d, t)
    else (dispOf mode t).map fun (d, t) => (reg, .mem ⟨some (ext p.b rm), none, d⟩, t)

/-- Eight-bit registers 4..7 are ah, ch, dh, bh unless there is a REX prefix. -/
def reg8 (p : Pre) (hi : Bool) (n : Nat) : Reg8 :=
  if p.rex = false ∧ 4 ≤ n % 8 then .hi (Fin.ofNat 4 (n % 8 - 4)) else .lo (ext hi n)

/-- Eight-bit view of an operand. -/
def rm8 (p : Pre) : RM → RM8
  | .reg r => .reg (reg8 p p.b (r.val % 8))
  | .mem m => .mem m
  | .rip d => .rip d

/-- The group of the immediate instructions, by the reg field. -/
def aluOf : Nat → Alu
  | 0 => .add | 1 => .or | 2 => .adc | 3 => .sbb | 4 => .and | 5 => .sub | 6 => .xor | _ => .cmp

/-- The shift group, by the reg field. -/
def shiftOf : Nat → Option Shift
  | 4 => some .shl | 5 => some .shr | 7 => some .sar | _ => none

/-- A register or memory operand, from the reg field. -/
def withRM (p : Pre) (bs : List Byte) (f : Nat → RM → Option Instr) : Option (Instr × List Byte) :=
  match modrm p bs with
  | none => none
  | some (reg, rm, t) => (f reg rm).map fun i => (i, t)

/-- Same, followed by an immediate. -/
def withRMI (p : Pre) (bs : List Byte) (imm : List Byte → Option (Int × List Byte))
    (f : Nat → RM → Int → Option Instr) : Option (Instr × List Byte) :=
  match modrm p bs with
  | none => none
  | some (reg, rm, t) =>
    match imm t with
    | none => none
    | some (v, t) => (f reg rm v).map fun i => (i, t)

/-- Just an immediate. -/
def withImm (imm : List Byte → Option (Int × List Byte)) (bs : List Byte) (f : Int → Instr) :
    Option (Instr × List Byte) :=
  (imm bs).map fun (v, t) => (f v, t)

/-- Two-byte opcodes 0x0f ... -/
def decode0f (p : Pre) (op : Byte) (t : List Byte) : Option (Instr × List Byte) :=
  let w := p.width
  let n := op.toNat
  if n = 0xaf then withRM p t fun r m => some (.imul w (ext p.r r) m)
  else if n = 0xb6 then withRM p t fun r m => some (.movzxb w (ext p.r r) (rm8 p m))
  else if n / 16 = 9 then withRM p t fun _ m => some (.set (Fin.ofNat 16 n) (rm8 p m))
  else if n / 16 = 8 then withImm imm32 t (.jcc (Fin.ofNat 16 n))
  else if n = 0x57 ∧ p.f3 = false ∧ p.p66 = false then withRM p t fun r m => some (.xorps (ext p.r r) m)
  else if n = 0x2e ∧ p.f3 = false ∧ p.p66 = false then withRM p t fun r m => some (.ucomiss (ext p.r r) m)
  else if n = 0x58 ∧ p.f3 then withRM p t fun r m => some (.sse .addss (ext p.r r) m)
  else if n = 0x59 ∧ p.f3 then withRM p t fun r m => some (.sse .mulss (ext p.r r) m)
  else if n = 0x5c ∧ p.f3 then withRM p t fun r m => some (.sse .subss (ext p.r r) m)
  else if n = 0x5e ∧ p.f3 then withRM p t fun r m => some (.sse .divss (ext p.r r) m)
  else if n = 0x2a ∧ p.f3 ∧ p.w = false then withRM p t fun r m => some (.cvtsi2ss (ext p.r r) m)
  else if n = 0x2d ∧ p.f3 ∧ p.w = false then withRM p t fun r m => some (.cvtss2si (ext p.r r) m)
  else if n = 0x2c ∧ p.f3 ∧ p.w = false then withRM p t fun r m => some (.cvttss2si (ext p.r r) m)
  else if n = 0x6e ∧ p.p66 ∧ p.w = false then withRM p t fun r m => some (.movdIn (ext p.r r) m)
  else if n = 0x7e ∧ p.p66 ∧ p.w = false then withRM p t fun r m => some (.movdOut m (ext p.r r))
  else if n = 0x3a ∧ p.p66 then
    match t with
    | o :: t => if o = 0x0a then withRMI p t imm8 fun r m v => some (.roundss (ext p.r r) m v.toNat) else none
    | [] => none
  else none

/-- One-byte opcodes. -/
def decode1 (p : Pre) (op : Byte) (t : List Byte) : Option (Instr × List Byte) :=
  let w := p.width
  let n := op.toNat
  if n < 0x40 ∧ n % 8 = 1 then withRM p t fun r m => some (.alu (aluOf (n / 8)) w m (ext p.r r))
  else if n < 0x40 ∧ n % 8 = 3 then withRM p t fun r m => some (.aluL (aluOf (n / 8)) w (ext p.r r) m)
  else if n < 0x40 ∧ n % 8 = 5 then withImm imm32 t (.aluI (aluOf (n / 8)) w (.reg 0))
  else if n / 8 = 10 then some (.push (ext p.b n), t)
  else if n / 8 = 11 then some (.pop (ext p.b n), t)
  else if n = 0x63 then withRM p t fun r m => some (.movsxd w (ext p.r r) m)
  else if n = 0x68 then withImm imm32 t .pushI
  else if n = 0x6a then withImm imm8 t .pushI
  else if n = 0x69 then withRMI p t imm32 fun r m v => some (.imulI w (ext p.r r) m v)
  else if n = 0x6b then withRMI p t imm8 fun r m v => some (.imulI w (ext p.r r) m v)
  else if n / 16 = 7 then withImm imm8 t (.jcc (Fin.ofNat 16 n))
  else if n = 0x81 then withRMI p t imm32 fun r m v => some (.aluI (aluOf r) w m v)
  else if n = 0x83 then withRMI p t imm8 fun r m v => some (.aluI (aluOf r) w m v)
  else if n = 0x85 then withRM p t fun r m => some (.test w m (ext p.r r))
  else if n = 0x87 then withRM p t fun r m => some (.xchg w m (ext p.r r))
  else if n = 0x88 then withRM p t fun r m => some (.movB (rm8 p m) (reg8 p p.r r))
  else if n = 0x89 then withRM p t fun r m => some (.mov w m (ext p.r r))
  else if n = 0x8b then withRM p t fun r m => some (.movL w (ext p.r r) m)
  else if n = 0x8d then withRM p t fun r m => match m with
    | .reg _ => none
    | m => some (.lea w (ext p.r r) m)
  else if n / 8 = 18 then some (.xchg w (.reg (ext p.b n)) 0, t)
  else if n = 0xa4 ∧ p.f3 then some (.repMovsb, t)
  else if n = 0xa5 ∧ p.f3 ∧ w = .l then some (.repMovsd, t)
  else if n = 0xab ∧ p.f3 ∧ w = .l then some (.repStosd, t)
  else if n = 0xa9 then withImm imm32 t (.testI w (.reg 0))
  else if n / 8 = 23 then
    if p.w then withImm imm64 t (.movA .q (ext p.b n)) else withImm imm32 t (.movA .l (ext p.b n))
  else if n = 0xc1 then withRMI p t imm8 fun r m v => (shiftOf r).map fun o => .shiftI o w m (v % 256).toNat
  else if n = 0xd1 then withRM p t fun r m => (shiftOf r).map fun o => .shiftI o w m 1
  else if n = 0xd3 then withRM p t fun r m => (shiftOf r).map fun o => .shiftCl o w m
  else if n = 0xc3 then some (.ret, t)
  else if n = 0xc7 then withRMI p t imm32 fun r m v => if r = 0 then some (.movI w m v) else none
  else if n = 0xc9 then some (.leave, t)
  else if n = 0xcc then some (.int3, t)
  else if n = 0xe8 then withImm imm32 t .call
  else if n = 0xe9 then withImm imm32 t .jmp
  else if n = 0xeb then withImm imm8 t .jmp
  else if n = 0xf7 then
    match modrm p t with
    | none => none
    | some (r, m, t) =>
      if r = 0 then withImm imm32 t (.testI w m)
      else if r = 2 then some (.not w m, t)
      else if r = 3 then some (.neg w m, t)
      else if r = 7 then some (.idiv w m, t)
      else none
  else if n = 0xfc then some (.cld, t)
  else if n = 0xff then withRM p t fun r m =>
    if r = 2 then some (.callRM m) else if r = 4 then some (.jmpRM m) else none
  else none

/-- Which instruction do these bytes begin with, and what follows it? -/
def decode (bs : List Byte) : Option (Instr × List Byte) :=
  match prefixes bs with
  | none => none
  | some (p, []) => match p with | _ => none
  | some (p, op :: t) =>
    if op = 0x0f then
      match t with
      | [] => none
      | op2 :: t => decode0f p op2 t
    else decode1 p op t

end Verif.X64

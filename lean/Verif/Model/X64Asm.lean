import Verif.Spec.X64

/-!
The x64 assembler used by the just-in-time compiler (vm/x64/assembler-x64.h): the bytes each of its
methods appends.  Growing the buffer (vm/assembler.h `ensureSpace`) and running out of memory are not
modelled; nor are the methods that take labels or absolute addresses.
-/
namespace Verif.X64

/-- vm/x64/assembler-x64.h:44-47 Register::rex_bit and 73-76 FloatRegister::rex_bit. -/
def rexBit (r : Fin 16) : Byte := BitVec.ofNat 8 r.val >>> 3
/-- vm/x64/assembler-x64.h:50-52 and 79-81 low_bits. -/
def lowBits (r : Fin 16) : Byte := BitVec.ofNat 8 r.val &&& 7

/-- vm/x64/assembler-x64.h:208-358 Operand: the bytes after the opcode (the reg field still zero) and the
REX bits. -/
structure Opd where
  bytes : List Byte
  rex : Byte
deriving DecidableEq

/-- Little-endian bytes of an `int32_t` (vm/assembler.h:89-91 writeInt32). -/
def le32 (v : BitVec 32) : List Byte :=
  [v.extractLsb' 0 8, v.extractLsb' 8 8, v.extractLsb' 16 8, v.extractLsb' 24 8]

/-- Little-endian bytes of an `int64_t` (vm/assembler.h:98-100 writeInt64). -/
def le64 (v : BitVec 64) : List Byte :=
  [v.extractLsb' 0 8, v.extractLsb' 8 8, v.extractLsb' 16 8, v.extractLsb' 24 8,
   v.extractLsb' 32 8, v.extractLsb' 40 8, v.extractLsb' 48 8, v.extractLsb' 56 8]

/-- `disp >= SCHAR_MIN && disp <= SCHAR_MAX` -/
def fits8 (d : BitVec 32) : Bool := decide (-128 ≤ d.toInt ∧ d.toInt ≤ 127)

/-- Conversion of an `int32_t` to `int8_t` / `uint8_t`. -/
def trunc8 (d : BitVec 32) : Byte := d.extractLsb' 0 8

/-- vm/x64/assembler-x64.h:301-306 Operand::modrm. -/
def opModrm (mode : Byte) (rm : Gpr) : Opd := ⟨[(mode <<< 6) ||| lowBits rm], rexBit rm⟩
/-- 310-314 modrm_disp8. -/
def opModrmDisp8 (rm : Gpr) (d : BitVec 32) : Opd := ⟨(opModrm 1 rm).bytes ++ [trunc8 d], rexBit rm⟩
/-- 315-319 modrm_disp32. -/
def opModrmDisp32 (rm : Gpr) (d : BitVec 32) : Opd := ⟨(opModrm 2 rm).bytes ++ le32 d, rexBit rm⟩

/-- 320-326 Operand::sib: `kSIB` is rsp. -/
def opSib (mode : Byte) (scale : Fin 4) (index base : Gpr) : Opd :=
  ⟨(opModrm mode 4).bytes ++ [(BitVec.ofNat 8 scale.val <<< 6) ||| (lowBits index <<< 3) ||| lowBits base],
   rexBit 4 ||| ((rexBit index <<< 1) ||| rexBit base)⟩
/-- 327-330 sib_disp0. -/
def opSibDisp0 (scale : Fin 4) (index base : Gpr) : Opd := opSib 0 scale index base
/-- 331-335 sib_disp8. -/
def opSibDisp8 (scale : Fin 4) (index base : Gpr) (d : BitVec 32) : Opd :=
  ⟨(opSib 1 scale index base).bytes ++ [trunc8 d], (opSib 1 scale index base).rex⟩
/-- 336-340 sib_disp32. -/
def opSibDisp32 (scale : Fin 4) (index base : Gpr) (d : BitVec 32) : Opd :=
  ⟨(opSib 2 scale index base).bytes ++ le32 d, (opSib 2 scale index base).rex⟩

/-- The arguments of the three public constructors of `Operand`. -/
inductive MemArg where
  | bd (base : Gpr) (disp : BitVec 32)
  | bsd (base : Gpr) (scale : Fin 4) (disp : BitVec 32)
  | bisd (base index : Gpr) (scale : Fin 4) (disp : BitVec 32)
deriving DecidableEq

/-- vm/x64/assembler-x64.h:215-235, 246-256 and 258-269: the constructors of `Operand`.
`kNoIndex` is rsp (4), rbp is 5, r12 and r13 are 12 and 13. -/
def MemArg.opd : MemArg → Opd
  | .bd reg disp =>
    if reg = 4 ∨ reg = 12 then
      if disp = 0 then opSibDisp0 0 4 reg
      else if fits8 disp then opSibDisp8 0 4 reg disp
      else opSibDisp32 0 4 reg disp
    else if disp = 0 ∧ reg ≠ 5 ∧ reg ≠ 13 then opModrm 0 reg
    else if fits8 disp then opModrmDisp8 reg disp
    else opModrmDisp32 reg disp
  | .bsd base scale disp =>
    if disp = 0 ∧ base ≠ 5 ∧ base ≠ 13 then opSibDisp0 scale 4 base
    else if fits8 disp then opSibDisp8 scale 4 base disp
    else opSibDisp32 scale 4 base disp
  | .bisd base index scale disp =>
    if disp = 0 ∧ base ≠ 5 ∧ base ≠ 13 then opSibDisp0 scale index base
    else if fits8 disp then opSibDisp8 scale index base disp
    else opSibDisp32 scale index base disp

/-- A reg-field argument of the emit helpers: a register, a float register or a number. -/
inductive OpReg where | gpr (r : Gpr) | xmm (r : Xmm) | num (n : Byte)

/-- An r/m argument of the emit helpers. -/
inductive RmArg where | gpr (r : Gpr) | xmm (r : Xmm) | mem (o : Opd)

/-- vm/x64/assembler-x64.h:1179-1181 rex_bit_for_reg. -/
def OpReg.rexBit : OpReg → Byte
  | .gpr r => X64.rexBit r
  | .xmm r => X64.rexBit r
  | .num _ => 0

/-- The value put into the reg field: 1187-1207. -/
def OpReg.field : OpReg → Byte
  | .gpr r => lowBits r
  | .xmm r => lowBits r
  | .num n => n

/-- 1182-1184 rex_bits_for_rm. -/
def RmArg.rexBits : RmArg → Byte
  | .gpr r => X64.rexBit r
  | .xmm r => X64.rexBit r
  | .mem o => o.rex

/-- 1187-1218 emit_modrm. -/
def emitModrm (o : OpReg) : RmArg → List Byte
  | .gpr r => [(3 <<< 6) ||| (o.field <<< 3) ||| lowBits r]
  | .xmm r => [(3 <<< 6) ||| (o.field <<< 3) ||| lowBits r]
  | .mem m => match m.bytes with
    | [] => []
    | b :: bs => (b ||| (o.field <<< 3)) :: bs

/-- 1164-1176 maybe_emit_rex: a REX byte only if one of its low bits is set. -/
def maybeRex (bits : Byte) : List Byte := if bits = 0 then [] else [0x40 ||| bits]

/-- 1152-1161 emit_rex_64. -/
def rex64 (o : OpReg) (rm : RmArg) : List Byte := [0x48 ||| (o.rexBit <<< 2) ||| rm.rexBits]

/-- 1045-1056 emit1_64 with a reg field. -/
def emit1_64 (opc : Byte) (o : OpReg) (rm : RmArg) : List Byte := rex64 o rm ++ [opc] ++ emitModrm o rm
/-- 1058-1062 emit1_64_rex. -/
def emit1_64_rex (opc : Byte) (r : Gpr) : List Byte := [0x48 ||| rexBit r, opc]
/-- 1064-1068 emit1_64 of a single byte. -/
def emit1_64b (opc : Byte) : List Byte := [0x48, opc]
/-- 1070-1075 emit1 with a reg field. -/
def emit1 (opc : Byte) (o : OpReg) (rm : RmArg) : List Byte :=
  maybeRex ((o.rexBit <<< 2) ||| rm.rexBits) ++ [opc] ++ emitModrm o rm
/-- 1077-1081 emit1_maybe_rex. -/
def emit1MaybeRex (opc : Byte) (r : Gpr) : List Byte := maybeRex (rexBit r) ++ [opc]
/-- 1088-1094 emit2_64. -/
def emit2_64 (pfx opc : Byte) (o : OpReg) (rm : RmArg) : List Byte :=
  rex64 o rm ++ [pfx, opc] ++ emitModrm o rm
/-- 1096-1102 emit2. -/
def emit2 (pfx opc : Byte) (o : OpReg) (rm : RmArg) : List Byte :=
  maybeRex ((o.rexBit <<< 2) ||| rm.rexBits) ++ [pfx, opc] ++ emitModrm o rm
/-- 1122-1131 emit3_sse: the REX bits of the reg field are not considered. -/
def emit3sse (pfx op1 op2 : Byte) (o : OpReg) (rm : RmArg) : List Byte :=
  [pfx] ++ maybeRex rm.rexBits ++ [op1, op2] ++ emitModrm o rm
/-- 1133-1143 emit4_sse. -/
def emit4sse (pfx op1 op2 op3 : Byte) (o : OpReg) (rm : RmArg) : List Byte :=
  [pfx] ++ maybeRex rm.rexBits ++ [op1, op2, op3] ++ emitModrm o rm

/-- A register or memory argument of a method that is a template or overloaded for both. -/
inductive RO where | reg (r : Gpr) | mem (m : MemArg)
deriving DecidableEq

/-- How it reaches the emit helpers. -/
def RO.rm : RO → RmArg
  | .reg r => .gpr r
  | .mem m => .mem m.opd

/-- A float register or memory argument. -/
inductive XO where | xmm (r : Xmm) | mem (m : MemArg)
deriving DecidableEq

/-- How it reaches the emit helpers. -/
def XO.rm : XO → RmArg
  | .xmm r => .xmm r
  | .mem m => .mem m.opd

/-- The /r number of the immediate group: 664, 668, 679, 682, 693, 718, 737, 804. -/
def Alu.num : Alu → Byte
  | .add => 0 | .or => 1 | .adc => 2 | .sbb => 3 | .and => 4 | .sub => 5 | .xor => 6 | .cmp => 7

/-- The opcode used for `op r/m, r`: 660, 671, 675, 685, 689, 722, 730, 742, 747, 751, 754, 810. -/
def Alu.opcode : Alu → Byte
  | .add => 0x01 | .or => 0x09 | .adc => 0x11 | .sbb => 0x19 | .and => 0x21 | .sub => 0x29
  | .xor => 0x31 | .cmp => 0x39

/-- The /r number of a shift: 775-801. -/
def Shift.num : Shift → Byte
  | .shl => 4 | .shr => 5 | .sar => 7

/-- vm/x64/assembler-x64.h:964-984 alu_imm_64 (`q`) and 985-1005 alu_imm_32; with a register that is rax
and a large immediate the short form is used, in both cases without a prefix. -/
def aluImm (q : Bool) (op : Alu) (imm : BitVec 32) : RO → List Byte
  | .reg rm =>
    if fits8 imm then (if q then emit1_64 else emit1) 0x83 (.num op.num) (.gpr rm) ++ [trunc8 imm]
    else if rm = 0 then [0x05 ||| (op.num <<< 3)] ++ le32 imm
    else (if q then emit1_64 else emit1) 0x81 (.num op.num) (.gpr rm) ++ le32 imm
  | .mem m =>
    if fits8 imm then (if q then emit1_64 else emit1) 0x83 (.num op.num) (.mem m.opd) ++ [trunc8 imm]
    else (if q then emit1_64 else emit1) 0x81 (.num op.num) (.mem m.opd) ++ le32 imm

/-- 1007-1015 shift_imm_64 (`q`) and 1017-1025 shift_imm_32. -/
def shiftImm (q : Bool) (op : Shift) (imm : Byte) (t : RO) : List Byte :=
  if imm = 1 then (if q then emit1_64 else emit1) 0xd1 (.num op.num) t.rm
  else (if q then emit1_64 else emit1) 0xc1 (.num op.num) t.rm ++ [imm &&& (if q then 0x3f else 0x1f)]

/-- 1027-1035 shift_cl_64 and shift_cl_32. -/
def shiftCl (q : Bool) (op : Shift) (t : RO) : List Byte :=
  (if q then emit1_64 else emit1) 0xd3 (.num op.num) t.rm

/-- The methods of the class `Assembler` without label arguments.  `q` distinguishes the 64-bit (`...q`)
from the 32-bit (`...l`) method of the same name. -/
inductive Call where
  | alu (q : Bool) (op : Alu) (d : RO) (s : Gpr)
  | cmplRM (d : Gpr) (s : MemArg)
  | aluI (q : Bool) (op : Alu) (d : RO) (imm : BitVec 32)
  | andlRI (d : Gpr) (imm : BitVec 32)
  | test (q : Bool) (d : RO) (s : Gpr)
  | testqI (d : RO) (imm : BitVec 32)
  | movqRR (d s : Gpr) | movqRM (d : Gpr) (s : MemArg) | movqMR (d : MemArg) (s : Gpr)
  | movqRI (d : Gpr) (imm : BitVec 64)
  | movlRI (d : Gpr) (imm : BitVec 32) | movlMI (d : MemArg) (imm : BitVec 32)
  | movlRM (d : Gpr) (s : MemArg) | movl (d : RO) (s : Gpr)
  | movw (d : RO) (s : Gpr) | movb (d : RO) (s : Gpr)
  | movsxd (d : Gpr) (s : RO) | movzxb (d s : Gpr)
  | lea (d : Gpr) (s : MemArg)
  | imul (q : Bool) (d s : Gpr) | imullI (d s : Gpr) (imm : BitVec 32)
  | not (q : Bool) (d : Gpr) | neg (q : Bool) (d : Gpr) | idiv (q : Bool) (s : Gpr)
  | shiftI (q : Bool) (op : Shift) (d : RO) (imm : Byte) | shiftCl (q : Bool) (op : Shift) (d : Gpr)
  | xchgq (d s : Gpr)
  | set (cc : Cc) (d : RO)
  | push (r : Gpr) | pushI (imm : BitVec 32) | pop (r : Gpr)
  | callR (r : Gpr) | jmpRM (t : RO)
  | leave | ret | cld | breakpoint | repMovsb | repMovsd | repStosd
  | sse (op : Sse) (d s : Xmm) | xorps (d s : Xmm) | ucomiss (left : XO) (right : Xmm)
  | movdOut (d : Gpr) (s : Xmm) | movdIn (d : Xmm) (s : Gpr)
  | cvtsi2ss (d : Xmm) (s : RO) | cvtss2si (d : Gpr) (s : MemArg) | cvttss2si (d : Gpr) (s : XO)
  | roundssFloor (d : Xmm) (s : MemArg) | roundssCeil (d : Xmm) (s : MemArg)

/-- Last opcode byte of vm/x64/assembler-x64.h:858-869 addss, subss, mulss, divss. -/
def Sse.opcode : Sse → Byte
  | .addss => 0x58 | .mulss => 0x59 | .subss => 0x5c | .divss => 0x5e

/-- The bytes a method appends, vm/x64/assembler-x64.h:476-478, 487-492 and 506-898. -/
def Call.bytes : Call → List Byte
  | .alu q op d s => (if q then emit1_64 else emit1) op.opcode (.gpr s) d.rm
  -- 732-734
  | .cmplRM d s => emit1 0x3b (.gpr d) (.mem s.opd)
  | .aluI q op d imm => aluImm q op imm d
  -- 803-805: the register is wrapped in an `Operand`
  | .andlRI d imm =>
    if fits8 imm then emit1 0x83 (.num 4) (.mem (opModrm 3 d)) ++ [trunc8 imm]
    else emit1 0x81 (.num 4) (.mem (opModrm 3 d)) ++ le32 imm
  -- 696-703
  | .test q d s => (if q then emit1_64 else emit1) 0x85 (.gpr s) d.rm
  -- 704-714
  | .testqI d imm => match d with
    | .reg r => (if r = 0 then emit1_64b 0xa9 else emit1_64 0xf7 (.num 0) (.gpr r)) ++ le32 imm
    | .mem m => emit1_64 0xf7 (.num 0) (.mem m.opd) ++ le32 imm
  -- 595-603
  | .movqRR d s => emit1_64 0x8b (.gpr d) (.gpr s)
  | .movqRM d s => emit1_64 0x8b (.gpr d) (.mem s.opd)
  | .movqMR d s => emit1_64 0x89 (.gpr s) (.mem d.opd)
  -- 604-617
  | .movqRI d imm =>
    if 0 ≤ imm.toInt ∧ imm.toInt ≤ 4294967295 then
      emit1MaybeRex (0xb8 + lowBits d) d ++ le32 (imm.extractLsb' 0 32)
    else if -2147483648 ≤ imm.toInt ∧ imm.toInt ≤ 2147483647 then
      emit1_64 0xc7 (.num 0) (.gpr d) ++ le32 (imm.extractLsb' 0 32)
    else emit1_64_rex (0xb8 + lowBits d) d ++ le64 imm
  -- 625-639
  | .movlRI d imm => emit1MaybeRex (0xb8 + lowBits d) d ++ le32 imm
  | .movlMI d imm => emit1 0xc7 (.num 0) (.mem d.opd) ++ le32 imm
  | .movlRM d s => emit1 0x8b (.gpr d) (.mem s.opd)
  | .movl d s => emit1 0x89 (.gpr s) d.rm
  -- 641-649
  | .movw d s => emit1 0x89 (.gpr s) d.rm
  | .movb d s => emit1 0x88 (.gpr s) d.rm
  -- 651-657
  | .movsxd d s => emit1_64 0x63 (.gpr d) s.rm
  | .movzxb d s => emit2 0x0f 0xb6 (.gpr d) (.gpr s)
  -- 577-579
  | .lea d s => emit1_64 0x8d (.gpr d) (.mem s.opd)
  -- 813-827
  | .imul q d s => (if q then emit2_64 else emit2) 0x0f 0xaf (.gpr d) (.gpr s)
  | .imullI d s imm =>
    if fits8 imm then emit1 0x6b (.gpr d) (.gpr s) ++ [trunc8 imm] else emit1 0x69 (.gpr d) (.gpr s) ++ le32 imm
  -- 757-770, 829-834
  | .not q d => (if q then emit1_64 else emit1) 0xf7 (.num 2) (.gpr d)
  | .neg q d => (if q then emit1_64 else emit1) 0xf7 (.num 3) (.gpr d)
  | .idiv q s => (if q then emit1_64 else emit1) 0xf7 (.num 7) (.gpr s)
  -- 772-801
  | .shiftI q op d imm => shiftImm q op imm d
  | .shiftCl q op d => X64.shiftCl q op (.reg d)
  -- 836-843
  | .xchgq d s =>
    if s = 0 then emit1_64b (0x90 + BitVec.ofNat 8 d.val)
    else if d = 0 then emit1_64b (0x90 + BitVec.ofNat 8 s.val)
    else emit1_64 0x87 (.num (BitVec.ofNat 8 s.val)) (.gpr d)
  -- 845-848
  | .set cc d => emit2 0x0f (0x90 + BitVec.ofNat 8 cc.val) (.num 0) d.rm
  -- 561-575
  | .push r => emit1MaybeRex (0x50 + lowBits r) r
  | .pushI imm => if fits8 imm then [0x6a, trunc8 imm] else 0x68 :: le32 imm
  | .pop r => emit1MaybeRex (0x58 + lowBits r) r
  -- 476-478, 531-534
  | .callR r => emit1 0xff (.num 2) (.gpr r)
  | .jmpRM t => emit1 0xff (.num 4) t.rm
  -- 487-492, 506-520
  | .leave => [0xc9]
  | .ret => [0xc3]
  | .cld => [0xfc]
  | .breakpoint => [0xcc]
  | .repMovsb => [0xf3, 0xa4]
  | .repMovsd => [0xf3, 0xa5]
  | .repStosd => [0xf3, 0xab]
  -- 858-872
  | .sse op d s => emit3sse 0xf3 0x0f op.opcode (.xmm d) (.xmm s)
  | .xorps d s => emit2 0x0f 0x57 (.xmm s) (.xmm d)
  -- 874-877
  | .ucomiss l r => emit2 0x0f 0x2e (.xmm r) l.rm
  -- 850-856
  | .movdOut d s => emit3sse 0x66 0x0f 0x7e (.gpr d) (.xmm s)
  | .movdIn d s => emit3sse 0x66 0x0f 0x6e (.xmm d) (.gpr s)
  -- 879-898
  | .cvtsi2ss d s => emit3sse 0xf3 0x0f 0x2a (.xmm d) s.rm
  | .cvtss2si d s => emit3sse 0xf3 0x0f 0x2d (.gpr d) (.mem s.opd)
  | .cvttss2si d s => emit3sse 0xf3 0x0f 0x2c (.gpr d) s.rm
  | .roundssFloor d s => emit4sse 0x66 0x0f 0x3a 0x0a (.xmm d) (.mem s.opd) ++ [1]
  | .roundssCeil d s => emit4sse 0x66 0x0f 0x3a 0x0a (.xmm d) (.mem s.opd) ++ [2]

end Verif.X64

import Verif.Model.X64Asm

/-!
What the methods of the x64 assembler are meant to emit, by their names: `movl(d, s)` moves 32 bits from
`s` to `d`, `addq(d, imm)` adds the sign-extended immediate to the 64-bit `d`, and so on.
-/
namespace Verif.X64

/-- The operand `[base + index * 2^scale + disp]`. -/
def MemArg.meaning : MemArg → Mem
  | .bd b d => ⟨some b, none, d.toInt⟩
  | .bsd b _ d => ⟨some b, none, d.toInt⟩
  | .bisd b i s d => ⟨some b, some (i, s), d.toInt⟩

/-- The documented requirement of the four-argument constructor: rsp is no index register
(vm/x64/assembler-x64.h:262). -/
def MemArg.Legal : MemArg → Prop
  | .bisd _ i _ _ => i ≠ 4
  | _ => True

/-- A register or memory operand. -/
def RO.meaning : RO → RM
  | .reg r => .reg r
  | .mem m => .mem m.meaning

/-- Its low byte. -/
def RO.meaning8 : RO → RM8
  | .reg r => .reg (.lo r)
  | .mem m => .mem m.meaning

/-- A float register or memory operand. -/
def XO.meaning : XO → RM
  | .xmm r => .reg r
  | .mem m => .mem m.meaning

/-- `RO` operands meet the requirement of their constructor. -/
def RO.Legal : RO → Prop
  | .reg _ => True
  | .mem m => m.Legal

/-- `XO` operands meet the requirement of their constructor. -/
def XO.Legal : XO → Prop
  | .xmm _ => True
  | .mem m => m.Legal

/-- `q` methods are 64 bits wide, `l` methods 32. -/
def wid (q : Bool) : Width := if q then .q else .l

/-- The instruction sets the whole 64-bit register `d` to `v`. -/
def Loads (d : Gpr) (v : BitVec 64) (i : Instr) : Prop :=
  -- a 32-bit destination is zero-extended
  (∃ n, i = .movA .l d n ∧ v = (BitVec.ofInt 32 n).setWidth 64) ∨
  -- a 32-bit immediate is sign-extended
  (∃ n, i = .movI .q (.reg d) n ∧ v = BitVec.ofInt 64 n) ∨
  (∃ n, i = .movA .q d n ∧ v = BitVec.ofInt 64 n)

/-- The instruction a call of a method is meant to emit. -/
def Call.Means : Call → Instr → Prop
  | .alu q op d s, i => i = .alu op (wid q) d.meaning s
  | .cmplRM d s, i => i = .aluL .cmp .l d (.mem s.meaning)
  | .aluI q op d imm, i => i = .aluI op (wid q) d.meaning imm.toInt
  | .andlRI d imm, i => i = .aluI .and .l (.reg d) imm.toInt
  | .test q d s, i => i = .test (wid q) d.meaning s
  | .testqI d imm, i => i = .testI .q d.meaning imm.toInt
  | .movqRR d s, i => i = .movL .q d (.reg s) ∨ i = .mov .q (.reg d) s
  | .movqRM d s, i => i = .movL .q d (.mem s.meaning)
  | .movqMR d s, i => i = .mov .q (.mem d.meaning) s
  | .movqRI d imm, i => Loads d imm i
  | .movlRI d imm, i => i = .movA .l d imm.toInt
  | .movlMI d imm, i => i = .movI .l (.mem d.meaning) imm.toInt
  | .movlRM d s, i => i = .movL .l d (.mem s.meaning)
  | .movl d s, i => i = .mov .l d.meaning s
  | .movw d s, i => i = .mov .w d.meaning s
  | .movb d s, i => i = .movB d.meaning8 (.lo s)
  | .movsxd d s, i => i = .movsxd .q d s.meaning
  | .movzxb d s, i => i = .movzxb .l d (.reg (.lo s))
  | .lea d s, i => i = .lea .q d (.mem s.meaning)
  | .imul q d s, i => i = .imul (wid q) d (.reg s)
  | .imullI d s imm, i => i = .imulI .l d (.reg s) imm.toInt
  | .not q d, i => i = .not (wid q) (.reg d)
  | .neg q d, i => i = .neg (wid q) (.reg d)
  | .idiv q s, i => i = .idiv (wid q) (.reg s)
  | .shiftI q op d n, i => ∃ m, i = .shiftI op (wid q) d.meaning m ∧
      m % (if q then 64 else 32) = n.toNat % (if q then 64 else 32)
  | .shiftCl q op d, i => i = .shiftCl op (wid q) (.reg d)
  | .xchgq d s, i => i = .xchg .q (.reg d) s ∨ i = .xchg .q (.reg s) d
  | .set cc d, i => i = .set cc d.meaning8
  | .push r, i => i = .push r
  | .pushI imm, i => i = .pushI imm.toInt
  | .pop r, i => i = .pop r
  | .callR r, i => i = .callRM (.reg r)
  | .jmpRM t, i => i = .jmpRM t.meaning
  | .leave, i => i = .leave
  | .ret, i => i = .ret
  | .cld, i => i = .cld
  | .breakpoint, i => i = .int3
  | .repMovsb, i => i = .repMovsb
  | .repMovsd, i => i = .repMovsd
  | .repStosd, i => i = .repStosd
  | .sse op d s, i => i = .sse op d (.reg s)
  | .xorps d s, i => i = .xorps d (.reg s)
  | .ucomiss l r, i => i = .ucomiss r l.meaning
  | .movdOut d s, i => i = .movdOut (.reg d) s
  | .movdIn d s, i => i = .movdIn d (.reg s)
  | .cvtsi2ss d s, i => i = .cvtsi2ss d s.meaning
  | .cvtss2si d s, i => i = .cvtss2si d (.mem s.meaning)
  | .cvttss2si d s, i => i = .cvttss2si d s.meaning
  | .roundssFloor d s, i => i = .roundss d (.mem s.meaning) 1
  | .roundssCeil d s, i => i = .roundss d (.mem s.meaning) 2

/-- The arguments meet the documented requirements of the methods. -/
def Call.Legal : Call → Prop
  | .alu _ _ d _ | .aluI _ _ d _ | .test _ d _ | .testqI d _ | .movl d _ | .movw d _ | .movb d _
  | .movsxd _ d | .shiftI _ _ d _ | .set _ d | .jmpRM d | .cvtsi2ss _ d => d.Legal
  | .cmplRM _ m | .movqRM _ m | .movqMR m _ | .movlMI m _ | .movlRM _ m | .lea _ m | .cvtss2si _ m
  | .roundssFloor _ m | .roundssCeil _ m => m.Legal
  | .ucomiss m _ | .cvttss2si _ m => m.Legal
  | _ => True

/-- The bytes are those of an instruction the call is meant to emit, whatever follows. -/
def Call.Correct (c : Call) : Prop :=
  ∀ rest, ∃ i, decode (c.bytes ++ rest) = some (i, rest) ∧ c.Means i

/-- Does the operand involve one of r8 ... r15? -/
def RO.Extended : RO → Prop
  | .reg r => 8 ≤ r.val
  | .mem (.bd b _) | .mem (.bsd b _ _) => 8 ≤ b.val
  | .mem (.bisd b i _ _) => 8 ≤ b.val ∨ 8 ≤ i.val

/-- The calls that are encoded as meant.  Not among them:
* `addq(rax, imm)` and the like with an immediate beyond a byte: no REX.W prefix, so only 32 bits;
* `movw`: no operand size prefix, so 32 bits;
* byte operations on rsp, rbp, rsi, rdi without a REX prefix: ah, ch, dh, bh instead;
* `xchgq` with r8 ... r15 in some places: another register, or no instruction;
* float instructions with xmm8 ... xmm15 (or a general register r8 ... r15) in the reg field: the register
  eight lower;
* `xorps`: destination and source change places;
* `movd` from a float register: destination and source change places. -/
def Call.Encodable : Call → Prop
  | .aluI q _ d imm => q = true → d = .reg 0 → -128 ≤ imm.toInt ∧ imm.toInt ≤ 127
  | .movw _ _ => False
  | .movb d s => (s.val < 4 ∨ 8 ≤ s.val ∨ d.Extended) ∧
      ∀ r, d = .reg r → r.val < 4 ∨ 8 ≤ r.val ∨ 8 ≤ s.val
  | .movzxb d s => s.val < 4 ∨ 8 ≤ s.val ∨ 8 ≤ d.val
  | .set _ d => ∀ r, d = .reg r → r.val < 4 ∨ 8 ≤ r.val
  | .xchgq d s => if s = 0 then d.val < 8 else s.val < 8
  | .sse _ d _ | .movdIn d _ | .cvtsi2ss d _ | .roundssFloor d _ | .roundssCeil d _ => d.val < 8
  | .cvtss2si d _ | .cvttss2si d _ => d.val < 8
  | .xorps d s => d = s
  | .movdOut d s => d.val = s.val ∧ d.val < 8
  | _ => True

end Verif.X64

import Verif.Model.X64Asm
import Verif.Spec.X64Exec

/-!
The just-in-time compiler for x64 (vm/x64/jit_x64.cpp): the machine code it emits for one bytecode
instruction, and what the processor does when it runs that code.

Modelled are the instructions that fall through to the next one and need no helper of the host other
than `fmodf`.  The code is a list of assembler calls and of jumps to labels: labels inside the fragment
are bound in it, the labels of errors belong to stubs that leave the plugin with that error
(vm/x64/jit_x64.cpp:1647-1652 jumpOnError, 735-743 visitBOUNDS).
-/
namespace Verif.Jit
open Verif.X64 Verif.VM

/-- Errors that compiled code reports by itself. -/
inductive JErr where
  | memAccess | heapMin | heapLow | stackLow | divideByZero | integerOverflow | invalidArraySize
  /-- the out of bounds stub, with the limit -/
  | bounds (limit : BitVec 32)
deriving DecidableEq, Repr

/-- SP_ERROR_HEAPLOW 3, STACKLOW 8, MEMACCESS 11, HEAPMIN 13, DIVIDE_BY_ZERO 14, ARRAY_BOUNDS 15, INTEGER_OVERFLOW 29 and
INVALID_ARRAY_SIZE 33 (include/sp_vm_types.h:71-104): what compiled code reports. -/
def JErr.num : JErr → Nat
  | .heapLow => 3
  | .stackLow => 8
  | .memAccess => 11
  | .heapMin => 13
  | .divideByZero => 14
  | .bounds _ => 15
  | .integerOverflow => 29
  | .invalidArraySize => 33

/-- A piece of emitted code. -/
inductive Item where
  | op (c : Call)
  /-- `j(cc, &label)` to a label of the fragment -/
  | jl (cc : Cc) (l : Nat)
  /-- `bind(&label)` -/
  | bind (l : Nat)
  /-- `jumpOnError(cc, err)` -/
  | err (cc : Cc) (e : JErr)
  /-- `callWithABI(0, ExternalAddress(fmodf))` -/
  | fmodf

/-- What running a fragment ends in. -/
inductive Out where
  | done (m : Mach)
  | error (e : JErr) (m : Mach)
  | fault

/-- The processor executes the bytes of an assembler call. -/
@[irreducible] def stepCall (H : Host) (c : Call) (m : Mach) : Option Mach :=
  match decode c.bytes with
  | some (i, []) => exec H i m
  | _ => none

/-- Registers a C function preserves (System V and Windows agree on these): rbx, rsp, rbp, r12 ... r15. -/
def preserved (r : Gpr) : Bool := r = 3 ∨ r = 4 ∨ r = 5 ∨ 12 ≤ r.val

/-- Run a fragment.  `skip` is the label a taken jump is looking for. -/
def run (H : Host) : Option Nat → List Item → Mach → Out
  | _, [], m => .done m
  | some l, .bind k :: is, m => run H (if k = l then none else some l) is m
  | some l, _ :: is, m => run H (some l) is m
  | none, .bind _ :: is, m => run H none is m
  | none, .op c :: is, m =>
    match stepCall H c m with
    | none => .fault
    | some m => run H none is m
  | none, .jl cc l :: is, m =>
    match m.flags with
    | none => .fault
    | some f => run H (if cond f cc then some l else none) is m
  | none, .err cc e :: is, m =>
    match m.flags with
    | none => .fault
    | some f => if cond f cc then .error e m else run H none is m
  | none, .fmodf :: is, m =>
    run H none is
      { m with
        reg := fun r => if preserved r then m.reg r else H.junk m.reg r
        xmm := fun r => if r = 0 then H.fpu.fmod (m.xmm 0) (m.xmm 1) else 0
        flags := none }

/-- vm/x64/constants-x64.h:24-34: pri is rax, alt rdx, tmp rcx, frm rbx, stk r14,
dat r15 and context_reg r12. -/
abbrev rPri : Gpr := 0
/-- alt -/
abbrev rAlt : Gpr := 2
/-- tmp -/
abbrev rTmp : Gpr := 1
/-- frm -/
abbrev rFrm : Gpr := 3
/-- stk -/
abbrev rStk : Gpr := 14
/-- dat -/
abbrev rDat : Gpr := 15
/-- context_reg -/
abbrev rCtx : Gpr := 12

/-- `(dest == PawnReg::Pri) ? pri : alt` -/
def regOf : Reg → Gpr
  | .pri => rPri
  | .alt => rAlt

/-- What the compiler consults. -/
structure JitEnv where
  /-- `context_->HeapSize()` -/
  memSize : Int
  /-- `context_->DataSize()` -/
  dataSize : Int
  /-- `PluginContext::offsetOf...()` -/
  off : Field → BitVec 32
  /-- `StackOffset(slot)`, vm/jit.cpp:353-355 -/
  slot : Int → Option Int

/-- vm/method-info.cpp:69-77 MethodInfo::StackOffset, as the interpreter has it. -/
def slotOffset (E : Env) (method : Nat) (slot : Int) : Option Int :=
  if E.legacyStack then some slot
  else if slot < 0 then some (wrap32 ((-slot - 1 + 3) * 4))
  else (E.localOffsets method)[slot.toNat]?

/-- Conversion to `int32_t`. -/
def bv (x : Int) : BitVec 32 := BitVec.ofInt 32 x

/-- vm/x64/jit_x64.h:181-184 hpAddr, frmAddr, spAddr, hpScopeAddr. -/
def JitEnv.field (J : JitEnv) (f : Field) : MemArg := .bd rCtx (J.off f)

/-- `Operand(dat, reg, NoScale)` -/
def atDat (r : Gpr) : MemArg := .bisd rDat r 0 0

/-- vm/x64/assembler-x64.h:149-175 ConditionCode: below. -/
abbrev below : Cc := 2
/-- above_equal, not_below -/
abbrev aboveEqual : Cc := 3
/-- equal, zero -/
abbrev equal : Cc := 4
/-- not_equal, not_zero -/
abbrev notEqual : Cc := 5
/-- above -/
abbrev above : Cc := 7
/-- parity -/
abbrev parity : Cc := 10
/-- less_equal -/
abbrev lessEqual : Cc := 14

/-- vm/x64/jit_x64.cpp:439-457 OpToCondition. -/
def opToCondition : Cmp → Option Cc
  | .eq => some 4 | .neq => some 5 | .sless => some 12 | .sleq => some 14 | .sgrtr => some 15 | .sgeq => some 13
  | .zero => none | .notZero => none

/-- vm/x64/jit_x64.cpp:1632-1645 emitCheckAddress; `l` names its local label. -/
def emitCheckAddress (J : JitEnv) (reg : Gpr) (readSize : Int) (l : Nat) : List Item :=
  [ .op (.aluI false .cmp (.reg reg) (bv (J.memSize - readSize + 1))),
    .err aboveEqual .memAccess,
    .op (.cmplRM reg (J.field .hp)),
    .jl below l,
    .op (.lea rTmp (atDat reg)),
    .op (.alu true .cmp (.reg rTmp) rStk),
    .err below .memAccess,
    .bind l ]

/-- The end of the int64 instructions, e.g. vm/x64/jit_x64.cpp:1276-1278: store `v` in the slot and leave
its address in pri. `lea` is where the code has it. -/
def finish64 (v : Gpr) : List Item :=
  [ .op (.movqMR (.bd 0 0) v), .op (.alu true .sub (.reg 0) rDat) ]

/-- vm/x64/jit_x64.cpp:359-374 visitHEAP. -/
def emitHeap (J : JitEnv) (amount : Int) : List Item :=
  [ .op (.movlRM rAlt (J.field .hp)),
    .op (.aluI false .add (.mem (J.field .hp)) (bv amount)) ] ++
  (if amount < 0 then
    [ .op (.aluI false .cmp (.mem (J.field .hp)) (bv J.dataSize)), .err below .heapMin ]
  else
    [ .op (.movlRM rTmp (J.field .hp)),
      .op (.lea rTmp (.bisd rDat rTmp 0 64)),
      .op (.alu false .cmp (.reg rTmp) rStk),
      .err above .heapLow ])

/-- vm/x64/jit_x64.cpp:536-561 visitSDIV. -/
def emitSdiv (dest : Reg) : List Item :=
  let dividend := regOf dest
  let divisor := regOf (match dest with | .pri => .alt | .alt => .pri)
  [ .op (.test false (.reg divisor) divisor),
    .err equal .divideByZero,
    .op (.aluI false .cmp (.reg divisor) (bv (-1))),
    .jl notEqual 0,
    .op (.aluI false .cmp (.reg dividend) 0x80000000),
    .err equal .integerOverflow,
    .bind 0,
    .op (.movl (.reg rTmp) divisor),
    .op (match dest with
      | .pri => .movl (.reg 2) dividend
      | .alt => .movl (.reg 0) dividend),
    .op (.shiftI false .sar (.reg 2) 31),
    .op (.idiv false rTmp) ]

/-- vm/x64/jit_x64.cpp:326-331 visitPUSH_C, from the `i`-th value on. -/
def emitPushC : Nat → List Cell → List Item
  | _, [] => []
  | i, v :: vs => .op (.movlMI (.bd rStk (bv (-(4 * i)))) v) :: emitPushC (i + 1) vs

/-- vm/x64/jit_x64.cpp:338-345 visitPUSH_S, from the `i`-th value on. -/
def emitPushS (J : JitEnv) : Nat → List Cell → Option (List Item)
  | _, [] => some []
  | i, v :: vs =>
    match J.slot v.toInt, emitPushS J (i + 1) vs with
    | some o, some t =>
      some (.op (.movlRM rTmp (.bd rFrm (bv o))) :: .op (.movl (.mem (.bd rStk (bv (-(4 * i))))) rTmp) :: t)
    | _, _ => none

/-- vm/x64/jit_x64.cpp:758-769 visitPUSH_ADR, the loop from the `i`-th value on. -/
def emitPushAdr (J : JitEnv) : Nat → List Cell → Option (List Item)
  | _, [] => some []
  | i, v :: vs =>
    match J.slot v.toInt, emitPushAdr J (i + 1) vs with
    | some o, some t =>
      some (.op (.lea rTmp (.bd rFrm (bv o))) :: .op (.movl (.mem (.bd rStk (bv (-(4 * i))))) rTmp) :: t)
    | _, _ => none

/-- The loads that open a two-operand int64 instruction, e.g. vm/x64/jit_x64.cpp:1269-1273. -/
def load64s (J : JitEnv) (rp ra : Gpr) : List Item :=
  emitCheckAddress J rPri 8 0 ++ emitCheckAddress J rAlt 8 1 ++
  [ .op (.movqRM rp (atDat rPri)), .op (.movqRM ra (atDat rAlt)) ]

/-- vm/x64/jit_x64.cpp:1282-1316 visitSDIV_ALT_I64 and 1318-1351 visitSMOD_ALT_I64 up to the division. -/
def emitSdiv64 (J : JitEnv) : List Item :=
  load64s J rPri rAlt ++
  [ .op (.test true (.reg rPri) rPri),
    .err equal .divideByZero,
    .op (.aluI true .cmp (.reg rPri) (bv (-1))),
    .jl notEqual 2,
    .op (.movqRI 1 0x8000000000000000),
    .op (.alu true .cmp (.reg rAlt) 1),
    .err equal .integerOverflow,
    .bind 2,
    .op (.movqRR rTmp rPri),
    .op (.movqRR 0 rAlt),
    .op (.shiftI true .sar (.reg 2) 63),
    .op (.idiv true rTmp) ]

/-- The two-operand int64 instructions, vm/x64/jit_x64.cpp:1268-1463, with the offset of the result. -/
def emitBin64 (J : JitEnv) (op : Op64) (o : Int) : List Item :=
  let lea : Item := .op (.lea 0 (.bd rFrm (bv o)))
  match op with
  | .smul => load64s J 7 6 ++ [lea, .op (.imul true 7 6)] ++ finish64 7
  | .add => load64s J 7 6 ++ [lea, .op (.alu true .add (.reg 7) 6)] ++ finish64 7
  | .subAlt => load64s J 7 6 ++ [lea, .op (.alu true .sub (.reg 6) 7)] ++ finish64 6
  | .or => load64s J 7 6 ++ [lea, .op (.alu true .or (.reg 7) 6)] ++ finish64 7
  | .and => load64s J 7 6 ++ [lea, .op (.alu true .and (.reg 7) 6)] ++ finish64 7
  | .xor => load64s J 7 6 ++ [lea, .op (.alu true .xor (.reg 7) 6)] ++ finish64 7
  | .shl => load64s J 7 1 ++ [lea, .op (.shiftCl true .shl 7)] ++ finish64 7
  | .sshr => load64s J 7 1 ++ [lea, .op (.shiftCl true .sar 7)] ++ finish64 7
  | .shr => load64s J 7 1 ++ [lea, .op (.shiftCl true .shr 7)] ++ finish64 7
  | .sdivAlt => emitSdiv64 J ++ [.op (.movqRR 1 0), lea] ++ finish64 1
  | .smodAlt => emitSdiv64 J ++ [lea] ++ finish64 2

/-- vm/x64/jit_x64.cpp:1556-1596 visitCompareOpF32 with 1535-1554 ToFloatConditionCode. -/
def emitCmpF32 (c : Cmp) : Option (List Item) :=
  let head : List Item := [.op (.movdIn 0 rPri), .op (.movdIn 1 rAlt)]
  let rel (swap : Bool) (cc : Cc) : List Item :=
    head ++ [.op (if swap then .ucomiss (.xmm 0) 1 else .ucomiss (.xmm 1) 0), .op (.movlRI 0 0),
      .op (.set cc (.reg 0))]
  let eqs (v : BitVec 32) (cc : Cc) : List Item :=
    head ++ [.op (.ucomiss (.xmm 1) 0), .op (.movlRI 0 v), .jl parity 0, .op (.set cc (.reg 0)), .bind 0]
  match c with
  | .sgrtr => some (rel false above)
  | .sgeq => some (rel false aboveEqual)
  | .sleq => some (rel true aboveEqual)
  | .sless => some (rel true above)
  | .eq => some (eqs 0 equal)
  | .neq => some (eqs 1 notEqual)
  | .zero => none
  | .notZero => none

/-- What the compiler does with an instruction. -/
inductive Emit where
  /-- this code -/
  | code (is : List Item)
  /-- `assert(false); return false;` -/
  | refused
  /-- not modelled: control flow, calls of natives, helpers of the host, or arguments that violate an
  assertion -/
  | other

/-- Code that needs the offset of a slot. -/
def withSlot (J : JitEnv) (slot : Int) (f : Int → List Item) : Emit :=
  match J.slot slot with
  | some o => .code (f o)
  | none => .other

/-- vm/x64/jit_x64.cpp, the `visit*` methods in the order of `Insn`; lines are cited at each case. -/
def jit (J : JitEnv) : Insn → Emit
  | .nop => .code []
  -- 202-209, with no debugger
  | .brk => .code []
  -- 211-215
  | .load r a => .code [.op (.movlRM (regOf r) (.bd rDat (bv a)))]
  -- 217-221
  | .loadS r s => withSlot J s fun o => [.op (.movlRM (regOf r) (.bd rFrm (bv o)))]
  -- 223-228
  | .lrefS r s => withSlot J s fun o =>
      [.op (.movlRM (regOf r) (.bd rFrm (bv o))), .op (.movlRM (regOf r) (atDat (regOf r)))]
  -- 230-234
  | .loadI => .code (emitCheckAddress J rPri 4 0 ++ [.op (.movlRM rPri (atDat rPri))])
  -- 236-244
  | .lodbI w => .code (emitCheckAddress J rPri 4 0 ++ [.op (.movlRM rPri (atDat rPri))] ++
      (if w = 1 then [.op (.andlRI rPri 0xff)] else if w = 2 then [.op (.andlRI rPri 0xffff)] else []))
  -- 246-250
  | .const r v => .code [.op (.movlRI (regOf r) v)]
  -- 252-257
  | .addr r s => withSlot J s fun o =>
      [.op (.movlRM (regOf r) (J.field .frm)), .op (.aluI false .add (.reg (regOf r)) (bv o))]
  -- 259-263
  | .stor a r => .code [.op (.movl (.mem (.bd rDat (bv a))) (regOf r))]
  -- 265-269
  | .storS s r => withSlot J s fun o => [.op (.movl (.mem (.bd rFrm (bv o))) (regOf r))]
  -- 271-276
  | .srefS s r => withSlot J s fun o =>
      [.op (.movlRM rTmp (.bd rFrm (bv o))), .op (.movl (.mem (atDat rTmp)) (regOf r))]
  -- 278-282
  | .storI => .code (emitCheckAddress J rAlt 4 0 ++ [.op (.movl (.mem (atDat rAlt)) rPri)])
  -- 284-293
  | .strbI w => .code (emitCheckAddress J rAlt 4 0 ++
      (if w = 1 then [.op (.movb (.mem (atDat rAlt)) rPri)]
       else if w = 2 then [.op (.movw (.mem (atDat rAlt)) rPri)]
       else if w = 4 then [.op (.movl (.mem (atDat rAlt)) rPri)] else []))
  -- 295-298
  | .lidx => .refused
  -- 300-304
  | .idxaddr => .code [.op (.movsxd rPri (.reg rPri)), .op (.lea rPri (.bisd rAlt rPri 2 0))]
  -- 306-312
  | .move .pri => .code [.op (.movqRR rPri rAlt)]
  | .move .alt => .code [.op (.movqRR rAlt rPri)]
  -- 314-317
  | .xchg => .code [.op (.xchgq rPri rAlt)]
  -- 319-324
  | .push r => .code [.op (.movl (.mem (.bd rStk (bv (-4)))) (regOf r)), .op (.aluI true .sub (.reg rStk) 4)]
  -- 326-331
  | .pushC vs => .code (emitPushC 1 vs ++ [.op (.aluI true .sub (.reg rStk) (bv (4 * vs.length)))])
  -- 333-336
  | .pushA _ => .refused
  -- 338-345
  | .pushS vs => match emitPushS J 1 vs with
    | some is => .code (is ++ [.op (.aluI true .sub (.reg rStk) (bv (4 * vs.length)))])
    | none => .other
  -- 758-769
  | .pushAdr vs => match emitPushAdr J 1 vs with
    | some is => .code ([.op (.alu true .sub (.reg rFrm) rDat)] ++ is ++
        [.op (.aluI true .sub (.reg rStk) (bv (4 * vs.length))), .op (.alu true .add (.reg rFrm) rDat)])
    | none => .other
  -- 347-352
  | .pop r => .code [.op (.movlRM (regOf r) (.bd rStk 0)), .op (.aluI true .add (.reg rStk) 4)]
  -- 354-357
  | .stack n => .code [.op (.aluI true .add (.reg rStk) (bv n))]
  -- 359-374
  | .heap n => .code (emitHeap J n)
  -- 507-523
  | .shl => .code [.op (.movl (.reg 1) rAlt), .op (.shiftCl false .shl rPri)]
  | .shr => .code [.op (.movl (.reg 1) rAlt), .op (.shiftCl false .shr rPri)]
  | .sshr => .code [.op (.movl (.reg 1) rAlt), .op (.shiftCl false .sar rPri)]
  -- 525-529; the amount becomes a `uint8_t`
  | .shlC r n => .code [.op (.shiftI false .shl (.reg (regOf r)) (BitVec.ofInt 8 n))]
  -- 531-534
  | .smul => .code [.op (.imul false rPri rAlt)]
  -- 536-572
  | .sdiv r => .code (emitSdiv r)
  | .sdivAltI32 => .code (emitSdiv .alt)
  | .smodAltI32 => .code (emitSdiv .alt ++ [.op (.movl (.reg 0) 2)])
  -- 574-577
  | .add => .code [.op (.alu false .add (.reg rPri) rAlt)]
  -- 579-582
  | .sub => .refused
  -- 584-589
  | .subAlt => .code [.op (.movl (.reg rTmp) rAlt), .op (.alu false .sub (.reg rTmp) rPri), .op (.movl (.reg rPri) rTmp)]
  -- 591-604
  | .and => .code [.op (.alu false .and (.reg rPri) rAlt)]
  | .or => .code [.op (.alu false .or (.reg rPri) rAlt)]
  | .xor => .code [.op (.alu false .xor (.reg rPri) rAlt)]
  -- 606-611
  | .not => .code [.op (.test false (.reg 0) 0), .op (.movlRI 0 0), .op (.set equal (.reg 0))]
  -- 613-621
  | .neg => .code [.op (.neg false 0)]
  | .invert => .code [.op (.not false rPri)]
  -- 623-631
  | .addC v => .code [.op (.aluI false .add (.reg rPri) v)]
  | .smulC v => .code [.op (.imullI rPri rPri v)]
  -- 633-637
  | .zero r => .code [.op (.alu false .xor (.reg (regOf r)) (regOf r))]
  -- 639-642
  | .zeroA _ => .refused
  -- 644-647
  | .zeroS s => withSlot J s fun o => [.op (.movlMI (.bd rFrm (bv o)) 0)]
  -- 649-655
  | .cmp c => match opToCondition c with
    | some cc => .code [.op (.alu false .cmp (.reg rPri) rAlt), .op (.movlRI rPri 0), .op (.set cc (.reg 0))]
    | none => .other
  -- 657-663
  | .eqC r v => .code [.op (.aluI false .cmp (.reg (regOf r)) v), .op (.movlRI rPri 0), .op (.set equal (.reg 0))]
  -- 665-705
  | .inc r => .code [.op (.aluI false .add (.reg (regOf r)) 1)]
  | .dec r => .code [.op (.aluI false .sub (.reg (regOf r)) 1)]
  | .incA _ => .refused
  | .incS _ => .refused
  | .incI => .refused
  | .decA _ => .refused
  | .decS _ => .refused
  | .decI => .refused
  -- 707-723
  | .movs n =>
      let amount := n % 4294967296
      .code ([.op .cld, .op (.lea 7 (atDat rAlt)), .op (.lea 6 (atDat rPri))] ++
        (if amount / 4 ≠ 0 then [.op (.movlRI 1 (bv (amount / 4))), .op .repMovsd] else []) ++
        (if amount % 4 ≠ 0 then [.op (.movlRI 1 (bv (amount % 4))), .op .repMovsb] else []))
  -- 725-733
  | .fill n => .code [.op (.lea 7 (atDat rAlt)), .op (.movlRI 1 (bv (n % 4294967296 / 4))), .op .cld, .op .repStosd]
  -- 735-743
  | .bounds n => .code [.op (.aluI false .cmp (.reg 0) (bv n)), .err above (.bounds (bv n))]
  -- 745-748
  | .sysreqC _ => .refused
  -- 750-756
  | .swap r => .code [.op (.movlRM rTmp (.bd rStk 0)), .op (.movl (.mem (.bd rStk 0)) (regOf r)), .op (.movl (.reg (regOf r)) rTmp)]
  -- 883-939; more than one dimension is left to the host
  | .genarray n z =>
      if n % 4294967296 = 1 then
        .code ([ .op (.movlRM rAlt (J.field .hp)),
          .op (.movlRM rTmp (.bd rStk 0)),
          .op (.aluI false .cmp (.reg rTmp) 0),
          .err lessEqual .invalidArraySize,
          .op (.movl (.mem (.bd rStk 0)) rAlt),
          .op (.lea 7 (atDat rAlt)),
          .op (.lea rAlt (.bisd rAlt rTmp 2 0)),
          .op (.lea 8 (atDat rAlt)),
          .op (.alu true .cmp (.reg 8) rStk),
          .err aboveEqual .heapLow,
          .op (.movl (.mem (J.field .hp)) rAlt) ] ++
          (if z then [.op (.push 0), .op (.alu false .xor (.reg 0) 0), .op .cld, .op .repStosd, .op (.pop 0)] else []))
      else .other
  -- 941-945
  | .stradjust => .code [.op (.aluI false .add (.reg rPri) 4), .op (.shiftI false .sar (.reg rPri) 2)]
  -- 1121-1176; indirection vectors are left to the host
  | .initarray r a iv cp fl v =>
      if iv = 0 then
        .code ([.op (.lea 7 (atDat (regOf r)))] ++
          (if cp ≠ 0 then [.op (.lea 6 (.bd rDat (bv a))), .op .cld, .op (.movlRI 1 (bv cp)), .op .repMovsd] else []) ++
          (if fl ≠ 0 then [.op (.movlRI 0 v), .op (.movlRI 1 (bv fl)), .op .repStosd] else []))
      else .other
  -- 1178-1188
  | .heapSave => .code (emitHeap J 4 ++
      [.op (.movlRM rPri (J.field .scope)), .op (.movl (.mem (atDat rAlt)) rPri), .op (.movl (.mem (J.field .scope)) rAlt)])
  -- 1190-1200
  | .heapRestore => .code [.op (.movlRM 1 (J.field .scope)), .op (.movlRM rAlt (atDat 1)),
      .op (.movl (.mem (J.field .hp)) 1), .op (.movl (.mem (J.field .scope)) rAlt)]
  -- 1202-1208
  | .pushII64 => .code (emitCheckAddress J rPri 8 0 ++ [.op (.movqRM rTmp (atDat rPri)),
      .op (.movqMR (.bd rStk (bv (-8))) rTmp), .op (.aluI true .sub (.reg rStk) 8)])
  -- 1210-1217
  | .moveI64 => .code (emitCheckAddress J rPri 8 0 ++ emitCheckAddress J rAlt 8 1 ++
      [.op (.movqRM 1 (atDat rPri)), .op (.movqMR (atDat rAlt) 1)])
  -- 1219-1225
  | .cvtI64 s => withSlot J s fun o =>
      [.op (.movsxd rTmp (.reg rPri)), .op (.lea rPri (.bd rFrm (bv o)))] ++ finish64 rTmp
  -- 1227-1232
  | .truncI64 => .code (emitCheckAddress J rPri 8 0 ++ [.op (.movlRM rPri (atDat rPri))])
  -- 1234-1242
  | .testI64 => .code (emitCheckAddress J rPri 8 0 ++ [.op (.movqRM 1 (atDat rPri)), .op (.test true (.reg 1) 1),
      .op (.set notEqual (.reg 0)), .op (.movzxb rPri rPri)])
  -- 1244-1264
  | .invertI64 s => withSlot J s fun o =>
      emitCheckAddress J rPri 8 0 ++ [.op (.movqRM 1 (atDat rPri)), .op (.not true 1), .op (.lea 0 (.bd rFrm (bv o)))] ++ finish64 1
  | .negI64 s => withSlot J s fun o =>
      emitCheckAddress J rPri 8 0 ++ [.op (.movqRM 1 (atDat rPri)), .op (.neg true 1), .op (.lea 0 (.bd rFrm (bv o)))] ++ finish64 1
  -- 1268-1463
  | .bin64 op s => withSlot J s (emitBin64 J op)
  -- 1465-1470
  | .storSCI64 s c0 c1 => withSlot J s fun o => [.op (.movqRI 1 (c1 ++ c0)), .op (.movqMR (.bd rFrm (bv o)) 1)]
  -- 1472-1484
  | .cmp64 c => match opToCondition c with
    | some cc => .code (load64s J 7 6 ++ [.op (.alu true .cmp (.reg 7) 6), .op (.set cc (.reg 0)), .op (.movzxb rPri rPri)])
    | none => .other
  -- 1486-1495
  | .testF32 => .code [.op (.movdIn 0 rPri), .op (.xorps 1 1), .op (.ucomiss (.xmm 0) 1), .op (.set notEqual (.reg 0))]
  -- 1497-1501
  | .negF32 => .code [.op (.movlRI 1 0x80000000), .op (.alu false .xor (.reg rPri) 1)]
  -- 1503-1533, 1604-1611
  | .binF32 .mul => .code [.op (.movdIn 0 rPri), .op (.movdIn 1 rAlt), .op (.sse .mulss 0 1), .op (.movdOut rPri 0)]
  | .binF32 .divAlt => .code [.op (.movdIn 0 rAlt), .op (.movdIn 1 rPri), .op (.sse .divss 0 1), .op (.movdOut rPri 0)]
  | .binF32 .add => .code [.op (.movdIn 0 rPri), .op (.movdIn 1 rAlt), .op (.sse .addss 0 1), .op (.movdOut rPri 0)]
  | .binF32 .subAlt => .code [.op (.movdIn 0 rAlt), .op (.movdIn 1 rPri), .op (.sse .subss 0 1), .op (.movdOut rPri 0)]
  | .binF32 .modAlt => .code [.op (.movdIn 1 rPri), .op (.movdIn 0 rAlt), .fmodf, .op (.movdOut rPri 0)]
  -- 1556-1596
  | .cmpF32 c => match emitCmpF32 c with
    | some is => .code is
    | none => .other
  -- 1598-1602
  | .cvtF32 => .code [.op (.cvtsi2ss 0 (.reg rPri)), .op (.movdOut rPri 0)]
  -- 1613-1619
  | .storSPriI64 s => withSlot J s fun o =>
      emitCheckAddress J rPri 8 0 ++ [.op (.movqRM rTmp (atDat rPri)), .op (.movqMR (.bd rFrm (bv o)) rTmp)]
  -- 1621-1625
  | .zeroSI64 s => withSlot J s fun o => [.op (.alu true .xor (.reg rTmp) rTmp), .op (.movqMR (.bd rFrm (bv o)) rTmp)]
  -- 1627-1630
  | .storSC s v => withSlot J s fun o => [.op (.movlMI (.bd rFrm (bv o)) v)]
  -- 848-876, 1022-1025
  | .loadBoth _ _ => .refused
  | .loadSBoth _ _ => .refused
  | .constA _ _ => .refused
  | .constS _ _ => .refused
  | .trackPushC _ => .refused
  | .trackPop => .refused
  | .halt _ => .refused
  | .proc => .other
  | .endproc => .other
  | .retn => .other
  | .call _ => .other
  | .sysreqN _ _ => .other
  | .jump _ => .other
  | .jcmp _ _ => .other
  | .switch _ => .other
  | .casetbl _ => .other

end Verif.Jit

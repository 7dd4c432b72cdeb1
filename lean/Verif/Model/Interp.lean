import Verif.Model.Insn
import Verif.Model.Arrays

/-!
The bytecode interpreter (vm/interpreter.cpp).  One definition per `visit*` method would be mostly
noise, so `visit` has one case per method, in the order of vm/interpreter.cpp, each citing its lines.

Not modelled: the debugger hook of BREAK, the profiler, tracing output, and the arithmetic of
floats, which is an arbitrary interpretation `FloatOps`.
-/
namespace Verif.VM

/-- Interpretation of single precision arithmetic on bit patterns.  Arbitrary. -/
structure FloatOps where
  truth : Cell → Bool
  neg : Cell → Cell
  bin : OpF → Cell → Cell → Cell
  cmp : Cmp → Cell → Cell → Bool
  ofInt : Cell → Cell

/-- A native table entry: include/sp_vm_types.h `sp_native_t`, vm/plugin-runtime.h `NativeEntry`, and the
float replacement table vm/plugin-runtime.cpp:150-234.  `call` is what the host function does to the
plugin; reporting an error is `fail`. -/
structure Native where
  bound : Bool
  /-- `!(flags & (SP_NTVFLAG_EPHEMERAL | SP_NTVFLAG_OPTIONAL))` -/
  fixed : Bool
  /-- `GetNativeReplacement`: how many cells the replacing instruction pops, and its value. -/
  replacement : Option (Nat × (List Cell → Cell))
  call : State → Res State Cell

/-- Everything the interpreter consults besides the plugin's own memory. -/
structure Env where
  code : List Cell
  floats : FloatOps
  natives : Nat → Option Native
  /-- `rt_->code().version < CODE_VERSION_TYPED_STACK` -/
  legacyStack : Bool
  /-- `MethodInfo::local_offsets_` of the method that starts at this cell index. -/
  localOffsets : Nat → List Int
  /-- `MethodInfo::Validate()`: the error it reports, if any. -/
  validate : Nat → Option Err
  /-- Answer of the `n`-th call of `WatchdogTimer::HandleInterrupt()`: may the script continue? -/
  watchdog : Nat → Bool

/-- Interpreter state: the plugin, the two registers (vm/interpreter.h:38-59) and how many times the
watchdog has been asked. -/
structure IState where
  vm : State
  pri : Cell
  alt : Cell
  polls : Nat

/-- Interpreter actions. -/
abbrev IM (α : Type) := IState → Res IState α

/-- Sequencing (`if (!op()) return false;`). -/
def IM.bind {α β : Type} (x : IM α) (f : α → IM β) : IM β := fun s =>
  match x s with
  | .ok s' a => f a s'
  | .fail s' e => .fail s' e
  | .ub => .ub

/-- Return a value. -/
def IM.pure {α : Type} (a : α) : IM α := fun s => .ok s a

instance : Monad IM where
  pure := IM.pure
  bind := IM.bind

/-- A plugin operation inside the interpreter: the registers are unaffected. -/
def vmOp {α : Type} (x : VMM α) : IM α := fun s =>
  match x s.vm with
  | .ok v a => .ok { s with vm := v } a
  | .fail v e => .fail { s with vm := v } e
  | .ub => .ub

/-- `regs_[r]`, vm/interpreter.h:44-47. -/
def IState.reg (s : IState) : Reg → Cell
  | .pri => s.pri
  | .alt => s.alt

/-- `regs_[r] = v`. -/
def IState.setReg (s : IState) (r : Reg) (v : Cell) : IState :=
  match r with
  | .pri => { s with pri := v }
  | .alt => { s with alt := v }

/-- Read a register. -/
def getR (r : Reg) : IM Cell := fun s => .ok s (s.reg r)
/-- Write a register. -/
def setR (r : Reg) (v : Cell) : IM Unit := fun s => .ok (s.setReg r v) ()
/-- `cx_->ReportErrorNumber(e); return false;` -/
def throwE {α : Type} (e : Err) : IM α := fun s => .fail s e
/-- A violated `assert`, or an operation whose behaviour C++ leaves undefined. -/
def undef {α : Type} : IM α := fun _ => .ub
/-- `cx_->frm()` and `cx_->sp()`. -/
def getFrm : IM Int := fun s => .ok s s.vm.frm
/-- `cx_->sp()`. -/
def getSp : IM Int := fun s => .ok s s.vm.sp

/-- vm/method-info.cpp:69-77 MethodInfo::StackOffset; `local_offsets_.at(slot)` outside the table is
undefined. -/
def stackOffset (E : Env) (method : Nat) (slot : Int) : IM Int :=
  if E.legacyStack then pure slot
  else if slot < 0 then pure (wrap32 ((-slot - 1 + 3) * 4))
  else match (E.localOffsets method)[slot.toNat]? with
    | some o => pure o
    | none => undef

/-- vm/method-info.cpp:79-83 MethodInfo::StackSizeForLocalSlots. -/
def stackSizeForLocals (E : Env) (method : Nat) : Int := (E.localOffsets method).getLast?.getD 0

/-- What an instruction asks the main loop to do next. -/
inductive Ctl where
  | next | goto (offset : Int) | ret | call (offset : Int)
deriving DecidableEq

/-- Comparison of cells used by vm/interpreter.cpp:306-351 (visitJcmp) and 604-629 (visitCompareOp). -/
def cmpCells : Cmp → Cell → Cell → Bool
  | .zero, p, _ => p == 0
  | .notZero, p, _ => p != 0
  | .eq, p, a => p == a
  | .neq, p, a => p != a
  | .sless, p, a => p.slt a
  | .sleq, p, a => p.sle a
  | .sgrtr, p, a => a.slt p
  | .sgeq, p, a => a.sle p

/-- C++ `bool` to cell. -/
def boolCell (b : Bool) : Cell := if b then 1 else 0

/-- vm/interpreter.cpp:507-529 visitSDIV (also 531-549, 551-569): the checks before dividing. -/
def divCheck {n : Nat} (dividend divisor : BitVec n) : Option Err :=
  if divisor = 0 then some .divideByZero
  else if divisor = -1 ∧ dividend = BitVec.intMin n then some .integerOverflow
  else none

/-- Read eight bytes, little endian. -/
def rd64 (m : Int → BitVec 8) (a : Int) : BitVec 64 := rd32 m (a + 4) ++ rd32 m a

/-- Write eight bytes, little endian. -/
def wr64 (m : Int → BitVec 8) (a : Int) (v : BitVec 64) : Int → BitVec 8 :=
  wr32 (wr32 m a (v.extractLsb' 0 32)) (a + 4) (v.extractLsb' 32 32)

/-- Load through an `int64_t*`. -/
def loadRaw64 (a : Int) : VMM (BitVec 64) := fun s =>
  if s.inMem a 8 then .ok s (rd64 s.mem a) else .ub

/-- Store through an `int64_t*`. -/
def storeRaw64 (a : Int) (v : BitVec 64) : VMM Unit := fun s =>
  if s.inMem a 8 then .ok { s with mem := wr64 s.mem a v } () else .ub

/-- vm/plugin-runtime.h:206-211 acquireInt64Addr. -/
def acquireInt64Addr (address : Int) : VMM Int := acquireAddrRange address 8

/-- vm/plugin-runtime.h:213-217 acquireInt64Slot: a bad address violates the assertion. -/
def acquireInt64Slot (offset : Int) : VMM Int := fun s =>
  match throwIfBadAddress (wrap32 (s.frm + offset)) s with
  | .ok s a => .ok s a
  | _ => .ub

/-- `memmove` of `n` bytes. -/
def moveBytes (m : Int → BitVec 8) (dst src n : Int) : Int → BitVec 8 :=
  fun x => if dst ≤ x ∧ x < dst + n then m (src + (x - dst)) else m x

/-- The two-operand int64 instructions, vm/interpreter.cpp:1118-1291 and vm/runtime-helpers.cpp:25-51:
the value, the error reported, or (a shift by a negative or too large amount) nothing. -/
def op64 (op : Op64) (p a : BitVec 64) : Option (Except Err (BitVec 64)) :=
  match op with
  | .smul => some (.ok (p * a))
  | .add => some (.ok (p + a))
  | .subAlt => some (.ok (a - p))
  | .or => some (.ok (p ||| a))
  | .and => some (.ok (p &&& a))
  | .xor => some (.ok (p ^^^ a))
  | .shl => if a.toNat < 64 then some (.ok (p <<< a.toNat)) else none
  | .sshr => if a.toNat < 64 then some (.ok (p.sshiftRight a.toNat)) else none
  | .shr => if a.toNat < 64 then some (.ok (p >>> a.toNat)) else none
  | .sdivAlt => match divCheck a p with
    | some e => some (.error e)
    | none => some (.ok (a.sdiv p))
  | .smodAlt => match divCheck a p with
    | some e => some (.error e)
    | none => some (.ok (a.srem p))

/-- Signed comparison of 64-bit values, vm/interpreter.cpp:1302-1335. -/
def cmp64 : Cmp → BitVec 64 → BitVec 64 → Bool
  | .zero, p, _ => p == 0
  | .notZero, p, _ => p != 0
  | .eq, p, a => p == a
  | .neq, p, a => p != a
  | .sless, p, a => p.slt a
  | .sleq, p, a => p.sle a
  | .sgrtr, p, a => a.slt p
  | .sgeq, p, a => a.sle p

/-- vm/interpreter.cpp:90-110 invokeNative.  `ke::SaveAndSet` puts `sp` and `hp` back when the native
returns, whether or not it reported an error. -/
def invokeNative (E : Env) (i : Int) : IM Unit := fun s =>
  match E.natives i.toNat with
  | none => .ub
  | some n =>
    if i < 0 then .ub
    else if n.bound then
      match n.call s.vm with
      | .ok v r => .ok { s with vm := { v with sp := s.vm.sp, hp := s.vm.hp }, pri := r } ()
      | .fail v e => .fail { s with vm := { v with sp := s.vm.sp, hp := s.vm.hp } } e
      | .ub => .ub
    else .fail s .invalidNative

/-- Pop `n` cells into a list, first popped first. -/
def popList : Nat → VMM (List Cell)
  | 0 => pure []
  | n+1 => do let v ← popStack; let vs ← popList n; pure (v :: vs)

/-- vm/interpreter.cpp:293-306 and 340-349: taking a jump asks the watchdog when the target lies
before the end of the current instruction. -/
def takeJump (E : Env) (here : Int) (offset : Int) : IM Ctl := fun s =>
  if offset < here then
    if E.watchdog s.polls then .ok { s with polls := s.polls + 1 } (.goto offset)
    else .fail { s with polls := s.polls + 1 } .timeout
  else .ok s (.goto offset)

/-- The case table at byte offset `tbl`, vm/pcode-reader.h:702-720: default address and the entries
(value, address).  `none` when the table is not there or runs past the end of the code. -/
def caseTable (code : List Cell) (tbl : Int) : Option (Cell × List (Cell × Cell)) :=
  if tbl < 0 then none
  else
    let i := (tbl / 4).toNat
    match code[i]?, code[i + 1]?, code[i + 2]? with
    | some op, some n, some d =>
      if op = 130 ∧ 0 ≤ n.toInt ∧ i + 3 + 2 * n.toNat ≤ code.length then
        some (d, (List.range n.toNat).map fun k => (code.getD (i + 3 + 2 * k) 0, code.getD (i + 4 + 2 * k) 0))
      else none
    | _, _, _ => none

/-- vm/interpreter.cpp:672-682 visitSWITCH: the first entry with that value, else the default. -/
def switchTarget (d : Cell) (cases : List (Cell × Cell)) (v : Cell) : Cell :=
  match cases with
  | [] => d
  | (k, a) :: rest => if k = v then a else switchTarget d rest v

/-- Push the values one by one. -/
def pushAll : List Cell → VMM Unit
  | [] => pure ()
  | v :: vs => do pushStack v; pushAll vs

/-- vm/interpreter.cpp:152-163 visitPUSH(addresses). -/
def pushAddrs : List Cell → VMM Unit
  | [] => pure ()
  | a :: as => do let v ← getCellValue a.toInt; pushStack v; pushAddrs as

/-- vm/interpreter.cpp:254-264 visitPUSH_S. -/
def pushSlots (E : Env) (method : Nat) : List Cell → IM Unit
  | [] => pure ()
  | o :: os => do
    let off ← stackOffset E method o.toInt
    let v ← vmOp (getFrameValue off)
    vmOp (pushStack v)
    pushSlots E method os

/-- vm/interpreter.cpp:130-138 visitPUSH_ADR. -/
def pushAdrs (E : Env) (method : Nat) : List Cell → IM Unit
  | [] => pure ()
  | o :: os => do
    let off ← stackOffset E method o.toInt
    let f ← getFrm
    vmOp (pushStack (BitVec.ofInt 32 (wrap32 (f + off))))
    pushAdrs E method os

/-- `*addr += d` through throwIfBadAddress: vm/interpreter.cpp:395-402, 412-419, 427-434, 444-451. -/
def bumpCell (a : Int) (d : Cell) : VMM Unit := do
  let p ← throwIfBadAddress a
  let v ← loadRaw p
  storeRaw p (v + d)

/-- The int64 destination slot: write it and leave its address in PRI, e.g. vm/interpreter.cpp:1119-1131. -/
def finish64 (off : Int) (v : BitVec 64) : IM Unit := do
  let d ← vmOp (acquireInt64Slot off)
  vmOp (storeRaw64 d v)
  let f ← getFrm
  setR .pri (BitVec.ofInt 32 (wrap32 (f + off)))

/-- Execute one instruction of the method that starts at cell `method`; `here` is the byte offset just
after the instruction (`reader_.cip_offset()`). -/
def visit (E : Env) (method : Nat) (here : Int) (i : Insn) : IM Ctl :=
  let done (x : IM Unit) : IM Ctl := do x; pure .next
  match i with
  | .nop => pure .next
  -- vm/interpreter.cpp:1027-1035, debugger not attached
  | .brk => pure .next
  -- vm/interpreter.cpp:77-78: the main loop never visits these
  | .proc => undef
  | .endproc => undef
  -- 112-120 visitRETN
  | .retn => do vmOp popAmxFrame; pure .ret
  -- 122-128
  | .pushC vs => done (vmOp (pushAll vs))
  | .pushAdr vs => done (pushAdrs E method vs)
  -- 141-151
  | .pushII64 => done do
      let p ← getR .pri
      let a ← vmOp (acquireAddrRange p.toInt 8)
      let v ← vmOp (loadRaw64 a)
      vmOp (pushStack (v.extractLsb' 32 32))
      vmOp (pushStack (v.extractLsb' 0 32))
  | .pushA vs => done (vmOp (pushAddrs vs))
  -- 165-186, completed by the main loop
  | .call o => pure (.call o)
  -- 188-191: `heapAlloc(amount, &regs_.alt())`
  | .heap n => done do let a ← vmOp (heapAlloc n); setR .alt (BitVec.ofInt 32 a)
  | .loadI => done do let p ← getR .pri; let v ← vmOp (getCellValue p.toInt); setR .pri v
  | .storI => done do let a ← getR .alt; let p ← getR .pri; vmOp (setCellValue a.toInt p)
  | .push r => done do let v ← getR r; vmOp (pushStack v)
  | .pop r => done do let v ← vmOp popStack; setR r v
  -- 213-216
  | .sysreqC i => done (invokeNative E i)
  -- 218-231 and vm/pcode-reader.h:594-607
  | .sysreqN i n => done (fun s =>
      match E.natives i.toNat with
      | none => .ub
      | some nat =>
        if i < 0 then .ub
        else match (if nat.bound && nat.fixed then nat.replacement else none) with
          | some (k, f) => (do let vs ← vmOp (popList k); setR .pri (f vs) : IM Unit) s
          | none => (do
              vmOp (pushStack (BitVec.ofInt 32 n))
              invokeNative E i
              vmOp (popN ((n + 1) % 4294967296).toNat) : IM Unit) s)
  | .zero r => done (setR r 0)
  | .zeroA a => done (vmOp (setCellValue a 0))
  | .zeroS o => done do let f ← stackOffset E method o; vmOp (setFrameValue f 0)
  | .stack n => done (vmOp (addStack n))
  | .pushS vs => done (pushSlots E method vs)
  | .const r v => done (setR r v)
  | .constA a v => done (vmOp (setCellValue a v))
  | .constS o v => done do let f ← stackOffset E method o; vmOp (setFrameValue f v)
  -- 1441-1444 visitSTOR_S_C
  | .storSC o v => done do let f ← stackOffset E method o; vmOp (setFrameValue f v)
  | .loadS r o => done do
      let f ← stackOffset E method o
      let v ← vmOp (getFrameValue f)
      setR r v
  | .storS o r => done do
      let f ← stackOffset E method o
      let v ← getR r
      vmOp (setFrameValue f v)
  -- 293-306
  | .jump o => takeJump E here o
  -- 308-351
  | .jcmp c o => fun s => if cmpCells c s.pri s.alt then takeJump E here o s else .ok s .next
  | .addC v => done do let p ← getR .pri; setR .pri (p + v)
  | .smulC v => done do let p ← getR .pri; setR .pri (p * v)
  | .add => done do let p ← getR .pri; let a ← getR .alt; setR .pri (p + a)
  | .not => done do let p ← getR .pri; setR .pri (if p = 0 then 1 else 0)
  | .neg => done do let p ← getR .pri; setR .pri (-p)
  | .invert => done do let p ← getR .pri; setR .pri (~~~ p)
  | .inc r => done do let v ← getR r; setR r (v + 1)
  | .incA a => done (vmOp (bumpCell a 1))
  | .incS o => done do
      let f ← stackOffset E method o
      let v ← vmOp (getFrameValue f)
      vmOp (setFrameValue f (v + 1))
  | .incI => done do let p ← getR .pri; vmOp (bumpCell p.toInt 1)
  | .dec r => done do let v ← getR r; setR r (v - 1)
  | .decA a => done (vmOp (bumpCell a (-1)))
  | .decS o => done do
      let f ← stackOffset E method o
      let v ← vmOp (getFrameValue f)
      vmOp (setFrameValue f (v - 1))
  | .decI => done do let p ← getR .pri; vmOp (bumpCell p.toInt (-1))
  -- 453-469
  | .loadBoth a b => done do
      let v ← vmOp (getCellValue a)
      setR .pri v
      let w ← vmOp (getCellValue b)
      setR .alt w
  | .loadSBoth a b => done do
      let f ← stackOffset E method a
      let v ← vmOp (getFrameValue f)
      setR .pri v
      let g ← stackOffset E method b
      let w ← vmOp (getFrameValue g)
      setR .alt w
  | .and => done do let p ← getR .pri; let a ← getR .alt; setR .pri (p &&& a)
  | .or => done do let p ← getR .pri; let a ← getR .alt; setR .pri (p ||| a)
  | .xor => done do let p ← getR .pri; let a ← getR .alt; setR .pri (p ^^^ a)
  | .sub => done do let p ← getR .pri; let a ← getR .alt; setR .pri (p - a)
  | .subAlt => done do let p ← getR .pri; let a ← getR .alt; setR .pri (a - p)
  | .smul => done do let p ← getR .pri; let a ← getR .alt; setR .pri (p * a)
  -- 507-529 visitSDIV
  | .sdiv dest => done do
      let divisor ← getR (match dest with | .pri => .alt | .alt => .pri)
      let dividend ← getR dest
      match divCheck dividend divisor with
      | some e => throwE e
      | none => do
        setR .pri (dividend.sdiv divisor)
        setR .alt (dividend.srem divisor)
  -- 531-549
  | .sdivAltI32 => done do
      let divisor ← getR .pri
      let dividend ← getR .alt
      match divCheck dividend divisor with
      | some e => throwE e
      | none => setR .pri (dividend.sdiv divisor)
  -- 551-569
  | .smodAltI32 => done do
      let divisor ← getR .pri
      let dividend ← getR .alt
      match divCheck dividend divisor with
      | some e => throwE e
      | none => setR .pri (dividend.srem divisor)
  -- 571-596; shifting by a negative amount or by 32 or more is undefined
  | .shl => done do
      let p ← getR .pri; let a ← getR .alt
      if a.toNat < 32 then setR .pri (p <<< a.toNat) else undef
  | .shr => done do
      let p ← getR .pri; let a ← getR .alt
      if a.toNat < 32 then setR .pri (p >>> a.toNat) else undef
  | .sshr => done do
      let p ← getR .pri; let a ← getR .alt
      if a.toNat < 32 then setR .pri (p.sshiftRight a.toNat) else undef
  | .shlC r n => done do
      let v ← getR r
      if 0 ≤ n ∧ n < 32 then setR r (v <<< n.toNat) else undef
  | .eqC r v => done do let x ← getR r; setR .pri (boolCell (x == v))
  | .cmp c => done do let p ← getR .pri; let a ← getR .alt; setR .pri (boolCell (cmpCells c p a))
  -- 631-635 visitADDR
  | .addr r o => done do
      let off ← stackOffset E method o
      let f ← getFrm
      setR r (BitVec.ofInt 32 (wrap32 (f + off)))
  -- 637-647 visitMOVS; `amount` is unsigned
  | .movs n => done (fun s =>
      let amount := n % 4294967296
      (do let src ← vmOp (acquireAddrRange s.pri.toInt amount)
          let dst ← vmOp (acquireAddrRange s.alt.toInt amount)
          vmOp (fun v => if v.inMem src amount ∧ v.inMem dst amount then
              .ok { v with mem := moveBytes v.mem dst src amount } () else .ub) : IM Unit) s)
  -- 649-659 visitMOVE_I64
  | .moveI64 => done do
      let p ← getR .pri; let a ← getR .alt
      let src ← vmOp (acquireAddrRange p.toInt 8)
      let dst ← vmOp (acquireAddrRange a.toInt 8)
      let v ← vmOp (loadRaw64 src)
      vmOp (storeRaw64 dst v)
  -- 661-669 visitFILL
  | .fill n => done (fun s =>
      let amount := n % 4294967296
      (do let dst ← vmOp (acquireAddrRange s.alt.toInt amount)
          vmOp (fun v => if v.inMem dst (amount / 4 * 4) then
              .ok { v with mem := fillCells v.mem dst s.pri (amount / 4).toNat } () else .ub) : IM Unit) s)
  -- 671-682 visitSWITCH, vm/pcode-reader.h:702-720
  | .switch t => fun s =>
      match caseTable E.code t with
      | none => .ub
      | some (d, cases) => .ok s (.goto (switchTarget d cases s.pri).toInt)
  | .casetbl _ => pure .next
  -- 684-691 visitBOUNDS: `size_t(regs_.pri()) > limit`, on a 64-bit host a negative index is huge
  | .bounds n => fun s =>
      if s.pri.toInt < 0 ∨ s.pri.toInt > n % 4294967296 then .fail s .arrayBounds else .ok s .next
  | .idxaddr => done do let p ← getR .pri; let a ← getR .alt; setR .pri (a + p * 4)
  | .lidx => done do
      let p ← getR .pri; let a ← getR .alt
      let v ← vmOp (getCellValue (a + p * 4).toInt)
      setR .pri v
  | .lrefS r o => done do
      let f ← stackOffset E method o
      let p ← vmOp (getFrameValue f)
      let v ← vmOp (getCellValue p.toInt)
      setR r v
  | .srefS o r => done do
      let f ← stackOffset E method o
      let p ← vmOp (getFrameValue f)
      let v ← getR r
      vmOp (setCellValue p.toInt v)
  -- 721-739 visitLODB_I
  | .lodbI w => done do
      let p ← getR .pri
      let v ← vmOp (getCellValue p.toInt)
      if w = 1 then setR .pri (v &&& 0xff)
      else if w = 2 then setR .pri (v &&& 0xffff)
      else if w = 4 then setR .pri v
      else undef
  -- 741-761 visitSTRB_I
  | .strbI w => done do
      let a ← getR .alt
      let p ← getR .pri
      let d ← vmOp (throwIfBadAddress a.toInt)
      if w = 1 then vmOp (storeRaw8 d (p.extractLsb' 0 8))
      else if w = 2 then do
        vmOp (storeRaw8 d (p.extractLsb' 0 8))
        vmOp (storeRaw8 (d + 1) (p.extractLsb' 8 8))
      else if w = 4 then vmOp (storeRaw d p)
      else undef
  | .load r a => done do let v ← vmOp (getCellValue a); setR r v
  | .stor a r => done do let v ← getR r; vmOp (setCellValue a v)
  | .move r => done do let v ← getR (match r with | .pri => .alt | .alt => .pri); setR r v
  | .xchg => done do let p ← getR .pri; let a ← getR .alt; setR .pri a; setR .alt p
  -- 786-792 visitSWAP
  | .swap r => done do
      let t ← getR r
      let v ← vmOp popStack
      setR r v
      vmOp (pushStack t)
  | .genarray n z => done (vmOp (genArray (n % 4294967296).toNat z))
  -- 1001-1019 visitTRACKER_PUSH_C, visitTRACKER_POP_SETHEAP; the amount is a `cell_t` passed as `ucell_t`
  | .trackPushC n => done (vmOp (pushTracker (n % 4294967296)))
  | .trackPop => done (vmOp popTracker)
  | .stradjust => done do let p ← getR .pri; setR .pri ((p + 4).sshiftRight 2)
  -- 1037-1043 visitHALT
  | .halt _ => throwE .invalidInstruction
  | .heapSave => done (vmOp enterHeapScope)
  | .heapRestore => done (vmOp leaveHeapScope)
  -- 1055-1059 visitINITARRAY
  | .initarray r a iv cp fl v => done do let x ← getR r; vmOp (initArray x.toInt a iv cp fl v)
  -- 1061-1069 visitCVT_I64
  | .cvtI64 o => done do
      let off ← stackOffset E method o
      let p ← getR .pri
      finish64 off (p.signExtend 64)
  | .truncI64 => done do
      let p ← getR .pri
      let a ← vmOp (acquireInt64Addr p.toInt)
      let v ← vmOp (loadRaw64 a)
      setR .pri (v.extractLsb' 0 32)
  | .testI64 => done do
      let p ← getR .pri
      let a ← vmOp (acquireInt64Addr p.toInt)
      let v ← vmOp (loadRaw64 a)
      setR .pri (boolCell (v != 0))
  | .invertI64 o => done do
      let p ← getR .pri
      let a ← vmOp (acquireInt64Addr p.toInt)
      let off ← stackOffset E method o
      let v ← vmOp (loadRaw64 a)
      finish64 off (~~~ v)
  | .negI64 o => done do
      let p ← getR .pri
      let a ← vmOp (acquireInt64Addr p.toInt)
      let off ← stackOffset E method o
      let v ← vmOp (loadRaw64 a)
      finish64 off (-v)
  -- 1118-1291: destination acquired before the operation; nothing is written on an error
  | .bin64 op o => done do
      let p ← getR .pri
      let pp ← vmOp (acquireInt64Addr p.toInt)
      let a ← getR .alt
      let pa ← vmOp (acquireInt64Addr a.toInt)
      let off ← stackOffset E method o
      let _ ← vmOp (acquireInt64Slot off)
      let x ← vmOp (loadRaw64 pp)
      let y ← vmOp (loadRaw64 pa)
      match op64 op x y with
      | none => undef
      | some (.error e) => throwE e
      | some (.ok v) => finish64 off v
  -- 1293-1300 visitSTOR_S_C_I64
  | .storSCI64 o c0 c1 => done do
      let off ← stackOffset E method o
      let d ← vmOp (acquireInt64Slot off)
      vmOp (storeRaw64 d (c1 ++ c0))
  -- 1424-1431 visitSTOR_S_PRI_I64
  | .storSPriI64 o => done do
      let p ← getR .pri
      let a ← vmOp (acquireInt64Addr p.toInt)
      let off ← stackOffset E method o
      let d ← vmOp (acquireInt64Slot off)
      let v ← vmOp (loadRaw64 a)
      vmOp (storeRaw64 d v)
  -- 1433-1439 visitZERO_S_I64
  | .zeroSI64 o => done do
      let off ← stackOffset E method o
      vmOp (setFrameValue off 0)
      vmOp (setFrameValue (wrap32 (off + 4)) 0)
  -- 1302-1335 visitCompareOp64
  | .cmp64 c => done do
      let p ← getR .pri
      let pp ← vmOp (acquireInt64Addr p.toInt)
      let a ← getR .alt
      let pa ← vmOp (acquireInt64Addr a.toInt)
      let x ← vmOp (loadRaw64 pp)
      let y ← vmOp (loadRaw64 pa)
      setR .pri (boolCell (cmp64 c x y))
  -- 1337-1422
  | .testF32 => done do let p ← getR .pri; setR .pri (boolCell (E.floats.truth p))
  | .negF32 => done do let p ← getR .pri; setR .pri (E.floats.neg p)
  | .binF32 op => done do let p ← getR .pri; let a ← getR .alt; setR .pri (E.floats.bin op p a)
  | .cmpF32 c => done do
      let p ← getR .pri; let a ← getR .alt
      setR .pri (boolCell (E.floats.cmp c p a))
  | .cvtF32 => done do let p ← getR .pri; setR .pri (E.floats.ofInt p)

/-- vm/pcode-reader.h:98-105 `jump`: the asserted range; returns the cell index. -/
def jumpIndex (E : Env) (offset : Int) : Option Nat :=
  if 0 ≤ offset ∧ offset % 4 = 0 ∧ (offset / 4).toNat < E.code.length then some (offset / 4).toNat else none

/-- vm/plugin-runtime.cpp:244-272 AcquireMethod: the cell index of the method at this byte offset. -/
def acquireMethod (E : Env) (offset : Int) : Option Nat :=
  match jumpIndex E offset with
  | some pc => if E.code[pc]? = some 46 then some pc else none
  | none => none

/-- vm/interpreter.cpp:57-68: what `run` does before the main loop: a new frame and space for local
slots.  Registers start at zero. -/
def enterMethod (E : Env) (method : Nat) (s : IState) : Res IState Unit :=
  (do vmOp pushAmxFrame
      let n := stackSizeForLocals E method
      if n ≠ 0 then vmOp (addStack n) else pure () : IM Unit) { s with pri := 0, alt := 0 }

/-- vm/interpreter.cpp:70-83, the main loop of `run` from cell index `pc`, with `fuel` bounding the
number of instructions; `none` when it runs out.  Returns the value `return_value()`. CALL
(vm/interpreter.cpp:165-186) starts a fresh interpreter on the callee and resumes with PRI set. -/
def loop (E : Env) : Nat → Nat → Nat → IState → Option (Res IState Cell)
  | 0, _, _, _ => none
  | fuel+1, method, pc, s =>
    match E.code[pc]? with
    | none => some (.ok s 0)
    | some opc =>
      if opc = 46 ∨ opc = 166 then some (.ok s 0)
      else match decode E.code pc with
        | none => some .ub
        | some (i, pc') =>
          match visit E method (pc' * 4) i s with
          | .ub => some .ub
          | .fail s' e => some (.fail s' e)
          | .ok s' .next => loop E fuel method pc' s'
          | .ok s' .ret => some (.ok s' s'.pri)
          | .ok s' (.goto o) =>
            match jumpIndex E o with
            | none => some .ub
            | some t => loop E fuel method t s'
          | .ok s' (.call o) =>
            match acquireMethod E o with
            | none => some (.fail s' .invalidAddress)
            | some t =>
              match E.validate t with
              | some e => some (.fail s' e)
              | none =>
                match enterMethod E t s' with
                | .ub => some .ub
                | .fail s'' e => some (.fail s'' e)
                | .ok s'' _ =>
                  match loop E fuel t (t + 1) s'' with
                  | none => none
                  | some .ub => some .ub
                  | some (.fail s3 e) => some (.fail s3 e)
                  | some (.ok s3 v) =>
                    loop E fuel method pc' { vm := s3.vm, pri := v, alt := s'.alt, polls := s3.polls }

/-- vm/interpreter.cpp:36-43 Interpreter::Run. -/
def run (E : Env) (fuel : Nat) (method : Nat) (s : IState) : Option (Res IState Cell) :=
  match enterMethod E method s with
  | .ub => some .ub
  | .fail s' e => some (.fail s' e)
  | .ok s' _ => loop E fuel method (method + 1) s'

end Verif.VM

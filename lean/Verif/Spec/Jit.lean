import Verif.Model.Jit
import Verif.Spec.Memory

/-!
When a processor that runs compiled code and the bytecode interpreter are in the same state.
-/
namespace Verif.Jit
open Verif.X64 Verif.VM

/-- The host's address space is as the compiled code expects: the block lies in the lower half of the
address space, and the members of the context lie outside the block and have different addresses. -/
structure HostOk (H : Host) : Prop where
  room : (H.base.toNat : Int) + H.memSize ≤ 9223372036854775808
  out : ∀ f, H.memSize ≤ H.offset (H.addr f)
  inj : ∀ f g, H.addr f = H.addr g → f = g

/-- The host address of plugin address `a`. -/
def Host.at (H : Host) (a : Int) : BitVec 64 := H.base + BitVec.ofInt 64 a

/-- What the code of a method must leave as it is: the native stack, the frame pointer rbp of the native stack and
r13, the address of the environment. -/
def _root_.Verif.X64.Mach.outer (m : Mach) : List (BitVec 64) × BitVec 64 × BitVec 64 := (m.stack, m.reg 5, m.reg 13)

/-- Interpreter and processor agree.  `kp` and `ka` say whether rax and rdx hold the registers PRI and
ALT of the interpreter. -/
structure Sim (H : Host) (kp ka : Bool) (m : Mach) (s : IState) : Prop where
  pri : kp = true → m.reg 0 = s.pri.setWidth 64
  alt : ka = true → m.reg 2 = s.alt.setWidth 64
  /-- rbx is the frame pointer -/
  frm : m.reg 3 = Host.at H s.vm.frm
  /-- r12 points to the context -/
  ctx : m.reg 12 = H.ctx
  /-- r14 is the stack pointer -/
  stk : m.reg 14 = Host.at H s.vm.sp
  /-- r15 points to the memory block -/
  dat : m.reg 15 = H.base
  df : m.df = false
  mem : m.mem = s.vm.mem
  hpF : m.field .hp = BitVec.ofInt 32 s.vm.hp
  frmF : m.field .frm = BitVec.ofInt 32 s.vm.frm
  scopeF : m.field .scope = BitVec.ofInt 32 s.vm.hpScope

/-- Code compiled with `J` for `method` of the plugin `E` runs on `H` in the interpreter state `s`. -/
structure Setup (H : Host) (J : JitEnv) (E : Env) (method : Nat) (s : IState) : Prop where
  host : HostOk H
  size : H.memSize = s.vm.memSize
  jsize : J.memSize = s.vm.memSize
  jdata : J.dataSize = s.vm.dataSize
  joff : J.off = H.off
  jslot : J.slot = slotOffset E method
  layout : Layout s.vm
  frm0 : 0 ≤ s.vm.frm
  frm1 : s.vm.frm ≤ s.vm.stp

/-- What a comparison operator says about two floats: an unordered pair only satisfies `≠`. -/
def FRel.sat : FRel → Cmp → Bool
  | .lt, .sless | .lt, .sleq | .lt, .neq => true
  | .gt, .sgrtr | .gt, .sgeq | .gt, .neq => true
  | .eq, .eq | .eq, .sleq | .eq, .sgeq => true
  | .un, .neq => true
  | _, _ => false

/-- The other way round. -/
def FRel.swap : FRel → FRel
  | .lt => .gt
  | .gt => .lt
  | .eq => .eq
  | .un => .un

/-- The C++ compiler's float arithmetic, which the interpreter uses, is that of the processor. -/
structure FloatsAgree (F : FloatOps) (U : Fpu) : Prop where
  neg : ∀ p, F.neg p = p ^^^ 0x80000000
  mul : ∀ p a, F.bin .mul p a = U.mul p a
  divAlt : ∀ p a, F.bin .divAlt p a = U.div a p
  add : ∀ p a, F.bin .add p a = U.add p a
  subAlt : ∀ p a, F.bin .subAlt p a = U.sub a p
  modAlt : ∀ p a, F.bin .modAlt p a = U.fmod a p
  cmp : ∀ c p a, c ≠ .zero → c ≠ .notZero → F.cmp c p a = FRel.sat (U.cmp p a) c
  swap : ∀ p a, U.cmp a p = FRel.swap (U.cmp p a)
  ofInt : ∀ p, F.ofInt p = U.ofInt p

/-- PRI is known after an assignment of `r`. -/
def setP : Reg → Bool → Bool
  | .pri, _ => true
  | .alt, k => k
/-- ALT is known after an assignment of `r`. -/
def setA : Reg → Bool → Bool
  | .pri, k => k
  | .alt, _ => true

/-- Instructions that need rax to hold PRI. -/
def needsPri : Insn → Bool
  | .loadI | .lodbI _ | .storI | .strbI _ | .idxaddr | .move .alt | .xchg => true
  | .stor _ r | .storS _ r | .srefS _ r | .push r | .swap r | .shlC r _ | .eqC r _ | .inc r | .dec r
  | .initarray r .. => r = .pri
  | .shl | .shr | .sshr | .smul | .sdiv _ | .sdivAltI32 | .smodAltI32 | .add | .subAlt | .and | .or | .xor
  | .not | .neg | .invert | .addC _ | .smulC _ | .cmp _ | .movs _ | .fill _ | .bounds _ | .stradjust => true
  | .pushII64 | .moveI64 | .cvtI64 _ | .truncI64 | .testI64 | .invertI64 _ | .negI64 _ | .bin64 .. | .cmp64 _
  | .storSPriI64 _ => true
  | .testF32 | .negF32 | .binF32 _ | .cmpF32 _ | .cvtF32 => true
  | _ => false

/-- Instructions that need rdx to hold ALT. -/
def needsAlt : Insn → Bool
  | .storI | .strbI _ | .idxaddr | .move .pri | .xchg => true
  | .stor _ r | .storS _ r | .srefS _ r | .push r | .swap r | .shlC r _ | .eqC r _ | .inc r | .dec r
  | .initarray r .. => r = .alt
  | .shl | .shr | .sshr | .smul | .sdiv _ | .sdivAltI32 | .smodAltI32 | .add | .subAlt | .and | .or | .xor
  | .cmp _ | .movs _ | .fill _ => true
  | .moveI64 | .bin64 .. | .cmp64 _ => true
  | .binF32 _ | .cmpF32 _ => true
  | _ => false

/-- Whether rax holds PRI after an instruction.  Saving the heap and filling an array use it for something
else. -/
def priAfter : Insn → Bool → Bool
  | .load r _, k | .loadS r _, k | .lrefS r _, k | .const r _, k | .addr r _, k | .zero r, k | .pop r, k => setP r k
  | .move .pri, _ | .eqC _ _, _ => true
  | .heapSave, _ => false
  | .initarray _ _ _ _ fl _, k => k && decide (fl = 0)
  | _, k => k

/-- Whether rdx holds ALT after an instruction. -/
def altAfter : Insn → Bool → Bool
  | .load r _, k | .loadS r _, k | .lrefS r _, k | .const r _, k | .addr r _, k | .zero r, k | .pop r, k => setA r k
  | .move .alt, _ | .heap _, _ => true
  | .sdivAltI32, _ | .smodAltI32, _ | .heapSave, _ | .heapRestore, _ | .genarray _ _, _ => false
  | .bin64 .sdivAlt _, _ | .bin64 .smodAlt _, _ | .binF32 .modAlt, _ => false
  | _, k => k

/-- What the heap check of compiled code needs, as it compares the lower halves of host addresses: the
block does not straddle a multiple of 4 GB, and the sum does not overflow. -/
structure HeapSide (H : Host) (s : IState) (n : Int) : Prop where
  low : (H.base.toNat % 4294967296 : Int) + H.memSize ≤ 4294967296
  small : s.vm.hp + n + 64 < 2147483648

/-- The circumstances in which compiled code and interpreter do the same.  Every condition here is needed:
the counterexamples in `Verif.Props.C62` violate one each. -/
def Side (H : Host) (s : IState) : Insn → Prop
  -- the sum is computed in 64 bits
  | .idxaddr => 0 ≤ (s.alt.toNat : Int) + 4 * s.pri.toInt ∧ (s.alt.toNat : Int) + 4 * s.pri.toInt < 4294967296
  -- compiled code copies forwards
  | .movs n => s.alt.toInt ≤ s.pri.toInt ∨ s.pri.toInt + n % 4294967296 ≤ s.alt.toInt
  | .heap n => 0 ≤ n → HeapSide H s n
  | .heapSave => (H.base.toNat % 4294967296 : Int) + H.memSize ≤ 4294967296
  | .stack n => -2147483648 ≤ n ∧ n < 2147483648 ∧ s.vm.sp + n < 2147483648
  -- the compiler asserts it
  | .genarray _ _ => s.vm.usesHeapScopes = true
  -- these two are compiled wrongly
  | .testF32 => False
  | .strbI w => w ≠ 2
  | _ => True

/-- The numbers of errors (include/sp_vm_types.h:71-104). -/
def _root_.Verif.VM.Err.num : Err → Nat
  | .heapLow => 3
  | .param => 4
  | .invalidAddress => 5
  | .notFound => 6
  | .stackLow => 8
  | .invalidInstruction => 10
  | .stackMin => 12
  | .heapMin => 13
  | .divideByZero => 14
  | .arrayBounds => 15
  | .arrayTooBig => 19
  | .trackerBounds => 20
  | .invalidNative => 21
  | .paramsMax => 22
  | .native => 23
  | .notRunnable => 24
  | .integerOverflow => 29
  | .timeout => 30
  | .invalidArraySize => 33

/-- The error the interpreter reports where compiled code reports this one.  See `C62_error_numbers` and
`C62_bad_address_number` for what the caller sees. -/
def JErr.code : JErr → Err
  | .memAccess => .invalidAddress
  | .heapMin => .heapMin
  | .heapLow => .heapLow
  | .stackLow => .stackLow
  | .divideByZero => .divideByZero
  | .integerOverflow => .integerOverflow
  | .invalidArraySize => .invalidArraySize
  | .bounds _ => .arrayBounds

/-- Instructions whose errors compiled code reports like the interpreter, and when it does.  The last cell
of the block passes the check of compiled code, and a limit above 2147483647 lets negative indices pass. -/
def ErrSide (s : IState) : Insn → Prop
  | .loadI | .lodbI _ => s.pri.toInt ≠ s.vm.memSize - 4
  | .storI | .strbI _ => s.alt.toInt ≠ s.vm.memSize - 4
  | .bounds n => 0 ≤ n ∧ n < 2147483648
  | .sdiv _ | .sdivAltI32 | .smodAltI32 => True
  | _ => False

end Verif.Jit

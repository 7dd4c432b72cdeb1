import Verif.Model.JitFlow

/-!
Entry of a method, calls and returns in compiled code (vm/x64/jit_x64.cpp:41-77 emitPrologue, 376-397 visitRETN,
399-414 visitCALL): the assembler calls that `Verif.Model.JitFlow` leaves to a parameter.
-/
namespace Verif.Jit
open Verif.X64 Verif.VM

/-- vm/stack-frames.h:43 JitFrameType::Scripted. -/
def scripted : Nat := 2

/-- vm/x64/macro-assembler-x64.cpp:22-29 enterFrame(Scripted, id), followed by the alignment of rsp in
vm/x64/jit_x64.cpp:48-50. -/
def frameCalls (id : Nat) : List Call :=
  [.push 5, .movqRR 5 4, .movqRI 10 (BitVec.ofNat 64 (id * 4294967296 + scripted)), .push 10, .aluI true .sub (.reg 4) 8]

/-- vm/x64/jit_x64.cpp:52-63: the frame of the plugin's stack. -/
def frameItems (J : JitEnv) : List Item :=
  [ .op (.aluI true .sub (.reg rStk) 8),
    .op (.movlRM rTmp (J.field .frm)),
    .op (.movl (.mem (.bd rStk 4)) rTmp),
    .op (.movlRM rTmp (J.field .hp)),
    .op (.movl (.mem (.bd rStk 0)) rTmp),
    .op (.movqRR rTmp rStk),
    .op (.movqRR rFrm rStk),
    .op (.alu true .sub (.reg rTmp) rDat),
    .op (.movl (.mem (J.field .frm)) rTmp) ]

/-- 65-74: the check that the stack is large enough; STACK_MARGIN is 64 (vm/plugin-runtime.h). -/
def checkItems (J : JitEnv) (maxStack : Int) : List Item :=
  if maxStack = 0 then [] else
    [ .op (.movlRM 0 (J.field .hp)),
      .op (.lea 0 (.bisd rDat 0 0 64)),
      .op (.lea 1 (.bd rStk (bv (-maxStack)))),
      .op (.alu true .cmp (.reg 1) 0),
      .err below .stackLow ]

/-- 75-76: room for local variables. -/
def localItems (locals : Int) : List Item :=
  if locals = 0 then [] else [.op (.aluI true .add (.reg rStk) (bv locals))]

/-- vm/x64/jit_x64.cpp:41-77 emitPrologue of the method that starts at cell `t`.  `pcode_start_` is its offset in
bytes.  `op_cip_` is null as long as no instruction has been visited; the model has 0 for it. -/
def prologueOf (J : JitEnv) (t : Nat) (maxStack locals : Int) : List Op × List Thunk :=
  let is := frameItems J ++ checkItems J maxStack ++ localItems locals
  let f := (frameCalls (t * 4)).map fun c => Op.raw c.bytes
  (f ++ itemOps f.length f.length is, itemThunks 0 f.length is)

/-- vm/x64/jit_x64.cpp:377-378: HEAP_RESTORE for each heap scope that is open. -/
def restoreItems (J : JitEnv) : Nat → List Item
  | 0 => []
  | n + 1 => (match jit J .heapRestore with | .code is => is | _ => []) ++ restoreItems J n

/-- vm/x64/jit_x64.cpp:380-391. -/
def popItems (J : JitEnv) : List Item :=
  [ .op (.movqRR rStk rFrm),
    .op (.movlRM rFrm (.bd rStk 4)),
    .op (.movlRM rTmp (.bd rStk 0)),
    .op (.movl (.mem (J.field .hp)) rTmp),
    .op (.aluI true .add (.reg rStk) 8),
    .op (.movl (.mem (J.field .frm)) rFrm),
    .op (.alu true .add (.reg rFrm) rDat),
    .op (.movlRM rTmp (.bd rStk 0)),
    .op (.lea rStk (.bisd rStk rTmp 2 4)) ]

/-- vm/x64/jit_x64.cpp:393-395; leaveFrame is `leave` (vm/x64/macro-assembler-x64.cpp:31-34). -/
def leaveCalls : List Call := [.aluI true .add (.reg 4) 8, .leave, .ret]

/-- vm/x64/jit_x64.cpp:376-397 visitRETN after `n` calls of the assembler, in a block with `depth` open heap
scopes. -/
def retnOf (J : JitEnv) (depth n : Nat) : List Op × List Thunk :=
  (itemOps n n (restoreItems J depth ++ popItems J) ++ leaveCalls.map fun c => .raw c.bytes, [])

/-- vm/x64/jit_x64.cpp:399-414 visitCALL of a method whose code begins at `entry`.  If the method is not compiled
yet, the same instruction is emitted, and its constant is that of a thunk which compiles the method and then
replaces it by `entry` (vm/x64/assembler-x64.h:460-470 PatchCallThunk); that is not modelled here.  In release builds
callWithABI emits nothing else (vm/x64/macro-assembler-x64.h). -/
def callOf (entry : BitVec 64) (junk : Byte) : List Op × List Thunk := ([.callConst entry junk], [])

end Verif.Jit

import Verif.Model.Jit
import Verif.Model.Graph
import Verif.Model.X64Link

/-!
The compilation of a method (vm/jit.cpp:70-220 CompilerBase::emit, vm/x64/jit_x64.cpp): the calls of the
assembler, in order, for the blocks of a method and for what follows them.

`Verif.Model.Jit` has the code of the instructions that go on with the next one.  Here are the jumps, the
switches, the order of the blocks, the places where errors are reported, and the tables that go with the code.
The labels of the C++ code are objects; here they are numbers that differ as the objects do: label `4 k` is that
of block `k`, `4 p + 3` that of the error check at call number `p`, `4 (b + l) + 1` the local label `l` of the
instruction that begins at call number `b`, and `4 e + 2` that of the path that reports error `e`.

Left to a parameter (`Parts`): the prologue, instructions that call the host or other methods, RETN, and the
bodies of the handlers.  The debugger is off.
-/
namespace Verif.Jit
open Verif.X64 Verif.VM

/-- A block in the order in which blocks are emitted: the cell of its first instruction, the cell after it, and
the positions of its successors in that order (vm/control-flow.h: `start`, `end`, `successors`, and `id`). -/
structure Blk where
  first : Nat
  stop : Nat
  succs : List Nat

/-- vm/graph-builder.cpp, vm/control-flow.cpp:58-119: the blocks of a scanned method in reverse post order.  The
instructions of the entry block start after PROC (vm/pcode-reader.h:44-52). -/
def blocksOf (start : Nat) (B : Graph.Build) (order : List Nat) : List Nat → Option (List Blk)
  | [] => some []
  | b :: bs =>
    match B.runs.lookup b, (if b = 0 then some (start + 1) else B.starts[b - 1]?), blocksOf start B order bs with
    | some R, some c, some ks => some (⟨c, R.stop, R.links.map fun x => order.idxOf (B.blockAt x)⟩ :: ks)
    | _, _, _ => none

/-- vm/jit.h ErrorThunk: label, error and instruction. -/
structure Thunk where
  label : Nat
  err : Nat
  cip : Nat
deriving DecidableEq, Repr

/-- vm/jit.h OutOfBoundsError: label, limit and instruction. -/
structure Stub where
  label : Nat
  limit : BitVec 32
  cip : Nat
deriving DecidableEq, Repr

/-- What is not modelled, as it was emitted. -/
structure Parts where
  /-- vm/x64/jit_x64.cpp:41-77 emitPrologue, with its error checks -/
  prologue : List Op × List Thunk
  /-- the code for the instruction at this cell -/
  other : Nat → List Op × List Thunk
  /-- vm/x64/jit_x64.cpp:158-178, 416-437 emitDebugBreakHandler and emitCallThunk -/
  handlers : List Op × List Thunk
  /-- vm/x64/jit_x64.cpp:139-149 emitOutOfBoundsError -/
  stub : Stub → List Op
  /-- vm/x64/jit_x64.cpp:87-101 emitErrorHandlers, after the first `bind` -/
  report : List Op
  /-- the rest of emitErrorHandlers -/
  rest : List Op
  /-- what is in an operand byte before it is written (see `ripOpd`) -/
  junk : Nat → Byte

/-- The state of the compiler: assembler calls made, `error_thunks_`, `bounds_errors_`, `backward_jumps_` (the
number of calls before `masm.pc()` was read, and the instruction), `op_cip_`, and for each instruction the
number of calls made before it (`debug_map`, vm/jit.cpp:118-141, has the instructions that emit code). -/
structure Acc where
  ops : List Op
  thunks : List Thunk
  stubs : List Stub := []
  edges : List (Nat × Nat) := []
  cip : Nat := 0
  places : List (Nat × Nat) := []

/-- The label of the path that reports an error; `report_error_` for 0. -/
def throwLabel (e : Nat) : Nat := 4 * e + 2
/-- `throw_timeout_` -/
def timeoutLabel : Nat := 4 * 1000 + 2

/-- The assembler call for one item: `base` is the number of calls before the instruction, `p` that before the
item.  vm/x64/jit_x64.cpp:1647-1652 jumpOnError. -/
def itemOp (base p : Nat) : Item → Op
  | .op c => .raw c.bytes
  | .jl cc l => .j cc (4 * (base + l) + 1)
  | .bind l => .bind (4 * (base + l) + 1)
  | .err cc _ => .j cc (4 * p + 3)
  -- not used: see `hasCall`
  | .fmodf => .raw []

/-- The assembler calls of an instruction. -/
def itemOps (base : Nat) : Nat → List Item → List Op
  | _, [] => []
  | p, i :: is => itemOp base p i :: itemOps base (p + 1) is

/-- The error thunks of an instruction at cell `cip`. -/
def itemThunks (cip : Nat) : Nat → List Item → List Thunk
  | _, [] => []
  | p, .err _ (.bounds _) :: is => itemThunks cip (p + 1) is
  | p, .err _ e :: is => ⟨4 * p + 3, e.num, cip⟩ :: itemThunks cip (p + 1) is
  | p, _ :: is => itemThunks cip (p + 1) is

/-- vm/x64/jit_x64.cpp:735-743 visitBOUNDS: the stubs of an instruction. -/
def itemStubs (cip : Nat) : Nat → List Item → List Stub
  | _, [] => []
  | p, .err _ (.bounds v) :: is => ⟨4 * p + 3, v, cip⟩ :: itemStubs cip (p + 1) is
  | p, _ :: is => itemStubs cip (p + 1) is

/-- The instruction calls the host. -/
def hasCall : List Item → Bool
  | [] => false
  | .fmodf :: _ => true
  | _ :: is => hasCall is

/-- Append the code of an instruction. -/
def Acc.code (a : Acc) (is : List Item) : Acc :=
  { a with
    ops := a.ops ++ itemOps a.ops.length a.ops.length is
    thunks := a.thunks ++ itemThunks a.cip a.ops.length is
    stubs := a.stubs ++ itemStubs a.cip a.ops.length is }

/-- Append code that is not modelled. -/
def Acc.more (a : Acc) (p : List Op × List Thunk) : Acc := { a with ops := a.ops ++ p.1, thunks := a.thunks ++ p.2 }

/-- Append assembler calls. -/
def Acc.add (a : Acc) (ops : List Op) : Acc := { a with ops := a.ops ++ ops }

/-- vm/jit.cpp:118-126: the instruction at `pc` comes next. -/
def Acc.at (a : Acc) (pc : Nat) : Acc := { a with cip := pc, places := a.places ++ [(pc, a.ops.length)] }

/-- vm/jit.cpp:344-346: a jump to a loop header is remembered; `n` calls have been made before the jump. -/
def Acc.edge (a : Acc) (n : Nat) : Acc := { a with edges := a.edges ++ [(n + 1, a.cip)] }

/-- vm/jit.cpp:332-351 visitJUMP in block `k`, to block `t`; vm/jit.h:106-111 isNextBlock, isBackedge. -/
def Acc.jump (a : Acc) (k t : Nat) : Acc :=
  if t = k + 1 then a
  else if t ≤ k then (a.add [.jmp32 (4 * t)]).edge a.ops.length
  else a.add [.jmp (4 * t)]

/-- `if (!isNextBlock(b)) __ jmp(b->label())` -/
def jmpUnlessNext (k t : Nat) : List Op := if t = k + 1 then [] else [.jmp (4 * t)]

/-- vm/x64/assembler-x64.h:1225-1264 InvertConditionCode. -/
def invert (cc : Cc) : Cc := if cc.val % 2 = 0 then cc + 1 else cc - 1

/-- vm/x64/jit_x64.cpp:459-479: the comparison, and the condition to jump on. -/
def jcmpTest (c : Cmp) : Call × Cc :=
  match opToCondition c with
  | some cc => (.alu false .cmp (.reg rPri) rAlt, cc)
  | none => (.test false (.reg rPri) rPri, match c with | .zero => equal | _ => notEqual)

/-- vm/x64/jit_x64.cpp:459-505 visitJcmp in block `k`, to block `t`, or else to block `f`.  (The assertion in
line 486 is compiled out.) -/
def Acc.jcmp (a : Acc) (k f t : Nat) (c : Cmp) : Acc :=
  let cc := (jcmpTest c).2
  let a := a.add [.raw (jcmpTest c).1.bytes]
  if t ≤ k then ((a.add [.j32 cc (4 * t)]).edge a.ops.length).add (jmpUnlessNext k f)
  else if t = k + 1 then a.add [.j (invert cc) (4 * f)]
  else a.add (.j cc (4 * t) :: jmpUnlessNext k f)

/-- vm/x64/jit_x64.cpp:1056-1063: the values of the cases follow each other; `none` when `++last` overflows. -/
def sequential (last : Int) : List Cell → Option Bool
  | [] => some true
  | v :: vs =>
    if last = 2147483647 then none
    else if v.toInt ≠ last + 1 then some false
    else sequential (last + 1) vs

/-- vm/x64/jit_x64.cpp:1099-1105: a comparison for each case. -/
def chain : List (Cell × Nat) → List Op
  | [] => []
  | (v, t) :: cs => .raw (Call.aluI false .cmp (.reg rPri) v).bytes :: .j equal (4 * t) :: chain cs

/-- vm/x64/jit_x64.cpp:1066-1097: the jump table.  `low` and `high` are the values of the first and the last
case, `ts` the blocks of the cases, `d` that of the default; `n` calls have been made.  `high` is less than
2^31 above `low`, as a table has at most 2^30 cases; were it more, the subtraction would overflow. -/
def table (n : Nat) (low high : Cell) (ts : List Nat) (d : Nat) (junk : Byte) : List Op :=
  [ .raw (if low ≠ 0 then Call.lea rTmp (.bd rPri (-low)) else Call.movl (.reg rTmp) rPri).bytes,
    .raw (Call.aluI false .cmp (.reg rTmp) (bv (low.toInt - high.toInt).natAbs)).bytes,
    .j above (4 * d),
    .leaTab 6 n junk,
    .raw (Call.movsxd 1 (.reg 1)).bytes,
    .raw (Call.movqRM 7 (.bisd 6 1 3 0)).bytes,
    .raw (Call.jmpRM (.reg 7)).bytes ] ++ ts.reverse.map .abs ++ [.bindTab n]

/-- vm/x64/jit_x64.cpp:1027-1107 visitSWITCH in block `k`: the values of the cases, their blocks, and that of the
default. -/
def switchOps (n k : Nat) (vals : List Cell) (d : Nat) (ts : List Nat) (junk : Byte) : Option (List Op) :=
  match vals with
  | [] => some (jmpUnlessNext k d)
  | [v] => some (chain ((v :: []).zip ts) ++ jmpUnlessNext k d)
  | v :: w :: vs =>
    match sequential v.toInt (w :: vs) with
    | none => none
    | some q =>
      if v ≠ 0x80000000 ∧ q then some (table n v ((w :: vs).getLastD w) ts d junk)
      else some (chain ((v :: w :: vs).zip ts) ++ [.jmp (4 * d)])

/-- vm/jit.cpp:110-146: the instructions of block `k` from the one at `pc` on.  `none`: an instruction is not
supported, or the block is not as its end says. -/
def emitRun (code : List Cell) (J : JitEnv) (F : Parts) (k : Nat) (b : Blk) : Nat → Nat → Acc → Option Acc
  | 0, _, _ => none
  | fuel + 1, pc, a =>
    if b.stop ≤ pc then
      match b.succs with
      | [t] => some (a.jump k t)
      | _ => none
    else
      match decode code pc with
      | none => none
      | some (i, pc') =>
        let a := a.at pc
        match i with
        | .jump _ => match b.succs with
          | [t] => if pc' = b.stop then some (a.jump k t) else none
          | _ => none
        | .jcmp c _ => match b.succs with
          | [f, t] => if pc' = b.stop then some (a.jcmp k f t c) else none
          | _ => none
        | .switch o => match b.succs, caseTable code o with
          | d :: ts, some (_, cases) =>
            if pc' = b.stop ∧ ts.length = cases.length then
              match switchOps a.ops.length k (cases.map (·.1)) d ts (F.junk pc) with
              | some ops => some (a.add ops)
              | none => none
            else none
          | _, _ => none
        | .retn => if pc' = b.stop then some (a.more (F.other pc)) else none
        | i => match jit J i with
          | .refused => none
          | .other => emitRun code J F k b fuel pc' (a.more (F.other pc))
          | .code is => emitRun code J F k b fuel pc' (if hasCall is then a.more (F.other pc) else a.code is)

/-- vm/jit.cpp:105-147: the blocks, the first of them number `k`. -/
def emitBlocks (code : List Cell) (J : JitEnv) (F : Parts) : Nat → List Blk → Acc → Option Acc
  | _, [], a => some a
  | k, b :: bs, a =>
    match emitRun code J F k b (code.length + 1) b.first (a.add [.bind (4 * k), .bindAdr k]) with
    | none => none
    | some a => emitBlocks code J F (k + 1) bs a

/-- vm/label.h:82-84 used, of a label after these calls. -/
def labelUsed (ops : List Op) (l : Nat) : Bool :=
  match Asm.run true {} ops with
  | some A => usedSt (A.lab l)
  | none => false

/-- vm/jit.cpp:252-261 emitThrowPathIfNeeded and vm/x64/jit_x64.cpp:79-82 emitThrowPath, for a list of errors. -/
def throwPaths (ops : List Op) : List Nat → List Op
  | [] => ops
  | e :: es =>
    throwPaths (if labelUsed ops (throwLabel e) then
      ops ++ [.bind (throwLabel e), .raw (Call.movlRI 0 (BitVec.ofNat 32 e)).bytes, .jmp (throwLabel 0)] else ops) es

/-- vm/jit.cpp:180-189: DIVIDE_BY_ZERO, STACKLOW, STACKMIN, ARRAY_BOUNDS, MEMACCESS, HEAPLOW, HEAPMIN,
INTEGER_OVERFLOW, INVALID_NATIVE, INVALID_ARRAY_SIZE. -/
def throwList : List Nat := [14, 8, 12, 15, 11, 3, 13, 29, 21, 33]

/-- A compiled method. -/
structure Compiled where
  /-- the calls of the assembler -/
  ops : List Op
  /-- for each instruction, how many calls were made before it -/
  places : List (Nat × Nat)
  /-- `cip_map_` as far as it is filled after the blocks: how many calls were made before `masm.pc()` was read,
  and the instruction (vm/jit.cpp:165-177, 249) -/
  cips : List (Nat × Nat)
  /-- how many calls were made before the stubs of index errors -/
  stubs : List (Nat × Stub)
  /-- `backward_jumps_` with `timeout_offset` in front (vm/jit.cpp:170-177) -/
  edges : List (Nat × Nat × Nat)

/-- Number the positions of the parts of a list. -/
def offsets {α : Type} (n : Nat) (len : α → Nat) : List α → List (Nat × α)
  | [] => []
  | x :: xs => (n, x) :: offsets (n + len x) len xs

/-- vm/jit.cpp:159-162, for a bounds error: `bind` and its body. -/
def stubOps (F : Parts) (s : Stub) : List Op := .bind s.label :: F.stub s

/-- vm/jit.cpp:164-168, 222-250 emitErrorThunk. -/
def thunkOps (t : Thunk) : List Op := [.bind t.label, .call (throwLabel t.err)]

/-- vm/jit.cpp:151-193: what follows the blocks. -/
def finish (F : Parts) (a : Acc) : Compiled :=
  let o1 := a.ops ++ F.handlers.1
  let thunks := a.thunks ++ F.handlers.2
  let o2 := o1 ++ a.stubs.flatMap (stubOps F)
  let o3 := o2 ++ thunks.flatMap thunkOps
  let o4 := o3 ++ a.edges.map fun _ => .call timeoutLabel
  let o5 := throwPaths o4 throwList
  let o6 := if labelUsed o5 (throwLabel 0) then o5 ++ .bind (throwLabel 0) :: F.report else o5
  { ops := o6 ++ F.rest
    places := a.places
    stubs := offsets o1.length (fun s => (stubOps F s).length) a.stubs
    cips := (offsets o2.length (fun _ => 2) thunks).map (fun (n, t) => (n + 2, t.cip)) ++
      (offsets o3.length (fun _ => 1) a.edges).map (fun (n, e) => (n + 1, e.2))
    edges := offsets o3.length (fun _ => 1) a.edges }

/-- vm/jit.cpp:70-220 CompilerBase::emit: a method whose graph has been built. -/
def compile (code : List Cell) (J : JitEnv) (F : Parts) (blks : List Blk) : Option Compiled :=
  match emitBlocks code J F 0 blks { ops := F.prologue.1, thunks := F.prologue.2 } with
  | none => none
  | some a => some (finish F a)

end Verif.Jit

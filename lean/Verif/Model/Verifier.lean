import Verif.Model.Graph
import Verif.Model.Mem

/-!
The method verifier (vm/method-verifier.cpp), run over the graph built by `Verif.Graph.build`.

Positions are cell indices.  `Out.rejected` is a reported error (which one is not modelled), `Out.ub` a read outside the code, a null
dereference or an `int` overflow the code does not exclude, `Out.fuel` an exhausted loop bound.  The two vectors of `VerifyData` are
lists with the back first.  Sums of tracked heap amounts are exact integers except where said.  The collection of called functions
(428-429) is not modelled.
-/
namespace Verif.Verifier
open Verif.VM (Cell operands wrap32)
open Verif.Graph (Out readAt RunEnd Pre Build)
open Verif.Cfg (upd)

/-- What the verifier reads from the runtime and the image (vm/method-verifier.cpp:26-49, 57-70): the code; whether its version is at
least CODE_VERSION_TYPED_STACK; whether it has the features HeapScopes and DirectArrays; the sizes of the plugin's memory and of its data
section; the number of natives; and, for a typed stack, the number of arguments and the sizes in bytes of the local slots (verifyLocalSlots,
1089-1159, whose parsing of the RTTI is not modelled here). -/
structure Ctx where
  code : List Cell
  typed : Bool
  scopes : Bool
  direct : Bool
  memSize : Nat
  datSize : Nat
  natives : Nat
  argCount : Nat
  locals : List Nat

/-- vm/method-verifier.h VerifyData without `entry`: the stack balance in cells, the heap balance and the tracker (back first), and the
number of open heap scopes. -/
structure Data where
  bal : Nat
  heap : List Int
  trk : List Int
  depth : Nat
deriving DecidableEq

/-- A block's data and `max_stack_` (in cells). -/
structure Cur where
  data : Data
  max : Nat
deriving DecidableEq

/-- What `verifyOp` does for an instruction, in order. -/
inductive Check where
  /-- pushStack -/
  | push (n : Nat)
  /-- popStack of a `cell_t` value, which must be an `int` -/
  | pop (n : Int)
  /-- verifyStackOffset -/
  | slot (o : Int) (size : Nat)
  /-- verifyDatOffset -/
  | dat (o : Int)
  /-- the operand of LODB.I and STRB.I -/
  | width (w : Int)
  /-- CALL -/
  | call (o : Int)
  /-- the index of a native -/
  | native (i : Int)
  /-- verifyParamCount -/
  | params (n : Int)
  /-- verifyDimensionCount -/
  | dims (n : Int)
  /-- verifyMemAmount -/
  | mem (n : Int)
  | stack (v : Int)
  | heap (v : Int)
  | init (addr iv copy fill : Int) (v : Cell)
  | trackPush (v : Int)
  | trackPop
  /-- the heap and tracker entries of GENARRAY -/
  | array
  | save
  | restore
  | reject
deriving DecidableEq

/-- How `verifyOp` treats an opcode: the number of operand cells it steps over and the checks made on them. -/
abbrev Rule := Option (Nat × (List Cell → Option (List Check)))

/-- No operands. -/
def r0 (c : List Check) : Rule := some (0, fun _ => some c)
/-- One operand. -/
def r1 (f : Cell → List Check) : Rule := some (1, fun | [x] => some (f x) | _ => none)
/-- Two operands. -/
def r2 (f : Cell → Cell → List Check) : Rule := some (2, fun | [x, y] => some (f x y) | _ => none)
/-- Three operands. -/
def r3 (f : Cell → Cell → Cell → List Check) : Rule := some (3, fun | [x, y, w] => some (f x y w) | _ => none)
/-- Five operands. -/
def r5 (f : Cell → Cell → Cell → Cell → Cell → List Check) : Rule :=
  some (5, fun | [x, y, w, u, v] => some (f x y w u v) | _ => none)
/-- `n` operands. -/
def rn (n : Nat) (f : List Cell → List Check) : Rule := some (n, fun vs => some (f vs))

/-- 348-410: PUSHn_C. -/
def pushRule (n : Nat) (f : Cell → List Check) : Rule := rn n fun vs => vs.flatMap f ++ [.push n]

/-- vm/method-verifier.cpp:137-677 verifyOp, the cases other than CASETBL: `none` is the default case. -/
def rule (op : Nat) : Rule :=
  match op with
  -- 139-204
  | 46 | 134 | 137 | 9 | 23 | 25 | 27 | 33 | 34 | 35 | 65 | 66 | 67 | 72 | 73 | 74 | 78 | 79 | 80 | 81 | 82 | 83 | 84 | 85 | 86
  | 89 | 90 | 95 | 96 | 101 | 102 | 103 | 104 | 107 | 108 | 111 | 112 | 113 | 116 | 164 | 192 | 195 | 196 | 212 | 213 | 214 | 215
  | 206 | 207 | 173 | 174 | 175 | 176 | 177 | 178 | 179 | 180 | 181 | 182 | 183 | 184 | 185 | 186 | 75 | 76 => r0 []
  -- 206-248
  | 161 => r0 [.trackPop]
  -- 250-263
  | 131 | 132 => r0 [.pop 1, .push 1]
  | 36 | 37 => r0 [.push 1]
  | 42 | 43 => r0 [.pop 1]
  -- 265-270
  | 13 | 14 => r1 fun o => [.slot o.toInt 0]
  -- 272-286
  | 3 | 4 | 7 | 8 | 21 | 22 | 17 | 18 | 110 | 115 | 92 => r1 fun o => [.slot o.toInt 4]
  -- 288-292
  | 93 => r1 fun o => [.slot o.toInt 8]
  -- 294-298
  | 19 => r2 fun o _ => [.slot o.toInt 4]
  -- 300-318
  | 197 | 194 | 198 | 199 | 201 | 202 | 203 | 204 | 205 | 208 | 209 | 210 | 200 | 216 | 217 => r1 fun o => [.slot o.toInt 8]
  -- 320-325
  | 211 => r3 fun o _ _ => [.slot o.toInt 8]
  -- 327-336
  | 1 | 2 | 15 | 16 | 109 | 114 | 91 => r1 fun a => [.dat a.toInt]
  -- 338-346
  | 10 | 24 => r1 fun w => [.width w.toInt]
  -- 348-410
  | 39 => pushRule 1 fun _ => []
  | 138 => pushRule 2 fun _ => []
  | 142 => pushRule 3 fun _ => []
  | 146 => pushRule 4 fun _ => []
  | 150 => pushRule 5 fun _ => []
  | 40 => pushRule 1 fun a => [.dat a.toInt]
  | 139 => pushRule 2 fun a => [.dat a.toInt]
  | 143 => pushRule 3 fun a => [.dat a.toInt]
  | 147 => pushRule 4 fun a => [.dat a.toInt]
  | 151 => pushRule 5 fun a => [.dat a.toInt]
  | 41 => pushRule 1 fun o => [.slot o.toInt 4]
  | 140 => pushRule 2 fun o => [.slot o.toInt 4]
  | 144 => pushRule 3 fun o => [.slot o.toInt 4]
  | 148 => pushRule 4 fun o => [.slot o.toInt 4]
  | 152 => pushRule 5 fun o => [.slot o.toInt 4]
  | 133 => pushRule 1 fun o => [.slot o.toInt 0]
  | 141 => pushRule 2 fun o => [.slot o.toInt 0]
  | 145 => pushRule 3 fun o => [.slot o.toInt 0]
  | 149 => pushRule 4 fun o => [.slot o.toInt 0]
  | 153 => pushRule 5 fun o => [.slot o.toInt 0]
  -- 412-413
  | 193 => r0 [.push 2]
  -- 415-431
  | 49 => r1 fun o => [.call o.toInt]
  -- 433-454
  | 51 | 53 | 54 | 55 | 56 | 61 | 62 | 63 | 64 | 68 | 69 | 87 | 88 | 105 | 106 | 11 | 12 | 121 | 129 => r1 fun _ => []
  -- 456-489
  | 160 => r1 fun v => [.trackPush v.toInt]
  -- 491-494
  | 120 => r0 [.reject]
  -- 496-504
  | 117 | 119 => r1 fun n => [.mem n.toInt]
  -- 506-535
  | 44 => r1 fun v => [.stack v.toInt]
  | 45 => r1 fun v => [.heap v.toInt]
  -- 537-544
  | 123 => r1 fun i => [.native i.toInt]
  -- 546-558
  | 135 => r2 fun i n => [.native i.toInt, .push 1, .pop (n.toInt + 1), .params n.toInt]
  -- 560-567
  | 154 => r2 fun a b => [.dat a.toInt, .dat b.toInt]
  -- 569-576
  | 155 => r2 fun a b => [.slot a.toInt 4, .slot b.toInt 4]
  -- 578-582
  | 156 => r2 fun a _ => [.dat a.toInt]
  -- 584-588
  | 157 => r2 fun o _ => [.slot o.toInt 4]
  -- 590-602
  | 162 | 163 => r1 fun n => [.dims n.toInt, .pop (n.toInt - 1), .array]
  -- 604-641
  | 169 | 170 => r5 fun a iv cp fl v => [.init a.toInt iv.toInt cp.toInt fl.toInt v]
  -- 647-669
  | 171 => r0 [.save]
  | 172 => r0 [.restore]
  | 48 => r0 []
  | _ => none

/-- vm/method-verifier.cpp:113-134 ExtractPushConstant for the instruction at `p`; the inner `none` is a false return. -/
def pushedConst (code : List Cell) (p : Nat) : Out (Option Cell) := do
  let op ← readAt code p
  if op = 39 then do let v ← readAt code (p + 1); return some v
  else if op = 138 then do let v ← readAt code (p + 2); return some v
  else if op = 142 then do let v ← readAt code (p + 3); return some v
  else if op = 146 then do let v ← readAt code (p + 4); return some v
  else if op = 150 then do let v ← readAt code (p + 5); return some v
  else return none

/-- vm/method-verifier.cpp:890-907 pushStack. -/
def pushStack (n : Nat) (S : Cur) : Out Cur :=
  if S.data.bal + n > 4294967295 then .rejected
  else if S.data.bal + n > 536870911 then .rejected
  else .ok ⟨{ S.data with bal := S.data.bal + n }, if S.data.bal + n > S.max then S.data.bal + n else S.max⟩

/-- vm/method-verifier.cpp:909-919 popStack; the argument is converted to `uint32_t`. -/
def popStack (n : Int) (S : Cur) : Out Cur :=
  let k := (n % 4294967296).toNat
  if k > S.data.bal then .rejected else .ok ⟨{ S.data with bal := S.data.bal - k }, S.max⟩

/-- vm/method-verifier.cpp:921-935 pushHeap, outside heap-scope mode. -/
def pushHeap (n : Nat) (S : Cur) : Out Cur :=
  if n = 0 ∨ n > 536870911 then .rejected
  else
    match S.data.heap with
    | [] => .ok ⟨{ S.data with heap := [(n : Int)] }, S.max⟩
    | h :: hs =>
      if h = -1 then .ok ⟨{ S.data with heap := (n : Int) :: h :: hs }, S.max⟩
      else .ok ⟨{ S.data with heap := wrap32 (h + n) :: hs }, S.max⟩

/-- vm/method-verifier.cpp:937-951 popHeap, outside heap-scope mode. -/
def popHeap (n : Nat) (S : Cur) : Out Cur :=
  match S.data.heap with
  | [] => .rejected
  | h :: hs =>
    if h = -1 ∨ h % 4294967296 < n then .rejected
    else if wrap32 (h - n) = 0 then .ok ⟨{ S.data with heap := hs }, S.max⟩
    else .ok ⟨{ S.data with heap := wrap32 (h - n) :: hs }, S.max⟩

/-- vm/method-verifier.cpp:953-997 verifyStackOffset.  `-offset - 1` of INT_MIN is `ub`; so is `abs(INT_MIN)`. -/
def slotOk (C : Ctx) (o : Int) (size : Nat) (S : Cur) : Out Cur :=
  if C.typed then
    if o < 0 then
      if o = -2147483648 then .ub
      else if (-o - 1) ≥ C.argCount then .rejected else .ok S
    else
      match C.locals[o.toNat]? with
      | none => .rejected
      | some l => if size ≠ 0 ∧ l ≠ size then .rejected else .ok S
  else if o ≥ 0 then
    if o ≥ C.memSize - C.datSize then .rejected else .ok S
  else if o = -2147483648 then .ub
  else if -o > 4 * S.data.bal then .rejected else .ok S

/-- vm/method-verifier.cpp:999-1006 verifyDatOffset. -/
def datOk (C : Ctx) (o : Int) (S : Cur) : Out Cur := if o < 0 ∨ o ≥ C.datSize then .rejected else .ok S

/-- vm/method-verifier.cpp:474-480: the total reached over the heap entries. -/
def trackTotal (val : Int) : Int → List Int → Out Int
  | total, [] => .ok total
  | total, h :: hs =>
    if h = -1 then .ok total
    else if total + h > 2147483647 ∨ total + h < -2147483648 then .ub
    else if total + h ≥ val then .ok (total + h)
    else trackTotal val (total + h) hs

/-- vm/method-verifier.cpp:233-247: the loop over the heap entries. -/
def trackFree : Int → List Int → Out (List Int)
  | _, [] => .rejected
  | amount, h :: hs =>
    if h = -1 then .rejected
    else if h > amount then .ok ((h - amount) :: hs)
    else if amount - h = 0 then .ok hs
    else trackFree (amount - h) hs

/-- vm/method-verifier.cpp:456-489 OP_TRACKER_PUSH_C. -/
def trackPushOk (C : Ctx) (v : Int) (S : Cur) : Out Cur :=
  if C.scopes then .rejected
  else if v < 0 ∨ v % 4 ≠ 0 then .rejected
  else
    let val := v / 4
    let done : Out Cur := .ok ⟨{ S.data with trk := val :: S.data.trk }, S.max⟩
    if val > 0 then do
      let total ← trackTotal val 0 S.data.heap
      if val > total then .rejected else done
    else done

/-- vm/method-verifier.cpp:206-248 OP_TRACKER_POP_SETHEAP. -/
def trackPopOk (C : Ctx) (S : Cur) : Out Cur :=
  if C.scopes then .rejected
  else
    match S.data.trk with
    | [] => .rejected
    | amount :: trk =>
      if amount = 0 then .ok ⟨{ S.data with trk := trk }, S.max⟩
      else if amount = -1 then
        match S.data.heap with
        | [] => .rejected
        | h :: hs => if h ≠ -1 then .rejected else .ok ⟨{ S.data with trk := trk, heap := hs }, S.max⟩
      else do
        let heap ← trackFree amount S.data.heap
        .ok ⟨{ S.data with trk := trk, heap := heap }, S.max⟩

/-- vm/method-verifier.cpp:1026-1043 verifyCallOffset and 415-431 OP_CALL; `prev` is `prev_cip_`. -/
def callOk (C : Ctx) (prev : Option Nat) (o : Int) (S : Cur) : Out Cur :=
  match prev with
  | none => .rejected
  | some p => do
    match ← pushedConst C.code p with
    | none => .rejected
    | some n =>
      if o < 0 ∨ o % 4 ≠ 0 then .rejected
      else
        match C.code[(o / 4).toNat]? with
        | none => .rejected
        | some t =>
          if t ≠ 46 then .rejected
          else if n.toInt = 2147483647 then .ub
          else popStack (n.toInt + 1) S

/-- vm/method-verifier.cpp:604-641 OP_INITARRAY. -/
def initOk (C : Ctx) (addr iv copy fill : Int) (v : Cell) (S : Cur) : Out Cur :=
  if !C.direct then .rejected
  else if iv < 0 ∨ copy < 0 ∨ fill < 0 ∨ iv ≥ 268435455 ∨ copy ≥ 268435455 ∨ fill ≥ 268435455 ∨ (fill = 0 ∧ v ≠ 0) ∨ addr % 4 ≠ 0 then
    .rejected
  else
    let copyAddr := wrap32 (addr + iv * 4)
    let fillAddr := wrap32 (copyAddr + copy * 4)
    if copyAddr < addr ∨ fillAddr < copyAddr ∨ fillAddr % 4294967296 + fill * 4 > 4294967295 then .rejected
    else if iv = 0 ∧ copy = 0 then .ok S
    else do
      let S ← datOk C addr S
      datOk C (wrap32 (addr + (iv + copy) * 4) - 1) S

/-- One check; `prev` is `prev_cip_`. -/
def Check.run (C : Ctx) (prev : Option Nat) : Check → Cur → Out Cur
  | .push n, S => pushStack n S
  | .pop n, S => if n > 2147483647 then .ub else popStack n S
  | .slot o size, S => slotOk C o size S
  | .dat o, S => datOk C o S
  -- 338-346
  | .width w, S => if w ≠ 1 ∧ w ≠ 2 ∧ w ≠ 4 then .rejected else .ok S
  | .call o, S => callOk C prev o S
  -- 539-542, 548-551
  | .native i, S => if i < 0 ∨ i ≥ C.natives then .rejected else .ok S
  -- 1017-1024; SP_MAX_CALL_ARGUMENTS is 127
  | .params n, S => if n < 0 ∨ n > 127 then .rejected else .ok S
  -- 1008-1015
  | .dims n, S => if n ≤ 0 then .rejected else .ok S
  -- 1069-1076
  | .mem n, S => if n < 0 ∨ n > C.memSize then .rejected else .ok S
  -- 506-535
  | .stack v, S =>
    if C.typed then .rejected
    else if v % 4 ≠ 0 then .rejected
    else if v < 0 then pushStack (-v / 4).toNat S else popStack (v / 4) S
  | .heap v, S =>
    if v % 4 ≠ 0 then .rejected
    else if !C.scopes then
      if v ≥ 0 then pushHeap (v / 4).toNat S else popHeap (-v / 4).toNat S
    else if v < 0 then .rejected else .ok S
  | .init a iv cp fl v, S => initOk C a iv cp fl v S
  | .trackPush v, S => trackPushOk C v S
  | .trackPop, S => trackPopOk C S
  -- 597-600
  | .array, S =>
    if !C.scopes then .ok ⟨{ S.data with heap := -1 :: S.data.heap, trk := -1 :: S.data.trk }, S.max⟩ else .ok S
  -- 647-653
  | .save, S => if !C.scopes then .rejected else .ok ⟨{ S.data with depth := S.data.depth + 1 }, S.max⟩
  -- 655-665
  | .restore, S =>
    if !C.scopes then .rejected
    else if S.data.depth = 0 then .rejected
    else .ok ⟨{ S.data with depth := S.data.depth - 1 }, S.max⟩
  | .reject, _ => .rejected

/-- The checks in order. -/
def runChecks (C : Ctx) (prev : Option Nat) : List Check → Cur → Out Cur
  | [], S => .ok S
  | c :: cs, S => do
    let S ← c.run C prev S
    runChecks C prev cs S

/-- vm/method-verifier.cpp:136-677 verifyOp on the instruction at `pc`, with opcode `op`: the next position and the data.  643-645: a case
table is stepped over with GetCaseTableSize (vm/opcodes.cpp). -/
def verifyOp (C : Ctx) (prev : Option Nat) (pc : Nat) (op : Cell) (S : Cur) : Out (Nat × Cur) :=
  if op = 130 then do
    let n ← readAt C.code (pc + 1)
    let next : Int := pc + (2 * n.toInt + 3)
    if next < 0 then .ub else .ok (next.toNat, S)
  else
    match rule op.toNat with
    | none => .rejected
    | some (n, f) =>
      match operands C.code pc n with
      | none => .ub
      | some vs =>
        match f vs with
        | none => .ub
        | some cs => do
          let S ← runChecks C prev cs S
          .ok (pc + 1 + n, S)

/-- vm/method-verifier.cpp:89-95: the loop over the instructions of a block that ends at `stop`. -/
def verifyRun (C : Ctx) (stop : Nat) : Nat → Option Nat → Nat → Cur → Out Cur
  | 0, _, _, _ => .fuel
  | fuel+1, prev, pc, S =>
    if pc ≥ stop then .ok S
    else do
      let op ← readAt C.code pc
      let (pc', S) ← verifyOp C prev pc op S
      verifyRun C stop fuel (some pc) pc' S

/-! ## Joins -/

/-- The method: its graph and its analyses. -/
structure Method where
  start : Nat
  build : Build
  info : Verif.Cfg.Analysis

/-- `id()`. -/
def Method.id (M : Method) (b : Nat) : Nat := Verif.Cfg.rpoId M.info.order b

/-- `predecessors()`. -/
def Method.preds (M : Method) (b : Nat) : List Nat := Verif.Cfg.pred M.build.edges b

/-- `start()`. -/
def Method.first (M : Method) (b : Nat) : Option Nat := if b = 0 then some M.start else M.build.starts[b - 1]?

/-- `end()`. -/
def Method.stop (M : Method) (b : Nat) : Option Nat := (M.build.runs.lookup b).map (·.stop)

/-- The state of the verification: the data of each block, the entry data saved by handleJoins, the blocks marked with
set_has_compiler_break_bug, `max_stack_` and `verify_joins_`. -/
structure VState where
  data : Nat → Data
  entry : Nat → Option Data
  bug : Nat → Bool
  max : Nat
  later : List Nat

/-- vm/method-verifier.cpp:692-694: up the dominator tree to a loop header. -/
def findHeader (M : Method) : Nat → Nat → Out Nat
  | 0, _ => .fuel
  | fuel+1, d =>
    if !M.info.header d ∧ M.preds d ≠ [] then
      match M.info.dom.idom d with
      | none => .ub
      | some d => findHeader M fuel d
    else .ok d

/-- vm/method-verifier.cpp:715-727: the predecessors of one block. -/
def markPreds (M : Method) (hd : Nat) : List Nat → (Nat → Bool) → List Nat → (Nat → Bool) × List Nat
  | [], vis, work => (vis, work)
  | p :: ps, vis, work =>
    if vis p ∨ M.id p < M.id hd then markPreds M hd ps vis work
    else markPreds M hd ps (upd vis p true) (p :: work)

/-- vm/method-verifier.cpp:713-728: the work list, last first. -/
def markLoop (M : Method) (hd : Nat) : Nat → (Nat → Bool) → List Nat → Out (Nat → Bool)
  | 0, _, _ => .fuel
  | _+1, vis, [] => .ok vis
  | fuel+1, vis, b :: work =>
    let (vis, work) := markPreds M hd (M.preds b) vis work
    markLoop M hd fuel vis work

/-- vm/method-verifier.cpp:689-733 DetectCompilerBreakBug. -/
def breakBug (M : Method) (b : Nat) : Out Bool :=
  match M.info.dom.idom b with
  | none => .ub
  | some d => do
    let hd ← findHeader M (M.info.order.length + 1) d
    if !M.info.header hd then .ok false
    else
      let back := (M.preds hd).filter fun p => M.id p ≥ M.id hd
      let vis ← markLoop M hd (2 * M.build.edges.length + 2) (fun x => back.contains x) back.reverse
      .ok (!vis b)

/-- vm/method-verifier.cpp:735-756 verifyJoin; `cur` is `block_`. -/
def verifyJoin (M : Method) (cur : Nat) (first other : Data) (bug : Nat → Bool) : Out (Nat → Bool) :=
  if first.bal ≠ other.bal then .rejected
  else if first.trk.length ≠ other.trk.length then do
    if ← breakBug M cur then .ok (upd bug cur true) else .rejected
  else if first.depth ≠ other.depth then .rejected
  else .ok bug

/-- vm/method-verifier.cpp:799-820: the heap entries at and above the cursor, and those below it (both back first). -/
def mergeHeap : Nat → Int → List Int → List Int → Out (List Int × List Int)
  | 0, _, _, _ => .fuel
  | _+1, _, _, [] => .ub
  | fuel+1, amount, above, e :: below =>
    if e < amount then
      match below with
      -- 803-804: the first entry is erased without moving the cursor, which now follows the entry above
      | [] => mergeHeap fuel (amount - e) above.dropLast above.getLast?.toList
      | _ => mergeHeap fuel (amount - e) above below
    else if e = amount then .ok (above ++ [-1], below)
    else .ok (above ++ [-1], (e - amount) :: below)

/-- vm/method-verifier.cpp:773-821: the tracker entries of the join and of the other block, from the back. -/
def mergeEntries : List Int → List Int → List Int → List Int → Out (List Int × List Int)
  | t :: ts, o :: os, above, below =>
    if t = -1 ∨ o = t then do
      let (ts, heap) ← mergeEntries ts os above below
      .ok (t :: ts, heap)
    else if t = 0 then do
      let (ts, heap) ← mergeEntries ts os (above ++ [-1]) below
      .ok (-1 :: ts, heap)
    else if below = [] then .rejected
    else do
      let (above, below) ← mergeHeap (above.length + below.length + 1) t above below
      let (ts, heap) ← mergeEntries ts os above below
      .ok (-1 :: ts, heap)
  | [], _, above, below => .ok ([], above ++ below)
  | _ :: _, [], _, _ => .ub

/-- vm/method-verifier.cpp:758-823 mergeTracker of `other` into block `b`. -/
def mergeTracker (C : Ctx) (M : Method) (b : Nat) (other : Data) (S : VState) : Out VState := do
  let bug ← verifyJoin M b (S.data b) other S.bug
  if C.scopes then .ok { S with bug := bug }
  else if bug b then .ok { S with bug := bug }
  else do
    let (trk, heap) ← mergeEntries (S.data b).trk other.trk [] (S.data b).heap
    .ok { S with bug := bug, data := upd S.data b { S.data b with trk := trk, heap := heap } }

/-- vm/method-verifier.cpp:833-859: the remaining predecessors of block `b`; `found` is `found_pred` and `later` is `verify_later`. -/
def joinPreds (C : Ctx) (M : Method) (b : Nat) : List Nat → Bool → Bool → VState → Out (Bool × VState)
  | [], _, later, S => .ok (later, S)
  | p :: ps, found, later, S =>
    if M.id p ≥ M.id b then joinPreds C M b ps found true S
    else if !found then
      joinPreds C M b ps true later { S with data := upd S.data b (S.data p), entry := upd S.entry b (some (S.data p)) }
    else do
      let S ← mergeTracker C M b (S.data p) S
      joinPreds C M b ps found later S

/-- vm/method-verifier.cpp:825-873 handleJoins. -/
def handleJoins (C : Ctx) (M : Method) (b : Nat) (S : VState) : Out VState :=
  if M.preds b = [] then .ok S
  else do
    let (later, S) ← joinPreds C M b (M.preds b) false false S
    .ok (if later then { S with later := S.later ++ [b] } else S)

/-- vm/method-verifier.cpp:82-95: one block. -/
def verifyBlock (C : Ctx) (M : Method) (fuel : Nat) (b : Nat) (S : VState) : Out VState := do
  let S ← handleJoins C M b S
  match M.first b, M.stop b with
  | some first, some stop => do
    let T ← verifyRun C stop fuel none first ⟨S.data b, S.max⟩
    .ok { S with data := upd S.data b T.data, max := T.max }
  | _, _ => .ub

/-- vm/method-verifier.cpp:81-96: the blocks in order. -/
def verifyBlocks (C : Ctx) (M : Method) (fuel : Nat) : List Nat → VState → Out VState
  | [], S => .ok S
  | b :: bs, S => do
    let S ← verifyBlock C M fuel b S
    verifyBlocks C M fuel bs S

/-- vm/method-verifier.cpp:880-886: the predecessors of a block verified again; `cur` is `block_`, the last block of the first loop. -/
def joinAgain (M : Method) (cur : Nat) (entry : Data) (data : Nat → Data) : List Nat → (Nat → Bool) → Out (Nat → Bool)
  | [], bug => .ok bug
  | p :: ps, bug => do
    let bug ← verifyJoin M cur entry (data p) bug
    joinAgain M cur entry data ps bug

/-- vm/method-verifier.cpp:98-102 and 875-888 verifyJoins. -/
def verifyLater (M : Method) (cur : Nat) : List Nat → VState → Out VState
  | [], S => .ok S
  | b :: bs, S =>
    match S.entry b with
    | none => .ub
    | some e => do
      let bug ← joinAgain M cur e S.data (M.preds b) S.bug
      verifyLater M cur bs { S with bug := bug }

/-- What an accepted method leaves: the graph, the stack space it needs in bytes, and the final state. -/
structure Verified where
  pre : Pre
  method : Method
  maxStack : Nat
  state : VState

/-- vm/method-verifier.cpp:51-111 verify for the method whose PROC is at cell `start`.  The alignment of the start offset and, with RTTI,
the lookup of the method row (53-65) are taken to have succeeded.  1154: `max_stack_` starts as the sum of the local sizes. -/
def verify (C : Ctx) (start fuel : Nat) : Out Verified := do
  let (P, B, A) ← Verif.Graph.build C.code start fuel
  let M : Method := ⟨start, B, A⟩
  let max := if C.typed then C.locals.foldl (· + ·) 0 else 0
  let S ← verifyBlocks C M fuel A.order ⟨fun _ => ⟨0, [], [], 0⟩, fun _ => none, fun _ => false, max, []⟩
  let S ← verifyLater M (A.order.getLast?.getD 0) S.later S
  if S.max > 536870911 then .rejected
  else .ok ⟨P, M, 4 * S.max, S⟩

end Verif.Verifier

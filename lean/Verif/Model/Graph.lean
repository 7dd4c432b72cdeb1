import Verif.Model.Insn
import Verif.Model.Cfg

/-!
The graph builder (vm/graph-builder.cpp): the scan of a method's code that finds instruction starts, jump targets and basic
blocks.

Positions are cell indices from the start of the code; the code is a list of cells (a code section whose length is not a
multiple of four is not modelled).  The bitmaps are lists used as sets (the bit set itself is modelled in
`Verif.Model.BitSet`).  A read outside the code, a position before the method and an `int` overflow are `ub`.  Loops are given
fuel.  The particular error code of a rejection is not modelled.
-/
namespace Verif.Graph
open Verif.VM (Cell opcodeSize)
open Verif.Cfg (Graph)

/-- Outcome of a scan. -/
inductive Out (α : Type) where
  | ok (a : α)
  | rejected
  | ub
  | fuel
deriving DecidableEq

/-- Sequencing. -/
def Out.bind {α β : Type} (x : Out α) (f : α → Out β) : Out β :=
  match x with
  | .ok a => f a
  | .rejected => .rejected
  | .ub => .ub
  | .fuel => .fuel

instance : Monad Out where
  pure := .ok
  bind := Out.bind

/-- A read of one cell. -/
def readAt (code : List Cell) (i : Nat) : Out Cell :=
  match code[i]? with
  | some c => .ok c
  | none => .ub

/-- vm/graph-builder.cpp:96-114 IsControlOpcode. -/
def isControl (op : Nat) : Bool := op ∈ [48, 51, 53, 54, 55, 56, 61, 62, 63, 64, 129]

/-- vm/graph-builder.cpp:369-395 prescan_jump_target: the jump targets afterwards. -/
def jumpTarget (code : List Cell) (start : Nat) (isSwitch : Bool) (target : Cell) (tg : List Nat) : Out (List Nat) :=
  if target.toInt < 0 then .rejected
  else if target.toNat % 4 ≠ 0 then .rejected
  else if target.toNat ≥ 4 * code.length then .rejected
  else if target.toNat / 4 ≤ start then .rejected
  else if isSwitch then .ok tg
  else .ok (target.toNat / 4 :: tg)

/-- vm/graph-builder.cpp:413-420: the loop over `n` pairs of a case table, the first at `pos`. -/
def caseTargets (code : List Cell) (start : Nat) : Nat → Nat → List Nat → Out (List Nat)
  | 0, _, tg => .ok tg
  | n+1, pos, tg => do
    let t ← readAt code (pos + 1)
    let tg ← jumpTarget code start false t tg
    caseTargets code start n (pos + 2) tg

/-- vm/graph-builder.cpp:397-422 prescan_casetable; `pos` is the default's cell.  A negative count leaves only the default. -/
def prescanCases (code : List Cell) (start pos : Nat) (n : Int) (tg : List Nat) : Out (List Nat) := do
  let d ← readAt code pos
  let tg ← jumpTarget code start false d tg
  caseTargets code start n.toNat (pos + 1) tg

/-- State of the prescan. -/
structure Pre where
  cip : Nat
  insns : List Nat
  targets : List Nat
deriving DecidableEq

/-- vm/graph-builder.cpp:327-336, 348-350, 359-364 for CASETBL at `S.cip`. -/
def prescanTable (code : List Cell) (start : Nat) (S : Pre) : Out Pre :=
  if S.cip + 1 ≥ code.length then .rejected
  else do
    let c ← readAt code (S.cip + 1)
    let n := c.toInt
    if n > 1073741823 then .rejected
    -- 335: `opcode_params` is an `int`
    else if 2 * n < -2147483648 ∨ 2 * n + 1 > 2147483647 then .ub
    else
      let next : Int := S.cip + 2 + (2 * n + 1)
      if next > code.length then .rejected
      else do
        let tg ← prescanCases code start (S.cip + 2) n S.targets
        if next < start then .ub
        else .ok ⟨next.toNat, S.cip :: S.insns, tg⟩

/-- vm/graph-builder.cpp:337-364 for an instruction other than CASETBL at `S.cip`. -/
def prescanPlain (code : List Cell) (start : Nat) (S : Pre) (op : Nat) : Out Pre :=
  match opcodeSize op with
  | none => .rejected
  | some size =>
    let next := S.cip + size.toNat
    if next > code.length then .rejected
    else if isControl op ∧ op ≠ 48 then do
      let t ← readAt code (S.cip + 1)
      let tg ← jumpTarget code start (op = 129) t S.targets
      .ok ⟨next, S.cip :: S.insns, tg⟩
    else .ok ⟨next, S.cip :: S.insns, S.targets⟩

/-- The loop vm/graph-builder.cpp:313-365. -/
def prescanLoop (code : List Cell) (start : Nat) : Nat → Pre → Out Pre
  | 0, _ => .fuel
  | fuel+1, S =>
    match code[S.cip]? with
    | none => .ok S
    | some op =>
      if op = 46 ∨ op = 166 then .ok S
      -- 319-320: `op <= 0 || op >= OPCODES_LAST`
      else if op.toInt ≤ 0 ∨ op.toInt ≥ 236 then .rejected
      else do
        let S ← if op = 130 then prescanTable code start S else prescanPlain code start S op.toNat
        prescanLoop code start fuel S

/-- vm/graph-builder.cpp:299-368 prescan of the method whose PROC is at cell `start`; afterwards `cip` is `stop_at_`.  The
start offset is taken to be aligned. -/
def prescan (code : List Cell) (start fuel : Nat) : Out Pre :=
  if code[start]? = some 46 then prescanLoop code start fuel ⟨start + 1, [], []⟩ else .rejected

/-! ## Blocks -/

/-- How a block ends: the cell after it; the cells for which blocks are acquired, in that order; and the cells of the
successors in order. -/
structure RunEnd where
  stop : Nat
  acquire : List Nat
  links : List Nat
deriving DecidableEq

/-- vm/graph-builder.cpp:236-239: the case targets read by scanSwitchFlow. -/
def readCases (code : List Cell) : Nat → Nat → Out (List Nat)
  | 0, _ => .ok []
  | n+1, pos => do
    let t ← readAt code (pos + 1)
    if t.toInt < 0 then .ub
    else do
      let ts ← readCases code n (pos + 2)
      .ok (t.toNat / 4 :: ts)

/-- vm/graph-builder.cpp:219-261 scanSwitchFlow for the SWITCH at `cip` whose table is at `tbl`. -/
def switchFlow (code : List Cell) (P : Pre) (cip tbl : Nat) : Out RunEnd := do
  let op ← readAt code tbl
  if op ≠ 130 then .rejected
  else do
    let n ← readAt code (tbl + 1)
    let d ← readAt code (tbl + 2)
    if d.toInt < 0 then .ub
    else do
      let ts ← readCases code n.toInt.toNat (tbl + 3)
      let all := d.toNat / 4 :: ts
      if all.all (P.insns.contains ·) then .ok ⟨cip + 2, all, all⟩ else .rejected

/-- vm/graph-builder.cpp:144-214: the control instruction `op` at `cip`. -/
def controlFlow (code : List Cell) (P : Pre) (cip op : Nat) : Out RunEnd :=
  if op = 48 then .ok ⟨cip + 1, [], []⟩
  else do
    let t ← readAt code (cip + 1)
    if t.toInt < 0 then .ub
    else
      let tc := t.toNat / 4
      if ¬ P.insns.contains tc then .rejected
      else if op = 129 then switchFlow code P cip tc
      else if op = 51 then .ok ⟨cip + 2, [tc], [tc]⟩
      else if cip + 2 ≥ P.cip then .rejected
      else .ok ⟨cip + 2, [tc, cip + 2], [cip + 2, tc]⟩

/-- vm/opcodes.h:58-64 NextInstruction; `none` for a position before the code. -/
def nextInsn (code : List Cell) (cip : Nat) (op : Cell) : Out Nat :=
  if op = 130 then do
    let n ← readAt code (cip + 1)
    let next : Int := cip + (2 * n.toInt + 3)
    if next < 0 then .ub else .ok next.toNat
  else
    match opcodeSize op.toNat with
    | none => .ub
    | some k => .ok (cip + k.toNat)

/-- vm/graph-builder.cpp:65-93 and 117-216 (scan, scanFlow): from `cip` to the end of the block that starts at `bstart`. -/
def scanRun (code : List Cell) (P : Pre) (bstart : Nat) : Nat → Nat → Out RunEnd
  | 0, _ => .fuel
  | fuel+1, cip =>
    if cip ≥ P.cip then .rejected
    else if P.targets.contains cip ∧ bstart ≠ cip then .ok ⟨cip, [cip], [cip]⟩
    else do
      let op ← readAt code cip
      if isControl op.toNat then controlFlow code P cip op.toNat
      else do
        let next ← nextInsn code cip op
        scanRun code P bstart fuel next

/-- The graph under construction.  Block 0 is the entry; block `k + 1` starts at `starts[k]`.  `queue` has the next block to
scan first.  `runs` records the cells each scanned block covers. -/
structure Build where
  starts : List Nat
  edges : Graph
  queue : List Nat
  runs : List (Nat × RunEnd)
deriving DecidableEq

/-- vm/graph-builder.cpp:263-292 getOrAddBlock and enqueueBlock. -/
def acquireBlock (B : Build) (c : Nat) : Build :=
  if B.starts.contains c then B else { B with starts := B.starts ++ [c], queue := (B.starts.length + 1) :: B.queue }

/-- The block that starts at a cell. -/
def Build.blockAt (B : Build) (c : Nat) : Nat := B.starts.idxOf c + 1

/-- Acquire the blocks a run ends in, link them, and end the block. -/
def finishBlock (B : Build) (cur : Nat) (R : RunEnd) : Build :=
  let B := R.acquire.foldl acquireBlock B
  { B with edges := B.edges ++ R.links.map fun c => (cur, B.blockAt c), runs := (cur, R) :: B.runs }

/-- vm/graph-builder.cpp:65-93: the loop over the blocks to scan.  `len` bounds the run of one block. -/
def scanLoop (code : List Cell) (P : Pre) (len : Nat) : Nat → Build → Out Build
  | 0, _ => .fuel
  | fuel+1, B =>
    match B.queue with
    | [] => .ok B
    | b :: q =>
      match B.starts[b - 1]? with
      | none => .ub
      | some c => do
        let R ← scanRun code P c len c
        scanLoop code P len fuel (finishBlock { B with queue := q } b R)

/-- vm/graph-builder.cpp:52-93 scan: the entry block starts at PROC and is scanned from the cell after it. -/
def scan (code : List Cell) (start : Nat) (P : Pre) (fuel : Nat) : Out Build := do
  let R ← scanRun code P start fuel (start + 1)
  scanLoop code P fuel fuel (finishBlock ⟨[], [], [], []⟩ 0 R)

/-- vm/graph-builder.cpp:31-49 build: the blocks and, unless the graph is irreducible, its analyses. -/
def build (code : List Cell) (start fuel : Nat) : Out (Pre × Build × Verif.Cfg.Analysis) := do
  let P ← prescan code start fuel
  let B ← scan code start P fuel
  match Verif.Cfg.analyse B.edges with
  | none => .fuel
  | some none => .rejected
  | some (some A) => .ok (P, B, A)

end Verif.Graph

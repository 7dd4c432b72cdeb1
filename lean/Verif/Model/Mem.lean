/-
Model of the plugin memory, its registers and the primitive stack / heap operations of the VM
(vm/plugin-runtime.cpp).  Addresses and registers are `Int`s holding int32 values; every
arithmetic result is passed through `wrap32`, i.e. two's complement wrap-around.  The C++ code uses
a mixture of signed (`cell_t`) and unsigned (`size_t`) arithmetic; signed overflow, formally
undefined, is modelled as wrap-around, which is what the code relies on.
-/
namespace Verif.VM

/-- Conversion of an integer to `cell_t` (int32_t): include/sp_vm_types.h (`typedef int32_t cell_t`). -/
def wrap32 (x : Int) : Int := (x + 2147483648) % 4294967296 - 2147483648

/-- A 32-bit cell. include/sp_vm_types.h. -/
abbrev Cell := BitVec 32

/-- Error codes that the modelled operations report. include/sp_vm_types.h, SP_ERROR_*. -/
inductive Err where
  | stackLow | stackMin | heapLow | heapMin | invalidAddress | trackerBounds
  | arrayTooBig | invalidArraySize | arrayBounds | divideByZero | integerOverflow
  | timeout | invalidNative | invalidInstruction | notFound | notRunnable | native
  | paramsMax | param
deriving DecidableEq, Repr

/-- Result of an operation: success with a value, a reported error together with the state it
leaves behind, or undefined behaviour (an access outside the allocated memory block). -/
inductive Res (σ α : Type) where
  | ok (s : σ) (a : α)
  | fail (s : σ) (e : Err)
  | ub

/-- The plugin context. vm/plugin-runtime.h (members memory_, data_size_, mem_size_, stp_, hp_, sp_,
frm_, hp_scope_) and the two code feature bits read through `image_->DescribeCode().features`. -/
structure State where
  mem : Int → BitVec 8
  memSize : Int
  dataSize : Int
  stp : Int
  hp : Int
  sp : Int
  frm : Int
  hpScope : Int
  directArrays : Bool
  usesHeapScopes : Bool

/-- vm/plugin-runtime.h:28 `STACK_MARGIN = 16 * sizeof(cell_t)`. -/
def stackMargin : Int := 64

/-- Little-endian load of a cell. -/
def rd32 (m : Int → BitVec 8) (a : Int) : Cell := m (a+3) ++ m (a+2) ++ m (a+1) ++ m a

/-- Store of one byte. -/
def wr8 (m : Int → BitVec 8) (a : Int) (v : BitVec 8) : Int → BitVec 8 :=
  fun x => if x = a then v else m x

/-- Little-endian store of a cell. -/
def wr32 (m : Int → BitVec 8) (a : Int) (v : Cell) : Int → BitVec 8 :=
  fun x =>
    if x = a then v.extractLsb' 0 8
    else if x = a + 1 then v.extractLsb' 8 8
    else if x = a + 2 then v.extractLsb' 16 8
    else if x = a + 3 then v.extractLsb' 24 8
    else m x

/-- `n` bytes starting at address `a` lie inside the block allocated for `memory_`
(vm/plugin-runtime.cpp: `memory_` holds `mem_size_` bytes). -/
abbrev State.inMem (s : State) (a n : Int) : Prop := 0 ≤ a ∧ a + n ≤ s.memSize

/-- Operations of the VM. -/
abbrev VMM (α : Type) := State → Res State α

/-- Sequencing of operations: `if (!op()) return false;`. -/
def VMM.bind {α β : Type} (x : VMM α) (f : α → VMM β) : VMM β := fun s =>
  match x s with
  | .ok s' a => f a s'
  | .fail s' e => .fail s' e
  | .ub => .ub

/-- Return a value. -/
def VMM.pure {α : Type} (a : α) : VMM α := fun s => .ok s a

instance : Monad VMM where
  pure := VMM.pure
  bind := VMM.bind

/-- Report an error and return false. -/
def report {α : Type} (e : Err) : VMM α := fun s => .fail s e

/-- Raw cell read from `memory_ + a`; outside the block it is undefined behaviour. -/
def loadRaw (a : Int) : VMM Cell := fun s =>
  if s.inMem a 4 then .ok s (rd32 s.mem a) else .ub

/-- Raw cell write to `memory_ + a`; outside the block it is undefined behaviour. -/
def storeRaw (a : Int) (v : Cell) : VMM Unit := fun s =>
  if s.inMem a 4 then .ok { s with mem := wr32 s.mem a v } () else .ub

/-- Raw byte write. -/
def storeRaw8 (a : Int) (v : BitVec 8) : VMM Unit := fun s =>
  if s.inMem a 1 then .ok { s with mem := wr8 s.mem a v } () else .ub

/-- Initial registers. vm/plugin-runtime.cpp:39-68 (the constructor), for the data size and the
already aligned and enlarged memory size. -/
def init (mem : Int → BitVec 8) (dataSize memSize : Int) (direct scopes : Bool) : State :=
  { mem, memSize, dataSize, stp := memSize - 4, hp := dataSize, sp := memSize - 4,
    frm := memSize - 4, hpScope := -1, directArrays := direct, usesHeapScopes := scopes }

/-- vm/plugin-runtime.cpp:47-58: final value of `mem_size_`.  Sizes are taken small enough not to
wrap `size_t`. -/
def computeMemSize (dataSize heapSize : Int) : Int :=
  let m := if heapSize < dataSize then dataSize else heapSize
  let m := (m + 3) / 4 * 4
  if m < dataSize + 16384 then dataSize + 16384 else m

/-- vm/plugin-runtime.cpp:1243-1250 throwIfBadAddress; returns the checked address. -/
def throwIfBadAddress (addr : Int) : VMM Int := fun s =>
  if addr < 0 ∨ (addr ≥ s.hp ∧ addr < s.sp) ∨ addr ≥ s.stp then .fail s .invalidAddress
  else .ok s addr

/-- vm/plugin-runtime.cpp:585-596 LocalToPhysAddr. -/
def localToPhysAddr (addr : Int) : VMM Int := fun s =>
  if (addr ≥ s.hp ∧ addr < s.sp) ∨ addr < 0 ∨ addr ≥ s.memSize then .fail s .invalidAddress
  else .ok s addr

/-- vm/plugin-runtime.cpp:1177-1194 getCellValue (the aligned and the byte-wise branch read the same
four bytes). -/
def getCellValue (a : Int) : VMM Cell := do
  let p ← throwIfBadAddress a
  loadRaw p

/-- vm/plugin-runtime.cpp:1196-1204 setCellValue. -/
def setCellValue (a : Int) (v : Cell) : VMM Unit := do
  let p ← throwIfBadAddress a
  storeRaw p v

/-- vm/plugin-runtime.cpp:1157-1165 getFrameValue. -/
def getFrameValue (offset : Int) : VMM Cell := fun s =>
  getCellValue (wrap32 (s.frm + offset)) s

/-- vm/plugin-runtime.cpp:1167-1175 setFrameValue. -/
def setFrameValue (offset : Int) (v : Cell) : VMM Unit := fun s =>
  setCellValue (wrap32 (s.frm + offset)) v s

/-- vm/plugin-runtime.cpp:1133-1143 pushStack. -/
def pushStack (v : Cell) : VMM Unit := fun s =>
  if s.sp ≤ wrap32 (s.hp + 4) then .fail s .stackLow
  else storeRaw (wrap32 (s.sp - 4)) v { s with sp := wrap32 (s.sp - 4) }

/-- vm/plugin-runtime.cpp:1145-1155 popStack. -/
def popStack : VMM Cell := fun s =>
  if s.sp ≥ s.stp then .fail s .stackMin
  else match loadRaw s.sp s with
    | .ok s v => .ok { s with sp := wrap32 (s.sp + 4) } v
    | .fail s e => .fail s e
    | .ub => .ub

/-- vm/plugin-runtime.cpp:1252-1271 addStack. -/
def addStack (amount : Int) : VMM Unit := fun s =>
  let newSp := wrap32 (s.sp + amount)
  if amount < 0 then
    if newSp < wrap32 (s.hp + stackMargin) then .fail s .stackLow else .ok { s with sp := newSp } ()
  else
    if newSp > s.stp then .fail s .stackMin else .ok { s with sp := newSp } ()

/-- vm/plugin-runtime.cpp:1206-1231 heapAlloc / heapAllocEx; returns the old heap top. -/
def heapAlloc (amount : Int) : VMM Int := fun s =>
  let newHp := wrap32 (s.hp + amount)
  if amount < 0 then
    if newHp < s.dataSize then .fail s .heapMin else .ok { s with hp := newHp } s.hp
  else
    if wrap32 (newHp + stackMargin) > s.sp then .fail s .heapLow
    else .ok { s with hp := newHp } s.hp

/-- vm/plugin-runtime.cpp:827-838 pushTracker; `amount` is a uint32. -/
def pushTracker (amount : Int) : VMM Unit := fun s =>
  if amount > 2147483647 then .fail s .trackerBounds
  else if wrap32 (s.sp - s.hp) < stackMargin then .fail s .trackerBounds
  else storeRaw s.hp (BitVec.ofInt 32 amount) { s with hp := wrap32 (s.hp + 4) }

/-- vm/plugin-runtime.cpp:809-825 popTrackerAndSetHeap. -/
def popTracker : VMM Unit := fun s =>
  if wrap32 (s.hp - s.dataSize) < 4 then .fail s .trackerBounds
  else
    let s := { s with hp := wrap32 (s.hp - 4) }
    match loadRaw s.hp s with
    | .ok s amt =>
      if amt.toInt < 0 ∨ wrap32 (s.hp - s.dataSize) < amt.toInt then .fail s .trackerBounds
      else .ok { s with hp := wrap32 (s.hp - amt.toInt) } ()
    | .fail s e => .fail s e
    | .ub => .ub

/-- vm/plugin-runtime.cpp:840-853 enterHeapScope.  `heapAlloc` stores the old heap top into
`hp_scope_` before the cell is written. -/
def enterHeapScope : VMM Unit := fun s =>
  match heapAlloc 4 s with
  | .ok s1 a => (do let p ← throwIfBadAddress a
                    storeRaw p (BitVec.ofInt 32 s.hpScope) : VMM Unit) { s1 with hpScope := a }
  | .fail s1 e => .fail s1 e
  | .ub => .ub

/-- vm/plugin-runtime.cpp:855-868 leaveHeapScope. -/
def leaveHeapScope : VMM Unit := fun s =>
  match (do let p ← throwIfBadAddress s.hpScope
            loadRaw p : VMM Cell) s with
  | .ok s1 prev =>
    let s2 := { s1 with hp := s.hpScope, hpScope := prev.toInt }
    if prev.toInt ≠ -1 then
      match throwIfBadAddress prev.toInt s2 with
      | .ok s3 _ => .ok s3 ()
      | .fail s3 e => .fail s3 e
      | .ub => .ub
    else .ok s2 ()
  | .fail s1 e => .fail s1 e
  | .ub => .ub

/-- vm/plugin-runtime.cpp:1071-1090 pushAmxFrame. -/
def pushAmxFrame : VMM Unit := fun s =>
  (do pushStack (BitVec.ofInt 32 s.frm)
      let a ← heapAlloc 4
      let p ← throwIfBadAddress a
      storeRaw p (BitVec.ofInt 32 s.hpScope)
      pushStack (BitVec.ofInt 32 a)
      fun s => .ok { s with frm := s.sp } () : VMM Unit) s

/-- vm/plugin-runtime.cpp:1104-1115, the part of popAmxFrame that resets the heap.
`(uint32_t)hp_ < data_size_` is an unsigned compare of a value that `throwIfBadAddress` has shown to
be non-negative. -/
def restoreHeap (hp scope : Int) : VMM Unit := fun s =>
  if hp < s.dataSize ∨ hp > s.sp then .fail { s with hpScope := scope, hp := hp } .invalidAddress
  else .ok { s with hpScope := scope, hp := hp } ()

/-- vm/plugin-runtime.cpp:1124-1129, the part of popAmxFrame that drops the arguments. -/
def dropArgs (nargs : Int) : VMM Unit := fun s =>
  if nargs < 0 ∨ wrap32 (s.sp + nargs * 4) > s.stp then .fail s .stackMin
  else .ok { s with sp := wrap32 (s.sp + nargs * 4) } ()

/-- vm/plugin-runtime.cpp:1117 `popStack(&frm_)` stores into the register. -/
def setFrm (frm : Int) : VMM Unit := fun s => .ok { s with frm := frm } ()

/-- vm/plugin-runtime.cpp:1092-1131 popAmxFrame. -/
def popAmxFrame : VMM Unit := fun s =>
  (do let saved ← popStack
      let p ← throwIfBadAddress saved.toInt
      let sc ← loadRaw p
      restoreHeap saved.toInt sc.toInt
      let frm ← popStack
      setFrm frm.toInt
      let nargs ← popStack
      dropArgs nargs.toInt
     : VMM Unit) { s with sp := s.frm }

/-- vm/plugin-runtime.cpp:1233-1241 acquireAddrRange: both end points are checked. -/
def acquireAddrRange (address : Int) (bounds : Int) : VMM Int := do
  let p ← throwIfBadAddress address
  if bounds ≠ 0 then
    let _ ← throwIfBadAddress (wrap32 (address + bounds - 1))
    pure p
  else pure p

end Verif.VM

import Verif.Model.Mem

/-!
Specification vocabulary for the memory properties (C01, C04, C05, C06, C07).

A *history* is a sequence of stack, heap, scope, frame and store operations.  The VM keeps its
bookkeeping (return frames and heap scopes) in plugin memory, where the script could overwrite it.
The specification therefore carries a *shadow* list of the live bookkeeping records, innermost
first, and calls an operation `Legal` when it does not destroy a record: stores do not hit a
bookkeeping cell, and the stack / heap are not released below the innermost record.
-/
namespace Verif.VM

/-- The layout invariant: data segment, heap and stack, in this order, inside the memory block. -/
structure Layout (s : State) : Prop where
  data_nonneg : 0 ≤ s.dataSize
  data_le_hp : s.dataSize ≤ s.hp
  hp_le_sp : s.hp ≤ s.sp
  sp_le_stp : s.sp ≤ s.stp
  stp_eq : s.stp = s.memSize - 4
  mem_small : s.memSize ≤ 2147483648 - 128

/-- Everything but registers and memory contents is unchanged. -/
structure SameBlock (s s' : State) : Prop where
  memSize : s'.memSize = s.memSize
  dataSize : s'.dataSize = s.dataSize
  stp : s'.stp = s.stp
  directArrays : s'.directArrays = s.directArrays
  usesHeapScopes : s'.usesHeapScopes = s.usesHeapScopes

/-- The operations a running script performs on its stack and heap. -/
inductive Op where
  | push (v : Cell)              -- PUSH family
  | pop                          -- POP family
  | stack (n : Int)              -- STACK n
  | heap (n : Int)               -- HEAP n
  | trackPush (n : Int)          -- TRACKER_PUSH_C n
  | trackPop                     -- TRACKER_POP_SETHEAP
  | enter                        -- HEAP_SAVE
  | leave                        -- HEAP_RESTORE
  | call                         -- PROC: build a frame over the argument count just pushed
  | ret                          -- RETN: tear the frame down and drop the arguments
  | store (a : Int) (v : Cell)   -- any store through an address
deriving Repr

/-- Execute one operation with the model's functions. -/
def Op.exec : Op → VMM Unit
  | .push v => pushStack v
  | .pop => do let _ ← popStack; pure ()
  | .stack n => addStack n
  | .heap n => do let _ ← heapAlloc n; pure ()
  | .trackPush n => pushTracker n
  | .trackPop => popTracker
  | .enter => enterHeapScope
  | .leave => leaveHeapScope
  | .call => pushAmxFrame
  | .ret => popAmxFrame
  | .store a v => setCellValue a v

/-- A live bookkeeping record.
* `frame sp nargs frm hp scope`: a call made when the registers were `sp` (pointing at the argument
  count `nargs`), `frm`, `hp` and `scope`;
* `scope hp scope`: a heap scope entered when the registers were `hp` and `scope`. -/
inductive Link where
  | frame (sp nargs frm hp scope : Int)
  | scope (hp scope : Int)
deriving DecidableEq, Repr

/-- The memory cells in which a record is kept. -/
def Link.cells : Link → List Int
  | .frame sp _ _ hp _ => [sp, sp - 4, sp - 8, hp]
  | .scope hp _ => [hp]

/-- Highest value the stack pointer may take without destroying a record (`base` if there is none). -/
def spLimit (base : Int) : List Link → Int
  | [] => base
  | .frame sp _ _ _ _ :: _ => sp - 8
  | .scope _ _ :: g => spLimit base g

/-- Lowest value the heap pointer may take without destroying a record (`base` if there is none). -/
def hpLimit (base : Int) : List Link → Int
  | [] => base
  | .frame _ _ _ hp _ :: _ => hp + 4
  | .scope hp _ :: _ => hp + 4

/-- The innermost frame record and what lies below it. -/
def toFrame : List Link → List Link
  | [] => []
  | .frame a b c d e :: g => .frame a b c d e :: g
  | .scope _ _ :: g => toFrame g

/-- `op` does not destroy the bookkeeping records `g`; `b` is the state in which the history began. -/
def Legal (b s : State) (g : List Link) : Op → Prop
  | .push _ | .enter | .trackPush _ => True
  | .pop => s.sp + 4 ≤ spLimit b.sp g
  | .stack n => -2147483648 ≤ n ∧ s.sp + n ≤ spLimit b.sp g
  | .heap n => -2147483648 ≤ n ∧ s.hp + n + 64 < 2147483648 ∧ hpLimit b.hp g ≤ s.hp + n
  | .trackPop =>
      hpLimit b.hp g ≤ s.hp - 4 ∧ hpLimit b.hp g ≤ s.hp - 4 - (rd32 s.mem (s.hp - 4)).toInt
  | .leave => ∃ a sc g', g = .scope a sc :: g'
  | .call => 0 ≤ (rd32 s.mem s.sp).toInt ∧
      s.sp + 4 + 4 * (rd32 s.mem s.sp).toInt ≤ spLimit b.sp g
  | .ret => ∃ sp n frm hp sc g', toFrame g = .frame sp n frm hp sc :: g'
  | .store a _ => ∀ l ∈ g, ∀ c ∈ l.cells, a + 4 ≤ c ∨ c + 4 ≤ a

/-- The records that are live after `op` has succeeded in state `s`. -/
def shadow (s : State) (g : List Link) : Op → List Link
  | .enter => .scope s.hp s.hpScope :: g
  | .leave => g.tail
  | .call => .frame s.sp (rd32 s.mem s.sp).toInt s.frm s.hp s.hpScope :: g
  | .ret => (toFrame g).tail
  | _ => g

/-- `History b ops s g`: starting in `b` the operations `ops` all succeed, each one being legal when
it is executed, and lead to state `s` with live records `g`. -/
inductive History (b : State) : List Op → State → List Link → Prop where
  | start : History b [] b []
  | step {ops s g op s'} : History b ops s g → Legal b s g op → op.exec s = .ok s' () →
      History b (ops ++ [op]) s' (shadow s g op)

end Verif.VM

import Verif.Model.LocalVar
import Verif.Spec.ArrayInit
import Verif.Spec.Long
import Verif.Spec.Memory

/-!
What it means for a local variable to have the value that it is declared with.
-/
namespace Verif.LocalVar
open Verif.VM
open Verif.ArrayInit (Base Init Path part row structRow Accepted Supported validStruct okFields storage esSize)
open Verif.Long (Kind size slotAddr)

/-- The cells from address `a` on. -/
def Cells (m : Int → BitVec 8) (a : Int) (l : List Cell) : Prop := ∀ (j : Nat) c, l[j]? = some c → rd32 m (a + 4 * (j : Int)) = c

/-- Indexing: from the address `a` of an array, each index but the last one leads to a cell with the address of an array. -/
def walk (m : Int → BitVec 8) : Cell → List Nat → Cell
  | a, [] => a
  | a, i :: idx => walk m (rd32 m (a.toInt + 4 * (i : Int))) idx

/-- The variable whose slot is at `p` has the value that it is declared with.  Arrays: each row has the elements that the initialiser says. -/
def Ty.Has (m : Int → BitVec 8) (p : Int) : Ty → Prop
  | .cell init => rd32 m p = init.getD 0
  | .int64 => rd32 m p = 0 ∧ rd32 m (p + 4) = 0
  | .array b dims init => ∀ idx, Path dims idx → Cells m (walk m (rd32 m p) idx).toInt (row b (dims.getLastD 0) (idx.foldl part init))
  | .struct fields (some (.arr items _)) => Cells m (rd32 m p).toInt (structRow fields items)
  | .struct fields _ => Cells m (rd32 m p).toInt (List.replicate (esSize fields) 0)

/-- The cells of a variable besides its slot. -/
def Ty.cells : Ty → Nat
  | .array b dims _ => storage b dims
  | .struct fields _ => esSize fields
  | _ => 0

/-- Where the cells of the declaration with the number `j` start: arrays are one after the other, from the top of the heap `hp`. -/
def base (hp : Int) (ds : List Decl) (j : Nat) : Int := hp + 4 * (((ds.take j).map (·.ty.cells)).sum : Nat)

/-- Accepted by the compiler, one of those that are emitted correctly (see C41), all sizes are given, at least one cell, less than 1 GiB. -/
def Ty.Good : Ty → Prop
  | .array b dims init => Accepted b dims init ∧ Supported b dims init ∧ dims.getLastD 0 ≠ 0 ∧ 0 < storage b dims ∧ storage b dims < 268435456
  | .struct fields (some (.arr items e)) => e = false ∧ validStruct fields (.arr items false) = true ∧ okFields fields items = true ∧
      0 < esSize fields ∧ esSize fields < 268435456
  | .struct fields i => i = none ∧ 0 < esSize fields ∧ esSize fields < 268435456
  | _ => True

/-- The memory starts with the data of the program. -/
structure Loaded (data : List Cell) (s : State) : Prop where
  cells : Cells s.mem 0 data
  fits : 4 * (data.length : Int) ≤ s.dataSize

/-- The state in a function whose slots are `K`: data, heap and stack in this order, addresses of cells, and the slots of the function on the stack. -/
structure InFrame (K : List Kind) (s : State) : Prop where
  layout : Layout s
  aligned : s.memSize % 4 = 0 ∧ s.dataSize % 4 = 0 ∧ s.hp % 4 = 0
  frame : s.sp ≤ s.frm - size K ∧ s.frm ≤ s.stp
  /-- 512 MiB -/
  small : s.memSize ≤ 536870912

/-- All but the memory and the heap is as before. -/
def SameRegs (s s' : State) : Prop := s' = { s with mem := s'.mem, hp := s'.hp }

end Verif.LocalVar

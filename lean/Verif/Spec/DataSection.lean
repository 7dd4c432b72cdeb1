import Verif.Model.DataSection
import Verif.Spec.ArrayInit

/-!
What C80 says about the data section.  Declarations, uses and literals are named by their number in the program.
-/
namespace Verif.DataSection
open Verif.Labels (Cell)
open Verif.Text (stringToCells)
open Verif.ArrayInit (storage esSize Accepted Supported validStruct okFields)

/-- The address of the data cell with the number `k`. -/
def address (k : Nat) : Cell := BitVec.ofNat 32 (4 * k)

/-- How many cells the type of a variable has. -/
def Value.cells : Value → Nat
  | .cell _ => 1
  | .int64 _ => 2
  | .array b dims _ => storage b dims
  | .struct fields _ => esSize fields

/-- Each item that is an operand or another cell of code takes one cell of code. -/
def Item.isCode : Item → Bool
  | .var .. | .pstruct .. => false
  | _ => true

/-- The number of the cell of code that the item with the number `k` takes. -/
def place (P : List Item) (k : Nat) : Nat := (P.take k).countP Item.isCode

/-- The variable that an item declares. -/
def Item.declares : Item → Option Nat
  | .var v .. | .pstruct v .. => some v
  | _ => none

/-- The variable whose address goes into the code through its label. -/
def Item.links : Item → Option Nat
  | .load v | .addr v => some v
  | _ => none

/-- The variable that an item declares as public. -/
def Item.publishes : Item → Option Nat
  | .var v _ true | .pstruct v _ _ true => some v
  | _ => none

/-- How many cells of data an item takes. -/
def Item.size : Item → Nat
  | .var _ x _ => (x.emit 0).length
  | .pstruct _ n (some fields) _ => (fields.map fun f => match f.2 with | .str s => (stringToCells s).length | _ => 0).sum + n
  | .blob cells => cells.length
  | _ => 0

/-- The number of the first cell of data that the item with the number `k` takes: data is laid out in the order of the program. -/
def start (P : List Item) (k : Nat) : Nat := ((P.take k).map Item.size).sum

/-- No variable is declared twice, code does not use variables whose type is a `struct`, and code and data are smaller than 1 GiB. -/
structure Legal (P : List Item) : Prop where
  once : ∀ (j k : Nat) x y v, P[j]? = some x → P[k]? = some y → x.declares = some v → y.declares = some v → j = k
  structs : ∀ (j k : Nat) v n init pub x, P[j]? = some (.pstruct v n init pub) → P[k]? = some x → x.links ≠ some v
  code : 4 * P.countP Item.isCode + 4 < 1073741824
  data : 4 * (P.map Item.size).sum < 1073741824

/-- The cells of `data` from the number `a` are `cells`. -/
def Holds (data : List Cell) (a : Nat) (cells : List Cell) : Prop := ∀ (i : Nat) c, cells[i]? = some c → data[a + i]? = some c

/-- Variables whose cells are known to be as many as their type has (see C41 for the others). -/
def Value.Sized : Value → Prop
  | .cell _ | .int64 _ => True
  | .array b dims init => Accepted b dims init ∧ Supported b dims init ∧ dims.getLastD 0 ≠ 0
  | .struct _ none => True
  | .struct fields (some (.arr items false)) => validStruct fields (.arr items false) = true ∧ okFields fields items = true
  | .struct _ _ => False

/-- The strings of a `struct` come before its fields. -/
def fieldsAt (a : Nat) (fields : List (Nat × PValue)) : Nat :=
  a + (fields.map fun f => match f.2 with | .str s => (stringToCells s).length | _ => 0).sum

/-- The value that a field is given last. -/
def lastGiven (fields : List (Nat × PValue)) (f : Nat) : Option PValue := (fields.reverse.find? (·.1 == f)).map (·.2)

end Verif.DataSection

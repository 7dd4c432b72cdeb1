import Verif.Model.Mem

/-!
Specification vocabulary for arrays (C09-C11): sizes, row-major position, and how a script reaches an
element, independent of how the arrays are built.
-/
namespace Verif.VM

/-- Number of data cells of an array with these dimensions (outermost first). -/
def dataCells : List Int → Int
  | [] => 1
  | d :: ds => d * dataCells ds

/-- Number of pointer cells: every dimension but the last has one pointer per sub-array. -/
def ptrCells : List Int → Int
  | [] => 0
  | [_] => 0
  | d :: d' :: ds => d + d * ptrCells (d' :: ds)

/-- `is` is a valid index vector for the dimensions `ds`. -/
def ValidIx : List Int → List Int → Prop
  | [], [] => True
  | d :: ds, i :: is => (0 ≤ i ∧ i < d) ∧ ValidIx ds is
  | _, _ => False

/-- Row-major position of an element. -/
def flat : List Int → List Int → Int
  | _ :: ds, i :: is => i * dataCells ds + flat ds is
  | _, _ => 0

/-- Address of element `is`, reached as compiled code with direct arrays does: at every dimension
but the last, load the pointer found in the cell of that index. -/
def walkAbs (m : Int → BitVec 8) : Int → List Int → Int
  | a, [] => a
  | a, [i] => a + 4 * i
  | a, i :: j :: is => walkAbs m (rd32 m (a + 4 * i)).toInt (j :: is)

/-- Address of element `is` as legacy code reaches it: the cell holds the distance from itself to the
sub-array. -/
def walkRel (m : Int → BitVec 8) : Int → List Int → Int
  | a, [] => a
  | a, [i] => a + 4 * i
  | a, i :: j :: is => walkRel m (a + 4 * i + (rd32 m (a + 4 * i)).toInt) (j :: is)

end Verif.VM

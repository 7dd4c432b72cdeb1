import Verif.Model.ArrayInit

/-!
What initialisers of arrays mean, independently of how they are emitted, and how arrays are indexed at run time: an array of arrays is a
vector of addresses, indexed by LOAD of the address plus four times the index, until the last dimension.
-/
namespace Verif.ArrayInit
open Verif.Text (Byte)

/-- The value of the constant `i` (braces and strings have none). -/
def valueOf : Init → Cell
  | .num v => v
  | _ => 0

/-- The step of `{a, …, p, q, ...}` is q - p; of `{q, ...}` it is 0. -/
def step (items : List Cell) : Cell :=
  if 2 ≤ items.length then items.getD (items.length - 1) 0 - items.getD (items.length - 2) 0 else 0

/-- Element `i` of an array initialised with `items`, and maybe an ellipsis. -/
def element (items : List Cell) (ellipses : Bool) (i : Nat) : Cell :=
  match items[i]? with
  | some v => v
  | none => if ellipses then items.getD (items.length - 1) 0 + BitVec.ofNat 32 (i + 1 - items.length) * step items else 0

/-- An array of cells of declared size `n` (0 if open). -/
def cellRow (items : List Cell) (ellipses : Bool) (n : Nat) : List Cell :=
  (List.range (max n items.length)).map (element items ellipses)

/-- Byte `i` of a string, zeros after it. -/
def charAt (s : List Byte) (i : Nat) : Byte := s.getD i 0

/-- A character array of declared size `n` (0 if open), four to a cell, the first in the lowest byte, with a terminating zero. -/
def charRow (s : List Byte) (n : Nat) : List Cell :=
  (List.range (max ((n + 3) / 4) (s.length / 4 + 1))).map fun i =>
    charAt s (4 * i + 3) ++ (charAt s (4 * i + 2) ++ (charAt s (4 * i + 1) ++ charAt s (4 * i)))

/-- A 64-bit integer, low cell first. -/
def wide : Init → List Cell
  | .num v => [v, BitVec.ofInt 32 (v.toInt / 4294967296)]
  | .num64 v => [BitVec.ofNat 32 v.toNat, BitVec.ofNat 32 (v.toNat / 4294967296)]
  | _ => [0, 0]

/-- Cells a field takes: two for each 64-bit integer, one for four characters, one for everything else. -/
def fieldCells : FieldTy → Nat
  | .scalar .int64 => 2
  | .scalar .cell => 1
  | .scalar .char => 1
  | .array .int64 n => n + n
  | .array .char n => n / 4 + (if n % 4 = 0 then 0 else 1)
  | .array .cell n => n
  | .nested cells => cells

/-- Cells an enum struct takes. -/
def structCells : List FieldTy → Nat
  | [] => 0
  | f :: fs => fieldCells f + structCells fs

/-- The cells of a field. -/
def fieldRow : FieldTy → Option Init → List Cell
  | .array .cell n, some (.arr items ellipses) => cellRow (items.map valueOf) ellipses n
  | .array .char n, some (.str s) => charRow s n
  | .scalar _, some (.num v) => [v]
  | f, _ => List.replicate (fieldCells f) 0

/-- The cells of an enum struct: its fields one after the other. -/
def structRow : List FieldTy → List Init → List Cell
  | [], _ => []
  | f :: fs, items => fieldRow f items.head? ++ structRow fs items.tail

/-- Cells an element of the array takes in the last dimension, `n` of them. -/
def rowSize (b : Base) (n : Nat) : Nat :=
  match b with
  | .elem .cell => n
  | .elem .char => (n + 3) / 4
  | .elem .int64 => 2 * n
  | .es fields => n * structCells fields

/-- The cells of the last dimension. -/
def row (b : Base) (n : Nat) : Option Init → List Cell
  | some (.arr items ellipses) =>
    match b with
    | .elem .int64 => items.flatMap wide
    | .elem _ => cellRow (items.map valueOf) ellipses n
    | .es fields =>
      let given := items.flatMap fun i => match i with
        | .arr is _ => structRow fields is
        | _ => []
      given ++ List.replicate (n * structCells fields - given.length) 0
  | some (.str s) => charRow s n
  | _ => List.replicate (rowSize b n) 0

/-- The part of an initialiser for sub-array `i`. -/
def part (init : Option Init) (i : Nat) : Option Init :=
  match init with
  | some (.arr items _) => items[i]?
  | _ => none

/-- All rows, in row-major order. -/
def rows (b : Base) : List Nat → Option Init → List (List Cell)
  | [], _ => []
  | [n], init => [row b n init]
  | n :: d :: ds, init => (List.range n).flatMap fun i => rows b (d :: ds) (part init i)

/-- The number of rows. -/
def rowCount : List Nat → Nat
  | [] => 0
  | [_] => 1
  | n :: d :: ds => n * rowCount (d :: ds)

/-- The number of addresses in row vectors. -/
def vectorCells : List Nat → Nat
  | n :: d :: ds => n + n * vectorCells (d :: ds)
  | _ => 0

/-- Indices of all dimensions but the last, within bounds. -/
def Path : List Nat → List Nat → Prop
  | [_], [] => True
  | n :: d :: ds, i :: idx => i < n ∧ Path (d :: ds) idx
  | _, _ => False

/-- The row-major number of the row at `idx`. -/
def linear : List Nat → List Nat → Nat
  | _ :: d :: ds, i :: idx => i * rowCount (d :: ds) + linear (d :: ds) idx
  | _, _ => 0

/-- Indexing at run time: from the address `a`, for an image of the array at address `base`. -/
def follow (img : List Cell) (base : Cell) : Cell → List Nat → Option Cell
  | a, [] => some a
  | a, i :: idx =>
    let off := (a - base).toNat + 4 * i
    if off % 4 = 0 then
      match img[off / 4]? with
      | some a' => follow img base a' idx
      | none => none
    else none

/-- The cells an array type takes. -/
def storage (b : Base) (dims : List Nat) : Nat :=
  vectorCells dims + rowCount dims * rowSize b (dims.getLastD 0)

/-- What is emitted correctly: arrays of characters only from strings, arrays of 64-bit integers only if all are given, no more structs
than declared, fields of character arrays only from strings, no initialisers for fields of 64-bit arrays. -/
def okField : FieldTy → Init → Bool
  | .array .cell n, .arr _ _ => decide (n ≠ 0)
  | .array .char n, .str _ => decide (n ≠ 0)
  | .array _ _, _ => false
  | _, _ => true

def okFields : List FieldTy → List Init → Bool
  | f :: fs, i :: is => okField f i && okFields fs is
  | _, _ => true

/-- See `okField`. -/
def okRow (b : Base) (n : Nat) (init : Option Init) : Bool :=
  match b with
  | .elem .cell => true
  | .elem .char =>
    match init with
    | some (.arr _ _) => false
    | _ => true
  | .elem .int64 =>
    match init with
    | some (.arr items ellipses) => decide (n ≤ items.length) && !ellipses
    | _ => decide (n = 0)
  | .es fields =>
    match init with
    | some (.arr items ellipses) => decide (items.length ≤ n) && !ellipses && items.all fun i => match i with
      | .arr is _ => okFields fields is
      | _ => false
    | _ => true

/-- See `okField`. -/
def Supported (b : Base) : List Nat → Option Init → Prop
  | [], _ => False
  | [n], init => okRow b n init = true
  | n :: d :: ds, init => ∀ i < n, Supported b (d :: ds) (part init i)

/-- Accepted by the compiler. -/
def Accepted (b : Base) (dims : List Nat) (init : Option Init) : Prop := ∀ i, init = some i → validRank b dims i = true

end Verif.ArrayInit

import Verif.Model.Lexer

/-!
Compile-time layout of arrays and enum structs: storage sizes, validation of initialisers and the emitter of initial data
(compiler/array-helpers.cpp, compiler/types.cpp, compiler/name-resolution.cpp).
-/
namespace Verif.ArrayInit
open Verif.Text (Byte stringToCells)

abbrev Cell := BitVec 32

/-- What an array that is not nested holds: cells (int, float, bool, …), characters or 64-bit integers. -/
inductive Elem where | cell | char | int64
deriving DecidableEq, Repr

/-- Fields of an enum struct.  Arrays have one dimension (compiler/name-resolution.cpp:969-976); a field of another enum struct type
is given by its size. -/
inductive FieldTy where
  | scalar (e : Elem)
  | array (e : Elem) (n : Nat)
  | nested (cells : Nat)
deriving Repr

/-- The innermost type of an array. -/
inductive Base where
  | elem (e : Elem)
  | es (fields : List FieldTy)
deriving Repr

/-- Initialisers: constants, string literals and braces, whose last entry can be `...`. -/
inductive Init where
  | num (v : Cell)
  | num64 (v : BitVec 64)
  | str (s : List Byte)
  | arr (items : List Init) (ellipses : Bool)

/-- compiler/sc.h:108-110 char_array_cells. -/
def charCells (n : Nat) : Nat := (n + 3) / 4

/-- compiler/types.cpp:106-114 CellStorageSize, with compiler/array-helpers.cpp:516-542 for one dimension.  The sum of the fields
(compiler/name-resolution.cpp:990-994) is computed with 32-bit cells; here without overflow. -/
def FieldTy.size : FieldTy → Nat
  | .scalar .int64 => 2
  | .scalar _ => 1
  | .array .cell n => n
  | .array .char n => charCells n
  | .array .int64 n => 2 * n
  | .nested cells => cells

/-- compiler/name-resolution.cpp:942-1010: `array_size_` of an enum struct. -/
def esSize (fields : List FieldTy) : Nat := (fields.map (·.size)).sum

/-- compiler/array-helpers.cpp:527-535: the length of the last dimension in cells. -/
def leafLength (b : Base) (n : Nat) : Cell :=
  match b with
  | .elem .char => BitVec.ofNat 32 (charCells n)
  | .es fields => BitVec.ofNat 32 n * BitVec.ofNat 32 (esSize fields)
  | .elem .int64 => BitVec.ofNat 32 n * 2
  | .elem .cell => BitVec.ofNat 32 n

/-- The loop compiler/array-helpers.cpp:519-540. -/
def calcLoop (b : Base) : List Nat → Cell → Cell → Cell
  | [], size, _ => size
  | [n], size, last => size + last * leafLength b n
  | n :: d :: ds, size, last => calcLoop b (d :: ds) (size + last * BitVec.ofNat 32 n) (last * BitVec.ofNat 32 n)

/-- compiler/array-helpers.cpp:516-542 CalcArraySize. -/
def calcArraySize (b : Base) (dims : List Nat) : Cell := calcLoop b dims 0 1

/-! ### Validation -/

/-- compiler/array-helpers.cpp:580-664, the last dimension, without the checks of types of constants except that 64-bit constants
are only for 64-bit arrays, and without the limit on the total size: accepts whatever the code accepts. A constant in place of an array
is rewritten to braces with an ellipsis (compiler/array-helpers.cpp:589-610), so that form does not occur. `n = 0`: no size was given. -/
def validRow (e : Elem) (n : Nat) : Init → Bool
  | .str s => e = .char && (n = 0 || s.length + 1 ≤ n)
  | .num _ => false
  | .num64 _ => false
  | .arr items ellipses =>
    (n = 0 || items.length ≤ (if e = .char then charCells n else n)) &&
    items.all (fun i => match i with
      | .num _ => true
      | .num64 _ => e = .int64
      | _ => false) &&
    (!ellipses || (!items.isEmpty && n ≠ 0))

/-- compiler/array-helpers.cpp:678-697, one field: 64-bit fields do not take constants (compiler/expressions.cpp:277-280), nor do
enum structs. -/
def validField : FieldTy → Init → Bool
  | .array e n, i => validRow e n i
  | .scalar .int64, _ => false
  | .scalar _, .num _ => true
  | .scalar _, _ => false
  | .nested _, _ => false

/-- compiler/array-helpers.cpp:678-711: fields in order. -/
def validFields : List FieldTy → List Init → Bool
  | _, [] => true
  | [], _ :: _ => false
  | f :: fs, i :: is => validField f i && validFields fs is

/-- compiler/array-helpers.cpp:678-717 ValidateEnumStruct. -/
def validStruct (fields : List FieldTy) : Init → Bool
  | .arr items ellipses => validFields fields items && !ellipses
  | _ => false

/-- compiler/array-helpers.cpp:560-664 ValidateRank: `dims` from the outermost.  For arrays of enum structs the number of initialisers
is not compared to the size (compiler/array-helpers.cpp:612-618). -/
def validRank (b : Base) : List Nat → Init → Bool
  | [], _ => false
  | [n], i =>
    match b with
    | .elem e => validRow e n i
    | .es fields =>
      match i with
      | .arr items _ => items.all (validStruct fields)
      | _ => false
  | n :: d :: ds, i =>
    match i with
    | .arr items _ => decide (items.length = n) && items.attach.all (fun ⟨x, _⟩ => validRank b (d :: ds) x)
    | _ => false

/-! ### Emission -/

/-- compiler/array-helpers.cpp:831-877 CompoundEmitter: row vectors, data and the number of zeros not yet in the data. -/
structure Em where
  iv : List Cell
  data : List Cell
  zeroes : Nat

/-- compiler/array-helpers.cpp:851-853 data_size. -/
def Em.size (e : Em) : Nat := e.data.length + e.zeroes

/-- compiler/array-helpers.cpp:1062-1075 add_data. -/
def addData (v : Cell) (e : Em) : Em :=
  if v = 0 then { e with zeroes := e.zeroes + 1 }
  else { e with data := e.data ++ List.replicate e.zeroes 0 ++ [v], zeroes := 0 }

/-- Several. -/
def addAll (vs : List Cell) (e : Em) : Em := vs.foldl (fun e v => addData v e) e

/-- The loop compiler/array-helpers.cpp:1039-1043. -/
def fillSteps (step : Cell) : Nat → Cell → Em → Em
  | 0, _, e => e
  | k+1, next, e => fillSteps step k (next + step) (addData next e)

/-- compiler/array-helpers.cpp:1031-1048: padding up to `rank` cells.  `prev1` is set whenever there is an ellipsis. -/
def pad (rank emitted : Nat) (ellipses : Bool) (prev1 prev2 : Option Cell) (e : Em) : Em :=
  if rank > emitted then
    if ellipses then
      let p := prev1.getD 0
      let step := match prev2 with
        | some q => p - q
        | none => 0
      fillSteps step (rank - emitted) (p + step) e
    else { e with zeroes := e.zeroes + (rank - emitted) }
  else e

/-- compiler/array-helpers.cpp:1023-1029: the size in cells, as EmitPadding computes it from the element type; 64-bit elements are not
counted twice. -/
def padRank (b : Base) (n : Nat) : Nat :=
  match b with
  | .elem .char => charCells n
  | .es fields => n * esSize fields
  | _ => n

/-- compiler/array-helpers.cpp:1050-1060 AddString, and the padding after it in an enum struct (977-983). -/
def addString (s : List Byte) (e : Em) : Em := addAll (stringToCells s) e

/-- `val().constval()`. -/
def Init.const : Init → Cell
  | .num v => v
  | _ => 0

/-- compiler/array-helpers.cpp:1006-1018 AddInlineArray.  EmitPadding is given the type of the field, an array, so that the size is
taken as it is. -/
def addInlineArray (n : Nat) (items : List Init) (ellipses : Bool) (e : Em) : Em :=
  let r := items.foldl (fun (r : Em × Option Cell × Option Cell) i => (addData i.const r.1, some i.const, r.2.1)) (e, none, none)
  pad n items.length ellipses r.2.1 r.2.2 r.1

/-- compiler/array-helpers.cpp:971-997, the fields. -/
def addFields : List FieldTy → List Init → Em → Em
  | _, [], e => e
  | [], _ :: _, e => e
  | f :: fs, i :: is, e =>
    let n := match f with
      | .array _ n => n
      | _ => 0
    let el := match f with
      | .array el _ => el
      | _ => .cell
    addFields fs is <| match i with
      | .str s => pad (padRank (.elem el) n) (stringToCells s).length false none none (addString s e)
      | .arr items ellipses => addInlineArray n items ellipses e
      | i => addData i.const e

/-- compiler/array-helpers.cpp:966-1004 AddInlineEnumStruct. -/
def addStruct (fields : List FieldTy) (items : List Init) (e : Em) : Em :=
  let e' := addFields fields items e
  let emitted := e'.size - e.size
  if emitted < esSize fields then { e' with zeroes := e'.zeroes + (esSize fields - emitted) } else e'

/-- One item of the braces, compiler/array-helpers.cpp:919-943. The second and third component are prev1 and prev2. -/
def emitItem (b : Base) (r : Em × Option Cell × Option Cell) (i : Init) : Em × Option Cell × Option Cell :=
  match i with
  | .arr items _ =>
    match b with
    | .es fields => (addStruct fields items r.1, r.2)
    | _ => r
  | .num64 v => (addAll [v.extractLsb' 0 32, v.extractLsb' 32 32] r.1, r.2)
  | i =>
    let c := i.const
    match b with
    | .elem .int64 => (addAll [c, (c.signExtend 64).extractLsb' 32 32] r.1, some c, r.2.1)
    | _ => (addData c r.1, some c, r.2.1)

/-- compiler/array-helpers.cpp:909-963: the last dimension, without the address. -/
def emitRow (b : Base) (n : Nat) (init : Option Init) (e : Em) : Em :=
  match init with
  | some (.arr items ellipses) =>
    let r := items.foldl (emitItem b) (e, none, none)
    pad (padRank b n) (r.1.size - e.size) ellipses r.2.1 r.2.2 r.1
  | some (.str s) => let e' := addString s e; pad (padRank b n) (e'.size - e.size) false none none e'
  | _ => pad (padRank b n) 0 false none none e

/-- `kDataFlag`, compiler/array-helpers.cpp:857. -/
def dataFlag : Cell := 0x80000000

/-- compiler/array-helpers.cpp:892-894, 898: the initialiser of a sub-array. -/
def child : Option Init → Nat → Option Init
  | some (.arr items _), i => items[i]?
  | _, _ => none

/-- The loop compiler/array-helpers.cpp:897-905, `k` iterations from `i`. -/
def emitEach (inner : Option Init → Em → Em × Cell) (init : Option Init) (start : Nat) : Nat → Nat → Em → Em
  | 0, _, e => e
  | k+1, i, e =>
    let r := inner (child init i) e
    emitEach inner init start k (i + 1) { r.1 with iv := r.1.iv.set (start + i) r.2 }

/-- compiler/array-helpers.cpp:884-964 Emit(rank, init). -/
def emitRank (b : Base) : List Nat → Option Init → Em → Em × Cell
  | [], _, e => (e, 0)
  | [n], init, e => (emitRow b n init e, BitVec.ofNat 32 (4 * e.size) ||| dataFlag)
  | n :: d :: ds, init, e =>
    (emitEach (fun i e => emitRank b (d :: ds) i e) init e.iv.length n 0 { e with iv := e.iv ++ List.replicate n 0 },
     BitVec.ofNat 32 (4 * e.iv.length))

/-- compiler/array-helpers.cpp:873-881: addresses of data. -/
def adjust (count : Nat) (v : Cell) : Cell := if v &&& dataFlag ≠ 0 then (v &&& ~~~ dataFlag) + BitVec.ofNat 32 (4 * count) else v

/-- compiler/array-helpers.cpp:864-882 Emit for arrays and 1077-1091 BuildCompoundInitializer. -/
def buildArray (b : Base) (dims : List Nat) (init : Option Init) (base : Cell) : Em :=
  let e := (emitRank b dims init ⟨[], [], 0⟩).1
  { e with iv := e.iv.map fun v => adjust e.iv.length v + base }

/-- The same for an enum struct, compiler/array-helpers.cpp:865-868. -/
def buildStruct (fields : List FieldTy) (init : Option Init) : Em :=
  let e : Em := match init with
    | some (.arr items _) => addStruct fields items ⟨[], [], 0⟩
    | _ => ⟨[], [], 0⟩
  pad (padRank (.es fields) 1) e.size false none none e

/-- The cells in memory: row vectors, then data, then zeros (compiler/code-generator.cpp:309-314; vm: INITARRAY). -/
def Em.cells (e : Em) : List Cell := e.iv ++ e.data ++ List.replicate e.zeroes 0

end Verif.ArrayInit

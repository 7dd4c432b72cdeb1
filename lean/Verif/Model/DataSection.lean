import Verif.Model.Labels
import Verif.Model.ArrayInit

/-!
The data section: where global and static variables and literals are, and the addresses of them in the code (compiler/code-generator.cpp: EmitVarDecl,
EmitGlobalVar, EmitPstruct, EmitRvalue, EmitStore, EmitExpr; compiler/smx-assembly-buffer.h: address; compiler/data-queue.cpp; compiler/name-resolution.cpp:
VarDeclBase::EnterNames).

A program is here the order in which the code generator comes across declarations, uses and literals.  That order is the one of the source: a function
is emitted where it is written (code-generator.cpp:63, 207-211).  Names of global variables are all entered before any function is bound (compiler/main.cpp:186-190,
name-resolution.cpp:474-483), so that a function can use variables that are declared after it.
-/
namespace Verif.DataSection
open Verif.Labels (Asm Cell useLabel bindLabel toOffset upd)
open Verif.Text (Byte stringToCells)
open Verif.ArrayInit (Base FieldTy Init Em buildArray buildStruct)

/-- The type and the initial value of a variable. -/
inductive Value where
  /-- one cell: `int`, `float`, … -/
  | cell (init : Option Cell)
  | int64 (init : Option (BitVec 64))
  | array (b : Base) (dims : List Nat) (init : Option Init)
  | struct (fields : List FieldTy) (init : Option Init)

/-- What compiler/code-generator.cpp:303-338 EmitGlobalVar adds to the data at `base`. -/
def Value.emit (base : Cell) : Value → List Cell
  | .array b dims init => (buildArray b dims init base).cells
  | .struct fields init => (buildStruct fields init).cells
  | .int64 (some v) => [v.setWidth 32, (v >>> 32).setWidth 32]
  | .cell (some v) => [v]
  | .int64 none => [0, 0]
  | .cell none => [0]

/-- The value of a field in a `struct`, compiler/code-generator.cpp:450-463. -/
inductive PValue where
  | str (s : List Byte)
  | num (v : Cell)
  /-- another variable -/
  | sym (v : Nat)

/-- What the code generator comes across. -/
inductive Item where
  /-- a cell of code that does not depend on the data -/
  | other (c : Cell)
  /-- a global or static variable -/
  | var (v : Nat) (x : Value) (isPublic : Bool)
  /-- a variable whose type is a `struct` with `n` fields (`public Plugin myinfo`), and the values by the numbers of the fields -/
  | pstruct (v : Nat) (n : Nat) (init : Option (List (Nat × PValue))) (isPublic : Bool)
  /-- the operand of LOAD.PRI: compiler/code-generator.cpp:1629-1630 -/
  | load (v : Nat)
  /-- the operand of CONST.PRI or CONST.ALT for the address of a variable: compiler/smx-assembly-buffer.h:143, 149, compiler/code-generator.cpp:2063 -/
  | addr (v : Nat)
  /-- the operand of STOR.PRI, or of CONST.ALT before MOVE.I64: compiler/code-generator.cpp:1676-1682 -/
  | store (v : Nat)
  /-- a literal in the code, or the initial cells of a local array: compiler/code-generator.cpp:392-400, 525-539, 2068-2078 -/
  | blob (cells : List Cell)

structure St where
  asm : Asm
  /-- compiler/data-queue.h `buffer_` -/
  data : List Cell
  /-- the table of public variables -/
  pubs : List (Nat × Cell)

/-- compiler/data-queue.h:38 dat_address -/
def datAddress (data : List Cell) : Cell := BitVec.ofNat 32 (4 * data.length)

/-- compiler/parse-node.h:346 addr(), with compiler/label.h:84-87: the assertion that the label is bound is not there in a release build. -/
def St.addrOf (S : St) (v : Nat) : Cell := toOffset (S.asm.lab v)

/-- One field, compiler/code-generator.cpp:448-464: the data and the values so far. -/
def emitField (S : St) (acc : List Cell × List Cell) (f : Nat × PValue) : List Cell × List Cell :=
  match f.2 with
  | .str s => (acc.1 ++ stringToCells s, acc.2.set f.1 (datAddress acc.1))
  | .num c => (acc.1, acc.2.set f.1 c)
  | .sym v => (acc.1, acc.2.set f.1 (S.addrOf v))

/-- compiler/code-generator.cpp:296-300: the entry for a public variable. -/
def publish (isPublic : Bool) (v : Nat) (S : St) : St := if isPublic then { S with pubs := S.pubs ++ [(v, S.addrOf v)] } else S

/-- A cell of code. -/
def St.code (S : St) (c : Cell) : St := { S with asm := { S.asm with buf := S.asm.buf ++ [c] } }

/-- `none`: a label is used in a way that its list of uses gets broken. -/
def step (S : St) : Item → Option St
  | .other c => some (S.code c)
  | .var v x isPublic =>
    (bindLabel S.asm v (datAddress S.data)).map fun A =>
      publish isPublic v { S with asm := A, data := S.data ++ x.emit (datAddress S.data) }
  | .pstruct v _ none isPublic => some (publish isPublic v S)
  | .pstruct v n (some fields) isPublic =>
    let r := fields.foldl (emitField S) (S.data, List.replicate n 0)
    some (publish isPublic v { S with asm := { S.asm with lab := upd S.asm.lab v ((datAddress r.1 <<< 1) ||| 1) }, data := r.1 ++ r.2 })
  | .load v | .addr v => some { S with asm := useLabel S.asm v }
  | .store v => some (S.code (S.addrOf v))
  | .blob cells => some { S.code (datAddress S.data) with data := S.data ++ cells }

def run (S : St) : List Item → Option St
  | [] => some S
  | i :: is =>
    match step S i with
    | none => none
    | some S => run S is

def St.init : St := ⟨.init, [], []⟩

end Verif.DataSection

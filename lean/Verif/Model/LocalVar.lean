import Verif.Model.DataSection
import Verif.Model.Long

/-!
Declarations of local variables: the code that gives them their values, and the data that this code copies (compiler/code-generator.cpp: EmitLocalVar;
compiler/array-helpers.cpp: BuildCompoundInitializer).
-/
namespace Verif.LocalVar
open Verif.VM
open Verif.DataSection (datAddress)
open Verif.ArrayInit (Base FieldTy Init Em buildArray buildStruct)
open Verif.Long (Kind)

/-- The type of a variable, and the value it is declared with: scalars have no value or a constant here, 64-bit integers no value (for expressions see C57
and C81).  Arrays that are made with `new` are not here (C09). -/
inductive Ty where
  | cell (init : Option Cell)
  | int64
  | array (b : Base) (dims : List Nat) (init : Option Init)
  | struct (fields : List FieldTy) (init : Option Init)

/-- A declaration; `zero` is false for the keyword `decl` (compiler/parser.cpp:342-343). -/
structure Decl where
  ty : Ty
  zero : Bool

/-- The type of the slot, compiler/code-generator.cpp:349, compiler/rtti-builder.cpp:519-522: one cell, for arrays and enum structs their address. -/
def Ty.kind : Ty → Kind
  | .int64 => .int64
  | _ => .int

/-- What is added to the data, compiler/code-generator.cpp:392-401. -/
def template (e : Em) : List Cell := e.iv ++ e.data ++ (if e.zeroes < 16 then List.replicate e.zeroes 0 else [])

/-- A 32-bit operand of an instruction, read as a signed number. -/
def operand (n : Nat) : Int := (BitVec.ofNat 32 n).toInt

/-- The code for an array or an enum struct, compiler/code-generator.cpp:386-415. -/
def arrayCode (at_ : Nat) (slot : Nat) (zero : Bool) (e : Em) : List Insn :=
  let dataSize := e.data.length + e.zeroes
  let zeroes := if e.zeroes < 16 then 0 else e.zeroes
  let nonFilled := dataSize - zeroes
  let zeroes := if zero then zeroes else 0
  [.heap (operand (4 * (e.iv.length + dataSize))),
    .initarray .alt (operand (4 * at_)) (operand e.iv.length) (operand nonFilled) (operand zeroes) 0,
    .storS slot .alt]

/-- compiler/code-generator.cpp:337-433 EmitLocalVar: the code, and the data afterwards. -/
def genDecl (data : List Cell) (slot : Nat) (d : Decl) : List Insn × List Cell :=
  match d.ty with
  | .cell (some v) => ([.storSC slot v], data)
  | .cell none => ([.zeroS slot], data)
  | .int64 => ([.zeroSI64 slot], data)
  | .array b dims init => (arrayCode data.length slot d.zero (buildArray b dims init 0), data ++ template (buildArray b dims init 0))
  | .struct fields init => (arrayCode data.length slot d.zero (buildStruct fields init), data ++ template (buildStruct fields init))

/-- Declarations one after the other, the first with the slot `slot`. -/
def genDecls (data : List Cell) (slot : Nat) : List Decl → List Insn × List Cell
  | [] => ([], data)
  | d :: ds =>
    let r := genDecl data slot d
    let r' := genDecls r.2 (slot + 1) ds
    (r.1 ++ r'.1, r'.2)

end Verif.LocalVar

import Verif.Model.Labels
import Verif.Model.Smx
import Verif.Model.Lookup
import Verif.Model.Runtime
/-!
Functions in the output of the compiler: code, the tables of functions, natives and methods, and the names in them
(compiler/code-generator.cpp, compiler/rtti-builder.cpp), and finding a method by address (vm/smx-image.cpp).

Functions are given as a list, in the order they are emitted, and are referred to by position.  What is left out: signatures and other
columns of the tables; labels inside a body (their uses and bindings are in C40; here the cells of a jump are as they end up).
-/
namespace Verif.FunTable
open Verif.Labels (Op Cell)
open Verif.Smx (NameTable)
open Verif.Image (Bytes)

/-- A part of a body. -/
inductive Piece
  /-- a cell of an instruction that does not mention a function -/
  | cell (c : Cell)
  /-- `EmitCall(f, nargs)` -/
  | call (f : Nat) (nargs : Cell)
  /-- a function as a value, compiler/code-generator.cpp:1141-1146 -/
  | value (f : Nat)
  /-- a name that the debug information of the body mentions -/
  | name (s : Bytes)

/-- Natives, functions with a body, and functions with neither (forwards). -/
inductive Kind
  | native
  | body (ps : List Piece)
  | forward

/-- A declaration.  A function with a body is its own `canonical()` (compiler/parse-node.cpp:149-153), and `decl` of every use is
canonical, so declarations with a body stand for their forwards. -/
structure Fn where
  name : Bytes
  pub : Bool
  live : Bool
  kind : Kind

/-- A row of rtti.methods. -/
structure Method where
  name : Nat
  start : Nat
  stop : Nat
deriving DecidableEq

/-- What has been written: the operations on the code buffer (`Model/Labels`), and the tables. -/
structure Gen where
  ops : List Op
  names : NameTable
  /-- address and name -/
  publics : List (Nat × Nat)
  /-- name -/
  natives : List Nat
  methods : List Method

/-- The cells an operation on the buffer adds. -/
def written : Op → Nat
  | .cell _ => 1
  | .use _ => 1
  | .useData _ => 1
  | _ => 0

/-- compiler/smx-assembly-buffer.h:226-228 -/
def Gen.pc (g : Gen) : Nat := 4 * (g.ops.map written).sum

/-- `label.bound()` -/
def Gen.bound (g : Gen) (l : Nat) : Bool := g.ops.any fun o => match o with
  | .bind l' _ => l' == l
  | _ => false

/-- `fun->cg()->label` -/
def codeLabel (f : Nat) : Nat := 2 * f

/-- `fun->cg()->funcid` -/
def idLabel (f : Nat) : Nat := 2 * f + 1

/-- Writing to the code. -/
def Gen.put (g : Gen) (os : List Op) : Gen := { g with ops := g.ops ++ os }

/-- compiler/code-generator.cpp:2357-2363 AddNativeEntry, compiler/rtti-builder.cpp:225-229 add_native -/
def addNative (g : Gen) (name : Bytes) : Option (Gen × Nat) :=
  match g.names.add name with
  | none => none
  | some (off, T) => match T.add name with
    | none => none
    | some (_, T) => some ({ g with names := T, natives := g.natives ++ [off] }, g.natives.length)

/-- compiler/code-generator.cpp:2033-2056 EmitCall -/
def emitCall (fns : List Fn) (g : Gen) (f : Nat) (nargs : Cell) : Option Gen :=
  match fns[f]? with
  | some ⟨name, _, _, .native⟩ =>
    if g.bound (codeLabel f) = false then
      match addNative g name with
      | none => none
      | some (g, i) => some (g.put [.bind (codeLabel f) (BitVec.ofNat 32 i), .cell 135, .use (codeLabel f), .cell nargs])
    else some (g.put [.cell 135, .use (codeLabel f), .cell nargs])
  | _ => some (g.put [.cell 39, .cell nargs, .cell 49, .use (codeLabel f)])

/-- One part of a body. -/
def emitPiece (fns : List Fn) (g : Gen) : Piece → Option Gen
  | .cell c => some (g.put [.cell c])
  | .call f nargs => emitCall fns g f nargs
  | .value f => some (g.put [.cell 11, .use (idLabel f)])
  | .name s => match g.names.add s with
    | none => none
    | some (_, T) => some { g with names := T }

/-- A body. -/
def emitPieces (fns : List Fn) : Gen → List Piece → Option Gen
  | g, [] => some g
  | g, p :: ps => match emitPiece fns g p with
    | none => none
    | some g => emitPieces fns g ps

/-- `%d` -/
def decimal (n : Nat) : Bytes := (Nat.toDigits 10 n).map fun c => BitVec.ofNat 8 c.toNat

/-- compiler/code-generator.cpp:2334-2340: the name in the table of functions. -/
def tableName (fn : Fn) (address : Nat) : Bytes :=
  if fn.pub then fn.name else 46 :: (decimal address ++ 46 :: fn.name)

/-- compiler/code-generator.cpp:2324-2355 AddFunctionEntry, compiler/rtti-builder.cpp:182-196 add_method.  `none`: error 421, or no room for
the name. -/
def addFunction (g : Gen) (f : Nat) (fn : Fn) : Option Gen :=
  match g.names.add (tableName fn g.pc) with
  | none => none
  | some (off, T) =>
    if g.publics.length * 2 + 1 > 1073741823 then none
    else match T.add fn.name with
      | none => none
      | some (off', T) =>
        some { g with names := T, publics := g.publics ++ [(g.pc, off)], methods := g.methods ++ [⟨off', g.pc, 0⟩],
                      ops := g.ops ++ [.bind (idLabel f) (Verif.Runtime.funcIdOf g.publics.length)] }

/-- compiler/rtti-builder.cpp:198-204 finish_method -/
def finish (g : Gen) (i : Nat) : Gen :=
  { g with methods := match g.methods[i]? with
      | some m => g.methods.set i { m with stop := g.pc }
      | none => g.methods }

/-- compiler/code-generator.cpp:1934-2003 EmitFunctionDecl.  The code at the end of a body without a return is taken to be in the body. -/
def emitFn (fns : List Fn) (g : Gen) (f : Nat) (fn : Fn) : Option Gen :=
  match fn.live, fn.kind with
  | true, .body ps =>
    match addFunction (g.put [.bind (codeLabel f) (BitVec.ofNat 32 g.pc)]) f fn with
    | none => none
    | some g1 => match emitPieces fns (g1.put [.cell 46]) ps with
      | none => none
      | some g2 => some (finish (g2.put [.cell 166]) g.methods.length)
  | _, _ => some g

/-- compiler/code-generator.cpp:132-137 EmitStmtList -/
def emitFns (fns : List Fn) : Gen → Nat → List Fn → Option Gen
  | g, _, [] => some g
  | g, f, fn :: rest => match emitFn fns g f fn with
    | none => none
    | some g => emitFns fns g (f + 1) rest

/-- The code generator before any function: compiler/code-generator.cpp:45-64. -/
def Gen.init : Gen := ⟨[.cell 120, .cell 0], .empty, [], [], []⟩

/-- compiler/code-generator.cpp:62-82 Generate, and the names that the other tables mention. -/
def generate (fns : List Fn) (more : List Bytes) : Option Gen :=
  match emitFns fns .init 0 fns with
  | none => none
  | some g => match more.foldlM (fun T s => (NameTable.add T s).map (·.2)) g.names with
    | none => none
    | some T => some { g with names := T }

/-- vm/smx-image.cpp:953-965 GetMethodRttiByOffset -/
def methodAt : List Method → Nat → Option Method
  | [], _ => none
  | m :: ms, pc => if m.start ≤ pc ∧ m.stop > pc then some m else methodAt ms pc

end Verif.FunTable

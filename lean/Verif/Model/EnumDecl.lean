/-!
Constants and enums at the top of a program: `ConstDecl` and `EnumDecl` (compiler/name-resolution.cpp, compiler/parser.cpp).

Names are numbers.  A constant expression is anything (`E`) that can be evaluated when the values of names are known; what the
operators compute is in C37.  Types, tags and their errors, labels in front of enums, enums in functions and enums with the name of a
methodmap are left out.
-/
namespace Verif.EnumDecl

abbrev Cell := BitVec 32

/-- Constant expressions: the names they mention, and `Expr::EvalConst` after `Bind` and `CheckExpr`, compiler/semantics.cpp:361-373.
`none`: an error is reported (a name that is not a constant, a division by zero, something that is not constant). -/
structure Exprs (E : Type) where
  names : E → List Nat
  eval : (Nat → Option Cell) → E → Option Cell

/-- What holds of every way of evaluating expressions: only the names that are mentioned matter, and they are constants. -/
structure Exprs.Fair {E : Type} (X : Exprs E) : Prop where
  only : ∀ e l l', (∀ n ∈ X.names e, l n = l' n) → X.eval l e = X.eval l' e
  known : ∀ e l v, X.eval l e = some v → ∀ n ∈ X.names e, l n ≠ none

/-- A declaration: `const a = e;`, `enum name { … }` (`twice`: `(<<= 1)` is written) or anything else with a name. -/
inductive Item (E : Type)
  | const (a : Nat) (e : E)
  | enum (name : Option Nat) (twice : Bool) (fields : List (Nat × Option E))
  | other (a : Nat)

/-- What a name stands for. -/
inductive Sym
  /-- compiler/parse-node.h:403-424 and 426-447: ConstDecl and EnumFieldDecl with their value -/
  | val (v : Cell)
  /-- compiler/parse-node.h:449-483: EnumDecl with `array_size_` -/
  | enum (size : Cell)
  | other

/-- The symbols of the global scope, and if an error has been reported. -/
structure State where
  syms : List (Nat × Sym)
  bad : Bool

/-- compiler/symbols.cpp FindSymbol -/
def State.find (s : State) (n : Nat) : Option Sym := (s.syms.find? (·.1 == n)).map (·.2)

/-- compiler/semantics.cpp:1284-1311, compiler/parse-node.cpp:218-226 ConstVal: the value of a name in a constant expression. -/
def State.const (s : State) (n : Nat) : Option Cell :=
  match s.find n with
  | some (.val v) => some v
  | _ => none

/-- compiler/name-resolution.cpp DefineSymbol -/
def State.define (s : State) (n : Nat) (x : Sym) : State := { s with syms := (n, x) :: s.syms }

/-- An error. -/
def State.report (s : State) : State := { s with bad := true }

section
variable {E : Type} (X : Exprs E)

/-- compiler/name-resolution.cpp:381-424 ConstDecl::EnterNames and Bind.  The name is defined before the expression is bound;
`value_` has no initial value (compiler/parse-node.h:422), it is `junk`. -/
def enterConst (junk : Cell) (s : State) (a : Nat) (e : E) : State :=
  if (s.find a).isSome then s.report
  else match X.eval (s.define a (.val junk)).const e with
    | some v => s.define a (.val v)
    | none => (s.define a (.val junk)).report

/-- compiler/name-resolution.cpp:222-225 -/
def next (twice : Bool) (v : Cell) : Cell := if twice then v * 2 else v + 1

/-- compiler/name-resolution.cpp:203-226: the fields, and the value after the last one. -/
def enterFields (twice : Bool) : State → Cell → List (Nat × Option E) → State × Cell
  | s, value, [] => (s, value)
  | s, value, (a, e) :: fs =>
    let r : State × Cell := match e with
      | none => (s, value)
      | some e => match X.eval s.const e with
        | some v => (s, v)
        | none => (s.report, value)
    if (r.1.find a).isSome then enterFields twice r.1.report r.2 fs
    else enterFields twice (r.1.define a (.val r.2)) (next twice r.2) fs

/-- compiler/name-resolution.cpp:153-231 EnumDecl::EnterNames.  The size of the enum is set at the end. -/
def enterEnum (s : State) (name : Option Nat) (twice : Bool) (fields : List (Nat × Option E)) : State :=
  match name with
  | none => (enterFields X twice s 0 fields).1
  | some n =>
    if (s.find n).isSome then (enterFields X twice s.report 0 fields).1
    else
      let r := enterFields X twice (s.define n (.enum 0)) 0 fields
      r.1.define n (.enum r.2)

/-- Any other declaration. -/
def enterOther (s : State) (a : Nat) : State :=
  if (s.find a).isSome then s.report else s.define a .other

/-- compiler/name-resolution.cpp:122-129 StmtList::EnterNames, for one. -/
def enter (junk : Cell) (s : State) : Item E → State
  | .const a e => enterConst X junk s a e
  | .enum n t fs => enterEnum X s n t fs
  | .other a => enterOther s a

/-- All declarations of a program. -/
def resolve (junk : Cell) (p : List (Item E)) : State := p.foldl (enter X junk) ⟨[], false⟩

end

/-- compiler/array-helpers.cpp:341-352: the name of an enum as the size of an array. -/
def State.size (s : State) (n : Nat) : Option Cell :=
  match s.find n with
  | some (.enum v) => some v
  | some (.val v) => some v
  | _ => none

end Verif.EnumDecl

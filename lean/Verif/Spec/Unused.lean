import Verif.Model.Unused

/-!
Which variables are used.
-/
namespace Verif.Unused

/-- An expression reads the variable that is called `x`. -/
def readE (x : Name) : Expr → Bool
  | .leaf => false
  | .name y => y == x
  | .two a b => readE x a || readE x b
  | .assign _ e => readE x e

/-- An expression assigns to the variable that is called `x`. -/
def writtenE (x : Name) : Expr → Bool
  | .leaf | .name _ => false
  | .two a b => writtenE x a || writtenE x b
  | .assign y e => y == x || writtenE x e

mutual
/-- After the statement `x` is the name of another variable. -/
def declares (x : Name) : Stm → Bool
  | .decl v _ => v.name == x
  | .seq ss => declaresL x ss
  | _ => false
def declaresL (x : Name) : List Stm → Bool
  | [] => false
  | s :: ss => declares x s || declaresL x ss
end

mutual
/-- A statement uses (`u`) the variable that is called `x` when the statement is reached; `pragma`: `#pragma unused` counts as a use.  A variable is visible
after its declaration, a constant in it, too. -/
def uses (u : Name → Expr → Bool) (pragma : Bool) (x : Name) : Stm → Bool
  | .expr e => u x e
  | .decl v init => match init with
    | none => false
    | some e => !(v.kind = .const && v.name == x) && u x e
  | .block ss => usesL u pragma x ss
  | .seq ss => usesL u pragma x ss
  | .unused xs => pragma && xs.contains x
/-- Statements up to the one that declares `x` again. -/
def usesL (u : Name → Expr → Bool) (pragma : Bool) (x : Name) : List Stm → Bool
  | [] => false
  | s :: ss => uses u pragma x s || (!declares x s && usesL u pragma x ss)
end

/-- The warning that there is about a variable. -/
def verdict (v : Var) (read written : Bool) : List (Nat × Nat) :=
  if read then [] else if v.kind ≠ .const ∧ written then [(v.pos, 204)] else [(v.pos, 203)]

/-- A constant is used in its own value. -/
def self (v : Var) : Option Expr → Bool
  | some e => v.kind = .const && readE v.name e
  | none => false

/-- The declaration gives the variable a value. -/
def given (v : Var) (init : Option Expr) : Bool := init.isSome && v.scalar

mutual
/-- The warnings about the variables that a statement declares; `k` is what follows in the same block. -/
def expected (k : List Stm) : Stm → List (Nat × Nat)
  | .decl v init => verdict v (self v init || usesL readE true v.name k) (given v init || usesL writtenE false v.name k)
  | .block ss => expectedL [] ss
  | .seq ss => expectedL k ss
  | _ => []
def expectedL (k : List Stm) : List Stm → List (Nat × Nat)
  | [] => []
  | s :: ss => expected (ss ++ k) s ++ expectedL k ss
end

mutual
/-- Every `#pragma unused` has one name. -/
def Single : Stm → Prop
  | .unused xs => xs.length ≤ 1
  | .block ss => SingleL ss
  | .seq ss => SingleL ss
  | _ => True
def SingleL : List Stm → Prop
  | [] => True
  | s :: ss => Single s ∧ SingleL ss
end

/-- A function uses what is called `x` outside of it. -/
def usesF (u : Name → Expr → Bool) (pragma : Bool) (x : Name) (f : Fn) : Bool :=
  !(f.args.any fun a => a.1.name == x) && usesL u pragma x f.body

/-- The warnings about the arguments of a function, and about its variables.  References, and arguments of public functions and callbacks need not be
used. -/
def expectedF (f : Fn) : List (Nat × Nat) :=
  expectedL [] f.body ++ f.args.flatMap fun a =>
    if a.2 || f.isPublic || f.isCallback then [] else verdict a.1 (usesL readE true a.1.name f.body) (usesL writtenE false a.1.name f.body)

/-- The warnings about a global variable.  Public ones, and those of included files that are `stock`, need not be used; nor do constants. -/
def expectedG (fs : List Fn) (g : Global) : List (Nat × Nat) :=
  if g.isPublic || g.stock || g.var.kind = .const then [] else
    verdict g.var (fs.any (usesF readE true g.var.name)) (g.init && g.var.scalar || fs.any (usesF writtenE false g.var.name))

end Verif.Unused

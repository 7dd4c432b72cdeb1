import Verif.Model.StmtGen
import Verif.Model.Verifier
import Verif.Spec.Compiled

/-!
What a function and the plugin around it must be like for the virtual machine's verifier to accept the function's code.
-/
namespace Verif.Compiled
open Verif.VM Verif.Lang Verif.CodeGen

mutual
/-- Functions called in an expression. -/
def callsE : Expr → List Nat
  | .num _ => []
  | .get l => callsL l
  | .un _ e => callsE e
  | .bin _ a b => callsE a ++ callsE b
  | .assign _ l e => callsL l ++ callsE e
  | .incdec _ _ l => callsL l
  | .logic _ a b => callsE a ++ callsE b
  | .chain first _ e rest => callsE first ++ callsE e ++ callsR rest
  | .tern c a b => callsE c ++ callsE a ++ callsE b
  | .comma a b => callsE a ++ callsE b
  | .call f args => f :: callsA args

@[inherit_doc callsE] def callsL : LVal → List Nat
  | .var _ => []
  | .elem _ i => callsE i

@[inherit_doc callsE] def callsR : Rest → List Nat
  | .one _ e => callsE e
  | .cons _ e rest => callsE e ++ callsR rest

@[inherit_doc callsE] def callsA : Args → List Nat
  | .nil => []
  | .cons e rest => callsE e ++ callsA rest
end

/-- Functions called in an expression that may be missing. -/
def callsO (e : Option Expr) : List Nat := e.elim [] callsE

mutual
/-- Functions called in a statement. -/
def callsS : Stmt → List Nat
  | .expr e => callsE e
  | .decl _ init => callsO init
  | .block ss => callsSs ss
  | .ifThen c a => callsE c ++ callsS a
  | .ifElse c a b => callsE c ++ callsS a ++ callsS b
  | .while c body => callsE c ++ callsS body
  | .doWhile body c => callsS body ++ callsE c
  | .for init c step body => callsSs init ++ callsO c ++ callsO step ++ callsS body
  | .switch e cases => callsE e ++ callsCs cases
  | .brk => []
  | .cont => []
  | .ret e => callsO e
  | .assert c => callsE c
  | .exit e => callsO e

@[inherit_doc callsS] def callsSs : Stmts → List Nat
  | .nil => []
  | .cons s rest => callsS s ++ callsSs rest

@[inherit_doc callsS] def callsCs : Cases → List Nat
  | .nil => []
  | .dflt s => callsS s
  | .case _ s rest => callsS s ++ callsCs rest
end

mutual
/-- The statement contains no `assert` and no `exit`. -/
def haltFree : Stmt → Bool
  | .assert _ => false
  | .exit _ => false
  | .block ss => haltFreeAll ss
  | .ifThen _ a => haltFree a
  | .ifElse _ a b => haltFree a && haltFree b
  | .while _ body => haltFree body
  | .doWhile body _ => haltFree body
  | .for init _ _ body => haltFreeAll init && haltFree body
  | .switch _ cases => haltFreeCases cases
  | .expr _ => true
  | .decl _ _ => true
  | .brk => true
  | .cont => true
  | .ret _ => true

@[inherit_doc haltFree] def haltFreeAll : Stmts → Bool
  | .nil => true
  | .cons s rest => haltFree s && haltFreeAll rest

@[inherit_doc haltFree] def haltFreeCases : Cases → Bool
  | .nil => true
  | .dflt s => haltFree s
  | .case _ s rest => haltFree s && haltFreeCases rest
end

mutual
/-- The statement contains no `while` and no `do` loop whose condition is a constant other than zero. -/
def tested (L : Layout) : Stmt → Bool
  | .while c body => !alwaysTaken (some (gen L c)) && tested L body
  | .doWhile body c => !alwaysTaken (some (gen L c)) && tested L body
  | .block ss => testedAll L ss
  | .ifThen _ a => tested L a
  | .ifElse _ a b => tested L a && tested L b
  | .for init _ _ body => testedAll L init && tested L body
  | .switch _ cases => testedCases L cases
  | .assert _ => true
  | .exit _ => true
  | .expr _ => true
  | .decl _ _ => true
  | .brk => true
  | .cont => true
  | .ret _ => true

@[inherit_doc tested] def testedAll (L : Layout) : Stmts → Bool
  | .nil => true
  | .cons s rest => tested L s && testedAll L rest

@[inherit_doc tested] def testedCases (L : Layout) : Cases → Bool
  | .nil => true
  | .dflt s => tested L s
  | .case _ s rest => tested L s && testedCases L rest
end

/-- The plugin, as the verifier sees it when it verifies a function with the parameters and slots of `L`: the code has less than 2 GB and
typed stacks; the function's metadata says how many parameters and slots it has, each slot being one cell; the slots take less than 512 MB;
globals lie in the data section. -/
structure Suits (C : Verifier.Ctx) (L : Layout) : Prop where
  code : C.code.length < 536870912
  typed : C.typed = true
  args : C.argCount = L.params
  locals : C.locals = List.replicate L.slots 4
  few : L.params < 2147483648
  small : 4 * L.slots ≤ 536870911
  data : C.datSize ≤ 2147483648
  globals : ∀ x i, i < L.size x → 0 ≤ L.gaddr x + 4 * (i : Nat) ∧ L.gaddr x + 4 * (i : Nat) + 4 ≤ C.datSize

end Verif.Compiled

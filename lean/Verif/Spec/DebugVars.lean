import Verif.Model.DebugVars
/-!
Which variables are in scope at an address.  Variables are listed with the last declared, innermost one first.
-/
namespace Verif.DebugVars
open Verif.Image (Bytes)

mutual
/-- The bytes of code of a statement. -/
def Stm.size : Stm → Nat
  | .code n => n
  | .decl _ _ _ _ n => n
  | .block ss => sizes ss
  | .seq ss => sizes ss
/-- The bytes of code of statements. -/
def sizes : List Stm → Nat
  | [] => 0
  | s :: ss => s.size + sizes ss
end

mutual
/-- What is in scope after a statement: a block takes its variables with it. -/
def Stm.after (env : List Var) : Stm → List Var
  | .code _ => env
  | .decl static name addr used _ => ⟨name, if static then .sSTATIC else .sLOCAL, addr, used⟩ :: env
  | .block _ => env
  | .seq ss => afters env ss
/-- The same for several. -/
def afters (env : List Var) : List Stm → List Var
  | [] => env
  | s :: ss => afters (s.after env) ss
end

mutual
/-- What is in scope at byte `o` of the code of a statement.  A variable is there once its declaration is done. -/
def Stm.scope (env : List Var) (o : Nat) : Stm → List Var
  | .code _ => env
  | .decl _ _ _ _ _ => env
  | .block ss => scopes env o ss
  | .seq ss => scopes env o ss
/-- The same for several. -/
def scopes (env : List Var) (o : Nat) : List Stm → List Var
  | [] => env
  | s :: ss => if o < s.size then s.scope env o else scopes (s.after env) (o - s.size) ss
end

/-- The arguments. -/
def Fn.vars (f : Fn) : List Var := (f.args.map fun a => ⟨a.1, .sARGUMENT, a.2, true⟩).reverse

/-- The bytes of code of a function. -/
def Fn.size (f : Fn) : Nat := f.head + f.body.size + f.tail

/-- What is in scope at byte `o` of the body of a function. -/
def Fn.scope (f : Fn) (o : Nat) : List Var := f.body.scope f.vars o

/-- The bytes of code of what is at the top of a program. -/
def Item.size : Item → Nat
  | .fn f => f.size
  | _ => 0

/-- Where the code after these items starts: HALT is first. -/
def endOf (p : List Item) : Nat := 8 + (p.map Item.size).sum

/-- How many functions there are. -/
def fnCount (p : List Item) : Nat := p.countP fun i => match i with
  | .fn _ => true
  | _ => false

/-- What a row says about a variable. -/
structure Info where
  name : Bytes
  vclass : Class
  addr : Int
deriving DecidableEq

def Row.info (r : Row) : Info := ⟨r.name, r.vclass, r.addr⟩

/-- What there is to say about a variable. -/
def Var.info (v : Var) : Info := ⟨v.name, classOf v, v.addr⟩

/-- A row is for an address. -/
def Row.covers (pc : Nat) (r : Row) : Bool := decide (r.start ≤ pc ∧ pc < r.stop)

/-- The rows a debugger finds for an address in a method. -/
def visible (g : Gen) (i pc : Nat) : List Row := (localsOf g.localRows i g.dbgMethods).filter (Row.covers pc)

/-- The variables at the top of a program that are listed. -/
def topVars (static : Bool) : List Item → List Var
  | [] => []
  | .var s name addr true :: is =>
    if s = static then ⟨name, if s then .sSTATIC else .sGLOBAL, addr, true⟩ :: topVars static is else topVars static is
  | _ :: is => topVars static is

/-- The files that are open after these items, the one being read first: an item names the file that goes on; if it is not open, it is
included here. -/
def files (st : List Nat) : List Item → List Nat
  | [] => st
  | .file s :: is => files (if s ∈ st then st.dropWhile (· ≠ s) else s :: st) is
  | _ :: is => files st is

/-- The file that is read after `before` is not left while `mid` is read. -/
def Stays (before mid : List Item) : Prop := ∀ q, q <+: mid → files [] before <:+ files [] (before ++ q)

mutual
/-- The variables a statement declares. -/
def Stm.vars : Stm → List Var
  | .code _ => []
  | .decl static name addr used _ => [⟨name, if static then .sSTATIC else .sLOCAL, addr, used⟩]
  | .block ss => stmVars ss
  | .seq ss => stmVars ss
def stmVars : List Stm → List Var
  | [] => []
  | s :: ss => s.vars ++ stmVars ss
end

/-- All variables of a program. -/
def Item.vars : Item → List Var
  | .fn f => f.vars ++ f.body.vars
  | .var static name addr listed => [⟨name, if static then .sSTATIC else .sGLOBAL, addr, listed⟩]
  | .file _ => []

end Verif.DebugVars

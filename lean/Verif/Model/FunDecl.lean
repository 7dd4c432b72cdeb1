/-!
How the declarations of one function are put together (compiler/name-resolution.cpp: FunctionDecl::EnterNames and
CanRedefine; compiler/parser.cpp: parse_function).
-/
namespace Verif.FunDecl

/-- How a function is declared outside of classes (compiler/parser.cpp:219-297 parse_unknown_decl, 1714-1797):
`native`, `forward`, or with modifiers and with a body or a semicolon.  `__builtin` functions are as natives. -/
inductive Form
  | native
  | forward
  | plain («public» «static» stock body : Bool)
deriving DecidableEq, Repr

/-- compiler/parse-node.h:1506-1668 FunctionDecl, the flags and proto_or_impl_. -/
structure Fun where
  isForward : Bool
  isNative : Bool
  isPublic : Bool
  isStatic : Bool
  isStock : Bool
  body : Bool
  link : Option Nat
deriving DecidableEq, Repr

/-- compiler/parser.cpp:1714-1797: a function that ends in a semicolon is a forward, too. -/
def Form.fn : Form → Fun
  | .native => ⟨false, true, false, false, false, false, none⟩
  | .forward => ⟨true, false, false, false, false, false, none⟩
  | .plain p s k b => ⟨!b, false, p, s, k, b, none⟩

/-- The declarations so far, the one that the name is bound to, the reports, and if an assertion has failed. -/
structure Decls where
  funs : List Fun
  sym : Option Nat
  reports : List Nat
  broken : Bool
deriving DecidableEq, Repr

/-- compiler/parse-node.cpp:143-147 impl. -/
def Fun.impl (f : Fun) (self : Nat) : Option Nat := if f.body then some self else f.link
/-- compiler/parse-node.cpp:149-153 canonical. -/
def Fun.canonical (f : Fun) (self : Nat) : Nat := if f.body || f.link.isNone then self else f.link.getD self

/-- compiler/name-resolution.cpp:731-765 CanRedefine, for the symbol `fn` with number `o` and the new function `f`: the
report, and if the two belong together. -/
def canRedefine (fn : Fun) (o : Nat) (f : Fun) : Option Nat × Bool :=
  if fn.isForward ∧ ¬ f.isForward ∧ ¬ f.isNative ∧ ¬ f.isStock ∧ ¬ f.isStatic then
    if ¬ f.isPublic then (some 245, true)
    else if (fn.impl o).isSome then (some 21, false)
    else (none, true)
  else if fn.body then
    if f.isForward ∧ ¬ fn.isPublic then (some 412, false)
    else if f.body then (some 21, false)
    else (none, true)
  else (some 21, false)

/-- compiler/name-resolution.cpp:709-729 EnterNames.  The assertion is that the symbol is not linked yet.  If a function
that implements a forward is not public, it is made so (line 740). -/
def enter (s : Decls) (f : Fun) : Decls :=
  let self := s.funs.length
  match s.sym with
  | none => { s with funs := s.funs ++ [f], sym := some self }
  | some o =>
    match s.funs[o]? with
    | none => s
    | some fn =>
      let (r, ok) := canRedefine fn o f
      let s := { s with reports := s.reports ++ r.toList }
      if ok then
        { s with
          funs := s.funs.set o { fn with link := some self } ++ [{ f with link := some o, isPublic := f.isPublic || r == some 245 }]
          broken := s.broken || fn.link.isSome }
      else { s with funs := s.funs ++ [f] }

def enterList (s : Decls) : List Form → Decls
  | [] => s
  | f :: fs => enterList (enter s f.fn) fs

/-- All declarations of a name. -/
def enterAll (fs : List Form) : Decls := enterList ⟨[], none, [], false⟩ fs

/-- compiler/errors.cpp:78: reports below 200 and from 400 on are errors, without the option that makes warnings errors. -/
def isError (n : Nat) : Bool := n < 200 || 400 ≤ n

def Decls.accepted (s : Decls) : Bool := s.reports.all fun n => !isError n

/-- compiler/name-resolution.cpp:518-519: what a use of the name refers to. -/
def Decls.use (s : Decls) : Option Nat := s.sym.bind fun o => s.funs[o]?.map fun f => f.canonical o

end Verif.FunDecl

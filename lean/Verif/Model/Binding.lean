/-!
Which argument of a call goes to which parameter (compiler/parser.cpp: parse_call, compiler/semantics.cpp: CheckCallExpr, CheckArgument,
compiler/parse-node.cpp: FindNamedArg).

`E` is the type of expressions.  Types are not here: `fits k e` is whether CheckArgument accepts the expression `e` for the parameter with the
number `k`.
-/
namespace Verif.Binding

/-- A parameter; `...` is not one of them. -/
structure Param where
  name : Nat
  hasDefault : Bool
deriving DecidableEq, Repr

/-- A function: its parameters, and whether `...` comes after them (compiler/parser.cpp only accepts it as the last one).  `this` is a parameter
of methods. -/
structure Sig where
  params : List Param
  variadic : Bool
deriving DecidableEq, Repr

/-- `arglist.size()` -/
def Sig.size (f : Sig) : Nat := f.params.length + if f.variadic then 1 else 0

/-- An argument as written: `e`, `.name = e`, `_` or `.name = _`. -/
structure Written (E : Type) where
  name : Option Nat
  value : Option E

/-- compiler/parse-node.h NamedArgExpr, DefaultArgExpr, or any other expression. -/
inductive Arg (E : Type)
  | named (name : Nat) (e : E)
  | dflt
  | expr (e : E)

/-- compiler/parser.cpp:1084-1117, for one argument. -/
def Written.parse {E : Type} (w : Written E) : Arg E :=
  match w.name, w.value with
  | some n, some e => .named n e
  | _, none => .dflt
  | none, some e => .expr e

/-- compiler/parser.cpp:1098-1101: error 44 is reported if an argument without a name comes after one with a name. -/
def inOrder {E : Type} : Bool → List (Written E) → Bool
  | _, [] => true
  | named, w :: ws => (w.name.isSome || !named) && inOrder (named || w.name.isSome) ws

/-- What is passed: an expression, which has been checked as the parameter `k`, or the default value of the parameter `k`. -/
inductive Slot (E : Type)
  | given (e : E) (k : Nat)
  | default (k : Nat)
deriving DecidableEq, Repr

/-- compiler/parse-node.cpp:127-133 FindNamedArg -/
def Sig.find (f : Sig) (name : Nat) : Option Nat := f.params.findIdx? (·.name == name)

/-- compiler/semantics.cpp:2024-2140 CheckArgument, without an expression (2032-2061). -/
def checkDefault {E : Type} (f : Sig) (k : Nat) : Option (Slot E) :=
  match f.params[k]? with
  | some p => if p.hasDefault then some (.default k) else none
  | none => none

/-- CheckArgument with an expression. -/
def checkGiven {E : Type} (fits : Nat → E → Bool) (k : Nat) (e : E) : Option (Slot E) := if fits k e then some (.given e k) else none

/-- `ParamState::argv` (`none` is a null pointer), `nargs` and `argidx`. -/
structure St (E : Type) where
  argv : List (Option (Slot E))
  nargs : Nat
  argidx : Nat

/-- compiler/semantics.cpp:2027-2028 and the assignment to `ps.argv[argpos]`. -/
def put {E : Type} (argv : List (Option (Slot E))) (pos : Nat) (x : Slot E) : List (Option (Slot E)) :=
  (argv ++ List.replicate (pos + 1 - argv.length) none).set pos (some x)

/-- include/sp_vm_types.h:56 SP_MAX_CALL_ARGUMENTS -/
def maxArgs : Nat := 127

/-- compiler/semantics.cpp:1972-1993 -/
def place {E : Type} (f : Sig) (st : St E) (argpos argidx : Nat) (x : Option (Slot E)) : Option (St E) :=
  if maxArgs ≤ argpos then none
  else if (st.argv[argpos]?).join.isSome then none
  else match x with
    | none => none
    | some x => some { argv := put st.argv argpos x, nargs := st.nargs + 1, argidx := if argidx < f.params.length then argidx + 1 else argidx }

/-- One round of the loop of compiler/semantics.cpp:1951-1994.  (`namedparams` is never set.) -/
def step {E : Type} (f : Sig) (fits : Nat → E → Bool) (st : St E) : Arg E → Option (St E)
  | .named n e =>
    match f.find n with
    | none => none
    | some pos => place f st pos pos (checkGiven fits pos e)
  | .expr e => if f.size ≤ st.argidx then none else place f st st.nargs st.argidx (checkGiven fits st.argidx e)
  | .dflt => if f.size ≤ st.argidx then none else place f st st.nargs st.argidx (checkDefault f st.argidx)

def steps {E : Type} (f : Sig) (fits : Nat → E → Bool) : St E → List (Arg E) → Option (St E)
  | st, [] => some st
  | st, a :: as => (step f fits st a).bind fun st => steps f fits st as

/-- compiler/semantics.cpp:2003-2012: the default values that are missing, from the parameter `k`. -/
def fill {E : Type} (f : Sig) : Nat → Nat → List (Option (Slot E)) → Option (List (Option (Slot E)))
  | 0, _, argv => some argv
  | n + 1, k, argv =>
    if (argv[k]?).join.isSome then fill f n (k + 1) argv
    else match checkDefault f k with
      | none => none
      | some x => fill f n (k + 1) (put argv k x)

/-- compiler/semantics.cpp:1930-1949: `this`. -/
def begin {E : Type} (f : Sig) (fits : Nat → E → Bool) : Option E → Option (St E)
  | none => some { argv := [], nargs := 0, argidx := 0 }
  | some e =>
    if f.size = 0 then none
    else (checkGiven fits 0 e).map fun x => { argv := put [] 0 x, nargs := 1, argidx := 1 }

/-- compiler/parser.cpp:1078-1118 parse_call and compiler/semantics.cpp:1895-2022 CheckCallExpr: the arguments that are passed, or `none` if an error is
reported. -/
def bind {E : Type} (f : Sig) (fits : Nat → E → Bool) (this : Option E) (ws : List (Written E)) : Option (List (Option (Slot E))) :=
  if inOrder false ws then
    (begin f fits this).bind fun st => (steps f fits st (ws.map Written.parse)).bind fun st => fill f f.params.length 0 st.argv
  else none

end Verif.Binding

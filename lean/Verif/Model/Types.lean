/-!
When a value of one type may be used where another type is expected (compiler/type-checker.cpp, compiler/expressions.cpp,
compiler/semantics.cpp: CheckTernaryExpr, CheckAssignmentLHS, CheckAssignmentRHS, CheckArgument).

Reports are not modelled: what is accepted with a warning is accepted.
-/
namespace Verif.Types

/-- compiler/types.h:57-66 BuiltinType. -/
inductive Bt
  | bool | char | int | float | null | any | void | int64
deriving DecidableEq, Repr

/-- compiler/types.h:223-401 Type.  Types are compared by address in the code: array and reference types are made once for each
inner type (compiler/types.cpp TypeManager::defineArray, defineReference), so they are compared by structure here; the types with a name
have a number.  `func none` is the type `Function`.  Typedefs of other types are replaced when a name is bound. -/
inductive Ty
  | builtin (b : Bt)
  | object
  | func (id : Option Nat)
  | enumStruct (id : Nat)
  | pstruct (id : Nat)
  | methodmap (id : Nat)
  | enum (id : Nat)
  | ref (inner : Ty)
  /-- the size is 0 if it is not known -/
  | array (inner : Ty) (size : Nat)
deriving DecidableEq, Repr

/-- compiler/types.h:403-422 FunctionType. -/
structure Sig where
  ret : Ty
  args : List Ty
  variadic : Bool
deriving DecidableEq, Repr

/-- The declarations that the types refer to. -/
structure Env where
  /-- `funcenum_t::entries` of a function type -/
  sigs : Nat → List Sig
  /-- a methodmap and its parents -/
  chain : Nat → List Nat
  nullable : Nat → Bool
  /-- `array_size()` of an enum struct -/
  cells : Nat → Nat

def Ty.is (t : Ty) (b : Bt) : Bool := t == .builtin b
def Ty.isArray : Ty → Bool | .array _ _ => true | _ => false
def Ty.isRef : Ty → Bool | .ref _ => true | _ => false
def Ty.isFunc : Ty → Bool | .func _ => true | _ => false
def Ty.isEnumStruct : Ty → Bool | .enumStruct _ => true | _ => false

/-- compiler/types.h:292-294 isObject. -/
def Ty.isObject : Ty → Bool
  | .object => true
  | .builtin .null => true
  | _ => false

/-- compiler/types.cpp:102-104 isCharArray. -/
def Ty.isCharArray : Ty → Bool
  | .array t _ => t.is .char
  | _ => false

/-- compiler/types.h:266 hasCellSize. -/
def Ty.hasCellSize (t : Ty) : Bool := !t.is .char && !t.isEnumStruct

/-- compiler/types.h:272-284 coercesFromInt. -/
def Ty.coercesFromInt : Ty → Bool
  | .enum _ | .methodmap _ => true
  | .builtin .bool | .builtin .char | .builtin .int => true
  | _ => false

def Ty.isEnumOrMap : Ty → Bool
  | .enum _ | .methodmap _ => true
  | _ => false

/-- compiler/expressions.cpp:240-249 HasTagOnInheritanceChain. -/
def onChain (E : Env) (t other : Ty) : Bool :=
  match t, other with
  | .methodmap m, .methodmap o => (E.chain m).contains o
  | _, _ => false

/-- compiler/sc.h:108-110 char_array_cells. -/
def charCells (n : Nat) : Nat := (n + 3) / 4

/-- compiler/array-helpers.cpp:516-542 CalcArraySize; the loop, with `last_size`.  Without the bounds of a cell. -/
def calcSize (E : Env) (last : Nat) : Ty → Nat
  | .array t n =>
    match t with
    | .array t' n' => last * n + calcSize E (last * n) (.array t' n')
    | .builtin .char => last * charCells n
    | .builtin .int64 => last * (n * 2)
    | .enumStruct s => last * (n * E.cells s)
    | _ => last * n
  | _ => 0

/-- compiler/type-checker.h:29-45 Context and Flags.  (Commutative is the second argument of `Check`.) -/
inductive Why
  | assignment | argument | ret | generic
deriving DecidableEq, Repr

structure Flags where
  why : Why
  coerce : Bool := false
  funcArg : Bool := false
  enumAssign : Bool := false
  ternary : Bool := false
deriving DecidableEq, Repr

/-- compiler/type-checker.cpp:212-220, the sizes of one dimension: `fs` of the formal type, `as` of the actual one, whose elements are
`ai`. -/
def sizesOk (q : Flags) (fs «as» : Nat) (ai : Ty) : Bool :=
  if fs ≠ 0 then
    if (q.coerce || q.ternary) && ai.is .char then q.ternary || decide («as» ≤ fs) else fs == «as»
  else true

/-- compiler/type-checker.cpp:211-229, the loop over the dimensions: the types of the elements, or `none` if it fails. -/
def checkDims (q : Flags) (fs : Nat) : (fi : Ty) → (ai : Ty) → («as» : Nat) → Option (Ty × Ty)
  | .array fi' fs', ai, «as» =>
    if sizesOk q fs «as» ai then
      match ai with
      | .array ai' as' => checkDims q fs' fi' ai' as'
      | _ => none
    else none
  | fi, ai, «as» => if sizesOk q fs «as» ai then some (fi, ai) else none

/-- compiler/type-checker.cpp:191-255 CheckArrays. -/
def checkArrays (E : Env) (q : Flags) (fi : Ty) (fs : Nat) (actual : Ty) : Bool :=
  match actual with
  | .array ai «as» =>
    match checkDims q fs fi ai «as» with
    | none => false
    | some (fe, ae) =>
      if fe == ae then true
      else if q.funcArg && ((fe.is .any && ae.hasCellSize) || (ae.is .any && fe.hasCellSize)) then true
      else if q.why == .argument && q.coerce then
        if ae.isEnumOrMap && fe.is .int then true
        else if fe.is .any && ae.hasCellSize then true
        else ae.is .any && fe.hasCellSize
      else false
  | _ =>
    if q.why != .argument || !q.coerce then false
    else if fi.isArray then false
    else match actual with
      | .enumStruct s => if fs ≠ 0 ∧ fs ≠ E.cells s then false else fi.is .any
      | _ => false

/-- compiler/type-checker.cpp:94-189 CheckValueType; `fn` is the result of CheckFunction.  `none`: the compiler does not get to an
answer. -/
def checkValue (E : Env) (q : Flags) (fn : Option Bool) (formal actual : Ty) : Option Bool :=
  if formal.isEnumStruct then some (formal == actual)
  else if formal == actual then some true
  else if formal.isObject then some false
  else if actual.is .null then
    match formal with
    | .methodmap m => some (E.nullable m)
    | .func _ => some true
    | _ => some false
  else if formal.is .int64 || actual.is .int64 then some false
  else if q.coerce && (((formal.is .int || formal.is .any) && actual.coercesFromInt) || (formal.is .bool && (actual.is .int || actual.is .char)) ||
      (actual.is .any && (formal.coercesFromInt || formal.is .float))) then some true
  else if formal.is .any then some (!actual.is .void)
  else if formal.isFunc then fn
  else if (q.coerce || q.funcArg) && onChain E actual formal then some true
  else if q.funcArg && onChain E formal actual then some true
  else if formal.isEnumOrMap && actual.is .int then some true
  else some (q.coerce && ((formal.is .char && actual.is .int) || (formal.is .float && actual.is .int)))

/-- compiler/type-checker.cpp:301-313, the loop over the arguments; `chk` is `Check` with `FuncArg`. -/
def checkArgs (chk : Ty → Ty → Option Bool) : List Ty → List Ty → Option Bool
  | [], _ => some true
  | _ :: _, [] => some false
  | f :: fs, a :: as' =>
    match chk f a with
    | some true => checkArgs chk fs as'
    | r => r

/-- compiler/type-checker.cpp:287-314 CheckFunctionSignature. -/
def checkSig (chk : Ty → Ty → Option Bool) (formal actual : Sig) : Option Bool :=
  if formal.ret ≠ actual.ret then some (formal.ret.is .void && actual.ret.is .int)
  else if formal.variadic ≠ actual.variadic then some false
  else if actual.args.length > formal.args.length then some false
  else checkArgs chk formal.args actual.args

/-- compiler/type-checker.cpp:279-284, the loop over the entries of the formal type. -/
def checkEntries (chk : Ty → Ty → Option Bool) (actual : Sig) : List Sig → Option Bool
  | [] => some false
  | f :: fs =>
    match checkSig chk f actual with
    | some false => checkEntries chk actual fs
    | r => r

/-- compiler/type-checker.cpp:257-285 CheckFunction, with the members `formal_` and `actual_`.  (If `formal_` is a reference to a function
type, line 275 takes the inner type for the entries: no answer.) -/
def checkFunction (E : Env) (chk : Ty → Ty → Option Bool) (formal actual : Ty) : Option Bool :=
  if formal == .func none && actual.isFunc then some true
  else if actual.is .null then some true
  else match actual with
    | .func (some a) =>
      match (E.sigs a).getLast? with
      | none => some false
      | some actualfn =>
        match formal with
        | .func (some f) => checkEntries chk actualfn (E.sigs f)
        | .func none => some false
        | _ => none
    | _ => some false

/-- compiler/type-checker.cpp:84-89: references are looked through. -/
def Ty.strip : Ty → Ty
  | .ref t => t
  | t => t

/-- compiler/type-checker.cpp:78-92 CheckImpl.  `fuel` bounds how deep function types may be nested; `none`: deeper, or see
`checkFunction`. -/
def checkImpl (E : Env) : Nat → Flags → Ty → Ty → Option Bool
  | 0, _, _, _ => none
  | fuel + 1, q, formal, actual =>
    match formal with
    | .array fi fs => some (checkArrays E q fi fs actual)
    | formal =>
      checkValue E q (checkFunction E (checkImpl E fuel ⟨.generic, false, true, false, false⟩) formal actual)
        (if q.coerce then formal.strip else formal) (if q.coerce then actual.strip else actual)

/-- compiler/type-checker.cpp:44-64 Check, with `Commutative`. -/
def checkBoth (E : Env) (fuel : Nat) (q : Flags) (formal actual : Ty) : Option Bool :=
  match checkImpl E fuel q formal actual with
  | some false => checkImpl E fuel q actual formal
  | r => r

/-- compiler/type-checker.cpp:39-42 Coerce. -/
def coerce (E : Env) (fuel : Nat) (why : Why) (formal actual : Ty) : Option Bool := checkImpl E fuel ⟨why, true, false, false, false⟩ formal actual

/-! ## Array expressions and assignments -/

/-- An expression whose value is an array: an array with a type and its number of cells, or `c ? a : b`. -/
inductive AExpr
  | leaf (ty : Ty) (cells : Nat)
  | cond (a b : AExpr)
deriving Repr

/-- compiler/semantics.cpp:1127-1168 CheckTernaryExpr: the type of an array expression. -/
def AExpr.typeOf (E : Env) (fuel : Nat) : AExpr → Option Ty
  | .leaf t _ => some t
  | .cond a b =>
    match a.typeOf E fuel, b.typeOf E fuel with
    | some l, some r =>
      match checkBoth E fuel ⟨.generic, false, false, false, true⟩ l r with
      | some true =>
        match l, r with
        | .array li ls, .array ri rs => if li.is .char && ri.is .char && decide (ls < rs) then some r else some l
        | _, _ => some l
      | _ => none
    | _, _ => none

/-- compiler/semantics.cpp:819-824: all dimensions have a size. -/
def Ty.allSized : Ty → Bool
  | .array t n => n ≠ 0 && t.allSized
  | _ => true

/-- compiler/semantics.cpp:812-826 and 853-869: `left = right` for an array `left`: the number of cells that are copied
(compiler/code-generator.cpp:758-765), or `none` if it is refused. -/
def arrayAssign (E : Env) (fuel : Nat) (left : Ty) (right : AExpr) : Option Nat :=
  match left, right.typeOf E fuel with
  | .array li ls, some r =>
    if !(Ty.array li ls).allSized then none
    else match coerce E fuel .assignment (.array li ls) r with
      | some true =>
        match r with
        | .array ri rs => if ri.isArray then none else if rs = 0 then none else some (calcSize E 1 (.array ri rs))
        | _ => none
      | _ => none
  | _, _ => none

/-- compiler/semantics.cpp:2129-2139: an argument of type `actual` for a parameter of an array type. -/
def arrayArgument (E : Env) (fuel : Nat) (formal actual : Ty) : Bool := coerce E fuel .argument formal actual == some true

/-! ## Function types in assignments -/

/-- compiler/expressions.cpp:251-339 matchtag with `MATCHTAG_SILENT | MATCHTAG_FUNCARG`; `fn` is the result of matchfunctags. -/
def matchTag (E : Env) (fn : Option Bool) (formal actual : Ty) : Option Bool :=
  if formal == actual then some true
  else if formal.is .char && actual.is .int then some true
  else if formal.isObject || actual.isObject then
    -- matchobjecttags, compiler/expressions.cpp:72-119
    if formal.isObject && !(actual.isObject || actual.isFunc) then some false
    else if actual.is .null then
      if formal.isFunc || formal.isObject then some true
      else match formal with
        | .methodmap m => some (E.nullable m)
        | _ => some false
    else some formal.isObject
  else if actual.isFunc && !formal.isFunc then some false
  else if actual.is .int64 || formal.is .int64 then some false
  else if formal.isEnumStruct || actual.isEnumStruct then some false
  else if actual.is .any then some true
  else if formal.is .any then some true
  else if formal.isFunc then fn
  else some (onChain E actual formal || onChain E formal actual)

/-- compiler/expressions.cpp:158-174, the loop: the types of the elements, or `none` if it fails. -/
def sameDims : Ty → Ty → Option (Ty × Ty)
  | .array f n, .array a m => if n = m then sameDims f a else none
  | .array _ _, _ => none
  | _, .array _ _ => none
  | f, a => some (f, a)

/-- compiler/expressions.cpp:132-141 IsValidImplicitArrayCast.  If `actual` is not an array, line 136 takes its inner type, which it
does not have: `none`. -/
def validCast (formal actual : Ty) : Option Bool :=
  match formal, actual with
  | .array f _, .array a _ => some (((f.is .any && !a.is .char) || (a.is .any && !f.is .char)) || f == a)
  | _, _ => none

/-- compiler/expressions.cpp:143-184 funcarg_compare. -/
def funcargCompare (E : Env) (fn : Ty → Ty → Option Bool) (formal actual : Ty) : Option Bool :=
  if actual == formal then some true
  else
    let rest (f a : Ty) : Option Bool := if f.isRef != a.isRef then some false else matchTag E (fn f a) f a
    if formal.isArray then
      match validCast formal actual with
      | none => none
      | some false => some false
      | some true =>
        match sameDims formal actual with
        | none => some false
        | some (f, a) => rest f a
    else rest formal actual

/-- compiler/expressions.cpp:198-207, the loop over the arguments. -/
def compareArgs (cmp : Ty → Ty → Option Bool) : List Ty → List Ty → Option Bool
  | [], _ => some true
  | _ :: _, [] => some false
  | f :: fs, a :: as' =>
    match cmp f a with
    | some true => compareArgs cmp fs as'
    | r => r

/-- compiler/expressions.cpp:121-130 and 186-209 matchreturntag, functag_compare. -/
def functagCompare (cmp : Ty → Ty → Option Bool) (formal actual : Sig) : Option Bool :=
  if !(formal.ret == actual.ret || (formal.ret.is .void && actual.ret.is .int)) then some false
  else if actual.args.length > formal.args.length then some false
  else if actual.variadic ≠ formal.variadic then some false
  else compareArgs cmp formal.args actual.args

def compareEntries (cmp : Ty → Ty → Option Bool) (actual : Sig) : List Sig → Option Bool
  | [] => some false
  | f :: fs =>
    match functagCompare cmp f actual with
    | some false => compareEntries cmp actual fs
    | r => r

/-- compiler/expressions.cpp:211-238 matchfunctags, which is what an assignment to a variable of a function type asks (matchtag,
compiler/expressions.cpp:300-306).  `fuel` as for `checkImpl`. -/
def matchFunc (E : Env) : Nat → Ty → Ty → Option Bool
  | 0, _, _ => none
  | fuel + 1, formal, actual =>
    if formal == .func none && actual.isFunc then some true
    else if actual.is .null then some true
    else match actual, formal with
      | .func (some a), .func (some f) =>
        match (E.sigs a).getLast? with
        | none => some false
        | some actualfn => compareEntries (funcargCompare E (matchFunc E fuel)) actualfn (E.sigs f)
      | _, _ => some false

end Verif.Types

/-!
Which messages there are when a value of one type is assigned to a variable of another, passed to a parameter, or returned
(compiler/semantics.cpp: CheckAssignmentRHS, CheckArgument, CheckReturnStmt, CheckCastExpr, CheckTernaryExpr; compiler/type-checker.cpp: CheckValueType; compiler/expressions.cpp: matchtag).

Types of values only: no arrays (Verif/Model/Types.lean has those) and no references (which are looked through: compiler/type-checker.cpp:84-89,
compiler/expressions.cpp:255-260).  Whether a function may be used as another type of function is given; see C75.
-/
namespace Verif.Convert

/-- A methodmap, with what it extends, and whether it is nullable (compiler/parse-node.h MethodmapDecl). -/
inductive Map
  | root (id : Nat) (nullable : Bool)
  | ext (id : Nat) (nullable : Bool) (parent : Map)
deriving DecidableEq, Repr

def Map.nullable : Map → Bool
  | .root _ n | .ext _ n _ => n

/-- compiler/types.h:57-81 BuiltinType and TypeKind; `func none` is the type `Function`. -/
inductive Ty
  | int | int64 | char | bool | float | any | void | null
  | enum (id : Nat)
  | map (m : Map)
  | struct (id : Nat)
  | func (id : Option Nat)
deriving DecidableEq, Repr

structure Env where
  /-- `fits t f`: a function of type `f` may be passed as `t` (CheckFunction, compiler/type-checker.cpp:257-285) -/
  fits : Nat → Nat → Bool
  /-- the same for assignments (matchfunctags, compiler/expressions.cpp:211-238) -/
  fits' : Nat → Nat → Bool

/-- compiler/types.h:272-284 coercesFromInt. -/
def Ty.coercesFromInt : Ty → Bool
  | .enum _ | .map _ | .bool | .char | .int => true
  | _ => false
def Ty.isFunc : Ty → Bool
  | .func _ => true
  | _ => false
def Ty.isStruct : Ty → Bool
  | .struct _ => true
  | _ => false

/-- compiler/expressions.cpp:240-249 HasTagOnInheritanceChain: the loop over the parents. -/
def up : Map → Map → Bool
  | .root i n, o => decide (Map.root i n = o)
  | .ext i n p, o => decide (Map.ext i n p = o) || up p o
def hasTag : Ty → Ty → Bool
  | .map m, .map o => up m o
  | _, _ => false

/-- compiler/type-checker.cpp:257-285 CheckFunction, for a formal type that is a function. -/
def checkFunction (fits : Nat → Nat → Bool) : Ty → Ty → Bool
  | .func none, .func _ => true
  | .func (some t), .func (some f) => fits t f
  | _, _ => false

/-- compiler/type-checker.cpp:257-285: DiagnoseFunctionFailure if two signatures were compared, and otherwise DiagnoseFailure. -/
def funcMessage : Ty → Ty → Nat
  | .func (some _), .func (some _) => 100
  | _, _ => 450

/-- compiler/type-checker.cpp:94-189 CheckValueType with AllowCoerce: the messages. -/
def checkValue (E : Env) (formal actual : Ty) : List Nat :=
  if formal.isStruct then (if formal = actual then [] else [450])
  else if formal = actual then []
  else if formal = .null then [450]
  else if actual = .null then
    match formal with
    | .map m => if m.nullable then [] else [148]
    | .func _ => []
    | _ => [148]
  else if formal = .int64 || actual = .int64 then [450]
  else if (formal = .int || formal = .any) && actual.coercesFromInt then []
  else if formal = .bool && (actual = .int || actual = .char) then []
  else if actual = .any && (formal.coercesFromInt || formal = .float) then []
  else if formal = .any then (if actual = .void then [450] else [])
  else if formal.isFunc then (if checkFunction E.fits formal actual then [] else [funcMessage formal actual])
  else if hasTag actual formal then []
  else match formal, actual with
    | .enum _, .int | .map _, .int => [253]
    | .char, .int => []
    | .float, .int => [253]
    | _, _ => [450]

/-- compiler/expressions.cpp:72-119 matchobjecttags, if one of the types is `null`. -/
def matchObject (formal actual : Ty) : List Nat :=
  if formal = .null && !(actual = .null || actual.isFunc) then [132]
  else if actual = .null then
    match formal with
    | .func _ | .null => []
    | .map m => if m.nullable then [] else [148]
    | _ => [148]
  else []

/-- compiler/expressions.cpp:251-339 matchtag with MATCHTAG_COERCE: the messages. -/
def matchTag (E : Env) (formal actual : Ty) : List Nat :=
  if formal = actual then []
  else if formal = .char && actual = .int then []
  else if formal = .null || actual = .null then matchObject formal actual
  else if actual.isFunc && !formal.isFunc then [130]
  else if actual = .int64 || formal = .int64 then [450]
  else if formal.isStruct || actual.isStruct then [134]
  else if formal = .int && actual.coercesFromInt then []
  else if actual = .any then []
  else if formal = .any then []
  else if formal.isFunc then (if checkFunction E.fits' formal actual then [] else [100])
  else if hasTag actual formal then []
  else [213]

/-- compiler/semantics.cpp:884-938 CheckAssignmentRHS, for `=`, and for values in declarations. -/
def assign (E : Env) (left right : Ty) : List Nat :=
  if left = .int64 || right = .int64 then
    if left ≠ .int64 then (if left = .int then [454] else [450])
    else if right = .int64 || right = .int || right = .any then []
    else [450]
  else if (left = .char && right = .int) || (left = .int && right = .int) then []
  else if right = .void then [466]
  else if left.isStruct || right.isStruct then (if left = right then [] else [134])
  else matchTag E left right

/-- compiler/semantics.cpp:2145-2159 CheckArgument, for a parameter that is neither an array nor a reference. -/
def pass (E : Env) (formal actual : Ty) : List Nat :=
  if actual = .int && formal = .int64 then [] else checkValue E formal actual

/-- compiler/semantics.cpp:2398-2416 CheckReturnStmt. -/
def ret (E : Env) (formal actual : Ty) : List Nat :=
  if formal = .void then [88]
  else if formal = .int64 && (actual = .int || actual = .any) then []
  else checkValue E formal actual

/-- compiler/type-checker.cpp:94-189 CheckValueType without AllowCoerce: the messages.  It fails if one of them is an error; the only warning is 253. -/
def checkPlain (E : Env) (formal actual : Ty) : List Nat :=
  if formal.isStruct then (if formal = actual then [] else [450])
  else if formal = actual then []
  else if formal = .null then [450]
  else if actual = .null then
    match formal with
    | .map m => if m.nullable then [] else [148]
    | .func _ => []
    | _ => [148]
  else if formal = .int64 || actual = .int64 then [450]
  else if formal = .any then (if actual = .void then [450] else [])
  else if formal.isFunc then (if checkFunction E.fits formal actual then [] else [funcMessage formal actual])
  else match formal, actual with
    | .enum _, .int | .map _, .int => [253]
    | _, _ => [450]

/-- compiler/semantics.cpp:1148-1158 CheckTernaryExpr and compiler/type-checker.cpp:45-65 Check with Commutative: the messages for `c ? x : y` with an `x` of the type
`left` and a `y` of the type `right`, which are not arrays, and the type of the whole, which is that of `x` even if the types fit only the other way. -/
def ternary (E : Env) (left right : Ty) : List Nat × Ty :=
  let first := checkPlain E left right
  let second := checkPlain E right left
  (if first = [] || first = [253] then first else if second = [] || second = [253] then second else first, left)

/-- compiler/semantics.cpp:1184-1190 IsValidIntWidthChange. -/
def widthChange (source target : Ty) : Bool :=
  (source = .int64 && target = .int) || ((source = .int || source = .any) && target = .int64)

/-- compiler/semantics.cpp:1192-1266 CheckCastExpr: `view_as<target>(e)` for an `e` of the type `source`, neither of them an array or a reference. -/
def viewAs (E : Env) (target source : Ty) : List Nat :=
  if target = .void then [144]
  else if target = source then []
  else
    (if source = .null || target = .null then matchTag E target source
      else if source.isFunc != target.isFunc then [237]
      else if source.isFunc && target.isFunc then matchTag E target source
      else if source = .void then [89]
      else if target.isStruct || source.isStruct then [95]
      else []) ++
    if (source = .int64 || target = .int64) && !widthChange source target then [460] else []

/-- How a value gets into a variable, or to the caller. -/
inductive How
  | assign | pass | ret
deriving DecidableEq, Repr

def messages (E : Env) : How → Ty → Ty → List Nat
  | .assign => assign E
  | .pass => pass E
  | .ret => ret E

end Verif.Convert

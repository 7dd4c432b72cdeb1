import Verif.Model.Interp

/-!
Where the fields of enum structs and the elements of arrays are (compiler/name-resolution.cpp: EnumStructDecl::EnterNames,
compiler/types.cpp: CellStorageSize, compiler/semantics.cpp: CheckIndexExpr, CheckEnumStructFieldAccessExpr, compiler/code-generator.cpp:
EmitIndexExpr, EmitFieldAccessExpr).

Arrays of several dimensions are not here: enum structs cannot have them, and Verif/Model/ArrayInit.lean has those of variables.
-/
namespace Verif.Storage
open Verif.VM (Cell Insn IM IState Res visit)

/-- The types of single values.  `cell` is every type of one cell except `char`. -/
inductive Base
  | cell | char | int64
  | struct (name : Nat)
deriving DecidableEq, Repr

/-- The types of variables and fields.  The size is 0 if it is not known. -/
inductive Ty
  | one (b : Base)
  | array (b : Base) (size : Nat)
deriving DecidableEq, Repr

/-- compiler/parse-node.h LayoutFieldDecl, after EnterNames. -/
structure Field where
  name : Nat
  ty : Ty
  /-- in cells -/
  offset : Nat
deriving DecidableEq, Repr

/-- compiler/parse-node.h EnumStructDecl, after EnterNames. -/
structure Laid where
  name : Nat
  fields : List Field
  methods : List Nat
  /-- `array_size_` -/
  size : Nat
deriving DecidableEq, Repr

/-- The enum structs that have been entered. -/
abbrev Structs := List Laid

/-- compiler/name-resolution.cpp BindType, for enum structs: `types->find(atom)`. -/
def find (S : Structs) (name : Nat) : Option Laid := S.find? (·.name == name)

/-- A result of `cell` (int32_t) arithmetic; signed overflow is undefined. -/
def narrow (n : Nat) : Option Nat := if n < 2147483648 then some n else none

/-- The size of one element, compiler/array-helpers.cpp:527-535, except for `char`. -/
def elemCells (S : Structs) : Base → Nat
  | .int64 => 2
  | .struct s => ((find S s).map (·.size)).getD 0
  | _ => 1

/-- compiler/types.cpp:106-114 CellStorageSize and compiler/array-helpers.cpp:516-542 CalcArraySize for one dimension.  `none`: overflow.
(`char_array_cells` is computed with `size_t`.) -/
def cells (S : Structs) : Ty → Option Nat
  | .one b => some (elemCells S b)
  | .array .char n => some ((n + 3) / 4)
  | .array b n => narrow (n * elemCells S b)

/-- A field as it is written: `[]` is `none`, other dimensions are constants. -/
structure FieldDecl where
  name : Nat
  base : Base
  dims : List (Option Cell)
  isConst : Bool
deriving Repr

/-- An enum struct as it is written. -/
structure Decl where
  name : Nat
  fields : List FieldDecl
  methods : List Nat
deriving Repr

/-- compiler/array-helpers.cpp:246-329 ResolveDimExprs, for enum fields: the sizes, or the report. -/
def resolveDims : List (Option Cell) → Except Nat (List Nat)
  | [] => .ok []
  | none :: _ => .error 183
  | some v :: rest =>
    if v.toInt ≤ 0 then .error 9
    else match resolveDims rest with
      | .ok ns => .ok (v.toNat :: ns)
      | .error e => .error e

/-- compiler/name-resolution.cpp:954-964: the type in front of the name is found, or the report. -/
def bindBase (S : Structs) (self : Nat) : Base → Option Nat
  | .struct n => if n = self then some 87 else if (find S n).isSome then none else some 139
  | _ => none

/-- compiler/name-resolution.cpp:954-982: the type of a field, or the report. -/
def bindField (S : Structs) (self : Nat) (f : FieldDecl) : Except Nat Ty :=
  match bindBase S self f.base with
  | some e => .error e
  | none =>
    match resolveDims f.dims with
    | .error e => .error e
    | .ok [] => .ok (.one f.base)
    | .ok [n] => .ok (.array f.base n)
    | .ok (_ :: _ :: _) => .error 65

/-- The variables of the loop compiler/name-resolution.cpp:951-996. -/
structure Loop where
  position : Nat
  seen : List Nat
  fields : List Field
  reports : List Nat
deriving Repr

/-- compiler/name-resolution.cpp:953-995, the body of the loop.  `none`: the position overflows. -/
def enterField (S : Structs) (self : Nat) (s : Loop) (f : FieldDecl) : Option Loop :=
  match bindField S self f with
  | .error e => some { s with reports := s.reports ++ [e] }
  | .ok ty =>
    let s := if f.isConst then { s with reports := s.reports ++ [94] } else s
    if f.name ∈ s.seen then some { s with reports := s.reports ++ [103] }
    else
      match cells S ty with
      | none => none
      | some size =>
        match narrow (s.position + size) with
        | none => none
        | some p => some { s with position := p, seen := f.name :: s.seen, fields := s.fields ++ [⟨f.name, ty, s.position⟩] }

def enterFields (S : Structs) (self : Nat) : Loop → List FieldDecl → Option Loop
  | s, [] => some s
  | s, f :: fs =>
    match enterField S self s f with
    | none => none
    | some s => enterFields S self s fs

/-- compiler/name-resolution.cpp:1001-1007, the loop over the methods. -/
def enterMethods : List Nat → List Nat → List Nat
  | _, [] => []
  | seen, m :: ms => if m ∈ seen then 103 :: enterMethods seen ms else enterMethods (m :: seen) ms

/-- compiler/name-resolution.cpp:938-1011 EnumStructDecl::EnterNames, and its reports. -/
def enter (S : Structs) (d : Decl) : Option (Structs × List Nat) :=
  if (find S d.name).isSome then some (S, [21])
  else
    match enterFields S d.name ⟨0, [], [], []⟩ d.fields with
    | none => none
    | some s =>
      some (S ++ [⟨d.name, s.fields, d.methods, s.position⟩],
        s.reports ++ (if d.fields = [] then [119] else []) ++ enterMethods s.seen d.methods)

/-- All enum structs of a program, in their order.  `none`: an overflow. -/
def enterAll : Structs → List Decl → Option (Structs × List Nat)
  | S, [] => some (S, [])
  | S, d :: ds =>
    match enter S d with
    | none => none
    | some (S, r) =>
      match enterAll S ds with
      | none => none
      | some (S, r') => some (S, r ++ r')

/-! ### Access -/

/-- An index: a constant, or the code of an expression (by its number). -/
inductive Idx
  | const (v : Cell)
  | code (k : Nat)
deriving DecidableEq, Repr

/-- `x`, `e[i]` and `e.f`. -/
inductive Access
  | var
  | index (e : Access) (i : Idx)
  | field (e : Access) (f : Nat)
deriving Repr

/-- What an access denotes: a variable, field or element, or a character in an array. -/
inductive Place
  | obj (t : Ty)
  | byte
deriving DecidableEq, Repr

/-- compiler/semantics.cpp:1446-1464: the check of a constant index. -/
def indexOk (size : Nat) : Idx → Bool
  | .const v => !(v.toInt < 0 || (size ≠ 0 && (size : Int) ≤ v.toInt))
  | .code _ => true

/-- compiler/symbols.cpp:68-82 FindEnumStructField, for fields. -/
def findField (S : Structs) (s f : Nat) : Option Field := (find S s).bind fun d => d.fields.find? (·.name == f)

/-- compiler/semantics.cpp:1414-1487 CheckIndexExpr, 1733-1771 CheckEnumStructFieldAccessExpr: the type of an access, or `none` if it is
refused. -/
def check (S : Structs) (t : Ty) : Access → Option Place
  | .var => some (.obj t)
  | .index e i =>
    match check S t e with
    | some (.obj (.array b n)) => if indexOk n i then some (if b = .char then .byte else .obj (.one b)) else none
    | _ => none
  | .field e f =>
    match check S t e with
    | some (.obj (.one (.struct s))) => (findField S s f).map fun d => .obj d.ty
    | _ => none

/-- An instruction, or the code of the index expression with this number. -/
inductive Item
  | op (i : Insn)
  | index (k : Nat)

/-- compiler/code-generator.cpp:1160-1170 `rank_size`. -/
def rankSize (S : Structs) : Base → Nat
  | .char => 1
  | .int64 => 8
  | .struct s => ((find S s).map (·.size)).getD 0 * 4
  | .cell => 4

/-- compiler/code-generator.cpp:1155-1229 EmitIndexExpr (without the LOAD.I for several dimensions), EmitFieldAccessExpr: the address of an
access, from the address of the variable in PRI. -/
def emit (S : Structs) (t : Ty) : Access → List Item
  | .var => []
  | .index e i =>
    match check S t e with
    | some (.obj (.array b n)) =>
      let rank := rankSize S b
      emit S t e ++
      match i with
      | .const v => if v ≠ 0 then [.op (.addC (v * BitVec.ofNat 32 rank))] else []
      | .code k =>
        [.op (.push .pri), .index k, .op (.bounds (if n ≠ 0 then (n : Int) - 1 else 2147483647)), .op (.pop .alt)] ++
        (if rank = 1 then [.op .add]
         else (if rank ≠ 4 then [.op (.smulC (BitVec.ofNat 32 (rank / 4)))] else []) ++ [.op .idxaddr])
    | _ => emit S t e
  | .field e f =>
    match check S t e with
    | some (.obj (.one (.struct s))) =>
      emit S t e ++
      match findField S s f with
      | some d => if d.offset ≠ 0 then [.op (.const .alt (BitVec.ofNat 32 (d.offset * 4))), .op .add] else []
      | none => []
    | _ => emit S t e

/-- The run of such code; `ev` is what the code of the index expressions does. -/
def run (E : Verif.VM.Env) (m : Nat) (here : Int) (ev : Nat → IM Unit) : List Item → IM Unit
  | [] => fun s => .ok s ()
  | .op i :: rest => fun s =>
    match visit E m here i s with
    | .ok s' _ => run E m here ev rest s'
    | .fail s' e => .fail s' e
    | .ub => .ub
  | .index k :: rest => fun s =>
    match ev k s with
    | .ok s' _ => run E m here ev rest s'
    | .fail s' e => .fail s' e
    | .ub => .ub

end Verif.Storage

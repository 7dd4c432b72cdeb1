import Verif.Model.Long
import Verif.Model.CodeGen

/-!
The code for `float` expressions, and for expressions that mix `float` with `int` and `bool` (compiler/semantics.cpp: CheckUnaryExpr,
BinaryExprChecker, CheckChainedCompareExpr, BuildSimpleCast; compiler/coercion-rules.cpp; compiler/code-generator.cpp: EmitUnary, EmitIncDec,
EmitBinary, EmitBinaryInner, EmitBinaryOp, EmitChainedCompareExpr, EmitTest, EmitSimpleCastExpr, EmitFloatBuiltin, EmitRvalue, EmitStore).

Not here: elements, fields, properties, calls, `? :`, `&&`, `||`, the operators on bits, and `int64`.  A warning about types (213) is assumed
whenever the types of two operands differ; which types of `int`, `bool` and others may be mixed is in Verif/Model/Types.lean.  BREAK instructions do
nothing and are left out.
-/
namespace Verif.Flt
open Verif.VM

inductive Ty
  | int | bool | float
deriving DecidableEq, Repr

/-- Variables: locals and parameters (by the operand that the code has for them), reference parameters, and globals (by address). -/
inductive Var
  | loc (i : Int)
  | ref (i : Int)
  | glob (a : Int)
deriving DecidableEq, Repr

/-- `*`, `/`, `%`, `+`, `-`, `==`, `!=`, `>`, `>=`, `<`, `<=` -/
inductive Bin
  | mul | div | mod | add | sub | eq | ne | gt | ge | lt | le
deriving DecidableEq, Repr

def Bin.isRel : Bin → Bool
  | .eq | .ne | .gt | .ge | .lt | .le => true
  | _ => false

mutual
/-- Expressions. -/
inductive Expr
  /-- a number; the cell of a `float` is its bits -/
  | lit (t : Ty) (v : Cell)
  | var (x : Var)
  | neg (e : Expr)
  | not (e : Expr)
  | bin (op : Bin) (a b : Expr)
  /-- `e op a …`, two comparisons at least -/
  | chain (e : Expr) (op : Bin) (a : Expr) (rest : Rest)
  | set (x : Var) (e : Expr)
  | opset (op : Bin) (x : Var) (e : Expr)
  /-- `++` or `--`; `pre` if it is in front, or the value is not used (the code is the same) -/
  | inc (up pre : Bool) (x : Var)
  /-- `float(e)` -/
  | conv (e : Expr)
inductive Rest
  | nil
  | cons (op : Bin) (a : Expr) (rest : Rest)
end

/-- What the compiler knows about an expression: `val().type()`, `val().constval()` if `val().ident` is `iCONSTEXPR`, whether there was a warning about
types, and what EmitExpr emits (compiler/code-generator.cpp:472-570; a constant is loaded, whatever the expression is). -/
structure Node where
  ty : Ty
  const : Option Cell
  warn : Bool
  code : List Insn
deriving DecidableEq, Repr

/-- compiler/smx-assembly-buffer.h:85-96 const_pri and const_alt. -/
def constTo (r : Reg) (v : Cell) : Insn := if v = 0 then .zero r else .const r v

def Node.num (t : Ty) (v : Cell) (warn : Bool) : Node := ⟨t, some v, warn, [constTo .pri v]⟩

/-- compiler/code-generator.cpp:1596-1635 EmitRvalue, for variables. -/
def load : Var → List Insn
  | .loc i => [.loadS .pri i]
  | .ref i => [.lrefS .pri i]
  | .glob a => [.load .pri a]

/-- compiler/code-generator.cpp:1637-1686 EmitStore, for variables. -/
def store : Var → List Insn
  | .loc i => [.storS i .pri]
  | .ref i => [.srefS i .pri]
  | .glob a => [.stor a .pri]

/-- compiler/code-generator.cpp:834-849 GetFloatBinaryOp -/
def insnF : Bin → Insn
  | .mul => .binF32 .mul | .div => .binF32 .divAlt | .mod => .binF32 .modAlt | .add => .binF32 .add | .sub => .binF32 .subAlt
  | .eq => .cmpF32 .eq | .ne => .cmpF32 .neq | .gt => .cmpF32 .sgrtr | .ge => .cmpF32 .sgeq | .lt => .cmpF32 .sless | .le => .cmpF32 .sleq

/-- compiler/code-generator.cpp:851-873 GetInt32BinaryOp -/
def insnI : Bin → Insn
  | .mul => .smul | .div => .sdivAltI32 | .mod => .smodAltI32 | .add => .add | .sub => .subAlt
  | .eq => .cmp .eq | .ne => .cmp .neq | .gt => .cmp .sgrtr | .ge => .cmp .sgeq | .lt => .cmp .sless | .le => .cmp .sleq

/-- compiler/code-generator.cpp:919-929, the operators whose operands are exchanged first. -/
def exchanged : Bin → Bool
  | .gt | .ge | .lt | .le => true
  | _ => false

/-- compiler/expressions.cpp:438-453 commutative -/
def commutative : Bin → Bool
  | .add | .mul | .eq | .ne => true
  | _ => false

/-- compiler/code-generator.cpp:919-945 EmitBinaryOp -/
def emitOp (t : Ty) (op : Bin) : List Insn :=
  (if exchanged op then [.xchg] else []) ++ [if t = .float then insnF op else insnI op]

/-- compiler/code-generator.cpp:788-818, the operands in EmitBinaryInner: left goes into ALT and right into PRI, or the other way round. -/
def operands (op : Bin) (left right : Node) : List Insn :=
  match left.const with
  | some v => (match right.const with
    | some w => [constTo .pri w]
    | none => right.code) ++ [constTo .alt v]
  | none => match right.const with
    | some w => if commutative op then [constTo .alt w] else [.push .pri, constTo .pri w, .pop .alt]
    | none => [.push .pri] ++ right.code ++ [.pop .alt]

/-- compiler/code-generator.cpp:784-832 EmitBinaryInner -/
def inner (op : Bin) (left right : Node) : List Insn := operands op left right ++ emitOp left.ty op

/-- compiler/semantics.cpp:3072-3089 BuildSimpleCast to `float`, with compiler/code-generator.cpp:2104-2124 EmitSimpleCastExpr. -/
def toFloat (n : Node) : Node := if n.ty = .float then n else ⟨.float, none, n.warn, n.code ++ [.cvtF32]⟩

/-- compiler/coercion-rules.cpp:26-54 FindBinaryCoercionRule and compiler/semantics.cpp:777-796: if an operand is a `float`, the other one becomes one. -/
def mixed (a b : Node) : Bool := a.ty = .float || b.ty = .float

/-- The operator as one of those that compiler/expressions.cpp:350-404 calc knows. -/
def Bin.calc : Bin → Verif.Lang.BinOp
  | .mul => .mul | .div => .div | .mod => .mod | .add => .add | .sub => .sub
  | .eq => .eq | .ne => .ne | .gt => .gt | .ge => .ge | .lt => .lt | .le => .le

/-- The type of the result, compiler/semantics.cpp:739 and 756-757. -/
def resultTy (op : Bin) (t : Ty) : Ty := if op.isRel then .bool else t

/-- compiler/semantics.cpp:664-760 BinaryExprChecker::Check and 762-801 CheckOperatorTypes, for operators that do not assign, with
compiler/code-generator.cpp:725-782 EmitBinary.  Constants are folded unless the type is `float`; nothing is returned if the compiler reports an error (or,
for the smallest number divided by -1, may do anything). -/
def binary (op : Bin) (a b : Node) : Option Node :=
  let a' := if mixed a b then toFloat a else a
  let b' := if mixed a b then toFloat b else b
  let warn := a.warn || b.warn || a'.ty != b'.ty
  let t := resultTy op a'.ty
  match mixed a b, a.const, b.const with
  | false, some v, some w => match CodeGen.calcBin op.calc v w with
    | .value r => some (.num t r warn)
    | _ => none
  | _, _, _ => some ⟨t, none, warn, (if a'.const.isSome then [] else a'.code) ++ inner op a' b'⟩

/-- compiler/code-generator.cpp:1096-1119 EmitChainedCompareExpr, after the first comparison. -/
def chainCode : Node → List (Bin × Node) → List Insn
  | _, [] => []
  | left, (op, right) :: rest =>
    [.push .pri, .move .pri] ++ inner op left right ++ [.swap .alt, .and, .pop .alt] ++ chainCode right rest

/-- compiler/semantics.cpp:1099-1116, the comparison of two constants. -/
def foldRel (op : Bin) (v w : Cell) : Bool :=
  match op with
  | .le => v.sle w
  | .ge => w.sle v
  | .gt => w.slt v
  | .lt => v.slt w
  | _ => false

/-- compiler/semantics.cpp:1069-1125, constants in CheckChainedCompareExpr: the result if all are constants. -/
def foldChain : Node → List (Bin × Node) → Option Bool
  | left, [] => left.const.map fun _ => true
  | left, (op, right) :: rest =>
    match left.const, right.const, foldChain right rest with
    | some v, some w, some r => some (foldRel op v w && r)
    | _, _, _ => none

/-- Whether there is a warning about the types in a chain, compiler/semantics.cpp:1092-1094 (there is no conversion). -/
def chainWarn : Node → List (Bin × Node) → Bool
  | _, [] => false
  | left, (_, right) :: rest => right.warn || left.ty != right.ty || chainWarn right rest

/-- compiler/semantics.cpp:1055-1128 CheckChainedCompareExpr -/
def chained (first : Node) (op : Bin) (a : Node) (rest : List (Bin × Node)) : Node :=
  let warn := first.warn || chainWarn first ((op, a) :: rest)
  match foldChain first ((op, a) :: rest) with
  | some r => .num .bool (if r then 1 else 0) warn
  | none => ⟨.bool, none, warn, first.code ++ inner op first a ++ chainCode a rest⟩

/-- The sign of a `float`: `sp::FloatCellUnion(-f).cell` -/
def flip (v : Cell) : Cell := v ^^^ 0x80000000#32

def one : Cell := 0x3F800000
def minusOne : Cell := 0xBF800000

mutual
/-- compiler/semantics.cpp CheckExpr and compiler/code-generator.cpp EmitExpr.  `Γ` is the types of variables (for a reference, of what it refers to). -/
def check (Γ : Var → Ty) : Expr → Option Node
  | .lit t v => some (.num t v false)
  | .var x => some ⟨Γ x, none, false, load x⟩
  -- compiler/semantics.cpp:525-577, compiler/code-generator.cpp:605-641
  | .neg e => (check Γ e).map fun n =>
    match n.const with
    | some v => .num n.ty (if n.ty = .float then flip v else -v) n.warn
    | none => { n with code := n.code ++ [if n.ty = .float then .negF32 else .neg] }
  | .not e => (check Γ e).map fun n =>
    match n.const with
    | some v => .num .bool (if v = 0 then 1 else 0) n.warn
    | none => { n with ty := .bool, code := n.code ++ (if n.ty = .float then [.testF32] else []) ++ [.not] }
  | .bin op a b =>
    match check Γ a, check Γ b with
    | some m, some n => binary op m n
    | _, _ => none
  | .chain e op a rest =>
    match check Γ e, check Γ a, checkRest Γ rest with
    | some m, some n, some l => if exchanged op then some (chained m op n l) else none
    | _, _, _ => none
  -- compiler/semantics.cpp:885-955 CheckAssignmentRHS (no conversion), compiler/code-generator.cpp:725-782
  | .set x e => (check Γ e).map fun n => ⟨Γ x, none, n.warn || Γ x != n.ty, n.code ++ store x⟩
  -- compiler/semantics.cpp:777-796: error 462 for a `float` on the right only
  | .opset op x e =>
    match check Γ e with
    | none => none
    | some n =>
      if op.isRel || (Γ x != .float && n.ty == .float) then none
      else
        let l : Node := ⟨Γ x, none, false, load x⟩
        let r := if mixed l n then toFloat n else n
        some ⟨Γ x, none, n.warn || l.ty != r.ty, l.code ++ inner op l r ++ store x⟩
  -- compiler/code-generator.cpp:655-723 EmitIncDec
  | .inc up pre x =>
    let add := if Γ x = .float then [.const .alt (if up then one else minusOne), .binF32 .add] else [if up then .inc .pri else .dec .pri]
    some ⟨Γ x, none, false, load x ++ (if pre then add ++ store x else [.push .pri] ++ add ++ store x ++ [.pop .pri])⟩
  -- compiler/code-generator.cpp:2138-2143 EmitFloatBuiltin; the parameter is an `int`
  | .conv e => (check Γ e).map fun n => ⟨.float, none, n.warn || n.ty != .int, n.code ++ [.cvtF32]⟩
def checkRest (Γ : Var → Ty) : Rest → Option (List (Bin × Node))
  | .nil => some []
  | .cons op a rest =>
    match check Γ a, checkRest Γ rest with
    | some n, some l => if exchanged op then some ((op, n) :: l) else none
    | _, _ => none
end

/-- compiler/code-generator.cpp:1027-1047 CmpTokenToOp and 1064-1089. -/
def jumpCmp (op : Bin) (jumpOnTrue : Bool) : Cmp :=
  match op, jumpOnTrue with
  | .ge, true | .lt, false => .sgeq
  | .le, true | .gt, false => .sleq
  | .lt, true | .ge, false => .sless
  | .gt, true | .le, false => .sgrtr
  | .ne, true | .eq, false => .neq
  | _, _ => .eq

/-- compiler/code-generator.cpp:571-603 EmitTest, 643-653 EmitUnaryExprTest and 1049-1092 EmitBinaryExprTest: the code, and the condition of the jump at its
end. -/
def test (Γ : Var → Ty) (jumpOnTrue : Bool) : Expr → Option (List Insn × Cmp)
  | .not e => test Γ (!jumpOnTrue) e
  | .bin op a b =>
    match check Γ a, check Γ b, check Γ (.bin op a b) with
    | some m, some n, some r =>
      if op.isRel && !mixed m n then some (m.code ++ [.push .pri] ++ n.code ++ [.pop .alt, .xchg], jumpCmp op jumpOnTrue)
      else some (r.code, if jumpOnTrue then .notZero else .zero)
    | _, _, _ => none
  | e => (check Γ e).map fun n => (n.code, if jumpOnTrue then .notZero else .zero)

end Verif.Flt

import Verif.Spec.Lang
import Verif.Model.Insn

/-!
The part of the compiler that turns integer expressions into code: constant folding (compiler/semantics.cpp,
compiler/expressions.cpp) and emission (compiler/code-generator.cpp).

Simplifications.  The input is the syntax tree after name resolution (`Verif.Lang.Expr`), all of whose values have type `int`
or `bool`; user-defined types, floats, int64, references, strings, properties and multi-dimensional arrays are left out, as are
debug information and warnings.  A `Label` (compiler/assembly buffers, modelled for C40) is represented by the position it gets:
code is a function of the position at which it starts, positions count cells.
-/
namespace Verif.CodeGen
open Verif.VM (Cell Insn Reg Cmp encode)
open Verif.Lang (UnOp BinOp RelOp Var Expr LVal Rest Args)

/-- Emitted code, as a function of the position it is emitted at. -/
abbrev Code := Nat → List Cell

/-- compiler/smx-assembly-buffer.h:60-84 `emit`: the cells of one instruction. -/
def ins (i : Insn) : Code := fun _ => (encode i).getD []

/-- Emit nothing. -/
def skip : Code := fun _ => []

/-- Emit one piece after the other. -/
def Code.then (a b : Code) : Code := fun p => a p ++ b (p + (a p).length)

@[inherit_doc] infixr:60 " ⨟ " => Code.then

/-- Emit when the condition holds. -/
def emitIf (b : Bool) (c : Code) : Code := if b then c else skip

/-- `Label l; …; __ bind(&l);`: code that uses a label bound at its own end. -/
def endLabel (f : Nat → Code) : Code := fun p => f (p + (f 0 p).length) p

/-- `Label l; __ bind(&l); …`: code that uses a label bound at its own beginning. -/
def topLabel (f : Nat → Code) : Code := fun p => f p p

/-- Byte offset of a position, as jump instructions hold it. -/
def off (t : Nat) : Int := 4 * (t : Int)

/-- compiler/smx-assembly-buffer.h:85-90 const_pri. -/
def constPri (v : Cell) : Code := if v = 0 then ins (.zero .pri) else ins (.const .pri v)

/-- compiler/smx-assembly-buffer.h:91-96 const_alt. -/
def constAlt (v : Cell) : Code := if v = 0 then ins (.zero .alt) else ins (.const .alt v)

/-- Result of evaluating an operator at compile time. -/
inductive Folded where
  | value (v : Cell)
  /-- `report(29)` -/
  | error
  /-- C++ leaves the operation undefined -/
  | ub
deriving DecidableEq

/-- compiler/expressions.cpp:350-404 calc. -/
def calcBin (op : BinOp) (left right : Cell) : Folded :=
  match op with
  | .or => .value (left ||| right)
  | .xor => .value (left ^^^ right)
  | .and => .value (left &&& right)
  | .eq => .value (if left == right then 1 else 0)
  | .ne => .value (if left != right then 1 else 0)
  | .shr => if right.toNat < 32 then .value (left.sshiftRight right.toNat) else .ub
  | .shru => if right.toNat < 32 then .value (left >>> right.toNat) else .ub
  | .shl => if right.toNat < 32 then .value (left <<< right.toNat) else .ub
  | .add => .value (left + right)
  | .sub => .value (left - right)
  | .mul => .value (left * right)
  | .div => if right = 0 then .error else if left = .intMin 32 ∧ right = -1 then .ub else .value (left.sdiv right)
  | .mod => if right = 0 then .error else if left = .intMin 32 ∧ right = -1 then .ub else .value (left.srem right)
  | .lt => .value (if left.slt right then 1 else 0)
  | .gt => .value (if right.slt left then 1 else 0)
  | .ge => .value (if right.sle left then 1 else 0)
  | .le => .value (if left.sle right then 1 else 0)

/-- compiler/semantics.cpp:542-572, the constant cases of CheckUnaryExpr. -/
def calcUn (op : UnOp) (v : Cell) : Cell :=
  match op with
  | .inv => ~~~ v
  | .not => if v = 0 then 1 else 0
  | .neg => -v

/-- compiler/semantics.cpp:1099-1116, one comparison of a chain. -/
def calcRel (op : RelOp) (left right : Cell) : Bool :=
  match op with
  | .le => left.sle right
  | .ge => right.sle left
  | .gt => right.slt left
  | .lt => left.slt right

/-- The operators of a chained comparison are also binary operators. -/
def RelOp.toBin : RelOp → BinOp
  | .lt => .lt | .le => .le | .gt => .gt | .ge => .ge

/-- compiler/expressions.cpp:438-453 commutative. -/
def commutative : Option BinOp → Bool
  | some .add | some .mul | some .eq | some .ne | some .and | some .xor | some .or => true
  | _ => false

/-- compiler/code-generator.cpp:851-873 GetInt32BinaryOp. -/
def int32BinaryOp : BinOp → Insn
  | .mul => .smul | .div => .sdivAltI32 | .mod => .smodAltI32 | .add => .add | .sub => .subAlt
  | .shl => .shl | .shr => .sshr | .shru => .shr | .and => .and | .xor => .xor | .or => .or
  | .eq => .cmp .eq | .ne => .cmp .neq | .gt => .cmp .sgrtr | .ge => .cmp .sgeq | .lt => .cmp .sless | .le => .cmp .sleq

/-- compiler/code-generator.cpp:916-926, the operators whose operands are exchanged first. -/
def exchanged : BinOp → Bool
  | .le | .ge | .lt | .gt | .shl | .shr | .shru => true
  | _ => false

/-- compiler/code-generator.cpp:915-941 EmitBinaryOp, for int. -/
def emitBinaryOp (op : BinOp) : Code := emitIf (exchanged op) (ins .xchg) ⨟ ins (int32BinaryOp op)

/-- compiler/code-generator.cpp:1028-1048 CmpTokenToOp. -/
def cmpTokenToOp : BinOp → Option Cmp
  | .ge => some .sgeq | .le => some .sleq | .lt => some .sless | .gt => some .sgrtr | .eq => some .eq | .ne => some .neq
  | _ => none

/-- compiler/code-generator.cpp:1066-1089: the inverted comparison. -/
def invertToken : BinOp → BinOp
  | .lt => .ge | .gt => .le | .ge => .lt | .le => .gt | .eq => .ne | .ne => .eq | op => op

/-- A code fragment that jumps to a position if a condition is true (or, when the flag is false, if it is false) and falls
through otherwise. -/
abbrev Test := Bool → Nat → Code

/-- What the code generator needs to know about an expression. -/
structure Node where
  /-- `val().constval()` when `val().ident == iCONSTEXPR` -/
  const : Option Cell
  /-- rejected by the compiler, or the compiler itself runs into undefined behaviour -/
  bad : Bool
  /-- EmitExpr of the expression, after wrapping it in a RvalueExpr if it is an l-value -/
  expr : Code
  /-- EmitExpr of the expression without that wrapper; the argument is `discard()` -/
  bare : Bool → Code
  /-- EmitTest, after wrapping -/
  test : Test
  /-- FlattenLogical for this token (`||` when true) -/
  flat : Bool → List Test

/-- What the code generator needs to know about an l-value. -/
structure LNode where
  bad : Bool
  /-- EmitExpr: the address of an array element; nothing for a variable -/
  addr : Code
  /-- compiler/code-generator.cpp:1598-1634 EmitRvalue -/
  load : Code
  /-- compiler/code-generator.cpp:1636-1722 EmitStore -/
  store : Code
  /-- compiler/value-inl.h canRematerialize: variables -/
  remat : Bool

/-- compiler/code-generator.cpp:570-603 EmitTest, the default: evaluate and compare with zero. -/
def testDefault (expr : Code) : Test := fun jumpOnTrue target =>
  expr ⨟ ins (.jcmp (if jumpOnTrue then .notZero else .zero) (off target))

/-- A node for an expression that is not an l-value and has no special treatment by EmitTest and FlattenLogical.
compiler/code-generator.cpp:469-480: EmitExpr loads the value of a constant expression. -/
def plain (const : Option Cell) (bad : Bool) (code : Code) : Node :=
  let expr := const.elim code constPri
  { const, bad, expr, bare := fun _ => expr, test := testDefault expr, flat := fun _ => [testDefault expr] }

/-- compiler/code-generator.cpp:782-830 EmitBinaryInner.  `left` says whether the left operand, whose value is in PRI unless it
is constant, is constant and whether it can be rematerialised. -/
def emitBinaryInner (oper : Option BinOp) (leftConst : Option Cell) (leftRemat : Bool) (right : Node) : Code :=
  (match leftConst with
  | some l => right.expr ⨟ constAlt l
  | none =>
    let mustSave := oper.isSome || !leftRemat
    match right.const with
    | some r =>
      if commutative oper then constAlt r
      else emitIf mustSave (ins (.push .pri)) ⨟ constPri r ⨟ emitIf mustSave (ins (.pop .alt))
    | none => emitIf mustSave (ins (.push .pri)) ⨟ right.expr ⨟ emitIf mustSave (ins (.pop .alt))) ⨟
  oper.elim skip emitBinaryOp

/-- The value of a foldable operation. -/
def Folded.value? : Folded → Option Cell
  | .value v => some v
  | _ => none

/-- compiler/semantics.cpp:738-747: fold when both operands are constant. -/
def foldBinary (op : BinOp) (a b : Option Cell) : Option Folded :=
  match a, b with
  | some x, some y => some (calcBin op x y)
  | _, _ => none

/-- compiler/code-generator.cpp:724-780 EmitBinary, not an assignment. -/
def emitBinary (op : BinOp) (a b : Node) : Code :=
  emitIf a.const.isNone a.expr ⨟ emitBinaryInner (some op) a.const false b

/-- compiler/code-generator.cpp:1050-1094 EmitBinaryExprTest, a comparison. -/
def emitBinaryExprTest (op : BinOp) (a b : Node) : Test := fun jumpOnTrue target =>
  a.expr ⨟ ins (.push .pri) ⨟ b.expr ⨟ ins (.pop .alt) ⨟ ins .xchg ⨟
    ins (.jcmp ((cmpTokenToOp (if jumpOnTrue then op else invertToken op)).getD .zero) (off target))

/-- Nodes of binary expressions: compiler/semantics.cpp:667-757, compiler/code-generator.cpp:578-581. -/
def binary (op : BinOp) (a b : Node) : Node :=
  let folded := foldBinary op a.const b.const
  let n := plain (folded.bind (·.value?)) (a.bad || b.bad || (folded.map (·.value?.isNone)).getD false) (emitBinary op a b)
  if (cmpTokenToOp op).isSome then
    { n with test := emitBinaryExprTest op a b, flat := fun _ => [emitBinaryExprTest op a b] }
  else n

/-- compiler/code-generator.cpp:604-640 EmitUnary, for int. -/
def emitUnary (op : UnOp) (e : Node) : Code :=
  e.expr ⨟ ins (match op with | .inv => .invert | .not => .not | .neg => .neg)

/-- Nodes of unary expressions: compiler/semantics.cpp:525-577, compiler/code-generator.cpp:642-653 EmitUnaryExprTest. -/
def unary (op : UnOp) (e : Node) : Node :=
  let n := plain (e.const.map (calcUn op)) e.bad (emitUnary op e)
  if op = .not then
    let t : Test := fun jumpOnTrue target => e.test (!jumpOnTrue) target
    { n with test := t, flat := fun _ => [t] }
  else n

/-- Nodes of l-values used as values: compiler/semantics.cpp:508-530 RvalueExpr, compiler/code-generator.cpp:507-512. -/
def rvalue (l : LNode) : Node :=
  { plain none l.bad (l.addr ⨟ l.load) with bare := fun _ => l.addr }

/-- compiler/code-generator.cpp:724-780 EmitBinary for `=` and the compound assignments; `isElem`: the target is an array
element. -/
def emitAssign (op : Option BinOp) (isElem : Bool) (l : LNode) (e : Node) : Code :=
  l.addr ⨟
  (if isElem then emitIf op.isSome (ins (.push .pri) ⨟ l.load) else emitIf op.isSome l.load) ⨟
  emitBinaryInner op none l.remat e ⨟
  emitIf (isElem && op.isSome) (ins (.pop .alt)) ⨟
  l.store

/-- compiler/code-generator.cpp:655-722 EmitIncDec, for int. -/
def emitIncDec (inc pre discard : Bool) (l : LNode) : Code :=
  let wantPre := !(pre || discard)
  l.addr ⨟
  emitIf (!l.remat) (ins (.push .pri)) ⨟
  l.load ⨟
  emitIf wantPre (ins (.push .pri)) ⨟
  ins (if inc then .inc .pri else .dec .pri) ⨟
  emitIf (!l.remat) (ins (.pop .alt)) ⨟
  (if wantPre then emitIf (!l.remat) (ins (.swap .alt)) ⨟ l.store ⨟ ins (.pop .pri) else l.store)

/-- compiler/code-generator.cpp:958-1025 EmitLogicalExprTest: all but the last operand jump to the target or to the end. -/
def emitSequence (isOr jumpOnTrue : Bool) (target fallthrough : Nat) : List Test → Code
  | [] => skip
  | [last] => last jumpOnTrue target
  | t :: rest =>
    t isOr (if isOr = jumpOnTrue then target else fallthrough) ⨟ emitSequence isOr jumpOnTrue target fallthrough rest

/-- compiler/code-generator.cpp:958-1025 EmitLogicalExprTest. -/
def emitLogicalTest (isOr : Bool) (seq : List Test) : Test := fun jumpOnTrue target =>
  endLabel fun fallthrough => emitSequence isOr jumpOnTrue target fallthrough seq

/-- compiler/code-generator.cpp:943-956 EmitLogicalExpr. -/
def emitLogical (isOr : Bool) (seq : List Test) : Code :=
  endLabel fun done =>
    (endLabel fun shortcircuit =>
      emitLogicalTest isOr seq isOr shortcircuit ⨟ constPri (if isOr then 0 else 1) ⨟ ins (.jump (off done))) ⨟
    constPri (if isOr then 1 else 0)

/-- compiler/semantics.cpp:1034-1044: folding of `||` and `&&`. -/
def foldLogical (isOr : Bool) (a b : Option Cell) : Option Cell :=
  match a, b with
  | some x, some y => some (if (if isOr then x ≠ 0 ∨ y ≠ 0 else x ≠ 0 ∧ y ≠ 0) then 1 else 0)
  | _, _ => none

/-- Nodes of logical expressions: compiler/semantics.cpp:1017-1052, compiler/parse-node.cpp:70-85. -/
def logical (isOr : Bool) (a b : Node) : Node :=
  let seq := a.flat isOr ++ b.flat isOr
  let t := emitLogicalTest isOr seq
  { plain (foldLogical isOr a.const b.const) (a.bad || b.bad) (emitLogical isOr seq) with
    test := t
    flat := fun tok => if tok = isOr then seq else [t] }

/-- compiler/code-generator.cpp:1096-1120 EmitChainedCompareExpr after the first comparison: the comparisons with `prefix` and
`suffix`.  `left` is whether the previous operand is constant. -/
def emitChain (left : Option Cell) : List (RelOp × Node) → Code
  | [] => skip
  | (op, e) :: rest =>
    ins (.push .pri) ⨟ ins (.move .pri) ⨟
    emitBinaryInner (some (RelOp.toBin op)) left false e ⨟
    ins (.swap .alt) ⨟ ins .and ⨟ ins (.pop .alt) ⨟
    emitChain e.const rest

/-- compiler/semantics.cpp:1069-1125: folding of a chain, given the comparisons so far. -/
def foldChain (left : Option Cell) (sofar : Bool) : List (RelOp × Node) → Option Cell
  | [] => left.map fun _ => if sofar then 1 else 0
  | (op, e) :: rest =>
    match left, e.const with
    | some x, some y => foldChain (some y) (sofar && calcRel op x y) rest
    | _, _ => none

/-- Nodes of chained comparisons, compiler/semantics.cpp:1054-1126 and compiler/code-generator.cpp:1096-1120. -/
def chain (first : Node) (op : RelOp) (e : Node) (rest : List (RelOp × Node)) : Node :=
  plain (foldChain first.const true ((op, e) :: rest)) (first.bad || e.bad || rest.any (·.2.bad))
    (first.expr ⨟ emitBinaryInner (some (RelOp.toBin op)) first.const false e ⨟ emitChain e.const rest)

/-- compiler/code-generator.cpp:1122-1135 EmitTernaryExpr; never folded (compiler/semantics.cpp:1128-1170). -/
def ternary (c a b : Node) : Node :=
  plain none (c.bad || a.bad || b.bad) (endLabel fun flab2 =>
    (endLabel fun flab1 => c.expr ⨟ ins (.jcmp .zero (off flab1)) ⨟ a.expr ⨟ ins (.jump (off flab2))) ⨟ b.expr)

/-- Comma expressions, compiler/semantics.cpp:1355-1383 and compiler/code-generator.cpp:513-518, 582-589: all but the last are
not loaded, the last is.  A list of more than two expressions is nested here, which emits the same code. -/
def comma (a b : Node) : Node :=
  let t : Test := fun jumpOnTrue target => a.bare false ⨟ b.test jumpOnTrue target
  { plain none (a.bad || b.bad) (a.bare false ⨟ b.expr) with test := t, flat := fun _ => [t] }

/-- compiler/code-generator.cpp:1231-1358 EmitCallExpr for arguments passed by value: they are pushed last to first, then their
number.  `entry` is the position of the function. -/
def callNode (entry : Nat) (n : Nat) (bad : Bool) (args : Code) : Node :=
  plain none bad (args ⨟ ins (.pushC [BitVec.ofNat 32 n]) ⨟ ins (.call (off entry)))

/-- Where things are: the data address and number of cells of each global, the code position and number of parameters of each
function. -/
structure Layout where
  gaddr : Nat → Int
  size : Nat → Nat
  entry : Nat → Nat
  arity : Nat → Nat
  /-- parameters and local slots of the function being compiled -/
  params : Nat
  slots : Nat

/-- Is this a parameter or a local slot of the function? -/
def Layout.hasSlot (L : Layout) (i : Int) : Bool := -(L.params : Int) ≤ i && i < (L.slots : Int)

mutual
/-- Nodes of expressions. -/
def gen (L : Layout) : Expr → Node
  -- compiler/code-generator.cpp:476-480
  | .num v => plain (some v) false skip
  | .get l => rvalue (genL L l)
  | .un op e => unary op (gen L e)
  | .bin op a b => binary op (gen L a) (gen L b)
  | .assign op l e =>
    let n := genL L l
    let m := gen L e
    plain none (n.bad || m.bad) (emitAssign op (!n.remat) n m)
  | .incdec inc pre l =>
    let n := genL L l
    { plain none n.bad (emitIncDec inc pre false n) with bare := fun discard => emitIncDec inc pre discard n }
  | .logic isOr a b => logical isOr (gen L a) (gen L b)
  | .chain first op e rest => chain (gen L first) op (gen L e) (genRest L rest)
  | .tern c a b => ternary (gen L c) (gen L a) (gen L b)
  | .comma a b => comma (gen L a) (gen L b)
  | .call f args =>
    callNode (L.entry f) (countArgs args) (badArgs L args || countArgs args != L.arity f) (genArgs L args)

/-- Nodes of l-values. -/
def genL (L : Layout) : LVal → LNode
  | .var (.glob x) =>
    { bad := decide (L.size x = 0), addr := skip, load := ins (.load .pri (L.gaddr x)),
      store := ins (.stor (L.gaddr x) .pri), remat := true }
  | .var (.loc i) =>
    { bad := !L.hasSlot i, addr := skip, load := ins (.loadS .pri i), store := ins (.storS i .pri), remat := true }
  -- compiler/code-generator.cpp:1155-1205 EmitIndexExpr and compiler/semantics.cpp:1446-1466 for a one-dimensional global
  -- array of cells
  | .elem x i =>
    let n := gen L i
    { bad := n.bad || decide (L.size x = 0) ||
        (n.const.elim false fun k => decide (k.toInt < 0) || decide ((L.size x : Int) ≤ k.toInt))
      addr := ins (.const .pri (.ofInt 32 (L.gaddr x))) ⨟ n.const.elim
        (ins (.push .pri) ⨟ n.expr ⨟ ins (.bounds ((L.size x : Int) - 1)) ⨟ ins (.pop .alt) ⨟ ins .idxaddr)
        (fun k => if k = 0 then skip else ins (.addC (k * 4)))
      load := ins .loadI, store := ins .storI, remat := false }

/-- Operators and operands of a chain. -/
def genRest (L : Layout) : Rest → List (RelOp × Node)
  | .one op e => [(op, gen L e)]
  | .cons op e rest => (op, gen L e) :: genRest L rest

/-- Code for the arguments, last to first. -/
def genArgs (L : Layout) : Args → Code
  | .nil => skip
  | .cons e rest => genArgs L rest ⨟ (gen L e).expr ⨟ ins (.push .pri)

/-- Is some argument rejected? -/
def badArgs (L : Layout) : Args → Bool
  | .nil => false
  | .cons e rest => (gen L e).bad || badArgs L rest

/-- Number of arguments. -/
def countArgs : Args → Nat
  | .nil => 0
  | .cons _ rest => countArgs rest + 1
end

/-- compiler/semantics.cpp:953-1015 BinaryExpr::FoldToConstant for two values; `none`: not foldable.  Operands of type `bool` are
treated like integers here, the code does not fold them. -/
def foldToConstant (op : BinOp) (left right : Cell) : Option Folded :=
  match op with
  | .mul => some (.value (left * right))
  | .div =>
    some (if right = 0 then .error else if left = .intMin 32 ∧ right = -1 then .error else .value (left.sdiv right))
  | .mod =>
    some (if right = 0 then .error else if left = .intMin 32 ∧ right = -1 then .error else .value (left.srem right))
  | .add => some (.value (left + right))
  | .sub => some (.value (left - right))
  | .shl => some (if right.toNat < 32 then .value (left <<< right.toNat) else .ub)
  | .shr => some (if right.toNat < 32 then .value (left.sshiftRight right.toNat) else .ub)
  | .shru => some (if right.toNat < 32 then .value (left >>> right.toNat) else .ub)
  | .and => some (.value (left &&& right))
  | .xor => some (.value (left ^^^ right))
  | .or => some (.value (left ||| right))
  | _ => none

/-- compiler/semantics.cpp:361-375 EvalConst, as used for array sizes, enum values, case labels, `#if` and static assertions:
an expression that is not already constant is folded by BinaryExpr::FoldToConstant (953-1015) or TernaryExpr::FoldToConstant
(1170-1182).  The latter gives up when its second operand *is* constant and otherwise reads a variable it has not set.
`none`: not a constant. -/
def evalConst (L : Layout) : Expr → Option Folded
  | .bin op a b =>
    match (gen L (.bin op a b)).const with
    | some v => some (.value v)
    | none =>
      match evalConst L a with
      | some (.value x) =>
        match evalConst L b with
        | some (.value y) => foldToConstant op x y
        | r => r
      | r => r
  | .tern c a b =>
    match evalConst L c with
    | some (.value x) =>
      match evalConst L a with
      | some .ub => some .ub
      | some (.value _) => none
      | _ =>
        match evalConst L b with
        | some (.value z) => some (if x = 0 then .value z else .ub)
        | r => r
    | r => r
  | e => (gen L e).const.map .value

end Verif.CodeGen

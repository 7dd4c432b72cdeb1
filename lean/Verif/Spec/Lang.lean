import Verif.Model.Mem

/-!
What SourcePawn expressions and statements over integers mean: the syntax after name resolution (variables are globals or
local slots) and an evaluator that does not mention the compiler or the virtual machine.
-/
namespace Verif.Lang
open Verif.VM (Cell Err)

/-- `~`, `!` and `-`. -/
inductive UnOp where | inv | not | neg
deriving DecidableEq, Repr

/-- The binary operators. -/
inductive BinOp where
  | mul | div | mod | add | sub | shl | shr | shru | and | xor | or | eq | ne | gt | ge | lt | le
deriving DecidableEq, Repr

/-- The relational operators that can be chained, as in `a < b <= c`. -/
inductive RelOp where | lt | le | gt | ge
deriving DecidableEq, Repr

/-- A scalar variable: a global, or a local slot (arguments are slots -1, -2, …). -/
inductive Var where
  | glob (x : Nat)
  | loc (slot : Int)
deriving DecidableEq, Repr

mutual
/-- Integer expressions. -/
inductive Expr where
  | num (v : Cell)
  | get (l : LVal)
  | un (op : UnOp) (e : Expr)
  | bin (op : BinOp) (a b : Expr)
  /-- `l = e`, or `l op= e` -/
  | assign (op : Option BinOp) (l : LVal) (e : Expr)
  /-- `++l`, `--l`, `l++`, `l--` -/
  | incdec (inc pre : Bool) (l : LVal)
  /-- `a || b` when `isOr`, else `a && b` -/
  | logic (isOr : Bool) (a b : Expr)
  /-- `first op e op e …`, at least two operators -/
  | chain (first : Expr) (op : RelOp) (e : Expr) (rest : Rest)
  | tern (c a b : Expr)
  | comma (a b : Expr)
  | call (f : Nat) (args : Args)

/-- What can be assigned: a variable, or an element of a global array. -/
inductive LVal where
  | var (v : Var)
  | elem (x : Nat) (i : Expr)

/-- The further operators of a chained comparison. -/
inductive Rest where
  | one (op : RelOp) (e : Expr)
  | cons (op : RelOp) (e : Expr) (rest : Rest)

/-- The arguments of a call. -/
inductive Args where
  | nil
  | cons (e : Expr) (rest : Args)
end

/-- The variables: `g x i` is element `i` of global `x` (a scalar has one element); `l` the locals that have been declared. -/
structure Store where
  g : Nat → Nat → Cell
  l : Int → Option Cell

/-- How an evaluation ends: with a value; with a run time error; without a meaning (shift amounts that are negative or too
large, use of a local that was not declared); or not within the given bound on calls and iterations. -/
inductive Out (α : Type) where
  | ok (a : α) (s : Store)
  | err (s : Store) (e : Err)
  | undef
  | more

/-- Computations over the variables. -/
abbrev Ev (α : Type) := Store → Out α

/-- One after the other. -/
def Ev.bind {α β : Type} (x : Ev α) (f : α → Ev β) : Ev β := fun s =>
  match x s with
  | .ok a s => f a s
  | .err s e => .err s e
  | .undef => .undef
  | .more => .more

/-- A value. -/
def Ev.pure {α : Type} (a : α) : Ev α := fun s => .ok a s

instance : Monad Ev where
  pure := Ev.pure
  bind := Ev.bind

/-- A run time error. -/
def raise {α : Type} (e : Err) : Ev α := fun s => .err s e

/-- No meaning. -/
def meaningless {α : Type} : Ev α := fun _ => .undef

/-- A truth value as an integer. -/
def truth (b : Bool) : Cell := if b then 1 else 0

/-- Integers are 32 bits wide. -/
def int (x : Int) : Cell := BitVec.ofInt 32 x

/-- Unary operators. -/
def unop : UnOp → Cell → Cell
  | .inv, x => ~~~ x
  | .not, x => truth (x.toInt = 0)
  | .neg, x => int (-x.toInt)

/-- Relational operators compare as signed integers. -/
def rel : RelOp → Cell → Cell → Bool
  | .lt, x, y => decide (x.toInt < y.toInt)
  | .le, x, y => decide (x.toInt ≤ y.toInt)
  | .gt, x, y => decide (x.toInt > y.toInt)
  | .ge, x, y => decide (x.toInt ≥ y.toInt)

/-- Binary operators.  Division truncates; dividing by zero and the quotient that does not fit are errors. -/
def binop (op : BinOp) (x y : Cell) : Ev Cell :=
  match op with
  | .mul => pure (int (x.toInt * y.toInt))
  | .add => pure (int (x.toInt + y.toInt))
  | .sub => pure (int (x.toInt - y.toInt))
  | .div =>
    if y.toInt = 0 then raise .divideByZero
    else if x.toInt = -2147483648 ∧ y.toInt = -1 then raise .integerOverflow
    else pure (int (x.toInt.tdiv y.toInt))
  | .mod =>
    if y.toInt = 0 then raise .divideByZero
    else if x.toInt = -2147483648 ∧ y.toInt = -1 then raise .integerOverflow
    else pure (int (x.toInt.tmod y.toInt))
  | .shl => if 0 ≤ y.toInt ∧ y.toInt < 32 then pure (int (x.toInt * 2 ^ y.toInt.toNat)) else meaningless
  | .shr => if 0 ≤ y.toInt ∧ y.toInt < 32 then pure (int (x.toInt / 2 ^ y.toInt.toNat)) else meaningless
  | .shru => if 0 ≤ y.toInt ∧ y.toInt < 32 then pure (int (x.toNat / 2 ^ y.toInt.toNat : Nat)) else meaningless
  | .and => pure (x &&& y)
  | .xor => pure (x ^^^ y)
  | .or => pure (x ||| y)
  | .eq => pure (truth (x = y))
  | .ne => pure (truth (x ≠ y))
  | .gt => pure (truth (rel .gt x y))
  | .ge => pure (truth (rel .ge x y))
  | .lt => pure (truth (rel .lt x y))
  | .le => pure (truth (rel .le x y))

/-- Where a value can be stored. -/
inductive Place where
  | var (v : Var)
  | elem (x : Nat) (i : Nat)

/-- Read. -/
def load : Place → Ev Cell
  | .var (.glob x) => fun s => .ok (s.g x 0) s
  | .var (.loc i) => fun s =>
    match s.l i with
    | some v => .ok v s
    | none => .undef
  | .elem x i => fun s => .ok (s.g x i) s

/-- Change one element of a global. -/
def Store.setG (s : Store) (x i : Nat) (v : Cell) : Store :=
  { s with g := fun y j => if y = x ∧ j = i then v else s.g y j }

/-- Change one local. -/
def Store.setL (s : Store) (i : Int) (v : Cell) : Store :=
  { s with l := fun j => if j = i then some v else s.l j }

/-- Write. -/
def save : Place → Cell → Ev Unit
  | .var (.glob x), v => fun s => .ok () (s.setG x 0 v)
  | .var (.loc i), v => fun s =>
    match s.l i with
    | some _ => .ok () (s.setL i v)
    | none => .undef
  | .elem x i, v => fun s => .ok () (s.setG x i v)

section
variable (size : Nat → Nat) (call : Nat → List Cell → Ev Cell)

mutual
/-- The value of an expression.  Operands are evaluated from left to right, except that the arguments of a call are evaluated
from right to left; `||`, `&&` and `?:` evaluate only what they need; chained comparisons evaluate every operand.  `size` is the
number of elements of each global, `call` what calls do. -/
def eval : Expr → Ev Cell
  | .num v => pure v
  | .get l => do let r ← place l; load r
  | .un op e => do let x ← eval e; pure (unop op x)
  | .bin op a b => do let x ← eval a; let y ← eval b; binop op x y
  | .assign none l e => do let r ← place l; let v ← eval e; save r v; pure v
  | .assign (some op) l e => do
    let r ← place l
    let x ← load r
    let y ← eval e
    let v ← binop op x y
    save r v
    pure v
  | .incdec inc pre l => do
    let r ← place l
    let x ← load r
    let y := int (x.toInt + (if inc then 1 else -1))
    save r y
    pure (if pre then y else x)
  | .logic isOr a b => do
    let x ← eval a
    if decide (x.toInt ≠ 0) = isOr then pure (truth isOr)
    else do let y ← eval b; pure (truth (y.toInt ≠ 0))
  | .chain first op e rest => do
    let x ← eval first
    let y ← eval e
    let b ← evalRest y rest
    pure (truth (rel op x y && b))
  | .tern c a b => do let x ← eval c; if x.toInt ≠ 0 then eval a else eval b
  | .comma a b => do let _ ← eval a; eval b
  | .call f args => do let vs ← evalArgs args; call f vs

/-- The place an l-value denotes: the index is checked. -/
def place : LVal → Ev Place
  | .var v => pure (.var v)
  | .elem x i => do
    let k ← eval i
    if 0 ≤ k.toInt ∧ k.toInt < size x then pure (.elem x k.toInt.toNat) else raise .arrayBounds

/-- Do the remaining comparisons hold, given the last operand? -/
def evalRest : Cell → Rest → Ev Bool
  | x, .one op e => do let y ← eval e; pure (rel op x y)
  | x, .cons op e rest => do
    let y ← eval e
    let b ← evalRest y rest
    pure (rel op x y && b)

/-- The argument values, the last one first. -/
def evalArgs : Args → Ev (List Cell)
  | .nil => pure []
  | .cons e rest => do let vs ← evalArgs rest; let v ← eval e; pure (v :: vs)
end
end

/-! ### Statements -/

mutual
/-- Statements. -/
inductive Stmt where
  | expr (e : Expr)
  /-- declaration of a local variable, which is a slot -/
  | decl (slot : Nat) (init : Option Expr)
  | block (ss : Stmts)
  | ifThen (c : Expr) (a : Stmt)
  | ifElse (c : Expr) (a b : Stmt)
  | while (c : Expr) (body : Stmt)
  | doWhile (body : Stmt) (c : Expr)
  /-- `for (init; c; step) body`; the initialisation may be empty or consist of several declarations -/
  | for (init : Stmts) (c : Option Expr) (step : Option Expr) (body : Stmt)
  | switch (e : Expr) (cases : Cases)
  | brk
  | cont
  | ret (e : Option Expr)
  | assert (c : Expr)
  | exit (e : Option Expr)

/-- Statements one after the other. -/
inductive Stmts where
  | nil
  | cons (s : Stmt) (rest : Stmts)

/-- The cases of a switch; the default comes last. -/
inductive Cases where
  | nil
  | dflt (s : Stmt)
  | case (labels : List Cell) (s : Stmt) (rest : Cases)
end

/-- How a statement that does not fail ends. -/
inductive Sig where
  | next
  | brk
  | cont
  | ret (v : Cell)

/-- Repeat until there is a result, at most so many times. -/
def iterate (body : Ev (Option Sig)) : Nat → Ev Sig
  | 0 => fun _ => .more
  | n+1 => do
    match ← body with
    | none => iterate body n
    | some r => pure r

/-- What the end of a loop body means for the loop: go on, or how the loop ends. -/
def afterBody : Sig → Option Sig
  | .next | .cont => none
  | .brk => some .next
  | .ret v => some (.ret v)

/-- Go on after a statement only if it ended normally. -/
def Sig.andThen (k : Ev Sig) : Sig → Ev Sig
  | .next => k
  | r => pure r

/-- Go on with a loop unless its body has ended it. -/
def unlessDone (k : Ev (Option Sig)) : Option Sig → Ev (Option Sig)
  | none => k
  | some r => pure (some r)

/-- One round of `while (c) body`. -/
def whileRound (c : Ev Cell) (body : Ev Sig) : Ev (Option Sig) := do
  let x ← c
  if x.toInt ≠ 0 then do
    let r ← body
    pure (afterBody r)
  else pure (some .next)

/-- One round of `do body while (c)`. -/
def doRound (body : Ev Sig) (c : Ev Cell) : Ev (Option Sig) := do
  let r ← body
  unlessDone (do let x ← c; pure (if x.toInt ≠ 0 then none else some .next)) (afterBody r)

/-- One round of `for (; c; step) body`. -/
def forRound (c step : Ev Cell) (body : Ev Sig) : Ev (Option Sig) := do
  let x ← c
  if x.toInt ≠ 0 then do
    let r ← body
    unlessDone (do let _ ← step; pure none) (afterBody r)
  else pure (some .next)

/-- An expression that may be left out. -/
def evalOpt (size : Nat → Nat) (call : Nat → List Cell → Ev Cell) (default : Cell) : Option Expr → Ev Cell
  | none => pure default
  | some e => eval size call e

section
variable (size : Nat → Nat) (call : Nat → List Cell → Ev Cell) (n : Nat)

mutual
/-- Execute a statement; loops are repeated at most `n` times.  There is no break out of a switch: `break` leaves the loop around
it.  A failed assertion and `exit` stop the plugin with the error for an invalid instruction. -/
def exec : Stmt → Ev Sig
  | .expr e => do let _ ← eval size call e; pure .next
  | .decl slot init => do
    let v ← evalOpt size call 0 init
    fun s => .ok .next (s.setL slot v)
  | .block ss => execAll ss
  | .ifThen c a => do let x ← eval size call c; if x.toInt ≠ 0 then exec a else pure .next
  | .ifElse c a b => do let x ← eval size call c; if x.toInt ≠ 0 then exec a else exec b
  | .while c body => iterate (whileRound (eval size call c) (exec body)) n
  | .doWhile body c => iterate (doRound (exec body) (eval size call c)) n
  | .for init c step body => do
    let r ← execAll init
    r.andThen (iterate (forRound (evalOpt size call 1 c) (evalOpt size call 0 step) (exec body)) n)
  | .switch e cases => do let x ← eval size call e; execCases x cases
  | .brk => pure .brk
  | .cont => pure .cont
  | .ret e => do let v ← evalOpt size call 0 e; pure (.ret v)
  | .assert c => do let x ← eval size call c; if x.toInt ≠ 0 then pure .next else raise .invalidInstruction
  | .exit e => do let _ ← evalOpt size call 0 e; raise .invalidInstruction

/-- Execute statements until one does not end normally. -/
def execAll : Stmts → Ev Sig
  | .nil => pure .next
  | .cons s rest => do let r ← exec s; r.andThen (execAll rest)

/-- Execute the first case with the label, or the default. -/
def execCases (x : Cell) : Cases → Ev Sig
  | .nil => pure .next
  | .dflt s => exec s
  | .case labels s rest => if x ∈ labels then exec s else execCases x rest
end
end

/-! ### Programs -/

/-- A function with integer parameters. -/
structure Func where
  params : Nat
  /-- number of local variables -/
  slots : Nat
  body : Stmt

/-- The locals at the beginning of a function: the arguments are slots -1, -2, … -/
def argLocals (vs : List Cell) : Int → Option Cell := fun i => if i < 0 then vs[(-i - 1).toNat]? else none

/-- Call a function: at most `n` nested calls, and at most `n` repetitions of each loop.  Its locals are its own. -/
def callFn (size : Nat → Nat) (prog : Nat → Option Func) : Nat → Nat → List Cell → Ev Cell
  | 0, _, _ => fun _ => .more
  | n+1, f, vs => fun σ =>
    match prog f with
    | none => .undef
    | some F =>
      if vs.length ≠ F.params then .undef
      else
        match exec size (callFn size prog n) n F.body ⟨σ.g, argLocals vs⟩ with
        | .ok .next σ' => .ok 0 ⟨σ'.g, σ.l⟩
        | .ok (.ret v) σ' => .ok v ⟨σ'.g, σ.l⟩
        | .ok _ _ => .undef
        | .err σ' e => .err ⟨σ'.g, σ.l⟩ e
        | .undef => .undef
        | .more => .more

end Verif.Lang

import Verif.Model.Long

/-!
What expressions of type `int64` mean, and what it means for a frame to hold variables.  The meaning is that of the language: operands are evaluated
from left to right, and an operand is its value at that time.
-/
namespace Verif.Long
open Verif.VM

/-- What holds a 64-bit integer: local variables and parameters of the function, globals, and variables elsewhere that a reference parameter can
refer to. -/
inductive Obj
  | loc (n : Nat)
  | par (k : Nat)
  | glob (a : Cell)
  | ext (j : Nat)
deriving DecidableEq, Repr

/-- The values of variables. -/
structure Store where
  w : Obj → BitVec 64
  c : Nat → Cell

def Store.set64 (σ : Store) (o : Obj) (v : BitVec 64) : Store := { σ with w := fun x => if x = o then v else σ.w x }
def Store.set32 (σ : Store) (n : Nat) (v : Cell) : Store := { σ with c := fun x => if x = n then v else σ.c x }

/-- A value, a run time error, or (a shift by an amount outside of 0 to 63) nothing that is defined. -/
inductive Out (α : Type)
  | ok (a : α)
  | err (e : Err)
  | undef
deriving DecidableEq, Repr

def Out.bind {α β : Type} (x : Out α) (f : α → Out β) : Out β :=
  match x with
  | .ok a => f a
  | .err e => .err e
  | .undef => .undef

/-- Arithmetic on signed numbers of 64 bits. -/
def Op.eval (op : Op) (a b : BitVec 64) : Out (BitVec 64) :=
  let quotient (r : Int) : Out (BitVec 64) :=
    if b.toInt = 0 then .err .divideByZero
    else if a.toInt = -9223372036854775808 ∧ b.toInt = -1 then .err .integerOverflow
    else .ok (BitVec.ofInt 64 r)
  let shift (r : BitVec 64) : Out (BitVec 64) := if 0 ≤ b.toInt ∧ b.toInt < 64 then .ok r else .undef
  match op with
  | .mul => .ok (BitVec.ofInt 64 (a.toInt * b.toInt))
  | .add => .ok (BitVec.ofInt 64 (a.toInt + b.toInt))
  | .sub => .ok (BitVec.ofInt 64 (a.toInt - b.toInt))
  | .div => quotient (a.toInt.tdiv b.toInt)
  | .mod => quotient (a.toInt.tmod b.toInt)
  | .shl => shift (BitVec.ofNat 64 (a.toNat * 2 ^ b.toNat))
  | .sshr => shift (BitVec.ofInt 64 (a.toInt / 2 ^ b.toNat))
  | .shr => shift (BitVec.ofNat 64 (a.toNat / 2 ^ b.toNat))
  | .and => .ok (a &&& b)
  | .or => .ok (a ||| b)
  | .xor => .ok (a ^^^ b)

def Rel.eval (op : Rel) (a b : BitVec 64) : Bool :=
  match op with
  | .eq => decide (a.toInt = b.toInt)
  | .ne => decide (a.toInt ≠ b.toInt)
  | .gt => decide (b.toInt < a.toInt)
  | .ge => decide (b.toInt ≤ a.toInt)
  | .lt => decide (a.toInt < b.toInt)
  | .le => decide (a.toInt ≤ b.toInt)

/-- What a variable names; `tgt` is what the reference parameters refer to. -/
def Var.obj (tgt : Nat → Obj) : Var → Obj
  | .loc n => .loc n
  | .par k => .par k
  | .ref k => tgt k
  | .glob a => .glob a

mutual
/-- The value of an expression, and the variables afterwards. -/
def eval64 (tgt : Nat → Obj) (σ : Store) : E64 → Out (BitVec 64 × Store)
  | .num v => .ok (v, σ)
  | .var x => .ok (σ.w (x.obj tgt), σ)
  | .inv e => (eval64 tgt σ e).bind fun r => .ok (~~~ r.1, r.2)
  | .neg e => (eval64 tgt σ e).bind fun r => .ok (BitVec.ofInt 64 (-r.1.toInt), r.2)
  | .bin op a b => (eval64 tgt σ a).bind fun l => (eval64 tgt l.2 b).bind fun r => (op.eval l.1 r.1).bind fun v => .ok (v, r.2)
  | .set x e => (eval64 tgt σ e).bind fun r => .ok (r.1, r.2.set64 (x.obj tgt) r.1)
  | .opset op x e =>
    (eval64 tgt σ e).bind fun r => (op.eval (σ.w (x.obj tgt)) r.1).bind fun v => .ok (v, r.2.set64 (x.obj tgt) v)
  | .inc up pre x =>
    let old := σ.w (x.obj tgt)
    let new := BitVec.ofInt 64 (old.toInt + if up then 1 else -1)
    .ok (if pre then new else old, σ.set64 (x.obj tgt) new)
  | .ofInt e => (eval32 tgt σ e).bind fun r => .ok (BitVec.ofInt 64 r.1.toInt, r.2)
  | .comma a b => (eval64 tgt σ a).bind fun l => eval64 tgt l.2 b
def eval32 (tgt : Nat → Obj) (σ : Store) : E32 → Out (Cell × Store)
  | .num v => .ok (v, σ)
  | .var n => .ok (σ.c n, σ)
  | .set n e => (eval32 tgt σ e).bind fun r => .ok (r.1, r.2.set32 n r.1)
  | .trunc e => (eval64 tgt σ e).bind fun r => .ok (BitVec.ofInt 32 r.1.toInt, r.2)
  | .rel op a b => (eval64 tgt σ a).bind fun l => (eval64 tgt l.2 b).bind fun r => .ok (if op.eval l.1 r.1 then 1 else 0, r.2)
  | .not e => (eval64 tgt σ e).bind fun r => .ok (if r.1.toInt = 0 then 1 else 0, r.2)
  | .truth e => (eval64 tgt σ e).bind fun r => .ok (if r.1.toInt = 0 then 0 else 1, r.2)
end

mutual
/-- The variables after a statement.  A variable that is declared without a value is 0. -/
def exec (tgt : Nat → Obj) (σ : Store) : Stmt → Out Store
  | .expr64 e => (eval64 tgt σ e).bind fun r => .ok r.2
  | .expr32 e => (eval32 tgt σ e).bind fun r => .ok r.2
  | .decl64 n none => .ok (σ.set64 (.loc n) 0)
  | .decl64 n (some e) => (eval64 tgt σ e).bind fun r => .ok (r.2.set64 (.loc n) r.1)
  | .decl32 n none => .ok (σ.set32 n 0)
  | .decl32 n (some e) => (eval32 tgt σ e).bind fun r => .ok (r.2.set32 n r.1)
  | .block l => execs tgt σ l
def execs (tgt : Nat → Obj) (σ : Store) : Stmts → Out Store
  | .nil => .ok σ
  | .cons a l => (exec tgt σ a).bind fun σ => execs tgt σ l
end

/-! ### Which programs -/

/-- The numbers of the variables that have been declared. -/
structure Scope where
  w : List Nat
  c : List Nat

/-- The surroundings of a function: its parameters, the variables outside of it, and where they are. -/
structure Frame where
  params : Nat
  /-- parameters that are references, and what they refer to -/
  isRef : Nat → Prop
  tgt : Nat → Obj
  /-- the parameters, globals and other variables -/
  outer : Obj → Prop
  addr : Obj → Int

/-- A variable that can be named here. -/
def Frame.has (F : Frame) (D : Scope) : Var → Prop
  | .loc n => n ∈ D.w
  | .par k => F.outer (.par k)
  | .ref k => F.isRef k
  | .glob a => F.outer (.glob a)

mutual
/-- An expression only names variables that there are. -/
def Known64 (F : Frame) (D : Scope) : E64 → Prop
  | .num _ => True
  | .var x | .inc _ _ x => F.has D x
  | .inv e | .neg e => Known64 F D e
  | .bin _ a b | .comma a b => Known64 F D a ∧ Known64 F D b
  | .set x e | .opset _ x e => F.has D x ∧ Known64 F D e
  | .ofInt e => Known32 F D e
def Known32 (F : Frame) (D : Scope) : E32 → Prop
  | .num _ => True
  | .var n => n ∈ D.c
  | .set n e => n ∈ D.c ∧ Known32 F D e
  | .trunc e | .not e | .truth e => Known64 F D e
  | .rel _ a b => Known64 F D a ∧ Known64 F D b
end

mutual
/-- The 64-bit variables that an expression changes. -/
def writes64 (tgt : Nat → Obj) : E64 → List Obj
  | .num _ | .var _ => []
  | .inc _ _ x => [x.obj tgt]
  | .inv e | .neg e => writes64 tgt e
  | .bin _ a b | .comma a b => writes64 tgt a ++ writes64 tgt b
  | .set x e | .opset _ x e => x.obj tgt :: writes64 tgt e
  | .ofInt e => writes32 tgt e
def writes32 (tgt : Nat → Obj) : E32 → List Obj
  | .num _ | .var _ => []
  | .set _ e => writes32 tgt e
  | .trunc e | .not e | .truth e => writes64 tgt e
  | .rel _ a b => writes64 tgt a ++ writes64 tgt b
end

/-- The variable that an expression stands for: itself, or the one whose value is assigned. -/
def standsFor (tgt : Nat → Obj) : E64 → Option Obj
  | .var x => some (x.obj tgt)
  | .set _ e => standsFor tgt e
  | .comma _ b => standsFor tgt b
  | _ => none

mutual
/-- No right operand changes the variable that the left operand stands for, and no parameter is assigned to. -/
def Calm64 (tgt : Nat → Obj) : E64 → Prop
  | .num _ | .var _ => True
  | .inc _ _ x => ∀ k, x ≠ .par k
  | .inv e | .neg e => Calm64 tgt e
  | .bin _ a b => Calm64 tgt a ∧ Calm64 tgt b ∧ ∀ o, standsFor tgt a = some o → o ∉ writes64 tgt b
  | .comma a b => Calm64 tgt a ∧ Calm64 tgt b
  | .set x e => (∀ k, x ≠ .par k) ∧ Calm64 tgt e
  | .opset _ x e => (∀ k, x ≠ .par k) ∧ Calm64 tgt e ∧ x.obj tgt ∉ writes64 tgt e
  | .ofInt e => Calm32 tgt e
def Calm32 (tgt : Nat → Obj) : E32 → Prop
  | .num _ | .var _ => True
  | .set _ e => Calm32 tgt e
  | .trunc e | .not e | .truth e => Calm64 tgt e
  | .rel _ a b => Calm64 tgt a ∧ Calm64 tgt b ∧ ∀ o, standsFor tgt a = some o → o ∉ writes64 tgt b
end

mutual
/-- How many operands have to be kept on the stack at the same time. -/
def need64 : E64 → Nat
  | .num _ | .var _ => 0
  | .inc _ _ _ => 1
  | .inv e | .neg e | .set _ e => need64 e
  | .bin _ a b => max (need64 a) (need64 b + 1)
  | .comma a b => max (need64 a) (need64 b)
  | .opset _ _ e => need64 e + 1
  | .ofInt e => need32 e
def need32 : E32 → Nat
  | .num _ | .var _ => 0
  | .set _ e => need32 e
  | .trunc e | .not e | .truth e => need64 e
  | .rel _ a b => max (need64 a) (need64 b + 1)
end

mutual
/-- The declarations after a statement. -/
def Stmt.after (D : Scope) : Stmt → Scope
  | .expr64 _ | .expr32 _ => D
  | .decl64 n _ => { D with w := n :: D.w }
  | .decl32 n _ => { D with c := n :: D.c }
  | .block l => l.after D
def Stmts.after (D : Scope) : Stmts → Scope
  | .nil => D
  | .cons a l => l.after (a.after D)
end

mutual
/-- Statements that only name variables that have been declared, fulfil `Calm64`, and need no more than so much of the stack; declarations have numbers
of their own. -/
def Stmt.Good (F : Frame) (room : Nat) (D : Scope) : Stmt → Prop
  | .expr64 e => Known64 F D e ∧ Calm64 F.tgt e ∧ need64 e ≤ room
  | .expr32 e => Known32 F D e ∧ Calm32 F.tgt e ∧ need32 e ≤ room
  | .decl64 n none => n ∉ D.w
  | .decl32 n none => n ∉ D.c
  | .decl64 n (some e) => Known64 F D e ∧ Calm64 F.tgt e ∧ need64 e ≤ room ∧ n ∉ D.w
  | .decl32 n (some e) => Known32 F D e ∧ Calm32 F.tgt e ∧ need32 e ≤ room ∧ n ∉ D.c
  | .block l => l.Good F room D
def Stmts.Good (F : Frame) (room : Nat) (D : Scope) : Stmts → Prop
  | .nil => True
  | .cons a l => a.Good F room D ∧ l.Good F room (a.after D)
end

/-! ### Memory -/

/-- The bytes of all slots. -/
def size : List Kind → Int
  | [] => 0
  | k :: ks => k.bytes + size ks

/-- Where a slot is. -/
def slotAddr (K : List Kind) (frm : Int) (i : Nat) : Int := frm - size (K.take (i + 1))

/-- Where the cell of a parameter is. -/
def cellAddr (frm : Int) (k : Nat) : Int := frm + 12 + 4 * (k : Int)

/-- The surroundings fit the state at the start of the function: the variables outside are accessible, do not overlap, and are not in the frame, nor in
the cells of the parameters. -/
structure Frame.Fits (F : Frame) (K : List Kind) (b : State) : Prop where
  mem : b.stp ≤ b.memSize
  small : b.stp < 2147483648
  heap : 0 ≤ b.hp
  frame : b.hp ≤ b.frm - size K
  cells : b.frm + 12 + 4 * (F.params : Int) ≤ b.stp
  range : ∀ o, F.outer o → 0 ≤ F.addr o ∧ F.addr o + 8 ≤ b.stp ∧ (F.addr o + 8 ≤ b.hp ∨ b.frm ≤ F.addr o)
  apart : ∀ o o', F.outer o → F.outer o' → o ≠ o' → F.addr o + 8 ≤ F.addr o' ∨ F.addr o' + 8 ≤ F.addr o
  own : ∀ o k, F.outer o → k < F.params → F.addr o + 8 ≤ cellAddr b.frm k ∨ cellAddr b.frm k + 4 ≤ F.addr o
  glob : ∀ a, F.outer (.glob a) → F.addr (.glob a) = a.toInt
  loc : ∀ n, ¬ F.outer (.loc n)
  par : ∀ k, F.outer (.par k) → k < F.params
  ref : ∀ k, F.isRef k → k < F.params ∧ F.outer (F.tgt k)

/-- A state holds the variables: nothing but the memory and the stack pointer differs from the state at the start; variables have their values, and
the cells of parameters the addresses of what they stand for. -/
structure Holds (F : Frame) (K : List Kind) (b : State) (D : Scope) (t : Slots) (σ : Store) (v : State) : Prop where
  same : v = { b with mem := v.mem, sp := v.sp }
  top : v.sp ≤ b.frm - size K
  outer : ∀ o, F.outer o → rd64 v.mem (F.addr o) = σ.w o
  loc : ∀ n, n ∈ D.w → ∃ i, t.v64 n = some i ∧ rd64 v.mem (slotAddr K b.frm i) = σ.w (.loc n)
  int : ∀ n, n ∈ D.c → ∃ i, t.v32 n = some i ∧ rd32 v.mem (slotAddr K b.frm i) = σ.c n
  par : ∀ k, F.outer (.par k) → rd32 v.mem (cellAddr b.frm k) = BitVec.ofInt 32 (F.addr (.par k))
  ref : ∀ k, F.isRef k → rd32 v.mem (cellAddr b.frm k) = BitVec.ofInt 32 (F.addr (F.tgt k))

end Verif.Long

import Verif.Model.FloatExpr

/-!
What expressions with floats mean, and what it means for memory to hold variables.
-/
namespace Verif.Flt
open Verif.VM

/-- Arithmetic of single precision numbers, on their bits. -/
structure FloatArith where
  add : Cell → Cell → Cell
  sub : Cell → Cell → Cell
  mul : Cell → Cell → Cell
  div : Cell → Cell → Cell
  rem : Cell → Cell → Cell
  eq : Cell → Cell → Bool
  lt : Cell → Cell → Bool
  le : Cell → Cell → Bool
  /-- neither zero nor a NaN -/
  truth : Cell → Bool
  ofInt : Cell → Cell

/-- 1.0 in single precision: no sign, the biased exponent 127 and no fraction. -/
def unit : Cell := BitVec.ofNat 32 (127 * 2 ^ 23)

/-- The number with the other sign: only the top bit changes. -/
def opposite (v : Cell) : Cell := v ^^^ BitVec.twoPow 32 31

/-- The instructions of the machine compute with these numbers (vm/interpreter.cpp:1337-1422).  Addition, multiplication and equality do not
depend on the order (this is so for all numbers; the bits of a NaN may differ), and adding -1.0 is subtracting 1.0. -/
structure Agree (F : FloatOps) (A : FloatArith) : Prop where
  add : ∀ p a, F.bin .add p a = A.add p a
  sub : ∀ p a, F.bin .subAlt p a = A.sub a p
  mul : ∀ p a, F.bin .mul p a = A.mul p a
  div : ∀ p a, F.bin .divAlt p a = A.div a p
  rem : ∀ p a, F.bin .modAlt p a = A.rem a p
  eq : ∀ p a, F.cmp .eq p a = A.eq p a
  ne : ∀ p a, F.cmp .neq p a = !A.eq p a
  lt : ∀ p a, F.cmp .sless p a = A.lt p a
  le : ∀ p a, F.cmp .sleq p a = A.le p a
  gt : ∀ p a, F.cmp .sgrtr p a = A.lt a p
  ge : ∀ p a, F.cmp .sgeq p a = A.le a p
  neg : ∀ p, F.neg p = opposite p
  truth : ∀ p, F.truth p = A.truth p
  ofInt : ∀ p, F.ofInt p = A.ofInt p
  addComm : ∀ x y, A.add x y = A.add y x
  mulComm : ∀ x y, A.mul x y = A.mul y x
  eqComm : ∀ x y, A.eq x y = A.eq y x
  subOne : ∀ x, A.sub x unit = A.add x (unit ||| 0x80000000#32)

/-- A value and its type. -/
structure Value where
  ty : Ty
  cell : Cell
deriving DecidableEq, Repr

/-- A value as a `float`. -/
def Value.asFloat (A : FloatArith) (v : Value) : Cell := if v.ty = .float then v.cell else A.ofInt v.cell

/-- A value as a condition. -/
def Value.truth (A : FloatArith) (v : Value) : Bool := if v.ty = .float then A.truth v.cell else v.cell != 0

def bit (b : Bool) : Cell := if b then 1 else 0

/-- An operator on floats. -/
def opF (A : FloatArith) (op : Bin) (x y : Cell) : Value :=
  match op with
  | .mul => ⟨.float, A.mul x y⟩
  | .div => ⟨.float, A.div x y⟩
  | .mod => ⟨.float, A.rem x y⟩
  | .add => ⟨.float, A.add x y⟩
  | .sub => ⟨.float, A.sub x y⟩
  | .eq => ⟨.bool, bit (A.eq x y)⟩
  | .ne => ⟨.bool, bit (!A.eq x y)⟩
  | .gt => ⟨.bool, bit (A.lt y x)⟩
  | .ge => ⟨.bool, bit (A.le y x)⟩
  | .lt => ⟨.bool, bit (A.lt x y)⟩
  | .le => ⟨.bool, bit (A.le x y)⟩

/-- An operator on integers; `t` is the type of the left operand. -/
def opI (t : Ty) (op : Bin) (x y : Cell) : Except Err Value :=
  let quotient (r : Cell) : Except Err Value :=
    if y = 0 then .error .divideByZero else if y = -1 ∧ x = BitVec.intMin 32 then .error .integerOverflow else .ok ⟨t, r⟩
  match op with
  | .mul => .ok ⟨t, x * y⟩
  | .div => quotient (x.sdiv y)
  | .mod => quotient (x.srem y)
  | .add => .ok ⟨t, x + y⟩
  | .sub => .ok ⟨t, x - y⟩
  | .eq => .ok ⟨.bool, bit (x == y)⟩
  | .ne => .ok ⟨.bool, bit (x != y)⟩
  | .gt => .ok ⟨.bool, bit (y.slt x)⟩
  | .ge => .ok ⟨.bool, bit (y.sle x)⟩
  | .lt => .ok ⟨.bool, bit (x.slt y)⟩
  | .le => .ok ⟨.bool, bit (x.sle y)⟩

/-- If one operand is a `float`, the other one is converted. -/
def apply (A : FloatArith) (op : Bin) (x y : Value) : Except Err Value :=
  if x.ty = .float ∨ y.ty = .float then .ok (opF A op (x.asFloat A) (y.asFloat A)) else opI x.ty op x.cell y.cell

/-- What holds a value: locals and parameters, globals, and variables elsewhere. -/
inductive Obj
  | loc (i : Int)
  | glob (a : Int)
  | ext (j : Nat)
deriving DecidableEq, Repr

abbrev Store := Obj → Cell

def Store.set (σ : Store) (o : Obj) (v : Cell) : Store := fun x => if x = o then v else σ x

/-- What a variable names; `tgt` is what the references refer to. -/
def Var.obj (tgt : Int → Obj) : Var → Obj
  | .loc i => .loc i
  | .ref i => tgt i
  | .glob a => .glob a

mutual
/-- The value of an expression, and the variables afterwards.  Operands are evaluated from left to right. -/
def eval (A : FloatArith) (Γ : Var → Ty) (tgt : Int → Obj) (σ : Store) : Expr → Except Err (Value × Store)
  | .lit t v => .ok (⟨t, v⟩, σ)
  | .var x => .ok (⟨Γ x, σ (x.obj tgt)⟩, σ)
  | .neg e => (eval A Γ tgt σ e).bind fun r => .ok (⟨r.1.ty, if r.1.ty = .float then opposite r.1.cell else -r.1.cell⟩, r.2)
  | .not e => (eval A Γ tgt σ e).bind fun r => .ok (⟨.bool, bit (!r.1.truth A)⟩, r.2)
  | .bin op a b => (eval A Γ tgt σ a).bind fun l => (eval A Γ tgt l.2 b).bind fun r => (apply A op l.1 r.1).bind fun v => .ok (v, r.2)
  | .chain e op a rest => (eval A Γ tgt σ e).bind fun l => (eval A Γ tgt l.2 a).bind fun r => (apply A op l.1 r.1).bind fun v =>
      (evalRest A Γ tgt r.2 r.1 rest).bind fun w => .ok (⟨.bool, bit (v.cell != 0 && w.1)⟩, w.2)
  | .set x e => (eval A Γ tgt σ e).bind fun r => .ok (⟨Γ x, r.1.cell⟩, r.2.set (x.obj tgt) r.1.cell)
  | .opset op x e => (eval A Γ tgt σ e).bind fun r => (apply A op ⟨Γ x, σ (x.obj tgt)⟩ r.1).bind fun v => .ok (v, r.2.set (x.obj tgt) v.cell)
  | .inc up pre x =>
    let old := σ (x.obj tgt)
    let new := if Γ x = .float then (if up then A.add old unit else A.sub old unit) else (if up then old + 1 else old - 1)
    .ok (⟨Γ x, if pre then new else old⟩, σ.set (x.obj tgt) new)
  | .conv e => (eval A Γ tgt σ e).bind fun r => .ok (⟨.float, A.ofInt r.1.cell⟩, r.2)
/-- Whether the rest of a chain of comparisons holds; all of it is evaluated. -/
def evalRest (A : FloatArith) (Γ : Var → Ty) (tgt : Int → Obj) (σ : Store) (l : Value) : Rest → Except Err (Bool × Store)
  | .nil => .ok (true, σ)
  | .cons op a rest => (eval A Γ tgt σ a).bind fun r => (apply A op l r.1).bind fun v =>
      (evalRest A Γ tgt r.2 r.1 rest).bind fun w => .ok (v.cell != 0 && w.1, w.2)
end

/-! ### Which programs -/

/-- A float that is written down. -/
def floatConst : Expr → Option Cell
  | .lit .float v => some v
  | .neg e => (floatConst e).map opposite
  | _ => none

def restConst : Rest → Bool
  | .nil => true
  | .cons _ a rest => (floatConst a).isSome && restConst rest

mutual
/-- No `!` of a float that is written down and is not true although its bits are not zero, and no chain of floats that are all written down. -/
def Plain (A : FloatArith) : Expr → Prop
  | .lit _ _ | .var _ | .inc _ _ _ => True
  | .neg e | .set _ e | .opset _ _ e | .conv e => Plain A e
  | .not e => Plain A e ∧ ∀ v, floatConst e = some v → A.truth v = (v != 0)
  | .bin _ a b => Plain A a ∧ Plain A b
  | .chain e _ a rest => Plain A e ∧ Plain A a ∧ PlainRest A rest ∧ ((floatConst e).isSome && (floatConst a).isSome && restConst rest) = false
def PlainRest (A : FloatArith) : Rest → Prop
  | .nil => True
  | .cons _ a rest => Plain A a ∧ PlainRest A rest
end

/-- What is left of a condition if all `!` in front of it are taken away. -/
def bare : Expr → Expr
  | .not e => bare e
  | e => e

mutual
/-- Cells of the stack that the code needs. -/
def need : Expr → Nat
  | .lit _ _ | .var _ => 0
  | .neg e | .not e | .set _ e | .conv e => need e
  | .bin _ a b => max (need a) (need b + 1)
  | .chain e _ a rest => max (need e) (max (need a + 1) (needRest rest))
  | .opset _ _ e => need e + 1
  | .inc _ _ _ => 1
def needRest : Rest → Nat
  | .nil => 0
  | .cons _ a rest => max (need a + 2) (needRest rest)
end

/-- The surroundings of an expression: the variables that there are, the references and what they refer to, and where everything is. -/
structure Frame where
  has : Obj → Prop
  isRef : Int → Prop
  tgt : Int → Obj
  addr : Obj → Int
  /-- where the cell of a reference is -/
  cell : Int → Int

def Frame.knows (F : Frame) : Var → Prop
  | .loc i => F.has (.loc i)
  | .ref i => F.isRef i
  | .glob a => F.has (.glob a)

mutual
/-- An expression only names variables that there are. -/
def Known (F : Frame) : Expr → Prop
  | .lit _ _ => True
  | .var x | .inc _ _ x => F.knows x
  | .neg e | .not e | .conv e => Known F e
  | .bin _ a b => Known F a ∧ Known F b
  | .chain e _ a rest => Known F e ∧ Known F a ∧ KnownRest F rest
  | .set x e | .opset _ x e => F.knows x ∧ Known F e
def KnownRest (F : Frame) : Rest → Prop
  | .nil => True
  | .cons _ a rest => Known F a ∧ KnownRest F rest
end

/-- A cell that can be accessed, outside of the free space between heap and stack. -/
def Cellular (b : State) (a : Int) : Prop := 0 ≤ a ∧ a + 4 ≤ b.stp ∧ (a + 4 ≤ b.hp ∨ b.sp ≤ a)

def Apart (a b : Int) : Prop := a + 4 ≤ b ∨ b + 4 ≤ a

/-- The surroundings fit the state `b` and the code of the method `m`: the operands of instructions name these addresses, and variables do not overlap. -/
structure Frame.Fits (F : Frame) (E : Env) (m : Nat) (b : State) : Prop where
  mem : b.stp ≤ b.memSize
  small : b.stp < 2147483648
  heap : 0 ≤ b.hp
  stack : b.sp ≤ b.stp
  range : ∀ o, F.has o → Cellular b (F.addr o)
  apart : ∀ o o', F.has o → F.has o' → o ≠ o' → Apart (F.addr o) (F.addr o')
  loc : ∀ i, F.has (.loc i) → ∀ s, stackOffset E m i s = .ok s (F.addr (.loc i) - b.frm)
  glob : ∀ a, F.has (.glob a) → F.addr (.glob a) = a
  ref : ∀ i, F.isRef i → F.has (F.tgt i) ∧ Cellular b (F.cell i) ∧ (∀ o, F.has o → Apart (F.addr o) (F.cell i)) ∧
    ∀ s, stackOffset E m i s = .ok s (F.cell i - b.frm)

/-- A state holds the variables: nothing but the memory and the stack pointer differs from the state at the start. -/
structure Holds (F : Frame) (b : State) (σ : Store) (v : State) : Prop where
  same : v = { b with mem := v.mem, sp := v.sp }
  top : v.sp ≤ b.sp
  objs : ∀ o, F.has o → rd32 v.mem (F.addr o) = σ o
  refs : ∀ i, F.isRef i → rd32 v.mem (F.cell i) = BitVec.ofInt 32 (F.addr (F.tgt i))

end Verif.Flt

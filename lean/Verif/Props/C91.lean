import Verif.Proofs.FloatTest
import Verif.Props.C62

/-!
# C91: expressions with floats compute their value

`check Γ e` is what the compiler makes of the expression `e`: its type, its value if it is a constant, whether there was a warning about types, and the code.
`eval` says what an expression means (Verif/Spec/FloatExpr.lean): if one operand of an operator is a `float`, the other one is converted.  `A` is the
arithmetic of floats; all that is assumed of it is in `Agree`.
-/
namespace Verif.Flt
open Verif.VM hiding run
open Verif.Long (run)

/-- After the code of an expression PRI is its value, the variables are as the expression leaves them, and the stack is as before.  If the expression ends
with a run time error, so does the code.  The type that the compiler finds is that of the value.

Missing: `!` of a constant like -0.0 (`C91_not_of_constant`), chains of comparisons of constants (`C91_constant_chain`), expressions with a warning about
types, elements, fields, calls, `? :`, `&&`, `||`, and operators on bits. -/
theorem C91_value_partial {F : Frame} {E : Env} {A : FloatArith} {Γ : Var → Ty} {m : Nat} {here : Int} {e : Expr} {n : Node} {σ : Store} {s : IState}
    (hA : Agree E.floats A) (hF : F.Fits E m s.vm) (hc : check Γ e = some n) (hw : n.warn = false) (hp : Plain A e) (hk : Known F e)
    (hH : Holds F s.vm σ s.vm) (hr : s.vm.hp + 4 * (need e : Int) < s.vm.sp) :
    match eval A Γ F.tgt σ e with
    | .ok (v, σ') => v.ty = n.ty ∧ ∃ s', run E m here n.code s = .ok s' () ∧ s'.pri = v.cell ∧ Holds F s.vm σ' s'.vm ∧ s'.vm.sp = s.vm.sp
    | .error x => ∃ s', run E m here n.code s = .fail s' x := by
  have h := sound (here := here) hA hF e n σ s hc hw hp hk hH hr
  cases he : eval A Γ F.tgt σ e with
  | error x => rw [he] at h; exact h.2
  | ok r =>
    rw [he] at h
    obtain ⟨h1, _, s', h2, h3, h4⟩ := h
    exact ⟨h1, s', h2, h3, h4.holds, h4.sp⟩

/-- An expression that the compiler takes for a constant has that value, whatever the variables are, and changes none.

Missing: as above. -/
theorem C91_constant_partial {F : Frame} {E : Env} {A : FloatArith} {Γ : Var → Ty} {m : Nat} {e : Expr} {n : Node} {σ : Store} {s : IState} {c : Cell}
    (hA : Agree E.floats A) (hF : F.Fits E m s.vm) (hc : check Γ e = some n) (hw : n.warn = false) (hp : Plain A e) (hk : Known F e)
    (hH : Holds F s.vm σ s.vm) (hr : s.vm.hp + 4 * (need e : Int) < s.vm.sp) (hn : n.const = some c) :
    eval A Γ F.tgt σ e = .ok (⟨n.ty, c⟩, σ) := by
  have h := sound (here := 0) hA hF e n σ s hc hw hp hk hH hr
  cases he : eval A Γ F.tgt σ e with
  | error x => rw [he] at h; exact absurd (hn.symm.trans h.1) (fun h => nomatch h)
  | ok r =>
    obtain ⟨v, σ'⟩ := r
    rw [he] at h
    obtain ⟨h1, h2, _⟩ := h
    obtain ⟨h2, h3⟩ := h2 c hn
    obtain ⟨t, w⟩ := v
    have h1 : t = n.ty := h1
    have h2 : w = c := h2
    rw [h1, h2, h3]

/-- The jump at the end of the code of a condition is taken if the condition is true, or, for the other kind of jump, if it is false.

Missing: conditions that are floats and not comparisons, if the value is -0.0 or a NaN (`C91_negative_zero`); and as above. -/
theorem C91_condition_partial {F : Frame} {E : Env} {A : FloatArith} {Γ : Var → Ty} {m : Nat} {here : Int} {e : Expr} {n : Node} {j : Bool}
    {c : List Insn} {cmp : Cmp} {σ : Store} {s : IState}
    (hA : Agree E.floats A) (hF : F.Fits E m s.vm) (hc : check Γ e = some n) (hw : n.warn = false) (ht : test Γ j e = some (c, cmp)) (hp : Plain A e)
    (hk : Known F e) (hH : Holds F s.vm σ s.vm) (hr : s.vm.hp + 4 * (need e : Int) < s.vm.sp)
    (hz : ∀ v σ', eval A Γ F.tgt σ (bare e) = .ok (v, σ') → v.ty = .float → A.truth v.cell = (v.cell != 0)) :
    match eval A Γ F.tgt σ e with
    | .ok (v, σ') => ∃ s', run E m here c s = .ok s' () ∧ Holds F s.vm σ' s'.vm ∧ s'.vm.sp = s.vm.sp ∧
        ∀ o, visit E m here (.jcmp cmp o) s' = if v.truth A = j then takeJump E here o s' else .ok s' .next
    | .error x => ∃ s', run E m here c s = .fail s' x := by
  have h := sound_test (here := here) hA hF e n j c cmp σ s hc hw ht hp hk hz hH hr
  cases he : eval A Γ F.tgt σ e with
  | error x => rw [he] at h; exact h
  | ok r =>
    obtain ⟨v, σ'⟩ := r
    rw [he] at h
    obtain ⟨s', h1, h2, h3⟩ := h
    refine ⟨s', h1, h3.holds, h3.sp, fun o => ?_⟩
    show (if cmpCells cmp s'.pri s'.alt then _ else _) = _
    rw [h2]
    simp only [beq_iff_eq]

/-! ### A function -/

/-- Numbers by sign and magnitude.  They are compared like floats (that are not NaNs), and for the smallest ones (the denormals) addition is that of floats. -/
def signed (c : Cell) : Int := if c.msb then -((c &&& 0x7FFFFFFF).toNat : Int) else (c &&& 0x7FFFFFFF).toNat

def ofSigned (n : Int) : Cell := if n < 0 then BitVec.ofNat 32 n.natAbs ||| 0x80000000 else BitVec.ofNat 32 n.natAbs

def toyArith : FloatArith where
  add x y := ofSigned (signed x + signed y)
  sub x y := ofSigned (signed x - signed y)
  mul x y := ofSigned (signed x * signed y)
  div x y := ofSigned (signed x / signed y)
  rem x y := ofSigned (signed x % signed y)
  eq x y := signed x == signed y
  lt x y := decide (signed x < signed y)
  le x y := decide (signed x ≤ signed y)
  truth x := signed x != 0
  ofInt x := ofSigned x.toInt

def toyFloats : FloatOps where
  truth := toyArith.truth
  neg := opposite
  bin := fun
    | .add => toyArith.add
    | .mul => toyArith.mul
    | .subAlt => fun p a => toyArith.sub a p
    | .divAlt => fun p a => toyArith.div a p
    | .modAlt => fun p a => toyArith.rem a p
  cmp := fun
    | .eq => toyArith.eq
    | .neq => fun p a => !toyArith.eq p a
    | .sless => toyArith.lt
    | .sleq => toyArith.le
    | .sgrtr => fun p a => toyArith.lt a p
    | .sgeq => fun p a => toyArith.le a p
    | _ => fun _ _ => false
  ofInt := toyArith.ofInt

theorem toy_agree : Agree toyFloats toyArith where
  add _ _ := rfl
  sub _ _ := rfl
  mul _ _ := rfl
  div _ _ := rfl
  rem _ _ := rfl
  eq _ _ := rfl
  ne _ _ := rfl
  lt _ _ := rfl
  le _ _ := rfl
  gt _ _ := rfl
  ge _ _ := rfl
  neg _ := rfl
  truth _ := rfl
  ofInt _ := rfl
  addComm x y := congrArg ofSigned (Int.add_comm _ _)
  mulComm x y := congrArg ofSigned (Int.mul_comm _ _)
  eqComm x y := by show (signed x == signed y) = (signed y == signed x); exact Bool.beq_comm
  subOne x := by
    show ofSigned (signed x - signed unit) = ofSigned (signed x + signed (unit ||| 0x80000000#32))
    have : signed (unit ||| 0x80000000#32) = -signed unit := by decide +kernel
    rw [this, Int.sub_eq_add_neg]

/-- `void f(float& r)`, with a local `float x` and a local `int n`, and a global `float g` at 64. -/
def toyFrame : Frame where
  has := fun o => o = .loc (-4) ∨ o = .loc (-8) ∨ o = .glob 64 ∨ o = .ext 0
  isRef := fun i => i = 12
  tgt := fun _ => .ext 0
  addr := fun
    | .loc i => 1000 + i
    | .glob a => a
    | .ext _ => 2000
  cell := fun i => 1000 + i

def toyTypes : Var → Ty
  | .loc i => if i = -8 then .int else .float
  | _ => .float

def toyStore : Store
  | .loc i => if i = -8 then 4 else 3
  | .glob _ => 5
  | .ext _ => 7

/-- The same, but `x` is -0.0. -/
def zeroStore : Store := toyStore.set (.loc (-4)) 0x80000000

def toyMem (σ : Store) : Int → BitVec 8 :=
  wr32 (wr32 (wr32 (wr32 (wr32 (fun _ => 0) 996 (σ (.loc (-4)))) 992 (σ (.loc (-8)))) 64 (σ (.glob 64))) 2000 (σ (.ext 0))) 1012 2000

def toyState (σ : Store) : IState := ⟨{ Jit.demoVM with mem := toyMem σ, hp := 100, frm := 1000, sp := 900 }, 0, 0, 0⟩

def toyEnv : Env := { Jit.demoEnv with floats := toyFloats }

theorem toy_fits (σ : Store) : toyFrame.Fits toyEnv 0 (toyState σ).vm where
  mem := by show (4092 : Int) ≤ 4096; decide
  small := by show (4092 : Int) < _; decide
  heap := by show (0 : Int) ≤ 100; decide
  stack := by show (900 : Int) ≤ 4092; decide
  range := by
    show ∀ o, _ → 0 ≤ toyFrame.addr o ∧ toyFrame.addr o + 4 ≤ (4092 : Int) ∧ (toyFrame.addr o + 4 ≤ (100 : Int) ∨ 900 ≤ toyFrame.addr o)
    rintro o (rfl | rfl | rfl | rfl) <;> decide
  apart := by
    rintro o o' (rfl | rfl | rfl | rfl) (rfl | rfl | rfl | rfl) h <;> first | exact absurd rfl h | (unfold Apart; decide)
  loc := by
    intro i _ s
    show Res.ok s i = .ok s (1000 + i - 1000)
    rw [show 1000 + i - 1000 = i by omega]
  glob := fun _ _ => rfl
  ref := by
    rintro i rfl
    refine ⟨.inr (.inr (.inr rfl)), ?_, ?_, ?_⟩
    · show 0 ≤ (1012 : Int) ∧ (1012 : Int) + 4 ≤ (4092 : Int) ∧ ((1012 : Int) + 4 ≤ (100 : Int) ∨ 900 ≤ (1012 : Int))
      decide
    · rintro o (rfl | rfl | rfl | rfl) <;> (unfold Apart; decide)
    · intro s; rfl

theorem toy_holds : Holds toyFrame (toyState toyStore).vm toyStore (toyState toyStore).vm where
  same := rfl
  top := Int.le_refl _
  objs := by
    show ∀ o, _ → rd32 (toyMem toyStore) (toyFrame.addr o) = _
    rintro o (rfl | rfl | rfl | rfl) <;> decide +kernel
  refs := by
    show ∀ i, _ → rd32 (toyMem toyStore) (toyFrame.cell i) = _
    rintro i rfl; decide +kernel

theorem zero_holds : Holds toyFrame (toyState zeroStore).vm zeroStore (toyState zeroStore).vm where
  same := rfl
  top := Int.le_refl _
  objs := by
    show ∀ o, _ → rd32 (toyMem zeroStore) (toyFrame.addr o) = _
    rintro o (rfl | rfl | rfl | rfl) <;> decide +kernel
  refs := by
    show ∀ i, _ → rd32 (toyMem zeroStore) (toyFrame.cell i) = _
    rintro i rfl; decide +kernel

/-- What an expression gives: its value, and `x`, `n`, `g` and what `r` refers to. -/
def outcome : Except Err (Value × Store) → Option (Value × List Cell)
  | .ok (v, σ) => some (v, [σ (.loc (-4)), σ (.loc (-8)), σ (.glob 64), σ (.ext 0)])
  | .error _ => none

/-- What the code gives. -/
def found : Res IState Unit → Option (Cell × List Cell)
  | .ok s _ => some (s.pri, [996, 992, 64, 2000].map (rd32 s.vm.mem))
  | _ => none

/-- `r += (x = g * 3.0) - n--`, where `3.0` stands for the number whose bits are 3 -/
def toyExpr : Expr :=
  .opset .add (.ref 12) (.bin .sub (.set (.loc (-4)) (.bin .mul (.var (.glob 64)) (.lit .float 3))) (.inc false false (.loc (-8))))

/-- The hypotheses of `C91_value_partial` are met, and the expression has a value: `x` is 15, `n` is 3, and `r` is 18. -/
example : Agree toyEnv.floats toyArith ∧ toyFrame.Fits toyEnv 0 (toyState toyStore).vm ∧
    (check toyTypes toyExpr).map (fun n => (n.ty, n.const, n.warn)) = some (.float, none, false) ∧ Plain toyArith toyExpr ∧ Known toyFrame toyExpr ∧
    Holds toyFrame (toyState toyStore).vm toyStore (toyState toyStore).vm ∧
    (toyState toyStore).vm.hp + 4 * (need toyExpr : Int) < (toyState toyStore).vm.sp ∧
    outcome (eval toyArith toyTypes toyFrame.tgt toyStore toyExpr) = some (⟨.float, 18⟩, [15, 3, 5, 18]) :=
  ⟨toy_agree, toy_fits _, by decide +kernel, by simp [toyExpr, Plain], by simp [toyExpr, Known, Frame.knows, toyFrame], toy_holds, by decide +kernel,
    by decide +kernel⟩

/-- And that is what the code does. -/
example : (check toyTypes toyExpr).bind (fun n => found (run toyEnv 0 0 n.code (toyState toyStore))) = some (18, [15, 3, 5, 18]) := by decide +kernel

/-- `-1.0 < x <= (n += 2) * g` and its meaning: `n` is converted, `g * 6` is 30. -/
def toyChain : Expr := .chain (.neg (.lit .float one)) .lt (.var (.loc (-4))) (.cons .le (.bin .mul (.opset .add (.loc (-8)) (.lit .int 2)) (.var (.glob 64))) .nil)

example : (check toyTypes toyChain).map (fun n => (n.ty, n.const, n.warn)) = some (.bool, none, false) ∧ Plain toyArith toyChain ∧ Known toyFrame toyChain ∧
    (toyState toyStore).vm.hp + 4 * (need toyChain : Int) < (toyState toyStore).vm.sp ∧
    outcome (eval toyArith toyTypes toyFrame.tgt toyStore toyChain) = some (⟨.bool, 1⟩, [3, 6, 5, 7]) ∧
    (check toyTypes toyChain).bind (fun n => found (run toyEnv 0 0 n.code (toyState toyStore))) = some (1, [3, 6, 5, 7]) :=
  ⟨by decide +kernel, by simp [toyChain, Plain, PlainRest, restConst, floatConst], by simp [toyChain, Known, KnownRest, Frame.knows, toyFrame],
    by decide +kernel, by decide +kernel, by decide +kernel⟩

/-- `n / (n - n)` is a run time error. -/
def toyError : Expr := .bin .div (.var (.loc (-8))) (.bin .sub (.var (.loc (-8))) (.var (.loc (-8))))

example : (check toyTypes toyError).map (·.warn) = some false ∧ Plain toyArith toyError ∧ Known toyFrame toyError ∧
    (match eval toyArith toyTypes toyFrame.tgt toyStore toyError with | .error x => some x | _ => none) = some .divideByZero ∧
    (match (check toyTypes toyError).map (fun n => run toyEnv 0 0 n.code (toyState toyStore)) with | some (.fail _ x) => some x | _ => none) =
      some .divideByZero :=
  ⟨by decide +kernel, by simp [toyError, Plain], by simp [toyError, Known, Frame.knows, toyFrame], by decide +kernel, by decide +kernel⟩

/-- `!(-(3 % 2) < 1 < 7)` is a constant: `false`. -/
def toyConstant : Expr := .not (.chain (.neg (.bin .mod (.lit .int 3) (.lit .int 2))) .lt (.lit .int 1) (.cons .lt (.lit .int 7) .nil))

example : (check toyTypes toyConstant).map (fun n => (n.ty, n.const, n.warn)) = some (.bool, some 0, false) ∧ Plain toyArith toyConstant ∧
    Known toyFrame toyConstant ∧ (toyState toyStore).vm.hp + 4 * (need toyConstant : Int) < (toyState toyStore).vm.sp :=
  ⟨by decide +kernel, by simp [toyConstant, Plain, PlainRest, restConst, floatConst], by simp [toyConstant, Known, KnownRest], by decide +kernel⟩

/-- `!(n < 5)` and `!x`: conditions that meet the hypotheses of `C91_condition_partial`. -/
example : let e : Expr := .not (.bin .lt (.var (.loc (-8))) (.lit .int 5))
    (check toyTypes e).map (·.warn) = some false ∧ (test toyTypes false e).map (·.2) = some .sless ∧ Plain toyArith e ∧ Known toyFrame e ∧
    (∀ v σ', eval toyArith toyTypes toyFrame.tgt toyStore (bare e) = .ok (v, σ') → v.ty = .float → toyArith.truth v.cell = (v.cell != 0)) ∧
    outcome (eval toyArith toyTypes toyFrame.tgt toyStore e) = some (⟨.bool, 0⟩, [3, 4, 5, 7]) := by
  refine ⟨by decide +kernel, by decide +kernel, by simp [Plain, floatConst], by simp [Known, Frame.knows, toyFrame], ?_, by decide +kernel⟩
  intro v σ' h hf
  cases h
  cases hf

example : let e : Expr := .not (.var (.loc (-4)))
    (check toyTypes e).map (·.warn) = some false ∧ (test toyTypes false e).map (·.2) = some .notZero ∧ Plain toyArith e ∧ Known toyFrame e ∧
    (∀ v σ', eval toyArith toyTypes toyFrame.tgt toyStore (bare e) = .ok (v, σ') → v.ty = .float → toyArith.truth v.cell = (v.cell != 0)) ∧
    outcome (eval toyArith toyTypes toyFrame.tgt toyStore e) = some (⟨.bool, 0⟩, [3, 4, 5, 7]) := by
  refine ⟨by decide +kernel, by decide +kernel, by simp [Plain, floatConst], by simp [Known, Frame.knows, toyFrame], ?_, by decide +kernel⟩
  intro v σ' h hf
  cases h
  decide +kernel

/-! ### What goes wrong -/

/-- The value that code leaves in PRI. -/
def priOf : Res IState Unit → Option Cell
  | .ok s _ => some s.pri
  | _ => none

/-- A `float` as a condition is tested by its bits.  If `x` is -0.0, `if (x)` goes into the branch (the jump on zero is not taken), although `x` is equal to
zero and the value of `!x` is `true`.  The condition `!x` is also tested by the bits of `x`, so `if (!x)` does not go into the branch, but
`bool b = !x; if (b)` does. -/
theorem C91_negative_zero : let x : Expr := .var (.loc (-4))
    toyFrame.Fits toyEnv 0 (toyState zeroStore).vm ∧ Holds toyFrame (toyState zeroStore).vm zeroStore (toyState zeroStore).vm ∧
    (outcome (eval toyArith toyTypes toyFrame.tgt zeroStore x)).map (·.1.truth toyArith) = some false ∧
    test toyTypes false x = some (load (.loc (-4)), .zero) ∧
    (priOf (run toyEnv 0 0 (load (.loc (-4))) (toyState zeroStore))).map (fun p => cmpCells .zero p 0) = some false ∧
    test toyTypes false (.not x) = some (load (.loc (-4)), .notZero) ∧
    (priOf (run toyEnv 0 0 (load (.loc (-4))) (toyState zeroStore))).map (fun p => cmpCells .notZero p 0) = some true ∧
    (check toyTypes (.not x)).bind (fun n => priOf (run toyEnv 0 0 n.code (toyState zeroStore))) = some 1 :=
  ⟨toy_fits _, zero_holds, by decide +kernel, rfl, by decide +kernel, rfl, by decide +kernel, by decide +kernel⟩

/-- The value of `!-0.0` is `true`, and so is that of `!x` if `x` is -0.0.  But the compiler makes `false` of the constant. -/
theorem C91_not_of_constant : let e : Expr := .not (.neg (.lit .float 0))
    (check toyTypes e).map (fun n => (n.ty, n.const, n.warn)) = some (.bool, some 0, false) ∧
    (outcome (eval toyArith toyTypes toyFrame.tgt toyStore e)).map (·.1) = some ⟨.bool, 1⟩ := by decide +kernel

/-- A chain of comparisons of constants is decided by comparing the bits as integers: `-2.0 < -1.0 < 0.0` is `false`. -/
theorem C91_constant_chain :
    let e : Expr := .chain (.neg (.lit .float 0x40000000)) .lt (.neg (.lit .float one)) (.cons .lt (.lit .float 0) .nil)
    (check toyTypes e).map (fun n => (n.ty, n.const, n.warn)) = some (.bool, some 0, false) ∧
    (outcome (eval toyArith toyTypes toyFrame.tgt toyStore e)).map (·.1) = some ⟨.bool, 1⟩ := by decide +kernel

end Verif.Flt

import Verif.Proofs.Consts

/-! # C37: constant folding agrees with run time -/
namespace Verif.C37
open Verif.VM Verif.Lang Verif.CodeGen Verif.Compiled

/-- When the compiler folds an operator on two constants to `v`, then the instructions it emits for that operator when it does not
fold, started with the operands in ALT and PRI, leave `v` in PRI and change nothing else in the machine. -/
theorem C37_folding_agrees {E : Env} {m p : Nat} {op : BinOp} {x y v : Cell} {s : IState} (hf : calcBin op x y = .value v)
    (hc : At E.code p (emitBinaryOp op p)) (hx : s.alt = x) (hy : s.pri = y) :
    ∃ k s', (∀ n, loop E (n + k) m p s = loop E n m (p + (emitBinaryOp op p).length) s') ∧ s'.pri = v ∧ s'.vm = s.vm ∧
      s'.polls = s.polls := by
  have hb := calcBin_value hf ⟨fun _ _ => 0, fun _ => none⟩
  cases he : exchanged op with
  | false =>
    have hc' : At E.code p (ins (int32BinaryOp op) p) := by unfold emitBinaryOp at hc; rw [he] at hc; exact hc
    have hlen : (emitBinaryOp op p).length = (ins (int32BinaryOp op) p).length := by unfold emitBinaryOp; rw [he]; rfl
    refine ⟨1, { s with pri := v }, fun n => ?_, rfl, rfl, rfl⟩
    rw [hlen]
    refine loop_next ((enc_binop op).at hc') ?_ n
    have := visit_binop (E := E) (m := m) (σ := ⟨fun _ _ => 0, fun _ => none⟩) (s := s) ((p + (ins (int32BinaryOp op) p).length : Nat) * 4 : Int) op x y
      (by simp only [operandsIn, he, Bool.false_eq_true, if_false]; exact ⟨hx, hy⟩)
    rw [hb] at this
    exact this
  | true =>
    have hc' : At E.code p (ins .xchg p ++ ins (int32BinaryOp op) (p + (ins .xchg p).length)) := by
      unfold emitBinaryOp at hc; rw [he] at hc; exact hc
    have hlen : p + (emitBinaryOp op p).length = p + (ins .xchg p).length + (ins (int32BinaryOp op) (p + (ins .xchg p).length)).length := by
      unfold emitBinaryOp; rw [he]
      show _ = _
      rw [show ((emitIf true (ins .xchg) ⨟ ins (int32BinaryOp op)) p).length = (ins .xchg p ++ ins (int32BinaryOp op) (p + (ins .xchg p).length)).length from rfl,
        List.length_append, Nat.add_assoc]
    refine ⟨2, { s with pri := v, alt := s.pri }, fun n => ?_, rfl, rfl, rfl⟩
    rw [hlen, show n + 2 = (n + 1) + 1 from rfl, loop_next (enc_xchg.at hc'.left) (visit_xchg _) (n + 1)]
    refine loop_next ((enc_binop op).at hc'.right) ?_ n
    have := visit_binop (E := E) (m := m) (σ := ⟨fun _ _ => 0, fun _ => none⟩) (s := { s with pri := s.alt, alt := s.pri })
      ((p + (ins .xchg p).length + (ins (int32BinaryOp op) (p + (ins .xchg p).length)).length : Nat) * 4 : Int) op x y
      (by simp only [operandsIn, he, if_true]; exact ⟨hx, hy⟩)
    rw [hb] at this
    exact this

theorem emitBinaryOp_division {op : BinOp} (h : op = .div ∨ op = .mod) (p : Nat) : emitBinaryOp op p = ins (int32BinaryOp op) p := by
  rcases h with rfl | rfl <;> rfl

theorem operands_division {op : BinOp} (h : op = .div ∨ op = .mod) {x y : Cell} {s : IState} (hx : s.alt = x) (hy : s.pri = y) :
    operandsIn op x y s := by
  rcases h with rfl | rfl <;> exact ⟨hx, hy⟩

/-- When the compiler refuses to fold a division because the divisor is zero, the emitted instructions raise "divide by zero". -/
theorem C37_division_by_zero {E : Env} {m p : Nat} {op : BinOp} {x y : Cell} {s : IState} (hf : calcBin op x y = .error)
    (hc : At E.code p (emitBinaryOp op p)) (hx : s.alt = x) (hy : s.pri = y) :
    (op = .div ∨ op = .mod) ∧ y = 0 ∧ ∀ n, loop E (n + 1) m p s = some (.fail s .divideByZero) := by
  have hb := calcBin_error.1 hf ⟨fun _ _ => 0, fun _ => none⟩
  have hop : op = .div ∨ op = .mod := by
    cases op <;> simp only [calcBin] at hf <;> first | (left; rfl) | (right; rfl) | cases hf | (split at hf <;> cases hf)
  refine ⟨hop, ?_, fun n => ?_⟩
  · rcases hop with rfl | rfl
    all_goals
      simp only [calcBin] at hf
      split at hf
      · assumption
      · split at hf <;> cases hf
  · rw [emitBinaryOp_division hop] at hc
    refine loop_fail ((enc_binop op).at hc) ?_ n
    have := visit_binop (E := E) (m := m) (σ := ⟨fun _ _ => 0, fun _ => none⟩) (s := s) ((p + (ins (int32BinaryOp op) p).length : Nat) * 4 : Int) op x y
      (operands_division hop hx hy)
    rw [hb] at this
    exact this

/-- The remaining operands, for which the C++ expression in the compiler is undefined: a shift by a negative amount or by more
than 31 bits, which is undefined at run time too; and the quotient (or remainder) of the smallest integer and -1, for which the
emitted instructions raise "integer overflow". -/
theorem C37_undefined_operands {E : Env} {m p : Nat} {op : BinOp} {x y : Cell} {s : IState} (hf : calcBin op x y = .ub)
    (hc : At E.code p (emitBinaryOp op p)) (hx : s.alt = x) (hy : s.pri = y) :
    ((op = .shl ∨ op = .shr ∨ op = .shru) ∧ ¬ (0 ≤ y.toInt ∧ y.toInt < 32)) ∨
    ((op = .div ∨ op = .mod) ∧ x.toInt = -2147483648 ∧ y.toInt = -1 ∧
      ∀ n, loop E (n + 1) m p s = some (.fail s .integerOverflow)) := by
  have hop : (op = .shl ∨ op = .shr ∨ op = .shru) ∨ (op = .div ∨ op = .mod) := by
    cases op <;> simp only [calcBin] at hf <;> first | cases hf | simp
  rcases hop with hop | hop
  · refine Or.inl ⟨hop, ?_⟩
    rw [amount_iff]
    rcases hop with rfl | rfl | rfl
    all_goals
      simp only [calcBin] at hf
      split at hf
      · cases hf
      · assumption
  · refine Or.inr ⟨hop, ?_⟩
    have hxy : y ≠ 0 ∧ x = .intMin 32 ∧ y = -1 := by
      rcases hop with rfl | rfl
      all_goals
        simp only [calcBin] at hf
        split at hf
        · cases hf
        · rename_i h0
          split at hf
          · rename_i h; exact ⟨h0, h⟩
          · cases hf
    refine ⟨(toInt_min_iff x).2 hxy.2.1, (toInt_neg1_iff y).2 hxy.2.2, fun n => ?_⟩
    have hb : binop op x y ⟨fun _ _ => 0, fun _ => none⟩ = .err ⟨fun _ _ => 0, fun _ => none⟩ .integerOverflow := by
      rcases hop with rfl | rfl
      all_goals
        simp only [binop]
        rw [if_neg (by rw [toInt_zero_iff]; exact hxy.1), if_pos (by rw [toInt_min_iff, toInt_neg1_iff]; exact hxy.2)]
        rfl
    rw [emitBinaryOp_division hop] at hc
    refine loop_fail ((enc_binop op).at hc) ?_ n
    have := visit_binop (E := E) (m := m) (σ := ⟨fun _ _ => 0, fun _ => none⟩) (s := s) ((p + (ins (int32BinaryOp op) p).length : Nat) * 4 : Int) op x y
      (operands_division hop hx hy)
    rw [hb] at this
    exact this

/-- An expression of any shape that the compiler treats as a constant has that constant as its value in the source language,
whatever the variables hold and whatever functions do; evaluating it changes nothing. -/
theorem C37_constant_expressions (L : Layout) (size : Nat → Nat) (call : Nat → List Cell → Ev Cell) (e : Expr) (v : Cell)
    (h : (gen L e).const = some v) (σ : Store) : eval size call e σ = .ok v σ := gen_const L size call e v h σ

/-- The same for the second evaluator in the compiler, which array sizes, enum values, case labels, `#if` and static assertions
go through: a value it yields without reading uninitialised memory is the value of the expression. -/
theorem C37_required_constants (L : Layout) (size : Nat → Nat) (call : Nat → List Cell → Ev Cell) (e : Expr) (v : Cell)
    (h : evalConst L e = some (.value v)) (σ : Store) : eval size call e σ = .ok v σ := evalConst_sound L size call e v h σ

/-! ### Where the compiler goes wrong -/

/-- `1 ? 2 : 3`, all of whose operands are constant, is not accepted where a constant is required: the test of the second operand
is negated in TernaryExpr::FoldToConstant. -/
theorem C37_constant_conditional_rejected (L : Layout) :
    evalConst L (.tern (.num 1) (.num 2) (.num 3)) = none ∧
    ∀ size call σ, eval size call (.tern (.num 1) (.num 2) (.num 3)) σ = .ok 2 σ :=
  ⟨rfl, fun _ _ _ => rfl⟩

/-- `1 ? x : 3`, which is not constant, is accepted where a constant is required, and its value is that of an uninitialised
variable of the compiler. -/
theorem C37_conditional_reads_uninitialised (L : Layout) :
    evalConst L (.tern (.num 1) (.get (.var (.glob 0))) (.num 3)) = some .ub := rfl

/-- `-2147483648 / -1` between constants makes the compiler itself execute an undefined division. -/
theorem C37_compiler_overflow : calcBin .div (.intMin 32) (-1) = .ub := by decide

/-! ### Examples -/

/-- A machine whose code is `xchg; sshr` (an arithmetic shift). -/
example : At ([35, 67, 0, 0] : List Cell) 0 (emitBinaryOp .shr 0) := by
  refine ⟨fun k hk => ?_, by decide⟩
  have : k = 0 ∨ k = 1 := by have : (emitBinaryOp .shr 0).length = 2 := rfl; omega
  rcases this with rfl | rfl <;> rfl

example : calcBin .shr (-17) 2 = .value (-5) := by decide
example : calcBin .mod (-17) 5 = .value (-2) := by decide
example : calcBin .mod 17 0 = .error := by decide
example : calcBin .shl 1 32 = .ub := by decide

/-- `(3 < 5 <= 5) + (1 || 0) * ~7` is a constant. -/
example (L : Layout) : (gen L (.bin .add (.chain (.num 3) .lt (.num 5) (.one .le (.num 5)))
    (.bin .mul (.logic true (.num 1) (.num 0)) (.un .inv (.num 7))))).const = some (-7) := by rfl

/-- `0 ? x : 5` is accepted as a constant. -/
example (L : Layout) : evalConst L (.bin .add (.tern (.num 0) (.get (.var (.glob 0))) (.num 5)) (.num 1)) = some (.value 6) := by rfl

end Verif.C37

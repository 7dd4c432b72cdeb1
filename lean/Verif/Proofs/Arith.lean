import Verif.Proofs.Steps

/-! The operators of the source language, the instructions that compute them and their evaluation at compile time. -/
namespace Verif.Compiled
open Verif.VM Verif.Lang Verif.CodeGen

theorem int_toInt (x : Cell) : int x.toInt = x := BitVec.ofInt_toInt

theorem int_add (x y : Cell) : int (x.toInt + y.toInt) = x + y := by
  unfold int; rw [BitVec.ofInt_add, BitVec.ofInt_toInt, BitVec.ofInt_toInt]

theorem int_sub (x y : Cell) : int (x.toInt - y.toInt) = x - y := by
  unfold int; rw [Int.sub_eq_add_neg, BitVec.ofInt_add, BitVec.ofInt_neg, BitVec.ofInt_toInt, BitVec.ofInt_toInt, BitVec.sub_eq_add_neg]

theorem int_mul (x y : Cell) : int (x.toInt * y.toInt) = x * y := by
  unfold int; rw [BitVec.ofInt_mul, BitVec.ofInt_toInt, BitVec.ofInt_toInt]

theorem int_neg (x : Cell) : int (-x.toInt) = -x := by
  unfold int; rw [BitVec.ofInt_neg, BitVec.ofInt_toInt]

theorem int_tdiv (x y : Cell) : int (x.toInt.tdiv y.toInt) = x.sdiv y := by
  apply BitVec.eq_of_toInt_eq
  unfold int
  rw [BitVec.toInt_ofInt, BitVec.toInt_sdiv]

theorem int_tmod (x y : Cell) : int (x.toInt.tmod y.toInt) = x.srem y := by
  unfold int
  rw [← BitVec.toInt_srem, BitVec.ofInt_toInt]

theorem amount_iff (y : Cell) : (0 ≤ y.toInt ∧ y.toInt < 32) ↔ y.toNat < 32 := by
  have := y.isLt
  rw [BitVec.toInt_eq_toNat_cond]
  split <;> omega

theorem amount_toNat {y : Cell} (h : y.toNat < 32) : y.toInt.toNat = y.toNat := by
  rw [BitVec.toInt_eq_toNat_cond]
  split <;> omega

theorem int_shl (x : Cell) (n : Nat) : int (x.toInt * 2 ^ n) = x <<< n := by
  rw [BitVec.shiftLeft_eq_mul_twoPow]
  unfold int
  rw [BitVec.ofInt_mul, BitVec.ofInt_toInt]
  congr 1
  rw [show ((2 : Int) ^ n) = ((2 ^ n : Nat) : Int) by simp, BitVec.ofInt_natCast]
  apply BitVec.eq_of_toNat_eq
  rw [BitVec.toNat_ofNat, BitVec.toNat_twoPow]

theorem int_shr (x : Cell) (n : Nat) : int (x.toInt / 2 ^ n) = x.sshiftRight n := by
  rw [← int_toInt (x.sshiftRight n), BitVec.toInt_sshiftRight, Int.shiftRight_eq_div_pow]
  simp only [Int.natCast_pow, Int.cast_ofNat_Int]

theorem int_shru (x : Cell) (n : Nat) : int ((x.toNat / 2 ^ n : Nat) : Int) = x >>> n := by
  unfold int
  rw [BitVec.ofInt_natCast]
  apply BitVec.eq_of_toNat_eq
  rw [BitVec.toNat_ofNat, BitVec.toNat_ushiftRight, Nat.shiftRight_eq_div_pow]
  exact Nat.mod_eq_of_lt (Nat.lt_of_le_of_lt (Nat.div_le_self _ _) x.isLt)

theorem toInt_zero_iff (y : Cell) : y.toInt = 0 ↔ y = 0 := by
  constructor
  · intro h; apply BitVec.eq_of_toInt_eq; rw [h]; rfl
  · rintro rfl; rfl

theorem toInt_neg1_iff (y : Cell) : y.toInt = -1 ↔ y = -1 := by
  constructor
  · intro h; apply BitVec.eq_of_toInt_eq; rw [h]; rfl
  · rintro rfl; rfl

theorem toInt_min_iff (y : Cell) : y.toInt = -2147483648 ↔ y = BitVec.intMin 32 := by
  constructor
  · intro h; apply BitVec.eq_of_toInt_eq; rw [h]; rfl
  · rintro rfl; rfl

theorem rel_eq_calcRel (op : RelOp) (x y : Cell) : rel op x y = calcRel op x y := by
  cases op <;> simp only [rel, calcRel, BitVec.slt_eq_decide, BitVec.sle_eq_decide, ge_iff_le, gt_iff_lt]

theorem unop_eq_calcUn (op : UnOp) (x : Cell) : unop op x = calcUn op x := by
  cases op
  · rfl
  · simp only [unop, calcUn, truth, toInt_zero_iff, decide_eq_true_eq]
  · simp only [unop, calcUn, int_neg]

/-- Compile time evaluation computes what the source means. -/
theorem calcBin_value {op : BinOp} {x y v : Cell} (h : calcBin op x y = .value v) (σ : Store) : binop op x y σ = .ok v σ := by
  cases op <;> simp only [calcBin, Folded.value.injEq] at h <;> simp only [binop]
  case div | mod =>
    split at h
    · cases h
    · split at h
      · cases h
      · cases h
        rename_i h1 h2
        rw [if_neg (by rw [toInt_zero_iff]; exact h1), if_neg (by rw [toInt_min_iff, toInt_neg1_iff]; exact h2)]
        first | rw [int_tdiv] | rw [int_tmod]
        rfl
  case shl | shr | shru =>
    split at h
    · cases h
      rename_i h1
      rw [if_pos ((amount_iff y).2 h1), amount_toNat h1]
      first | rw [int_shl] | rw [int_shr] | rw [int_shru]
      rfl
    · cases h
  case mul => rw [int_mul, h]; rfl
  case add => rw [int_add, h]; rfl
  case sub => rw [int_sub, h]; rfl
  case and | or | xor => rw [h]; rfl
  case eq => subst h; simp only [truth, decide_eq_true_eq, beq_iff_eq]; rfl
  case ne => subst h; simp only [truth, decide_eq_true_eq, bne_iff_ne]; rfl
  case gt | lt | le | ge => subst h; rw [rel_eq_calcRel]; rfl

theorem calcBin_error {op : BinOp} {x y : Cell} : calcBin op x y = .error ↔ ∀ σ, binop op x y σ = .err σ .divideByZero := by
  constructor
  · intro h σ
    cases op <;> simp only [calcBin] at h <;> (try cases h)
    case div | mod =>
      split at h
      · rename_i h1
        simp only [binop]
        rw [if_pos ((toInt_zero_iff y).2 h1)]; rfl
      · split at h <;> cases h
    case shl | shr | shru => split at h <;> cases h
  · intro h
    match hc : calcBin op x y with
    | .error => rfl
    | .value v => have := calcBin_value hc ⟨fun _ _ => 0, fun _ => none⟩; rw [h] at this; cases this
    | .ub =>
      have h := h ⟨fun _ _ => 0, fun _ => none⟩
      exfalso
      cases op <;> simp only [calcBin] at hc <;> (try cases hc) <;> simp only [binop] at h
      case div | mod =>
        split at hc
        · cases hc
        · rename_i h1
          rw [if_neg (by rw [toInt_zero_iff]; exact h1)] at h
          split at h <;> cases h
      case shl | shr | shru => split at h <;> cases h

theorem calcBin_ub {op : BinOp} {x y : Cell} (h : calcBin op x y = .ub) (σ : Store) :
    binop op x y σ = .undef ∨ binop op x y σ = .err σ .integerOverflow := by
  cases op <;> simp only [calcBin] at h <;> (try cases h) <;> simp only [binop]
  case div | mod =>
    split at h
    · cases h
    · rename_i h1
      split at h
      · rename_i h2
        rw [if_neg (by rw [toInt_zero_iff]; exact h1), if_pos (by rw [toInt_min_iff, toInt_neg1_iff]; exact h2)]
        exact Or.inr rfl
      · cases h
  case shl | shr | shru =>
    split at h
    · cases h
    · rename_i h1
      rw [if_neg (by rw [amount_iff]; exact h1)]
      exact Or.inl rfl

/-- The state in which the instruction for an operator finds its operands. -/
def operandsIn (op : BinOp) (x y : Cell) (s : IState) : Prop :=
  if exchanged op then s.pri = x ∧ s.alt = y else s.alt = x ∧ s.pri = y

theorem binop_cases (op : BinOp) (x y : Cell) : (∃ v, calcBin op x y = .value v) ∨ calcBin op x y = .error ∨ calcBin op x y = .ub := by
  cases h : calcBin op x y with
  | value v => exact Or.inl ⟨v, rfl⟩
  | error => exact Or.inr (Or.inl rfl)
  | ub => exact Or.inr (Or.inr rfl)

section
variable {E : Env} {L : Layout} {lim : Int} {m : Nat} {b : State} {N p : Nat} {s : IState} {σ : Store}

theorem visit_binop (here : Int) (op : BinOp) (x y : Cell) (h : operandsIn op x y s) :
    visit E m here (int32BinaryOp op) s =
      match binop op x y σ with
      | .ok v _ => .ok { s with pri := v } .next
      | .err _ e => .fail s e
      | _ => .ub := by
  cases op <;> simp only [operandsIn, exchanged, if_true, if_false, Bool.false_eq_true] at h <;> obtain ⟨rfl, rfl⟩ := h <;> simp only [int32BinaryOp, binop]
  case mul => rw [int_mul, BitVec.mul_comm]; rfl
  case add => rw [int_add, BitVec.add_comm]; rfl
  case sub => rw [int_sub]; rfl
  case and => rw [BitVec.and_comm]; rfl
  case or => rw [BitVec.or_comm]; rfl
  case xor => rw [BitVec.xor_comm]; rfl
  case div | mod =>
    rcases Decidable.em (s.pri = 0) with h | h
    · rw [if_pos ((toInt_zero_iff _).2 h)]
      show IM.bind (IM.bind (getR .pri) fun d => IM.bind (getR .alt) fun n => (match divCheck n d with | some e => throwE e | none => setR .pri _ : IM Unit)) (fun _ => IM.pure Ctl.next) s = _
      simp only [IM.bind, getR, IState.reg, divCheck, h, if_true]
      rfl
    · rw [if_neg (by rw [toInt_zero_iff]; exact h)]
      show IM.bind (IM.bind (getR .pri) fun d => IM.bind (getR .alt) fun n => (match divCheck n d with | some e => throwE e | none => setR .pri _ : IM Unit)) (fun _ => IM.pure Ctl.next) s = _
      simp only [IM.bind, getR, IState.reg, divCheck, h, if_false]
      rcases Decidable.em (s.alt = BitVec.intMin 32 ∧ s.pri = -1) with h2 | h2
      · rw [if_pos h2.symm, if_pos (by rw [toInt_min_iff, toInt_neg1_iff]; exact h2)]
        rfl
      · rw [if_neg (fun h3 => h2 (And.symm h3)), if_neg (by rw [toInt_min_iff, toInt_neg1_iff]; exact h2)]
        first | rw [int_tdiv] | rw [int_tmod]
        rfl
  case shl | shr | shru =>
    rcases Decidable.em (s.alt.toNat < 32) with h | h
    · rw [if_pos ((amount_iff _).2 h), amount_toNat h]
      show IM.bind (IM.bind (getR .pri) fun d => IM.bind (getR .alt) fun n => (if n.toNat < 32 then setR .pri _ else undef : IM Unit)) (fun _ => IM.pure Ctl.next) s = _
      simp only [IM.bind, getR, IState.reg, h, if_true]
      first | rw [int_shl] | rw [int_shr] | rw [int_shru]
      rfl
    · rw [if_neg (by rw [amount_iff]; exact h)]
      show IM.bind (IM.bind (getR .pri) fun d => IM.bind (getR .alt) fun n => (if n.toNat < 32 then setR .pri _ else undef : IM Unit)) (fun _ => IM.pure Ctl.next) s = _
      simp only [IM.bind, getR, IState.reg, h, if_false]
      rfl
  case eq =>
    show Res.ok (s.setReg .pri (boolCell (s.pri == s.alt))) Ctl.next = Res.ok { s with pri := truth (decide (s.alt = s.pri)) } Ctl.next
    rw [show (s.pri == s.alt) = decide (s.alt = s.pri) by rw [Bool.eq_iff_iff]; simp only [beq_iff_eq, bne_iff_ne, decide_eq_true_eq]; first | exact eq_comm | exact ne_comm]
    rfl
  case ne =>
    show Res.ok (s.setReg .pri (boolCell (s.pri != s.alt))) Ctl.next = Res.ok { s with pri := truth (decide (s.alt ≠ s.pri)) } Ctl.next
    rw [show (s.pri != s.alt) = decide (s.alt ≠ s.pri) by rw [Bool.eq_iff_iff]; simp only [beq_iff_eq, bne_iff_ne, decide_eq_true_eq]; first | exact eq_comm | exact ne_comm]
    rfl
  case lt | le | gt | ge => rw [rel_eq_calcRel]; rfl

theorem visit_xchg (here : Int) : visit E m here .xchg s = .ok { s with pri := s.alt, alt := s.pri } .next := rfl

/-- The code for an operator computes it. -/
theorem Runs.binop (op : BinOp) {x y : Cell} (h : At E.code p (emitBinaryOp op p)) (hx : s.alt = x) (hy : s.pri = y)
    (hG : Globals L σ.g s.vm.mem) :
    Runs E L lim m N p s (binop op x y σ) fun v σ' N' q s' =>
      σ' = σ ∧ N' = N ∧ q = p + (emitBinaryOp op p).length ∧ s' = { s with pri := v, alt := if exchanged op then y else x } := by
  have main : ∀ (p q : Nat) (s : IState), At E.code p (CodeGen.ins (int32BinaryOp op) p) → q = p + (CodeGen.ins (int32BinaryOp op) p).length →
      operandsIn op x y s → Globals L σ.g s.vm.mem → Runs E L lim m N p s (Lang.binop op x y σ) fun v σ' N' q' s' =>
      σ' = σ ∧ N' = N ∧ q' = q ∧ s' = { s with pri := v } := by
    rintro p q s h rfl ho hG
    have hv : ∀ here, visit E m here (int32BinaryOp op) s = _ := fun here => visit_binop (σ := σ) here op x y ho
    rcases binop_cases op x y with ⟨v, hc⟩ | hc | hc
    · have hb := calcBin_value hc σ
      rw [hb] at hv ⊢
      exact Runs.ins h (enc_binop op) hv (Runs.ok ⟨rfl, rfl, rfl, rfl⟩)
    · have hb := calcBin_error.1 hc σ
      rw [hb] at hv ⊢
      exact Runs.fail (loop_fail ((enc_binop op).at h) (hv _) 0) hG
    · rcases calcBin_ub hc σ with hb | hb
      · rw [hb]; exact True.intro
      · rw [hb] at hv ⊢
        exact Runs.fail (loop_fail ((enc_binop op).at h) (hv _) 0) hG
  unfold emitBinaryOp at h ⊢
  cases he : exchanged op with
  | false =>
    rw [he] at h
    have h' : At E.code p (CodeGen.ins (int32BinaryOp op) p) := h
    refine (main p _ s h' rfl (by simp only [operandsIn, he, if_true, Bool.false_eq_true, if_false]; exact ⟨hx, hy⟩) hG).mono ?_
    rintro v σ' N' q s' _ ⟨rfl, rfl, rfl, rfl⟩
    refine ⟨rfl, rfl, rfl, ?_⟩
    rw [← hx]; rfl
  | true =>
    rw [he] at h
    have h1 : At E.code p (CodeGen.ins .xchg p) := At.left h
    have h2 : At E.code (p + (CodeGen.ins .xchg p).length) (CodeGen.ins (int32BinaryOp op) (p + (CodeGen.ins .xchg p).length)) := At.right h
    refine Runs.ins h1 enc_xchg (fun here => visit_xchg here) ?_
    refine (main _ _ { s with pri := s.alt, alt := s.pri } h2 rfl (by simp only [operandsIn, he, if_true, Bool.false_eq_true, if_false]; exact ⟨hx, hy⟩) hG).mono ?_
    rintro v σ' N' q s' _ ⟨rfl, rfl, rfl, rfl⟩
    refine ⟨rfl, rfl, ?_, ?_⟩
    · show _ = p + (CodeGen.ins .xchg p ++ _).length
      rw [List.length_append, Nat.add_assoc]
      rfl
    · rw [← hy]; rfl

end

end Verif.Compiled

import Verif.Proofs.X64Asm

/-! Lemmas for C61: every method of the assembler. -/
namespace Verif.X64

theorem fin16 {P : Fin 16 → Prop} (h0 : P 0) (h1 : P 1) (h2 : P 2) (h3 : P 3) (h4 : P 4) (h5 : P 5) (h6 : P 6) (h7 : P 7) (h8 : P 8) (h9 : P 9) (h10 : P 10) (h11 : P 11) (h12 : P 12) (h13 : P 13) (h14 : P 14) (h15 : P 15) : ∀ r, P r := fun r => match r with
  | ⟨0, _⟩ => h0
  | ⟨1, _⟩ => h1
  | ⟨2, _⟩ => h2
  | ⟨3, _⟩ => h3
  | ⟨4, _⟩ => h4
  | ⟨5, _⟩ => h5
  | ⟨6, _⟩ => h6
  | ⟨7, _⟩ => h7
  | ⟨8, _⟩ => h8
  | ⟨9, _⟩ => h9
  | ⟨10, _⟩ => h10
  | ⟨11, _⟩ => h11
  | ⟨12, _⟩ => h12
  | ⟨13, _⟩ => h13
  | ⟨14, _⟩ => h14
  | ⟨15, _⟩ => h15
  | ⟨_ + 16, h⟩ => absurd h (by omega)

/-- An opcode byte that is no prefix. -/
abbrev Plain (opc : Byte) : Prop := opc ≠ 0x0f ∧ opc.toNat / 16 ≠ 4 ∧ opc ≠ 0x66 ∧ opc ≠ 0xf3

section
variable {rm : RmArg} {x b : Bool} {t : RM} (H : RmOk rm x b t) (rest : List Byte)
include H

theorem op1Q (q : Bool) (opc : Byte) (o : OpReg) (ho : o.Ok) (hp : Plain opc)
    (F : Width → Bool → Nat → RM → Option Instr)
    (hF : ∀ p t, decode1 p opc t = withRM p t (F p.width p.r)) :
    decode ((if q then emit1_64 else emit1) opc o rm ++ rest) =
      (F (wid q) o.hr o.field.toNat t).map fun i => (i, rest) := by
  obtain ⟨p, hw, hx, hb, hr, e⟩ := decode_emitQ H o rest q opc hp.1 hp.2.1 hp.2.2.1 hp.2.2.2
  rw [e, hF, withRM_emit H o rest p hx hb ho, hw, hr]

theorem op1QI (q : Bool) (opc : Byte) (o : OpReg) (ho : o.Ok) (hp : Plain opc) {bs : List Byte}
    {imm : List Byte → Option (Int × List Byte)} {v : Int} (hi : imm (bs ++ rest) = some (v, rest))
    (F : Width → Bool → Nat → RM → Int → Option Instr)
    (hF : ∀ p t, decode1 p opc t = withRMI p t imm (F p.width p.r)) :
    decode ((if q then emit1_64 else emit1) opc o rm ++ bs ++ rest) =
      (F (wid q) o.hr o.field.toNat t v).map fun i => (i, rest) := by
  rw [List.append_assoc]
  obtain ⟨p, hw, hx, hb, hr, e⟩ := decode_emitQ H o (bs ++ rest) q opc hp.1 hp.2.1 hp.2.2.1 hp.2.2.2
  rw [e, hF, withRMI_emit H o rest hi p hx hb ho, hw, hr]

theorem op2Q (q : Bool) (opc : Byte) (o : OpReg) (ho : o.Ok)
    (F : Width → Bool → Nat → RM → Option Instr)
    (hF : ∀ p t, p.f3 = false → p.p66 = false → decode0f p opc t = withRM p t (F p.width p.r)) :
    decode ((if q then emit2_64 else emit2) 0x0f opc o rm ++ rest) =
      (F (wid q) o.hr o.field.toNat t).map fun i => (i, rest) := by
  obtain ⟨p, hw, hx, hb, hr, h3, h6, _, e⟩ := decode_emit2Q H o rest q opc
  rw [e, hF p _ h3 h6, withRM_emit H o rest p hx hb ho, hw, hr]

theorem opSse (f3 : Bool) (opc : Byte) (o : OpReg) (ho : o.Ok) (F : Bool → Nat → RM → Option Instr)
    (hF : ∀ p t, p.f3 = f3 → p.p66 = !f3 → p.w = false → decode0f p opc t = withRM p t (F p.r)) :
    decode (emit3sse (if f3 then 0xf3 else 0x66) 0x0f opc o rm ++ rest) =
      (F false o.field.toNat t).map fun i => (i, rest) := by
  rw [decode_sse H o rest opc _ f3 rfl, hF ⟨!f3, f3, x || b, false, false, x, b⟩ _ rfl rfl rfl,
    withRM_emit H o rest _ rfl rfl ho]

end

theorem alu_ok (q : Bool) (op : Alu) (d : RO) (s : Gpr) (h : d.Legal) (rest : List Byte) :
    decode ((Call.alu q op d s).bytes ++ rest) = some (.alu op (wid q) d.meaning s, rest) := by
  simp only [Call.bytes]
  rw [op1Q (rmOk_ro d h) rest q op.opcode (.gpr s) trivial (by cases op <;> decide)
    (fun wd r n m => some (.alu op wd m (ext r n))) (by intro p t; cases op <;> rfl), ext_field_gpr]
  rfl

theorem cmplRM_ok (d : Gpr) (s : MemArg) (h : s.Legal) (rest : List Byte) :
    decode ((Call.cmplRM d s).bytes ++ rest) = some (.aluL .cmp .l d (.mem s.meaning), rest) := by
  refine (op1Q (rmOk_mem s h) rest false 0x3b (.gpr d) trivial (by decide)
    (fun wd r n m => some (.aluL .cmp wd (ext r n) m)) (fun _ _ => rfl)).trans ?_
  rw [ext_field_gpr]; rfl

theorem imm_ok {rm : RmArg} {x b : Bool} {t : RM} (H : RmOk rm x b t) (q : Bool) (op : Alu) (imm : BitVec 32)
    (rest : List Byte) :
    (fits8 imm = true → decode ((if q then emit1_64 else emit1) 0x83 (.num op.num) rm ++ [trunc8 imm] ++ rest)
      = some (.aluI op (wid q) t imm.toInt, rest)) ∧
    decode ((if q then emit1_64 else emit1) 0x81 (.num op.num) rm ++ le32 imm ++ rest)
      = some (.aluI op (wid q) t imm.toInt, rest) := by
  have o1 : (OpReg.num op.num).Ok := by show _ < 8; cases op <;> decide
  have o2 : aluOf (OpReg.num op.num).field.toNat = op := by cases op <;> rfl
  constructor
  · intro hf
    rw [op1QI H rest q 0x83 (.num op.num) o1 (by decide) (trunc8_imm hf rest)
      (fun wd _ n m v => some (.aluI (aluOf n) wd m v)) (fun _ _ => rfl), o2]
    rfl
  · rw [op1QI H rest q 0x81 (.num op.num) o1 (by decide) (le32_imm imm rest)
      (fun wd _ n m v => some (.aluI (aluOf n) wd m v)) (fun _ _ => rfl), o2]
    rfl

theorem aluI_ok (q : Bool) (op : Alu) (d : RO) (imm : BitVec 32) (h : d.Legal)
    (hr : q = true → d = .reg 0 → fits8 imm = true) (rest : List Byte) :
    decode ((Call.aluI q op d imm).bytes ++ rest) = some (.aluI op (wid q) d.meaning imm.toInt, rest) := by
  simp only [Call.bytes]
  have H := imm_ok (rmOk_ro d h) q op imm rest
  cases d with
  | mem m =>
    simp only [aluImm]
    split
    · rename_i hf; exact H.1 hf
    · exact H.2
  | reg r =>
    simp only [aluImm]
    split
    · rename_i hf; exact H.1 hf
    · rename_i hf
      split
      · rename_i h0
        subst h0
        cases q with
        | true => exact absurd (hr rfl rfl) hf
        | false =>
          have e2 : ∀ t, decode ([0x05 ||| (op.num <<< 3)] ++ t) =
              withImm imm32 t (.aluI op .l (.reg 0)) := by
            intro t; cases op <;> rfl
          rw [List.append_assoc, e2]
          simp only [withImm, le32_imm]
          rfl
      · exact H.2

theorem andlRI_ok (d : Gpr) (imm : BitVec 32) (rest : List Byte) :
    decode ((Call.andlRI d imm).bytes ++ rest) = some (.aluI .and .l (.reg d) imm.toInt, rest) := by
  simp only [Call.bytes]
  have H := imm_ok (rmOk_wrapped d) false .and imm rest
  split
  · rename_i hf; exact H.1 hf
  · exact H.2

theorem test_ok (q : Bool) (d : RO) (s : Gpr) (h : d.Legal) (rest : List Byte) :
    decode ((Call.test q d s).bytes ++ rest) = some (.test (wid q) d.meaning s, rest) := by
  simp only [Call.bytes]
  rw [op1Q (rmOk_ro d h) rest q 0x85 (.gpr s) trivial (by decide)
    (fun wd r n m => some (.test wd m (ext r n))) (fun _ _ => rfl), ext_field_gpr]
  rfl

theorem testqI_ok (d : RO) (imm : BitVec 32) (h : d.Legal) (rest : List Byte) :
    decode ((Call.testqI d imm).bytes ++ rest) = some (.testI .q d.meaning imm.toInt, rest) := by
  have key : decode (emit1_64 0xf7 (.num 0) d.rm ++ le32 imm ++ rest) = some (.testI .q d.meaning imm.toInt, rest) := by
    rw [List.append_assoc, decode_emit1_64 (rmOk_ro d h) (.num 0) _ 0xf7 (by decide)]
    have e2 : ∀ p t, decode1 p 0xf7 t = match modrm p t with
      | none => none
      | some (r, m, t) =>
        if r = 0 then withImm imm32 t (.testI p.width m)
        else if r = 2 then some (.not p.width m, t)
        else if r = 3 then some (.neg p.width m, t)
        else if r = 7 then some (.idiv p.width m, t)
        else none := fun _ _ => rfl
    rw [e2, (rmOk_ro d h).dec _ (.num 0) _ rfl rfl (by decide)]
    show withImm imm32 (le32 imm ++ rest) (.testI .q d.meaning) = _
    simp only [withImm, le32_imm]
    rfl
  cases d with
  | mem m => exact key
  | reg r =>
    simp only [Call.bytes]
    split
    · rename_i h0; subst h0
      rw [List.append_assoc]
      show withImm imm32 (le32 imm ++ rest) (.testI .q (.reg 0)) = _
      simp only [withImm, le32_imm]
      rfl
    · exact key

/-- not, neg, idiv -/
theorem f7_ok' (q : Bool) (n : Byte) (d : Gpr) (rest : List Byte) (F : Width → RM → Instr) (hn : n.toNat < 8)
    (hF : ∀ (p : Pre) (m : RM) (t : List Byte), (if n.toNat = 0 then withImm imm32 t (.testI p.width m)
        else if n.toNat = 2 then some (.not p.width m, t)
        else if n.toNat = 3 then some (.neg p.width m, t)
        else if n.toNat = 7 then some (.idiv p.width m, t)
        else none) = some (F p.width m, t)) :
    decode ((if q then emit1_64 else emit1) 0xf7 (.num n) (.gpr d) ++ rest) = some (F (wid q) (.reg d), rest) := by
  obtain ⟨p, hw, hx, hb, hr, e⟩ := decode_emitQ (rmOk_gpr d) (.num n) rest q 0xf7 (by decide) (by decide)
    (by decide) (by decide)
  have e2 : ∀ p t, decode1 p 0xf7 t = match modrm p t with
      | none => none
      | some (r, m, t) =>
        if r = 0 then withImm imm32 t (.testI p.width m)
        else if r = 2 then some (.not p.width m, t)
        else if r = 3 then some (.neg p.width m, t)
        else if r = 7 then some (.idiv p.width m, t)
        else none := fun _ _ => rfl
  rw [e, e2, (rmOk_gpr d).dec p (.num n) rest hx hb hn, ← hw]
  exact hF p (.reg d) rest

theorem not_ok (q : Bool) (d : Gpr) (rest : List Byte) :
    decode ((Call.not q d).bytes ++ rest) = some (.not (wid q) (.reg d), rest) :=
  f7_ok' q 2 d rest .not (by decide) (fun _ _ _ => rfl)

theorem neg_ok (q : Bool) (d : Gpr) (rest : List Byte) :
    decode ((Call.neg q d).bytes ++ rest) = some (.neg (wid q) (.reg d), rest) :=
  f7_ok' q 3 d rest .neg (by decide) (fun _ _ _ => rfl)

theorem idiv_ok (q : Bool) (d : Gpr) (rest : List Byte) :
    decode ((Call.idiv q d).bytes ++ rest) = some (.idiv (wid q) (.reg d), rest) :=
  f7_ok' q 7 d rest .idiv (by decide) (fun _ _ _ => rfl)

theorem movL_ok (q : Bool) {rm : RmArg} {x b : Bool} {t : RM} (H : RmOk rm x b t) (d : Gpr) (rest : List Byte) :
    decode ((if q then emit1_64 else emit1) 0x8b (.gpr d) rm ++ rest) = some (.movL (wid q) d t, rest) := by
  rw [op1Q H rest q 0x8b (.gpr d) trivial (by decide)
    (fun wd r n m => some (.movL wd (ext r n) m)) (fun _ _ => rfl), ext_field_gpr]
  rfl

theorem mov_ok (q : Bool) {rm : RmArg} {x b : Bool} {t : RM} (H : RmOk rm x b t) (s : Gpr) (rest : List Byte) :
    decode ((if q then emit1_64 else emit1) 0x89 (.gpr s) rm ++ rest) = some (.mov (wid q) t s, rest) := by
  rw [op1Q H rest q 0x89 (.gpr s) trivial (by decide)
    (fun wd r n m => some (.mov wd m (ext r n))) (fun _ _ => rfl), ext_field_gpr]
  rfl

theorem movqRR_ok (d s : Gpr) (rest : List Byte) :
    decode ((Call.movqRR d s).bytes ++ rest) = some (.movL .q d (.reg s), rest) := movL_ok true (rmOk_gpr s) d rest
theorem movqRM_ok (d : Gpr) (s : MemArg) (h : s.Legal) (rest : List Byte) :
    decode ((Call.movqRM d s).bytes ++ rest) = some (.movL .q d (.mem s.meaning), rest) :=
  movL_ok true (rmOk_mem s h) d rest
theorem movqMR_ok (d : MemArg) (s : Gpr) (h : d.Legal) (rest : List Byte) :
    decode ((Call.movqMR d s).bytes ++ rest) = some (.mov .q (.mem d.meaning) s, rest) :=
  mov_ok true (rmOk_mem d h) s rest
theorem movlRM_ok (d : Gpr) (s : MemArg) (h : s.Legal) (rest : List Byte) :
    decode ((Call.movlRM d s).bytes ++ rest) = some (.movL .l d (.mem s.meaning), rest) :=
  movL_ok false (rmOk_mem s h) d rest
theorem movl_ok (d : RO) (s : Gpr) (h : d.Legal) (rest : List Byte) :
    decode ((Call.movl d s).bytes ++ rest) = some (.mov .l d.meaning s, rest) :=
  mov_ok false (rmOk_ro d h) s rest
/-- The missing prefix. -/
theorem movw_is_movl (d : RO) (s : Gpr) (h : d.Legal) (rest : List Byte) :
    decode ((Call.movw d s).bytes ++ rest) = some (.mov .l d.meaning s, rest) :=
  mov_ok false (rmOk_ro d h) s rest

theorem movI_ok (q : Bool) {rm : RmArg} {x b : Bool} {t : RM} (H : RmOk rm x b t) (imm : BitVec 32) (rest : List Byte) :
    decode ((if q then emit1_64 else emit1) 0xc7 (.num 0) rm ++ le32 imm ++ rest) =
      some (.movI (wid q) t imm.toInt, rest) := by
  rw [op1QI H rest q 0xc7 (.num 0) (by show _ < 8; decide) (by decide) (le32_imm imm rest)
    (fun wd _ n m v => if n = 0 then some (.movI wd m v) else none) (fun _ _ => rfl)]
  rfl

theorem movlMI_ok (d : MemArg) (imm : BitVec 32) (h : d.Legal) (rest : List Byte) :
    decode ((Call.movlMI d imm).bytes ++ rest) = some (.movI .l (.mem d.meaning) imm.toInt, rest) :=
  movI_ok false (rmOk_mem d h) imm rest

theorem movA_l (d : Gpr) (t : List Byte) :
    decode (emit1MaybeRex (0xb8 + lowBits d) d ++ t) = withImm imm32 t (.movA .l d) := by
  revert d; exact fin16 rfl rfl rfl rfl rfl rfl rfl rfl rfl rfl rfl rfl rfl rfl rfl rfl

theorem movA_q (d : Gpr) (t : List Byte) :
    decode (emit1_64_rex (0xb8 + lowBits d) d ++ t) = withImm imm64 t (.movA .q d) := by
  revert d; exact fin16 rfl rfl rfl rfl rfl rfl rfl rfl rfl rfl rfl rfl rfl rfl rfl rfl

theorem push_ok (d : Gpr) (t : List Byte) : decode ((Call.push d).bytes ++ t) = some (.push d, t) := by
  revert d; exact fin16 rfl rfl rfl rfl rfl rfl rfl rfl rfl rfl rfl rfl rfl rfl rfl rfl

theorem pop_ok (d : Gpr) (t : List Byte) : decode ((Call.pop d).bytes ++ t) = some (.pop d, t) := by
  revert d; exact fin16 rfl rfl rfl rfl rfl rfl rfl rfl rfl rfl rfl rfl rfl rfl rfl rfl

theorem pushI_ok (imm : BitVec 32) (rest : List Byte) :
    decode ((Call.pushI imm).bytes ++ rest) = some (.pushI imm.toInt, rest) := by
  simp only [Call.bytes]
  split
  · rename_i h
    show withImm imm8 (trunc8 imm :: rest) .pushI = _
    simp only [withImm, trunc8_imm h]; rfl
  · show withImm imm32 (le32 imm ++ rest) .pushI = _
    simp only [withImm, le32_imm]; rfl

theorem movlRI_ok (d : Gpr) (imm : BitVec 32) (rest : List Byte) :
    decode ((Call.movlRI d imm).bytes ++ rest) = some (.movA .l d imm.toInt, rest) := by
  simp only [Call.bytes]
  rw [List.append_assoc, movA_l]
  simp only [withImm, le32_imm]; rfl

theorem ext_low32 {v : BitVec 64} (h : 0 ≤ v.toInt ∧ v.toInt ≤ 4294967295) :
    (BitVec.ofInt 32 (v.extractLsb' 0 32).toInt).setWidth 64 = v := by
  have e := BitVec.toInt_eq_toNat_cond v
  have hv := v.isLt
  have h2 : v.toNat < 4294967296 := by split at e <;> omega
  rw [BitVec.ofInt_toInt]
  apply BitVec.eq_of_toNat_eq
  simp only [BitVec.toNat_setWidth, BitVec.extractLsb'_toNat, Nat.shiftRight_zero]
  omega

theorem sext_low32 {v : BitVec 64} (h : -2147483648 ≤ v.toInt ∧ v.toInt ≤ 2147483647) :
    BitVec.ofInt 64 (v.extractLsb' 0 32).toInt = v := by
  have e := BitVec.toInt_eq_toNat_cond v
  have hv := v.isLt
  have e2 := BitVec.toInt_eq_toNat_cond (v.extractLsb' 0 32)
  rw [BitVec.extractLsb'_toNat] at e2
  simp only [Nat.shiftRight_zero] at e2
  have : (v.extractLsb' 0 32).toInt = v.toInt := by split at e <;> split at e2 <;> omega
  rw [this, BitVec.ofInt_toInt]

theorem movqRI_ok (d : Gpr) (imm : BitVec 64) (rest : List Byte) :
    ∃ i, decode ((Call.movqRI d imm).bytes ++ rest) = some (i, rest) ∧ Loads d imm i := by
  simp only [Call.bytes]
  split
  · rename_i h
    refine ⟨.movA .l d (imm.extractLsb' 0 32).toInt, ?_, .inl ⟨_, rfl, (ext_low32 h).symm⟩⟩
    rw [List.append_assoc, movA_l]
    simp only [withImm, le32_imm]; rfl
  · split
    · rename_i h
      refine ⟨.movI .q (.reg d) (imm.extractLsb' 0 32).toInt, ?_, .inr (.inl ⟨_, rfl, (sext_low32 h).symm⟩)⟩
      exact movI_ok true (rmOk_gpr d) _ rest
    · refine ⟨.movA .q d imm.toInt, ?_, .inr (.inr ⟨_, rfl, (BitVec.ofInt_toInt).symm⟩)⟩
      rw [List.append_assoc, movA_q]
      simp only [withImm, le64_imm]; rfl

theorem movsxd_ok (d : Gpr) (s : RO) (h : s.Legal) (rest : List Byte) :
    decode ((Call.movsxd d s).bytes ++ rest) = some (.movsxd .q d s.meaning, rest) := by
  refine (op1Q (rmOk_ro s h) rest true 0x63 (.gpr d) trivial (by decide)
    (fun wd r n m => some (.movsxd wd (ext r n) m)) (fun _ _ => rfl)).trans ?_
  rw [ext_field_gpr]; rfl

theorem lea_ok (d : Gpr) (s : MemArg) (h : s.Legal) (rest : List Byte) :
    decode ((Call.lea d s).bytes ++ rest) = some (.lea .q d (.mem s.meaning), rest) := by
  refine (op1Q (rmOk_mem s h) rest true 0x8d (.gpr d) trivial (by decide)
    (fun wd r n m => match m with
      | .reg _ => none
      | m => some (.lea wd (ext r n) m)) (fun _ _ => rfl)).trans ?_
  rw [ext_field_gpr]; rfl

theorem imul_ok (q : Bool) (d s : Gpr) (rest : List Byte) :
    decode ((Call.imul q d s).bytes ++ rest) = some (.imul (wid q) d (.reg s), rest) := by
  refine (op2Q (rmOk_gpr s) rest q 0xaf (.gpr d) trivial
    (fun wd r n m => some (.imul wd (ext r n) m)) (fun _ _ _ _ => rfl)).trans ?_
  rw [ext_field_gpr]; rfl

theorem imullI_ok (d s : Gpr) (imm : BitVec 32) (rest : List Byte) :
    decode ((Call.imullI d s imm).bytes ++ rest) = some (.imulI .l d (.reg s) imm.toInt, rest) := by
  simp only [Call.bytes]
  split
  · rename_i hf
    refine (op1QI (rmOk_gpr s) rest false 0x6b (.gpr d) trivial (by decide) (bs := [trunc8 imm]) (trunc8_imm hf rest)
      (fun wd r n m v => some (.imulI wd (ext r n) m v)) (fun _ _ => rfl)).trans ?_
    rw [ext_field_gpr]; rfl
  · refine (op1QI (rmOk_gpr s) rest false 0x69 (.gpr d) trivial (by decide) (le32_imm imm rest)
      (fun wd r n m v => some (.imulI wd (ext r n) m v)) (fun _ _ => rfl)).trans ?_
    rw [ext_field_gpr]; rfl

theorem shiftOk (op : Shift) : (OpReg.num op.num).Ok := by show _ < 8; cases op <;> decide
theorem shiftOf_num (op : Shift) : shiftOf (OpReg.num op.num).field.toNat = some op := by cases op <;> rfl

theorem shiftCl_ok (q : Bool) (op : Shift) (d : Gpr) (rest : List Byte) :
    decode ((Call.shiftCl q op d).bytes ++ rest) = some (.shiftCl op (wid q) (.reg d), rest) := by
  refine (op1Q (rmOk_gpr d) rest q 0xd3 (.num op.num) (shiftOk op) (by decide)
    (fun wd _ n m => (shiftOf n).map fun o => .shiftCl o wd m) (fun _ _ => rfl)).trans ?_
  rw [shiftOf_num]; rfl

theorem mask_facts : ∀ n : Fin 256, ∀ q : Bool,
    (BitVec.ofNat 8 n.val &&& (if q then 0x3f else 0x1f) : Byte).toInt = ((n.val % (if q then 64 else 32) : Nat) : Int) := by
  decide +kernel

theorem shiftI_ok (q : Bool) (op : Shift) (d : RO) (imm : Byte) (h : d.Legal) (rest : List Byte) :
    ∃ m, decode ((Call.shiftI q op d imm).bytes ++ rest) = some (.shiftI op (wid q) d.meaning m, rest) ∧
      m % (if q then 64 else 32) = imm.toNat % (if q then 64 else 32) := by
  simp only [Call.bytes, shiftImm]
  split
  · rename_i h1; subst h1
    refine ⟨1, ?_, by cases q <;> rfl⟩
    refine (op1Q (rmOk_ro d h) rest q 0xd1 (.num op.num) (shiftOk op) (by decide)
      (fun wd _ n m => (shiftOf n).map fun o => .shiftI o wd m 1) (fun _ _ => rfl)).trans ?_
    rw [shiftOf_num]; rfl
  · have hm := mask_facts ⟨imm.toNat, imm.isLt⟩ q
    simp only [BitVec.ofNat_toNat, BitVec.setWidth_eq] at hm
    refine ⟨imm.toNat % (if q then 64 else 32), ?_, Nat.mod_mod _ _⟩
    refine (op1QI (rmOk_ro d h) rest q 0xc1 (.num op.num) (shiftOk op) (by decide) (imm := imm8)
      (v := ((imm.toNat % (if q then 64 else 32) : Nat) : Int)) (by
        show imm8 ((imm &&& if q then 63 else 31) :: rest) = _
        rw [imm8]
        rw [← hm])
      (fun wd _ n m v => (shiftOf n).map fun o => .shiftI o wd m (v % 256).toNat) (fun _ _ => rfl)).trans ?_
    rw [shiftOf_num]
    have : (((imm.toNat % (if q then 64 else 32) : Nat) : Int) % 256).toNat = imm.toNat % (if q then 64 else 32) := by
      cases q <;> simp only [Bool.false_eq_true, if_true, if_false] <;> omega
    rw [this]
    rfl

theorem callR_ok (r : Gpr) (rest : List Byte) :
    decode ((Call.callR r).bytes ++ rest) = some (.callRM (.reg r), rest) := by
  refine (op1Q (rmOk_gpr r) rest false 0xff (.num 2) (by show _ < 8; decide) (by decide)
    (fun _ _ n m => if n = 2 then some (.callRM m) else if n = 4 then some (.jmpRM m) else none) (fun _ _ => rfl)).trans ?_
  rfl

theorem jmpRM_ok (t : RO) (h : t.Legal) (rest : List Byte) :
    decode ((Call.jmpRM t).bytes ++ rest) = some (.jmpRM t.meaning, rest) := by
  refine (op1Q (rmOk_ro t h) rest false 0xff (.num 4) (by show _ < 8; decide) (by decide)
    (fun _ _ n m => if n = 2 then some (.callRM m) else if n = 4 then some (.jmpRM m) else none) (fun _ _ => rfl)).trans ?_
  rfl

/-- Eight-bit registers: the low byte of rax, rcx, rdx, rbx and, with a REX prefix, of every register. -/
theorem reg8_low (p : Pre) (r : Gpr) (hb : Bool) (he : hb = hi r) (h : r.val < 4 ∨ p.rex = true) :
    reg8 p hb (lowBits r).toNat = .lo r := by
  have hl := low_lt r
  rw [reg8, if_neg, he, ext_low]
  rintro ⟨a, b⟩
  rcases h with h | h
  · have : ∀ r : Fin 16, r.val < 4 → (lowBits r).toNat < 4 := by decide +kernel
    have := this r h
    omega
  · rw [a] at h; cases h

theorem low_mod : ∀ r : Fin 16, r.val % 8 = (lowBits r).toNat := by decide +kernel

theorem rm8_ro (p : Pre) (d : RO) (hb : p.b = d.hb) (h : ∀ r, d = .reg r → r.val < 4 ∨ p.rex = true) :
    rm8 p d.meaning = d.meaning8 := by
  cases d with
  | mem m => rfl
  | reg r =>
    simp only [RO.meaning, rm8, RO.meaning8, low_mod]
    rw [reg8_low p r p.b hb (h r rfl)]

theorem hi_of {r : Gpr} (h : 8 ≤ r.val) : hi r = true := by simp [hi, h]

/-- An eight-bit register argument whose low byte is what the encoding means. -/
def Reg8Ok (r : Gpr) : Prop := r.val < 4 ∨ 8 ≤ r.val

theorem set_ok (cc : Cc) (d : RO) (h : d.Legal) (h8 : ∀ r, d = .reg r → Reg8Ok r) (rest : List Byte) :
    decode ((Call.set cc d).bytes ++ rest) = some (.set cc d.meaning8, rest) := by
  obtain ⟨p, hw, hx, hb, hr, h3, h6, hrex, e⟩ := decode_emit2Q (rmOk_ro d h) (.num 0) rest false
    (0x90 + BitVec.ofNat 8 cc.val)
  have e2 : ∀ t, decode0f p (0x90 + BitVec.ofNat 8 cc.val) t = withRM p t fun _ m => some (.set cc (rm8 p m)) := by
    intro t
    exact fin16 (P := fun cc => decode0f p (0x90 + BitVec.ofNat 8 cc.val) t = withRM p t fun _ m => some (.set cc (rm8 p m))) rfl rfl rfl rfl rfl rfl rfl rfl rfl rfl rfl rfl rfl rfl rfl rfl cc
  refine e.trans ?_
  rw [e2, withRM_emit (rmOk_ro d h) (.num 0) rest p hx hb (by show _ < 8; decide)]
  rw [rm8_ro p d hb]
  · rfl
  · rintro r rfl
    rcases h8 r rfl with h | h
    · exact .inl h
    · right; rw [hrex]; simp [RO.hb, hi_of h]

theorem movzxb_ok (d s : Gpr) (h8 : s.val < 4 ∨ 8 ≤ s.val ∨ 8 ≤ d.val) (rest : List Byte) :
    decode ((Call.movzxb d s).bytes ++ rest) = some (.movzxb .l d (.reg (.lo s)), rest) := by
  obtain ⟨p, hw, hx, hb, hr, h3, h6, hrex, e⟩ := decode_emit2Q (rmOk_ro (.reg s) trivial) (.gpr d) rest false 0xb6
  have e2 : ∀ t, decode0f p 0xb6 t = withRM p t fun r m => some (.movzxb p.width (ext p.r r) (rm8 p m)) := fun _ => rfl
  refine e.trans ?_
  rw [e2, withRM_emit (rmOk_ro (.reg s) trivial) (.gpr d) rest p hx hb trivial]
  rw [rm8_ro p (.reg s) hb, hw, hr, ext_field_gpr]
  · rfl
  · rintro r h; cases h
    rcases h8 with h | h | h
    · exact .inl h
    · right; rw [hrex]; simp [RO.hb, hi_of h]
    · right; rw [hrex]; simp [OpReg.hr, hi_of h]

/-- Does the operand contain one of r8 ... r15? -/
def RO.ext (d : RO) : Bool := d.hx || d.hb

theorem movb_ok (d : RO) (s : Gpr) (h : d.Legal) (hs : Reg8Ok s ∨ d.ext = true)
    (h8 : ∀ r, d = .reg r → Reg8Ok r ∨ 8 ≤ s.val) (rest : List Byte) :
    decode ((Call.movb d s).bytes ++ rest) = some (.movB d.meaning8 (.lo s), rest) := by
  simp only [Call.bytes]
  rw [decode_emit1 (rmOk_ro d h) (.gpr s) rest 0x88 (by decide) (by decide) (by decide) (by decide)]
  have e2 : ∀ p t, decode1 p 0x88 t = withRM p t fun r m => some (.movB (rm8 p m) (reg8 p p.r r)) := fun _ _ => rfl
  rw [e2, withRM_emit (rmOk_ro d h) (.gpr s) rest _ rfl rfl trivial, rm8_ro _ d rfl]
  · have : reg8 ⟨false, false, (OpReg.gpr s).hr || d.hx || d.hb, false, (OpReg.gpr s).hr, d.hx, d.hb⟩
        (OpReg.gpr s).hr (OpReg.gpr s).field.toNat = .lo s := by
      apply reg8_low _ s _ rfl
      rcases hs with (h | h) | h
      · exact .inl h
      · right; simp [OpReg.hr, hi_of h]
      · right; simp only [RO.ext] at h; simp only [Bool.or_assoc, h, Bool.or_true]
    simp only [this]
    rfl
  · rintro r rfl
    rcases h8 r rfl with (h | h) | h
    · exact .inl h
    · right; simp [RO.hb, hi_of h]
    · right; simp [OpReg.hr, hi_of h]

theorem xchgq_ok (d s : Gpr) (h : if s = 0 then d.val < 8 else s.val < 8) (rest : List Byte) :
    decode ((Call.xchgq d s).bytes ++ rest) = some (.xchg .q (.reg d) s, rest) ∨
    decode ((Call.xchgq d s).bytes ++ rest) = some (.xchg .q (.reg s) d, rest) := by
  have key : ∀ d : Gpr, d.val < 8 → decode (emit1_64b (0x90 + BitVec.ofNat 8 d.val) ++ rest) = some (.xchg .q (.reg d) 0, rest) := by
    refine fin16 ?_ ?_ ?_ ?_ ?_ ?_ ?_ ?_ ?_ ?_ ?_ ?_ ?_ ?_ ?_ ?_ <;> intro hd <;> first | rfl | exact absurd hd (by decide)
  simp only [Call.bytes]
  split at h
  · rename_i hs; subst hs
    left
    rw [if_pos rfl]; exact key d h
  · rename_i hs
    rw [if_neg hs]
    split
    · rename_i hd; subst hd
      right; exact key s h
    · left
      have ho : (OpReg.num (BitVec.ofNat 8 s.val)).Ok := by
        show (BitVec.ofNat 8 s.val).toNat < 8
        simp; omega
      refine (op1Q (rmOk_gpr d) rest true 0x87 (.num (BitVec.ofNat 8 s.val)) ho (by decide)
        (fun wd r n m => some (.xchg wd m (ext r n))) (fun _ _ => rfl)).trans ?_
      have : ∀ s : Fin 16, s.val < 8 → X64.ext (OpReg.num (BitVec.ofNat 8 s.val)).hr (OpReg.num (BitVec.ofNat 8 s.val)).field.toNat = s := by
        decide +kernel
      rw [this s h]
      rfl

theorem ext_xmm7 (r : Fin 16) (h : r.val < 8) : X64.ext false (lowBits r).toNat = r := ext_false r h

theorem sse_is (op : Sse) (d s : Xmm) (rest : List Byte) :
    decode ((Call.sse op d s).bytes ++ rest) = some (.sse op (X64.ext false (lowBits d).toNat) (.reg s), rest) := by
  refine (opSse (rmOk_xmm s) rest true op.opcode (.xmm d) trivial
    (fun r n m => some (.sse op (X64.ext r n) m)) (by
      intro p t h1 h2 h3
      simp only [decode0f, h1]
      cases op <;> simp [Sse.opcode])).trans ?_
  rfl

theorem sse_ok (op : Sse) (d s : Xmm) (h : d.val < 8) (rest : List Byte) :
    decode ((Call.sse op d s).bytes ++ rest) = some (.sse op d (.reg s), rest) := by
  rw [sse_is op d s, ext_xmm7 d h]

theorem xorps_ok (d s : Xmm) (rest : List Byte) :
    decode ((Call.xorps d s).bytes ++ rest) = some (.xorps s (.reg d), rest) := by
  refine (op2Q (rmOk_xmm d) rest false 0x57 (.xmm s) trivial
    (fun _ r n m => some (.xorps (X64.ext r n) m)) (by
      intro p t h1 h2
      simp [decode0f, h1, h2])).trans ?_
  rw [ext_field_xmm]; rfl

theorem ucomiss_ok (l : XO) (r : Xmm) (h : l.Legal) (rest : List Byte) :
    decode ((Call.ucomiss l r).bytes ++ rest) = some (.ucomiss r l.meaning, rest) := by
  refine (op2Q (rmOk_xo l h) rest false 0x2e (.xmm r) trivial
    (fun _ r n m => some (.ucomiss (X64.ext r n) m)) (by
      intro p t h1 h2
      simp [decode0f, h1, h2])).trans ?_
  rw [ext_field_xmm]; rfl

/-- `movd` from a float register: source and destination change places. -/
theorem movdOut_is (d : Gpr) (s : Xmm) (rest : List Byte) :
    decode ((Call.movdOut d s).bytes ++ rest) =
      some (.movdOut (.reg s) (X64.ext false (lowBits d).toNat), rest) := by
  refine (opSse (rmOk_xmm s) rest false 0x7e (.gpr d) trivial
    (fun r n m => some (.movdOut m (X64.ext r n))) (by
      intro p t h1 h2 h3
      simp [decode0f, h1, h2, h3])).trans ?_
  rfl

theorem movdOut_ok (d : Gpr) (s : Xmm) (h : d = s) (h8 : d.val < 8) (rest : List Byte) :
    decode ((Call.movdOut d s).bytes ++ rest) = some (.movdOut (.reg d) s, rest) := by
  subst h
  rw [movdOut_is, ext_xmm7 d h8]

theorem movdIn_is (d : Xmm) (s : Gpr) (rest : List Byte) :
    decode ((Call.movdIn d s).bytes ++ rest) = some (.movdIn (X64.ext false (lowBits d).toNat) (.reg s), rest) := by
  refine (opSse (rmOk_gpr s) rest false 0x6e (.xmm d) trivial
    (fun r n m => some (.movdIn (X64.ext r n) m)) (by
      intro p t h1 h2 h3
      simp [decode0f, h1, h2, h3])).trans ?_
  rfl

theorem movdIn_ok (d : Xmm) (s : Gpr) (h : d.val < 8) (rest : List Byte) :
    decode ((Call.movdIn d s).bytes ++ rest) = some (.movdIn d (.reg s), rest) := by
  rw [movdIn_is d s, ext_xmm7 d h]

theorem cvtsi2ss_is (d : Xmm) (s : RO) (hl : s.Legal) (rest : List Byte) :
    decode ((Call.cvtsi2ss d s).bytes ++ rest) = some (.cvtsi2ss (X64.ext false (lowBits d).toNat) s.meaning, rest) := by
  refine (opSse (rmOk_ro s hl) rest true 0x2a (.xmm d) trivial
    (fun r n m => some (.cvtsi2ss (X64.ext r n) m)) (by
      intro p t h1 h2 h3
      simp [decode0f, h1, h3])).trans ?_
  rfl

theorem cvtsi2ss_ok (d : Xmm) (s : RO) (hl : s.Legal) (h : d.val < 8) (rest : List Byte) :
    decode ((Call.cvtsi2ss d s).bytes ++ rest) = some (.cvtsi2ss d s.meaning, rest) := by
  rw [cvtsi2ss_is d s hl, ext_xmm7 d h]

theorem cvtss2si_is (d : Gpr) (s : MemArg) (hl : s.Legal) (rest : List Byte) :
    decode ((Call.cvtss2si d s).bytes ++ rest) = some (.cvtss2si (X64.ext false (lowBits d).toNat) (.mem s.meaning), rest) := by
  refine (opSse (rmOk_mem s hl) rest true 0x2d (.gpr d) trivial
    (fun r n m => some (.cvtss2si (X64.ext r n) m)) (by
      intro p t h1 h2 h3
      simp [decode0f, h1, h3])).trans ?_
  rfl

theorem cvtss2si_ok (d : Gpr) (s : MemArg) (hl : s.Legal) (h : d.val < 8) (rest : List Byte) :
    decode ((Call.cvtss2si d s).bytes ++ rest) = some (.cvtss2si d (.mem s.meaning), rest) := by
  rw [cvtss2si_is d s hl, ext_xmm7 d h]

theorem cvttss2si_is (d : Gpr) (s : XO) (hl : s.Legal) (rest : List Byte) :
    decode ((Call.cvttss2si d s).bytes ++ rest) = some (.cvttss2si (X64.ext false (lowBits d).toNat) s.meaning, rest) := by
  refine (opSse (rmOk_xo s hl) rest true 0x2c (.gpr d) trivial
    (fun r n m => some (.cvttss2si (X64.ext r n) m)) (by
      intro p t h1 h2 h3
      simp [decode0f, h1, h3])).trans ?_
  rfl

theorem cvttss2si_ok (d : Gpr) (s : XO) (hl : s.Legal) (h : d.val < 8) (rest : List Byte) :
    decode ((Call.cvttss2si d s).bytes ++ rest) = some (.cvttss2si d s.meaning, rest) := by
  rw [cvttss2si_is d s hl, ext_xmm7 d h]

theorem roundss_is (d : Xmm) (s : MemArg) (hl : s.Legal) (k : Byte) (hk : k.toInt = k.toNat)
    (rest : List Byte) :
    decode (emit4sse 0x66 0x0f 0x3a 0x0a (.xmm d) (.mem s.opd) ++ [k] ++ rest) =
      some (.roundss (X64.ext false (lowBits d).toNat) (.mem s.meaning) k.toNat, rest) := by
  rw [List.append_assoc, decode_sse4 (rmOk_mem s hl) (.xmm d) ([k] ++ rest) 0x0a]
  have e2 : ∀ p t, p.f3 = false → p.p66 = true → decode0f p 0x3a (0x0a :: t) =
      withRMI p t imm8 fun r m v => some (.roundss (X64.ext p.r r) m v.toNat) := by
    intro p t h1 h2
    simp [decode0f, h1, h2]
  rw [e2 _ _ rfl rfl, withRMI_emit (rmOk_mem s hl) (.xmm d) rest (v := k.toInt) (by rfl) _ rfl rfl trivial]
  simp only [OpReg.field, hk]
  rfl

theorem roundss_ok (d : Xmm) (s : MemArg) (hl : s.Legal) (h : d.val < 8) (k : Byte) (hk : k.toInt = k.toNat)
    (rest : List Byte) :
    decode (emit4sse 0x66 0x0f 0x3a 0x0a (.xmm d) (.mem s.opd) ++ [k] ++ rest) =
      some (.roundss d (.mem s.meaning) k.toNat, rest) := by
  rw [roundss_is d s hl k hk, ext_xmm7 d h]

end Verif.X64

import Verif.Proofs.X64Calls

/-!
C61: the machine code assembler emits the bytes of the instruction it was asked for, whatever registers,
displacements and immediates it is given.

`decode` (Spec/X64) is the processor's reading of bytes, `Call.Means` (Spec/X64Calls) the instruction a
method's name stands for, `Call.bytes` (Model/X64Asm) what vm/x64/assembler-x64.h emits.
-/
namespace Verif.X64

theorem RO.ext_of {d : RO} (h : d.Extended) : d.ext = true := by
  match d, h with
  | .reg r, h => simpa [RO.Extended, RO.ext, RO.hx, RO.hb, hi] using h
  | .mem (.bd b _), h => simpa [RO.Extended, RO.ext, RO.hx, RO.hb, MemArg.hx, MemArg.hb, hi] using h
  | .mem (.bsd b _ _), h => simpa [RO.Extended, RO.ext, RO.hx, RO.hb, MemArg.hx, MemArg.hb, hi] using h
  | .mem (.bisd b i _ _), h => simpa [RO.Extended, RO.ext, RO.hx, RO.hb, MemArg.hx, MemArg.hb, hi, or_comm] using h

theorem RO.ext_of_not {d : RO} (h : ¬ d.Extended) : d.ext = false := by
  match d, h with
  | .reg r, h => simpa [RO.Extended, RO.ext, RO.hx, RO.hb, hi] using h
  | .mem (.bd b _), h => simpa [RO.Extended, RO.ext, RO.hx, RO.hb, MemArg.hx, MemArg.hb, hi] using h
  | .mem (.bsd b _ _), h => simpa [RO.Extended, RO.ext, RO.hx, RO.hb, MemArg.hx, MemArg.hb, hi] using h
  | .mem (.bisd b i _ _), h =>
    simp only [RO.Extended, not_or, Nat.not_le] at h
    simp [RO.ext, RO.hx, RO.hb, MemArg.hx, MemArg.hb, hi, h.1, h.2]

/-- **C61 (partial).** Every call of an assembler method with legal arguments appends the bytes of the
instruction it stands for, for all registers, operands and immediates and whatever follows -- outside the
listed cases. -/
theorem C61_assembler_partial (c : Call) (hl : c.Legal) (he : c.Encodable) : c.Correct := by
  intro rest
  cases c with
  | alu q op d s => exact ⟨_, alu_ok q op d s hl rest, rfl⟩
  | cmplRM d s => exact ⟨_, cmplRM_ok d s hl rest, rfl⟩
  | aluI q op d imm =>
    exact ⟨_, aluI_ok q op d imm hl (fun a b => by simpa [fits8] using he a b) rest, rfl⟩
  | andlRI d imm => exact ⟨_, andlRI_ok d imm rest, rfl⟩
  | test q d s => exact ⟨_, test_ok q d s hl rest, rfl⟩
  | testqI d imm => exact ⟨_, testqI_ok d imm hl rest, rfl⟩
  | movqRR d s => exact ⟨_, movqRR_ok d s rest, .inl rfl⟩
  | movqRM d s => exact ⟨_, movqRM_ok d s hl rest, rfl⟩
  | movqMR d s => exact ⟨_, movqMR_ok d s hl rest, rfl⟩
  | movqRI d imm => exact movqRI_ok d imm rest
  | movlRI d imm => exact ⟨_, movlRI_ok d imm rest, rfl⟩
  | movlMI d imm => exact ⟨_, movlMI_ok d imm hl rest, rfl⟩
  | movlRM d s => exact ⟨_, movlRM_ok d s hl rest, rfl⟩
  | movl d s => exact ⟨_, movl_ok d s hl rest, rfl⟩
  | movw d s => exact absurd he id
  | movb d s =>
    refine ⟨_, movb_ok d s hl ?_ ?_ rest, rfl⟩
    · rcases he.1 with h | h | h
      · exact .inl (.inl h)
      · exact .inl (.inr h)
      · exact .inr (RO.ext_of h)
    · intro r hr
      rcases he.2 r hr with h | h | h
      · exact .inl (.inl h)
      · exact .inl (.inr h)
      · exact .inr h
  | movsxd d s => exact ⟨_, movsxd_ok d s hl rest, rfl⟩
  | movzxb d s => exact ⟨_, movzxb_ok d s he rest, rfl⟩
  | lea d s => exact ⟨_, lea_ok d s hl rest, rfl⟩
  | imul q d s => exact ⟨_, imul_ok q d s rest, rfl⟩
  | imullI d s imm => exact ⟨_, imullI_ok d s imm rest, rfl⟩
  | not q d => exact ⟨_, not_ok q d rest, rfl⟩
  | neg q d => exact ⟨_, neg_ok q d rest, rfl⟩
  | idiv q d => exact ⟨_, idiv_ok q d rest, rfl⟩
  | shiftI q op d imm =>
    obtain ⟨m, h1, h2⟩ := shiftI_ok q op d imm hl rest
    exact ⟨_, h1, m, rfl, h2⟩
  | shiftCl q op d => exact ⟨_, shiftCl_ok q op d rest, rfl⟩
  | xchgq d s =>
    rcases xchgq_ok d s he rest with h | h
    · exact ⟨_, h, .inl rfl⟩
    · exact ⟨_, h, .inr rfl⟩
  | set cc d => exact ⟨_, set_ok cc d hl he rest, rfl⟩
  | push r => exact ⟨_, push_ok r rest, rfl⟩
  | pushI imm => exact ⟨_, pushI_ok imm rest, rfl⟩
  | pop r => exact ⟨_, pop_ok r rest, rfl⟩
  | callR r => exact ⟨_, callR_ok r rest, rfl⟩
  | jmpRM t => exact ⟨_, jmpRM_ok t hl rest, rfl⟩
  | leave => exact ⟨_, rfl, rfl⟩
  | ret => exact ⟨_, rfl, rfl⟩
  | cld => exact ⟨_, rfl, rfl⟩
  | breakpoint => exact ⟨_, rfl, rfl⟩
  | repMovsb => exact ⟨_, rfl, rfl⟩
  | repMovsd => exact ⟨_, rfl, rfl⟩
  | repStosd => exact ⟨_, rfl, rfl⟩
  | sse op d s => exact ⟨_, sse_ok op d s he rest, rfl⟩
  | xorps d s => cases (show d = s from he); exact ⟨_, xorps_ok d d rest, rfl⟩
  | ucomiss l r => exact ⟨_, ucomiss_ok l r hl rest, rfl⟩
  | movdOut d s => exact ⟨_, movdOut_ok d s (Fin.ext he.1) he.2 rest, rfl⟩
  | movdIn d s => exact ⟨_, movdIn_ok d s he rest, rfl⟩
  | cvtsi2ss d s => exact ⟨_, cvtsi2ss_ok d s hl he rest, rfl⟩
  | cvtss2si d s => exact ⟨_, cvtss2si_ok d s hl he rest, rfl⟩
  | cvttss2si d s => exact ⟨_, cvttss2si_ok d s hl he rest, rfl⟩
  | roundssFloor d s => exact ⟨_, roundss_ok d s hl he 1 (by decide) rest, rfl⟩
  | roundssCeil d s => exact ⟨_, roundss_ok d s hl he 2 (by decide) rest, rfl⟩

theorem low_ne : ∀ r : Fin 16, ¬ r.val < 8 → ext false (lowBits r).toNat ≠ r := by decide +kernel

theorem xchg_bad : ∀ d s : Fin 16, ¬ (if s = 0 then d.val < 8 else s.val < 8) →
    decode ((Call.xchgq d s).bytes ++ []) ≠ some (.xchg .q (.reg d) s, []) ∧
    decode ((Call.xchgq d s).bytes ++ []) ≠ some (.xchg .q (.reg s) d, []) := by decide +kernel

theorem movzxb_bad : ∀ d s : Fin 16, ¬ (s.val < 4 ∨ 8 ≤ s.val ∨ 8 ≤ d.val) →
    decode ((Call.movzxb d s).bytes ++ []) ≠ some (.movzxb .l d (.reg (.lo s)), []) := by decide +kernel

theorem set_bad : ∀ (cc r : Fin 16), ¬ (r.val < 4 ∨ 8 ≤ r.val) →
    decode ((Call.set cc (.reg r)).bytes ++ []) ≠ some (.set cc (.reg (.lo r)), []) := by decide +kernel

theorem movbRR_bad : ∀ d s : Fin 16, ¬ ((s.val < 4 ∨ 8 ≤ s.val ∨ 8 ≤ d.val) ∧ (d.val < 4 ∨ 8 ≤ d.val ∨ 8 ≤ s.val)) →
    decode ((Call.movb (.reg d) s).bytes ++ []) ≠ some (.movB (.reg (.lo d)) (.lo s), []) := by decide +kernel

theorem reg_bad : ∀ s : Fin 16, ¬ (s.val < 4 ∨ 8 ≤ s.val) → hi s = false ∧ 4 ≤ (lowBits s).toNat % 8 := by
  decide +kernel

/-- The full statement fails exactly on the listed cases: each of them is encoded as something else. -/
theorem C61_excluded_calls_are_wrong (c : Call) (hl : c.Legal) (he : ¬ c.Encodable) : ¬ c.Correct := by
  intro hc
  obtain ⟨i, h1, h2⟩ := hc []
  cases c with
  | aluI q op d imm =>
    simp only [Call.Encodable] at he
    have hq : q = true := Classical.byContradiction fun h => he fun a => absurd a h
    have hd : d = .reg 0 := Classical.byContradiction fun h => he fun _ a => absurd a h
    subst hq; subst hd
    have hf : fits8 imm = false := by
      simp only [fits8, decide_eq_false_iff_not]
      exact fun h => he fun _ _ => h
    have e : decode ((Call.aluI true op (.reg 0) imm).bytes ++ []) = some (.aluI op .l (.reg 0) imm.toInt, []) := by
      simp only [Call.bytes, aluImm, hf, Bool.false_eq_true, if_false, if_true]
      have e2 : ∀ t, decode ([0x05 ||| (op.num <<< 3)] ++ t) =
          withImm imm32 t (.aluI op .l (.reg 0)) := by intro t; cases op <;> rfl
      rw [List.append_assoc, e2]
      simp only [withImm, le32_imm]; rfl
    rw [e] at h1; cases h1
    simp [Call.Means, wid] at h2
  | movw d s =>
    rw [movw_is_movl d s hl] at h1; cases h1
    simp [Call.Means] at h2
  | movb d s =>
    cases d with
    | reg d =>
      refine movbRR_bad d s ?_ (by rw [h1, show i = _ from h2]; rfl)
      intro h
      exact he ⟨h.1, fun r hr => by cases hr; exact h.2⟩
    | mem m =>
      have hs : ¬ (s.val < 4 ∨ 8 ≤ s.val) := fun h => he ⟨by rcases h with h | h <;> simp [h], fun r hr => by cases hr⟩
      have hx : ¬ (RO.mem m).Extended := fun h => he ⟨.inr (.inr h), fun r hr => by cases hr⟩
      have hx := RO.ext_of_not hx
      have hb := reg_bad s hs
      simp only [Call.bytes] at h1
      rw [decode_emit1 (rmOk_ro (.mem m) hl) (.gpr s) [] 0x88 (by decide) (by decide) (by decide) (by decide)] at h1
      have e2 : ∀ p t, decode1 p 0x88 t = withRM p t fun r m => some (.movB (rm8 p m) (reg8 p p.r r)) := fun _ _ => rfl
      rw [e2, withRM_emit (rmOk_ro (.mem m) hl) (.gpr s) [] _ rfl rfl trivial] at h1
      simp only [Option.map_some, Option.some.injEq, Prod.mk.injEq, and_true] at h1
      have h3 := h1.trans h2
      simp only [Instr.movB.injEq, reg8, OpReg.hr, OpReg.field] at h3
      simp only [RO.ext, Bool.or_eq_false_iff] at hx
      have h4 := h3.2
      have hc : (hi s || (RO.mem m).hx || (RO.mem m).hb) = false ∧ 4 ≤ (lowBits s).toNat % 8 :=
        ⟨by simp [hb.1, hx.1, hx.2], hb.2⟩
      exact absurd ((if_pos hc).symm.trans h4) (by simp)
  | movzxb d s => exact movzxb_bad d s he (by rw [h1, show i = _ from h2])
  | set cc d =>
    cases d with
    | mem m => exact he (fun r hr => by cases hr)
    | reg r =>
      refine set_bad cc r (fun h => he (fun r' hr => by cases hr; exact h)) (by rw [h1, show i = _ from h2]; rfl)
  | xchgq d s =>
    have := xchg_bad d s he
    rcases h2 with h2 | h2
    · exact this.1 (by rw [h1, h2])
    · exact this.2 (by rw [h1, h2])
  | sse op d s =>
    rw [sse_is] at h1; cases h1
    simp only [Call.Means, Instr.sse.injEq] at h2
    exact low_ne d he h2.2.1
  | movdIn d s =>
    rw [movdIn_is] at h1; cases h1
    simp only [Call.Means, Instr.movdIn.injEq] at h2
    exact low_ne d he h2.1
  | cvtsi2ss d s =>
    rw [cvtsi2ss_is d s hl] at h1; cases h1
    simp only [Call.Means, Instr.cvtsi2ss.injEq] at h2
    exact low_ne d he h2.1
  | cvtss2si d s =>
    rw [cvtss2si_is d s hl] at h1; cases h1
    simp only [Call.Means, Instr.cvtss2si.injEq] at h2
    exact low_ne d he h2.1
  | cvttss2si d s =>
    rw [cvttss2si_is d s hl] at h1; cases h1
    simp only [Call.Means, Instr.cvttss2si.injEq] at h2
    exact low_ne d he h2.1
  | roundssFloor d s =>
    simp only [Call.bytes] at h1
    rw [roundss_is d s hl 1 (by decide)] at h1; cases h1
    simp only [Call.Means, Instr.roundss.injEq] at h2
    exact low_ne d he h2.1
  | roundssCeil d s =>
    simp only [Call.bytes] at h1
    rw [roundss_is d s hl 2 (by decide)] at h1; cases h1
    simp only [Call.Means, Instr.roundss.injEq] at h2
    exact low_ne d he h2.1
  | xorps d s =>
    rw [xorps_ok] at h1; cases h1
    simp only [Call.Means, Instr.xorps.injEq] at h2
    exact he h2.1.symm
  | movdOut d s =>
    rw [movdOut_is] at h1; cases h1
    simp only [Call.Means, Instr.movdOut.injEq, RM.reg.injEq] at h2
    refine he ⟨by rw [h2.1], ?_⟩
    refine Classical.byContradiction fun h => low_ne d h (h2.2.trans h2.1)
  | _ => exact he trivial

/-- The operand of the four-argument constructor with rsp as index is excluded by an assertion only. -/
theorem C61_rsp_index_is_dropped :
    ¬ (Call.lea 0 (.bisd 3 4 2 0)).Correct := by
  intro h
  obtain ⟨i, h1, h2⟩ := h []
  have e : decode ((Call.lea 0 (.bisd 3 4 2 0)).bytes ++ []) = some (.lea .q 0 (.mem ⟨some 3, none, 0⟩), []) := by
    decide +kernel
  rw [e] at h1; cases h1
  simp [Call.Means, MemArg.meaning] at h2

/-! ### The statements are about something -/

/-- `movl [r12+0x12], eax`: a base that needs a SIB byte, a REX prefix and a byte of displacement. -/
example : (Call.movl (.mem (.bd 12 0x12)) 0).bytes = [0x41, 0x89, 0x44, 0x24, 0x12] ∧
    (Call.movl (.mem (.bd 12 0x12)) 0).Legal ∧ (Call.movl (.mem (.bd 12 0x12)) 0).Encodable := by
  refine ⟨by decide +kernel, trivial, trivial⟩

/-- `lea rdx, [r13 + r9*4]`: r13 as base needs a displacement even if it is zero. -/
example : (Call.lea 2 (.bisd 13 9 2 0)).bytes = [0x4b, 0x8d, 0x54, 0x8d, 0x00] ∧
    (Call.lea 2 (.bisd 13 9 2 0)).Legal := by
  refine ⟨by decide +kernel, by simp [Call.Legal, MemArg.Legal]⟩

/-- The broken `addq(rax, 1000)` is `add eax, 1000`. -/
example : decode ((Call.aluI true .add (.reg 0) 1000).bytes ++ []) = some (.aluI .add .l (.reg 0) 1000, []) := by
  decide +kernel

/-- The broken `movw [rbx], ax` writes four bytes. -/
example : decode ((Call.movw (.mem (.bd 3 0)) 0).bytes ++ []) = some (.mov .l (.mem ⟨some 3, none, 0⟩) 0, []) := by
  decide +kernel

end Verif.X64

import Verif.Model.Jit
import Verif.Spec.Jit
import Verif.Proofs.X64Calls
import Verif.Proofs.Mem

/-! What each assembler call does to the processor, and how operands are found in memory. -/
namespace Verif.Jit
open Verif.X64 Verif.VM

theorem step_of {H : Host} {c : Call} {m : Mach} {i : Instr} (h : decode (c.bytes ++ []) = some (i, [])) :
    stepCall H c m = exec H i m := by
  rw [List.append_nil] at h
  simp only [stepCall, h]

theorem ofInt32_self (v : BitVec 32) : BitVec.ofInt 32 v.toInt = v := BitVec.ofInt_toInt

section
variable (H : Host) (m : Mach)

theorem st_alu32 (op : Alu) (d : RO) (s : Gpr) (h : d.Legal) :
    stepCall H (.alu false op d s) m = alu32 H m op d.meaning (m.lo s) := step_of (alu_ok false op d s h [])
theorem st_alu64 (op : Alu) (d : RO) (s : Gpr) (h : d.Legal) :
    stepCall H (.alu true op d s) m = alu64 H m op d.meaning (m.reg s) := step_of (alu_ok true op d s h [])
theorem st_cmplRM (d : Gpr) (s : MemArg) (h : s.Legal) :
    stepCall H (.cmplRM d s) m = match get32 H m (.mem s.meaning) with
      | none => none
      | some b => alu32 H m .cmp (.reg d) b := step_of (cmplRM_ok d s h [])
theorem st_aluI32 (op : Alu) (d : RO) (imm : BitVec 32) (h : d.Legal) :
    stepCall H (.aluI false op d imm) m = alu32 H m op d.meaning imm := by
  refine (step_of (aluI_ok false op d imm h (fun e => by cases e) [])).trans ?_
  show alu32 H m op d.meaning (BitVec.ofInt 32 imm.toInt) = _
  rw [ofInt32_self]
theorem st_aluI64 (op : Alu) (d : RO) (imm : BitVec 32) (h : d.Legal) (h4 : d.meaning ≠ .reg 4) (h0 : d = .reg 0 → fits8 imm = true) :
    stepCall H (.aluI true op d imm) m = alu64 H m op d.meaning (imm.signExtend 64) :=
  (step_of (aluI_ok true op d imm h (fun _ => h0) [])).trans (if_neg h4)
theorem st_subStk (imm : BitVec 32) : stepCall H (.aluI true .sub (.reg 14) imm) m =
    some ({ m with flags := none }.setReg 14 (m.reg 14 - imm.signExtend 64)) :=
  st_aluI64 H m .sub (.reg 14) imm trivial (fun e => by cases e) (fun e => by cases e)
theorem st_addStk (imm : BitVec 32) : stepCall H (.aluI true .add (.reg 14) imm) m =
    some ({ m with flags := none }.setReg 14 (m.reg 14 + imm.signExtend 64)) :=
  st_aluI64 H m .add (.reg 14) imm trivial (fun e => by cases e) (fun e => by cases e)
theorem st_andlRI (d : Gpr) (imm : BitVec 32) :
    stepCall H (.andlRI d imm) m = alu32 H m .and (.reg d) imm := by
  refine (step_of (andlRI_ok d imm [])).trans ?_
  show alu32 H m .and (.reg d) (BitVec.ofInt 32 imm.toInt) = _
  rw [ofInt32_self]
theorem st_test32 (d s : Gpr) :
    stepCall H (.test false (.reg d) s) m = some { m with flags := some (testFlags (m.lo d) (m.lo s)) } :=
  step_of (test_ok false (.reg d) s trivial [])
theorem st_test64 (d s : Gpr) :
    stepCall H (.test true (.reg d) s) m = some { m with flags := some (testFlags (m.reg d) (m.reg s)) } :=
  step_of (test_ok true (.reg d) s trivial [])
theorem st_movqRR (d s : Gpr) (h : s ≠ 4) : stepCall H (.movqRR d s) m = some (m.setReg d (m.reg s)) :=
  (step_of (movqRR_ok d s [])).trans (if_neg fun e => h (by cases e; rfl))
theorem st_movqRM (d : Gpr) (s : MemArg) (h : s.Legal) :
    stepCall H (.movqRM d s) m = match load64 H m (ea m s.meaning) with
      | none => none
      | some v => some (m.setReg d v) := by
  refine (step_of (movqRM_ok d s h [])).trans ?_
  show (if RM.mem s.meaning = .reg 4 then none else _) = _
  rw [if_neg (fun e => by cases e)]
  rfl
theorem st_movqMR (d : MemArg) (s : Gpr) (h : d.Legal) :
    stepCall H (.movqMR d s) m = store64 H m (ea m d.meaning) (m.reg s) := step_of (movqMR_ok d s h [])
theorem st_movlRI (d : Gpr) (imm : BitVec 32) :
    stepCall H (.movlRI d imm) m = some (m.setReg d (imm.setWidth 64)) := by
  refine (step_of (movlRI_ok d imm [])).trans ?_
  show some (m.setReg d ((BitVec.ofInt 32 imm.toInt).setWidth 64)) = _
  rw [ofInt32_self]
theorem st_movlMI (d : MemArg) (imm : BitVec 32) (h : d.Legal) :
    stepCall H (.movlMI d imm) m = store32 H m (ea m d.meaning) imm := by
  refine (step_of (movlMI_ok d imm h [])).trans ?_
  show store32 H m (ea m d.meaning) (BitVec.ofInt 32 imm.toInt) = _
  rw [ofInt32_self]
theorem st_movlRM (d : Gpr) (s : MemArg) (h : s.Legal) :
    stepCall H (.movlRM d s) m = match load32 H m (ea m s.meaning) with
      | none => none
      | some v => some (m.setReg d (v.setWidth 64)) := step_of (movlRM_ok d s h [])
theorem st_movlMR (d : MemArg) (s : Gpr) (h : d.Legal) :
    stepCall H (.movl (.mem d) s) m = store32 H m (ea m d.meaning) (m.lo s) := step_of (movl_ok (.mem d) s h [])
theorem st_movlRR (d s : Gpr) :
    stepCall H (.movl (.reg d) s) m = some (m.setReg d ((m.lo s).setWidth 64)) := step_of (movl_ok (.reg d) s trivial [])
/-- 32 bits, not 16. -/
theorem st_movwMR (d : MemArg) (s : Gpr) (h : d.Legal) :
    stepCall H (.movw (.mem d) s) m = store32 H m (ea m d.meaning) (m.lo s) := step_of (movw_is_movl (.mem d) s h [])
theorem st_movbMR (d : MemArg) (s : Gpr) (h : d.Legal) (hs : Reg8Ok s) :
    stepCall H (.movb (.mem d) s) m = store8 H m (ea m d.meaning) ((m.reg s).setWidth 8) :=
  step_of (movb_ok (.mem d) s h (.inl hs) (fun _ h => by cases h) [])
theorem st_movsxd (d s : Gpr) : stepCall H (.movsxd d (.reg s)) m = some (m.setReg d ((m.lo s).signExtend 64)) :=
  step_of (movsxd_ok d (.reg s) trivial [])
theorem st_movzxb (d s : Gpr) (h : s.val < 4) :
    stepCall H (.movzxb d s) m = some (m.setReg d (((m.reg s).setWidth 8).setWidth 64)) :=
  step_of (movzxb_ok d s (.inl h) [])
theorem st_lea (d : Gpr) (s : MemArg) (h : s.Legal) :
    stepCall H (.lea d s) m = some (m.setReg d (ea m s.meaning)) := step_of (lea_ok d s h [])
theorem st_imul32 (d s : Gpr) :
    stepCall H (.imul false d s) m = some ({ m with flags := none }.setReg d ((m.lo d * m.lo s).setWidth 64)) :=
  step_of (imul_ok false d s [])
theorem st_imul64 (d s : Gpr) :
    stepCall H (.imul true d s) m = some ({ m with flags := none }.setReg d (m.reg d * m.reg s)) :=
  step_of (imul_ok true d s [])
theorem st_imullI (d s : Gpr) (imm : BitVec 32) :
    stepCall H (.imullI d s imm) m = some ({ m with flags := none }.setReg d ((m.lo s * imm).setWidth 64)) := by
  refine (step_of (imullI_ok d s imm [])).trans ?_
  show some ({ m with flags := none }.setReg d ((m.lo s * BitVec.ofInt 32 imm.toInt).setWidth 64)) = _
  rw [ofInt32_self]
theorem st_not32 (d : Gpr) : stepCall H (.not false d) m = some (m.setReg d ((~~~ m.lo d).setWidth 64)) :=
  step_of (not_ok false d [])
theorem st_not64 (d : Gpr) : stepCall H (.not true d) m = some (m.setReg d (~~~ m.reg d)) :=
  step_of (not_ok true d [])
theorem st_neg32 (d : Gpr) :
    stepCall H (.neg false d) m = some ({ m with flags := none }.setReg d ((-m.lo d).setWidth 64)) :=
  step_of (neg_ok false d [])
theorem st_neg64 (d : Gpr) :
    stepCall H (.neg true d) m = some ({ m with flags := none }.setReg d (-m.reg d)) := step_of (neg_ok true d [])
theorem st_idiv32 (s : Gpr) :
    stepCall H (.idiv false s) m = match idivFn (m.lo 2) (m.lo 0) (m.lo s) with
      | none => none
      | some (q, r) => some (({ m with flags := none }.setReg 0 (q.setWidth 64)).setReg 2 (r.setWidth 64)) :=
  step_of (idiv_ok false s [])
theorem st_idiv64 (s : Gpr) :
    stepCall H (.idiv true s) m = match idivFn (m.reg 2) (m.reg 0) (m.reg s) with
      | none => none
      | some (q, r) => some (({ m with flags := none }.setReg 0 q).setReg 2 r) :=
  step_of (idiv_ok true s [])
theorem st_shiftI32 (op : Shift) (d : Gpr) (k : Byte) :
    stepCall H (.shiftI false op (.reg d) k) m =
      some ({ m with flags := none }.setReg d ((shiftFn op (m.lo d) k.toNat).setWidth 64)) := by
  obtain ⟨n, e, hn⟩ := shiftI_ok false op (.reg d) k trivial []
  refine (step_of e).trans ?_
  show some ({ m with flags := none }.setReg d ((shiftFn op (m.lo d) n).setWidth 64)) = _
  replace hn : n % 32 = k.toNat % 32 := hn
  cases op <;> simp only [shiftFn, hn]
theorem st_shiftI64 (op : Shift) (d : Gpr) (k : Byte) :
    stepCall H (.shiftI true op (.reg d) k) m =
      some ({ m with flags := none }.setReg d (shiftFn op (m.reg d) k.toNat)) := by
  obtain ⟨n, e, hn⟩ := shiftI_ok true op (.reg d) k trivial []
  refine (step_of e).trans ?_
  show some ({ m with flags := none }.setReg d (shiftFn op (m.reg d) n)) = _
  replace hn : n % 64 = k.toNat % 64 := hn
  cases op <;> simp only [shiftFn, hn]
theorem st_shiftCl32 (op : Shift) (d : Gpr) :
    stepCall H (.shiftCl false op d) m =
      some ({ m with flags := none }.setReg d ((shiftFn op (m.lo d) ((m.reg 1).setWidth 8).toNat).setWidth 64)) :=
  step_of (shiftCl_ok false op d [])
theorem st_shiftCl64 (op : Shift) (d : Gpr) :
    stepCall H (.shiftCl true op d) m =
      some ({ m with flags := none }.setReg d (shiftFn op (m.reg d) ((m.reg 1).setWidth 8).toNat)) :=
  step_of (shiftCl_ok true op d [])
theorem st_movqRI (d : Gpr) (v : BitVec 64) : stepCall H (.movqRI d v) m = some (m.setReg d v) := by
  obtain ⟨i, e, h⟩ := movqRI_ok d v []
  refine (step_of e).trans ?_
  rcases h with ⟨n, rfl, rfl⟩ | ⟨n, rfl, rfl⟩ | ⟨n, rfl, rfl⟩ <;> rfl
theorem st_xchgq02 : stepCall H (.xchgq 0 2) m = some ((m.setReg 0 (m.reg 2)).setReg 2 (m.reg 0)) := by
  rcases xchgq_ok 0 2 (by decide) [] with e | e
  · exact step_of e
  · refine (step_of e).trans ?_
    show some ((m.setReg 2 (m.reg 0)).setReg 0 (m.reg 2)) = _
    simp only [Mach.setReg]
    congr 2
    funext x
    by_cases h0 : x = 0
    · subst h0; rfl
    · by_cases h2 : x = 2
      · subst h2; rfl
      · simp [h0, h2]
theorem st_set (cc : Cc) (r : Gpr) (h : r.val < 4) :
    stepCall H (.set cc (.reg r)) m = match m.flags with
      | none => none
      | some f => some (m.setReg r (withByte (m.reg r) (if cond f cc then 1 else 0))) :=
  step_of (set_ok cc (.reg r) trivial (fun x e => by cases e; exact .inl h) [])
theorem st_push (r : Gpr) : stepCall H (.push r) m = some { m with stack := m.reg r :: m.stack } :=
  step_of (push_ok r [])
theorem st_pop (r : Gpr) :
    stepCall H (.pop r) m = match m.stack with
      | [] => none
      | v :: st => some ({ m with stack := st }.setReg r v) := step_of (pop_ok r [])
theorem st_cld : stepCall H .cld m = some { m with df := false } := step_of (i := .cld) rfl
theorem st_repMovsb : stepCall H .repMovsb m = rep (movsb H) m := step_of (i := .repMovsb) rfl
theorem st_repMovsd : stepCall H .repMovsd m = rep (movsd H) m := step_of (i := .repMovsd) rfl
theorem st_repStosd : stepCall H .repStosd m = rep (stosd H) m := step_of (i := .repStosd) rfl
theorem st_sse (op : Sse) (d s : Xmm) (h : d.val < 8) :
    stepCall H (.sse op d s) m = some (m.setXmm d (match op with
      | .addss => H.fpu.add (m.xmm d) (m.xmm s) | .mulss => H.fpu.mul (m.xmm d) (m.xmm s)
      | .subss => H.fpu.sub (m.xmm d) (m.xmm s) | .divss => H.fpu.div (m.xmm d) (m.xmm s))) :=
  step_of (sse_ok op d s h [])
theorem st_xorps (d s : Xmm) : stepCall H (.xorps d s) m = some (m.setXmm s (m.xmm s ^^^ m.xmm d)) :=
  step_of (xorps_ok d s [])
theorem st_ucomiss (l r : Xmm) :
    stepCall H (.ucomiss (.xmm l) r) m = some { m with flags := some (ucomFlags (H.fpu.cmp (m.xmm r) (m.xmm l))) } :=
  step_of (ucomiss_ok (.xmm l) r trivial [])
theorem st_movdOut00 : stepCall H (.movdOut 0 0) m = some (m.setReg 0 ((m.xmm 0).setWidth 64)) :=
  step_of (movdOut_ok 0 0 rfl (by decide) [])
theorem st_movdIn (d : Xmm) (s : Gpr) (h : d.val < 8) : stepCall H (.movdIn d s) m = some (m.setXmm d (m.lo s)) :=
  step_of (movdIn_ok d s h [])
theorem st_cvtsi2ss (d : Xmm) (s : Gpr) (h : d.val < 8) :
    stepCall H (.cvtsi2ss d (.reg s)) m = some (m.setXmm d (H.fpu.ofInt (m.lo s))) :=
  step_of (cvtsi2ss_ok d (.reg s) trivial h [])
end



theorem fieldAt_addr {H : Host} (ok : HostOk H) (f : Field) : H.fieldAt (H.addr f) = some f := by
  unfold Host.fieldAt
  cases f
  · rw [if_pos rfl]
  · rw [if_neg (fun e => by cases ok.inj _ _ e), if_pos rfl]
  · rw [if_neg (fun e => by cases ok.inj _ _ e), if_neg (fun e => by cases ok.inj _ _ e), if_pos rfl]
  · rw [if_neg (fun e => by cases ok.inj _ _ e), if_neg (fun e => by cases ok.inj _ _ e),
      if_neg (fun e => by cases ok.inj _ _ e), if_pos rfl]

theorem offset_at {H : Host} {a : Int} (h0 : 0 ≤ a) (h1 : a < 18446744073709551616) : H.offset (Host.at H a) = a := by
  unfold Host.offset Host.at
  rw [BitVec.add_comm, BitVec.add_sub_cancel, BitVec.toNat_ofInt]
  omega

theorem fieldAt_at {H : Host} (ok : HostOk H) {a : Int} (h0 : 0 ≤ a) (h1 : a < H.memSize) :
    H.fieldAt (Host.at H a) = none := by
  have hr := ok.room
  have ho : H.offset (Host.at H a) = a := offset_at h0 (by omega)
  have ne : ∀ f, Host.at H a ≠ H.addr f := fun f e => by
    have := ok.out f; rw [← e, ho] at this; omega
  unfold Host.fieldAt
  rw [if_neg (ne _), if_neg (ne _), if_neg (ne _), if_neg (ne _)]

section
variable {H : Host} (ok : HostOk H) {m : Mach} {a : Int}
include ok
theorem inBlock_at {n : Int} (h0 : 0 ≤ a) (h1 : a + n ≤ H.memSize) (hn : 0 < n) : H.inBlock (Host.at H a) n = true := by
  have hr := ok.room
  rw [Host.inBlock, offset_at h0 (by omega)]
  exact decide_eq_true h1
theorem load32_at (h0 : 0 ≤ a) (h1 : a + 4 ≤ H.memSize) : load32 H m (Host.at H a) = some (rd32 m.mem a) := by
  have hr := ok.room
  rw [load32, fieldAt_at ok h0 (by omega)]
  simp only [inBlock_at ok h0 h1 (by omega), if_true, offset_at h0 (show a < 18446744073709551616 by omega)]
theorem load64_at (h0 : 0 ≤ a) (h1 : a + 8 ≤ H.memSize) : load64 H m (Host.at H a) = some (rd64 m.mem a) := by
  have hr := ok.room
  rw [load64, fieldAt_at ok h0 (by omega)]
  simp only [inBlock_at ok h0 h1 (by omega), if_true, offset_at h0 (show a < 18446744073709551616 by omega)]
theorem store8_at (h0 : 0 ≤ a) (h1 : a + 1 ≤ H.memSize) (v : BitVec 8) :
    store8 H m (Host.at H a) v = some { m with mem := wr8 m.mem a v } := by
  have hr := ok.room
  rw [store8, fieldAt_at ok h0 (by omega)]
  simp only [inBlock_at ok h0 h1 (by omega), if_true, offset_at h0 (show a < 18446744073709551616 by omega)]
theorem store32_at (h0 : 0 ≤ a) (h1 : a + 4 ≤ H.memSize) (v : BitVec 32) :
    store32 H m (Host.at H a) v = some { m with mem := wr32 m.mem a v } := by
  have hr := ok.room
  rw [store32, fieldAt_at ok h0 (by omega)]
  simp only [inBlock_at ok h0 h1 (by omega), if_true, offset_at h0 (show a < 18446744073709551616 by omega)]
theorem store64_at (h0 : 0 ≤ a) (h1 : a + 8 ≤ H.memSize) (v : BitVec 64) :
    store64 H m (Host.at H a) v = some { m with mem := wr64 m.mem a v } := by
  have hr := ok.room
  rw [store64, fieldAt_at ok h0 (by omega)]
  simp only [inBlock_at ok h0 h1 (by omega), if_true, offset_at h0 (show a < 18446744073709551616 by omega)]
theorem load32_field (f : Field) : load32 H m (H.addr f) = some (m.field f) := by
  rw [load32, fieldAt_addr ok]
theorem store32_field (f : Field) (v : BitVec 32) : store32 H m (H.addr f) v = some (m.setField f v) := by
  rw [store32, fieldAt_addr ok]
end

theorem at_add (H : Host) (a b : Int) : Host.at H a + BitVec.ofInt 64 b = Host.at H (a + b) := by
  unfold Host.at
  rw [BitVec.add_assoc, BitVec.ofInt_add]

theorem ea_bd (m : Mach) (b : Gpr) (d : BitVec 32) : ea m (MemArg.bd b d).meaning = m.reg b + BitVec.ofInt 64 d.toInt := by
  simp [ea, MemArg.meaning]

theorem ea_bisd0 (m : Mach) (b i : Gpr) (d : BitVec 32) :
    ea m (MemArg.bisd b i 0 d).meaning = m.reg b + m.reg i + BitVec.ofInt 64 d.toInt := by
  simp [ea, MemArg.meaning]

theorem ea_bisd2 (m : Mach) (b i : Gpr) (d : BitVec 32) :
    ea m (MemArg.bisd b i 2 d).meaning = m.reg b + m.reg i <<< 2 + BitVec.ofInt 64 d.toInt := by
  simp [ea, MemArg.meaning]

theorem zext_ofInt (p : BitVec 32) : p.setWidth 64 = BitVec.ofInt 64 p.toNat := by
  apply BitVec.eq_of_toNat_eq
  rw [BitVec.toNat_setWidth, BitVec.toNat_ofInt]
  have := p.isLt
  omega

theorem lo_zext (p : BitVec 32) : (p.setWidth 64).setWidth 32 = p := by
  apply BitVec.eq_of_toNat_eq
  rw [BitVec.toNat_setWidth, BitVec.toNat_setWidth]
  have := p.isLt
  omega

end Verif.Jit

import Verif.Proofs.LongStep

/-! The code of expressions computes their values (C81). -/
namespace Verif.Long
open Verif.VM

/-! ### Arithmetic -/

theorem nat_of_int {w : BitVec 64} (h : 0 ≤ w.toInt) : (w.toNat : Int) = w.toInt := by
  have := w.isLt
  rw [BitVec.toInt_eq_toNat_cond] at h ⊢
  split <;> omega

theorem small_iff (w : BitVec 64) : (0 ≤ w.toInt ∧ w.toInt < 64) ↔ w.toNat < 64 := by
  have := w.isLt
  rw [BitVec.toInt_eq_toNat_cond]
  split <;> omega

theorem op_agree (op : Op) (a b : BitVec 64) :
    let r := op64 op.insn (if op.exchanged then a else b) (if op.exchanged then b else a)
    match op.eval a b with
    | .ok v => r = some (.ok v)
    | .err e => r = some (.error e)
    | .undef => True := by
  have hdiv : ∀ (r : Int) (x : BitVec 64), (b.toInt ≠ 0 → ¬ (b.toInt = -1 ∧ a.toInt = -9223372036854775808) → BitVec.ofInt 64 r = x) →
      match (if b.toInt = 0 then Out.err .divideByZero
        else if a.toInt = -9223372036854775808 ∧ b.toInt = -1 then .err .integerOverflow else .ok (BitVec.ofInt 64 r) : Out (BitVec 64)) with
      | .ok v => (match divCheck a b with | some e => some (.error e) | none => some (.ok x) : Option (Except Err (BitVec 64))) = some (.ok v)
      | .err e => (match divCheck a b with | some e => some (.error e) | none => some (.ok x) : Option (Except Err (BitVec 64))) = some (.error e)
      | .undef => True := by
    intro r x hx
    rcases divCheck_spec (w := 64) (by omega) a b with ⟨h, e⟩ | ⟨h, h', e⟩ | ⟨h, h', e, t⟩
    · rw [if_pos h, e]
    · rw [if_neg (by omega), if_pos ⟨by simpa using h', h⟩, e]
    · rw [if_neg h, if_neg (fun hc => h' ⟨hc.2, by simpa using hc.1⟩), e, hx h (fun hc => h' ⟨hc.1, by simpa using hc.2⟩)]
  cases op with
  | mul =>
    simp only [Op.eval, Op.insn, Op.exchanged, op64, Bool.false_eq_true, if_false]
    rw [BitVec.ofInt_mul, BitVec.ofInt_toInt, BitVec.ofInt_toInt, BitVec.mul_comm]
  | add =>
    simp only [Op.eval, Op.insn, Op.exchanged, op64, Bool.false_eq_true, if_false]
    rw [BitVec.ofInt_add, BitVec.ofInt_toInt, BitVec.ofInt_toInt, BitVec.add_comm]
  | sub =>
    simp only [Op.eval, Op.insn, Op.exchanged, op64, Bool.false_eq_true, if_false]
    rw [Int.sub_eq_add_neg, BitVec.ofInt_add, BitVec.ofInt_neg, BitVec.ofInt_toInt, BitVec.ofInt_toInt, BitVec.sub_eq_add_neg]
  | div =>
    simp only [Op.eval, Op.insn, Op.exchanged, op64, Bool.false_eq_true, if_false]
    refine hdiv _ (a.sdiv b) fun h h' => ?_
    apply BitVec.eq_of_toInt_eq
    rw [BitVec.toInt_ofInt, BitVec.toInt_sdiv]
  | mod =>
    simp only [Op.eval, Op.insn, Op.exchanged, op64, Bool.false_eq_true, if_false]
    refine hdiv _ (a.srem b) fun h h' => ?_
    rw [← BitVec.toInt_srem, BitVec.ofInt_toInt]
  | shl =>
    simp only [Op.eval, Op.insn, Op.exchanged, op64, if_true]
    by_cases h : b.toNat < 64
    · rw [if_pos ((small_iff b).mpr h), if_pos h]
      simp only []
      congr 2
      apply BitVec.eq_of_toNat_eq
      rw [BitVec.toNat_shiftLeft, BitVec.toNat_ofNat, Nat.shiftLeft_eq]
    · rw [if_neg (fun hc => h ((small_iff b).mp hc))]
      trivial
  | sshr =>
    simp only [Op.eval, Op.insn, Op.exchanged, op64, if_true]
    by_cases h : b.toNat < 64
    · rw [if_pos ((small_iff b).mpr h), if_pos h]
      simp only []
      congr 2
      have e : a.toInt / 2 ^ b.toNat = a.toInt >>> b.toNat := by rw [Int.shiftRight_eq_div_pow]; simp
      rw [e, ← BitVec.toInt_sshiftRight, BitVec.ofInt_toInt]
    · rw [if_neg (fun hc => h ((small_iff b).mp hc))]
      trivial
  | shr =>
    simp only [Op.eval, Op.insn, Op.exchanged, op64, if_true]
    by_cases h : b.toNat < 64
    · rw [if_pos ((small_iff b).mpr h), if_pos h]
      simp only []
      congr 2
      apply BitVec.eq_of_toNat_eq
      rw [BitVec.toNat_ushiftRight, BitVec.toNat_ofNat, Nat.shiftRight_eq_div_pow]
      exact (Nat.mod_eq_of_lt (Nat.lt_of_le_of_lt (Nat.div_le_self _ _) a.isLt)).symm
    · rw [if_neg (fun hc => h ((small_iff b).mp hc))]
      trivial
  | and =>
    simp only [Op.eval, Op.insn, Op.exchanged, op64, Bool.false_eq_true, if_false]
    rw [BitVec.and_comm]
  | or =>
    simp only [Op.eval, Op.insn, Op.exchanged, op64, Bool.false_eq_true, if_false]
    rw [BitVec.or_comm]
  | xor =>
    simp only [Op.eval, Op.insn, Op.exchanged, op64, Bool.false_eq_true, if_false]
    rw [BitVec.xor_comm]

theorem rel_agree (op : Rel) (a b : BitVec 64) :
    cmp64 op.insn (if op.exchanged then a else b) (if op.exchanged then b else a) = op.eval a b := by
  cases op with
  | eq =>
    simp only [Rel.insn, Rel.exchanged, Rel.eval, cmp64, Bool.false_eq_true, if_false, BitVec.toInt_inj]
    rw [Bool.eq_iff_iff, beq_iff_eq, decide_eq_true_iff]; exact eq_comm
  | ne =>
    simp only [Rel.insn, Rel.exchanged, Rel.eval, cmp64, Bool.false_eq_true, if_false, ne_eq, BitVec.toInt_inj]
    rw [Bool.eq_iff_iff, bne_iff_ne, decide_eq_true_iff]; exact ne_comm
  | gt => simp [Rel.insn, Rel.exchanged, Rel.eval, cmp64, BitVec.slt]
  | ge => simp [Rel.insn, Rel.exchanged, Rel.eval, cmp64, BitVec.sle]
  | lt => simp [Rel.insn, Rel.exchanged, Rel.eval, cmp64, BitVec.slt]
  | le => simp [Rel.insn, Rel.exchanged, Rel.eval, cmp64, BitVec.sle]

theorem neg_agree (a : BitVec 64) : -a = BitVec.ofInt 64 (-a.toInt) := by rw [BitVec.ofInt_neg, BitVec.ofInt_toInt]

theorem extend_agree (c : Cell) : c.signExtend 64 = BitVec.ofInt 64 c.toInt := by rw [BitVec.signExtend]

theorem trunc_agree (a : BitVec 64) : a.extractLsb' 0 32 = BitVec.ofInt 32 a.toInt := by
  apply BitVec.eq_of_toNat_eq
  rw [BitVec.extractLsb'_toNat, BitVec.toNat_ofInt, BitVec.toInt_eq_toNat_cond]
  have := a.isLt
  split <;> omega

theorem zero_iff (a : BitVec 64) : a.toInt = 0 ↔ a = 0 := by
  rw [← BitVec.toInt_inj]; simp

/-! ### Variables that are not changed -/

theorem bind_ok {α β : Type} {x : Out α} {f : α → Out β} {y : β} (h : x.bind f = .ok y) : ∃ a, x = .ok a ∧ f a = .ok y := by
  cases x with
  | ok a => exact ⟨a, rfl, h⟩
  | err e => cases h
  | undef => cases h

mutual
theorem eval64_frame {tgt : Nat → Obj} {o : Obj} : ∀ {e : E64} {σ σ' : Store} {v : BitVec 64}, eval64 tgt σ e = .ok (v, σ') → o ∉ writes64 tgt e →
    σ'.w o = σ.w o
  | .num _, _, _, _, h, _ => by simp only [eval64] at h; cases h; rfl
  | .var _, _, _, _, h, _ => by simp only [eval64] at h; cases h; rfl
  | .inv e, _, _, _, h, hn => by
    simp only [eval64] at h
    obtain ⟨⟨a, s⟩, h1, h2⟩ := bind_ok h
    cases h2
    exact eval64_frame h1 hn
  | .neg e, _, _, _, h, hn => by
    simp only [eval64] at h
    obtain ⟨⟨a, s⟩, h1, h2⟩ := bind_ok h
    cases h2
    exact eval64_frame h1 hn
  | .bin op a b, _, _, _, h, hn => by
    simp only [eval64] at h
    simp only [writes64, List.mem_append, not_or] at hn
    obtain ⟨⟨l, s⟩, h1, h2⟩ := bind_ok h
    obtain ⟨⟨r, s'⟩, h3, h4⟩ := bind_ok h2
    obtain ⟨x, h5, h6⟩ := bind_ok h4
    cases h6
    exact (eval64_frame h3 hn.2).trans (eval64_frame h1 hn.1)
  | .set x e, _, _, _, h, hn => by
    simp only [eval64] at h
    simp only [writes64, List.mem_cons, not_or] at hn
    obtain ⟨⟨l, s⟩, h1, h2⟩ := bind_ok h
    cases h2
    simp only [Store.set64, if_neg hn.1]
    exact eval64_frame h1 hn.2
  | .opset op x e, _, _, _, h, hn => by
    simp only [eval64] at h
    simp only [writes64, List.mem_cons, not_or] at hn
    obtain ⟨⟨l, s⟩, h1, h2⟩ := bind_ok h
    obtain ⟨y, h3, h4⟩ := bind_ok h2
    cases h4
    simp only [Store.set64, if_neg hn.1]
    exact eval64_frame h1 hn.2
  | .inc _ _ x, _, _, _, h, hn => by
    simp only [eval64] at h
    simp only [writes64, List.mem_singleton] at hn
    cases h
    simp only [Store.set64, if_neg hn]
  | .ofInt e, _, _, _, h, hn => by
    simp only [eval64] at h
    obtain ⟨⟨a, s⟩, h1, h2⟩ := bind_ok h
    cases h2
    exact eval32_frame h1 hn
  | .comma a b, _, _, _, h, hn => by
    simp only [eval64] at h
    simp only [writes64, List.mem_append, not_or] at hn
    obtain ⟨⟨l, s⟩, h1, h2⟩ := bind_ok h
    exact (eval64_frame h2 hn.2).trans (eval64_frame h1 hn.1)
theorem eval32_frame {tgt : Nat → Obj} {o : Obj} : ∀ {e : E32} {σ σ' : Store} {v : Cell}, eval32 tgt σ e = .ok (v, σ') → o ∉ writes32 tgt e →
    σ'.w o = σ.w o
  | .num _, _, _, _, h, _ => by simp only [eval32] at h; cases h; rfl
  | .var _, _, _, _, h, _ => by simp only [eval32] at h; cases h; rfl
  | .set n e, _, _, _, h, hn => by
    simp only [eval32] at h
    obtain ⟨⟨a, s⟩, h1, h2⟩ := bind_ok h
    cases h2
    exact (eval32_frame (e := e) h1 hn : s.w o = _)
  | .trunc e, _, _, _, h, hn => by
    simp only [eval32] at h
    obtain ⟨⟨a, s⟩, h1, h2⟩ := bind_ok h
    cases h2
    exact eval64_frame h1 hn
  | .rel op a b, _, _, _, h, hn => by
    simp only [eval32] at h
    simp only [writes32, List.mem_append, not_or] at hn
    obtain ⟨⟨l, s⟩, h1, h2⟩ := bind_ok h
    obtain ⟨⟨r, s'⟩, h3, h4⟩ := bind_ok h2
    cases h4
    exact (eval64_frame h3 hn.2).trans (eval64_frame h1 hn.1)
  | .not e, _, _, _, h, hn => by
    simp only [eval32] at h
    obtain ⟨⟨a, s⟩, h1, h2⟩ := bind_ok h
    cases h2
    exact eval64_frame h1 hn
  | .truth e, _, _, _, h, hn => by
    simp only [eval32] at h
    obtain ⟨⟨a, s⟩, h1, h2⟩ := bind_ok h
    cases h2
    exact eval64_frame h1 hn
end

/-! ### Slots stay well formed -/

mutual
theorem gen64_wf {t : Slots} (h : WF t) : ∀ e : E64, WF (gen64 t e).2
  | .num v => by simp only [gen64, emitNum]; exact (acquire_ok h _).1
  | .var _ => by simp only [gen64]; exact h
  | .inv e => by simp only [gen64]; exact (acquire_ok (gen64_wf h e) _).1
  | .neg e => by simp only [gen64]; exact (acquire_ok (gen64_wf h e) _).1
  | .bin op a b => by simp only [gen64, emitOp]; exact (acquire_ok (gen64_wf (gen64_wf h a) b) _).1
  | .set _ e => by simp only [gen64]; exact gen64_wf h e
  | .opset op x e => by simp only [gen64, emitOp]; exact (acquire_ok (gen64_wf h e) _).1
  | .inc up pre x => by
    simp only [gen64, emitInc]
    split
    · exact (acquire_ok h _).1
    · exact (acquire_ok (acquire_ok h _).1 _).1
  | .ofInt e => by simp only [gen64]; exact (acquire_ok (gen32_wf h e) _).1
  | .comma a b => by simp only [gen64]; exact gen64_wf (gen64_wf h a) b
theorem gen32_wf {t : Slots} (h : WF t) : ∀ e : E32, WF (gen32 t e).2
  | .num _ | .var _ => by simp only [gen32]; exact h
  | .set _ e => by simp only [gen32]; exact gen32_wf h e
  | .trunc e => by simp only [gen32]; exact gen64_wf h e
  | .rel op a b => by simp only [gen32]; exact gen64_wf (gen64_wf h a) b
  | .not e => by simp only [gen32]; exact gen64_wf h e
  | .truth e => by simp only [gen32]; exact gen64_wf h e
end

end Verif.Long

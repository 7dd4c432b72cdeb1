import Verif.Proofs.JitArith
import Verif.Proofs.JitFloat
import Verif.Proofs.JitInt64
import Verif.Proofs.JitHeap

/-! All instructions together. -/
namespace Verif.Jit
open Verif.X64 Verif.VM

theorem withSlot_code {J : JitEnv} {slot : Int} {f : Int → List Item} {is : List Item} (h : withSlot J slot f = .code is) :
    ∃ o, J.slot slot = some o ∧ is = f o := by
  unfold withSlot at h
  split at h
  · rename_i o ho
    cases h
    exact ⟨o, ho, rfl⟩
  · cases h

theorem needs_reg {r : Reg} {kp ka : Bool} : (decide (r = .pri) = true → kp = true) →
    (decide (r = .alt) = true → ka = true) → match r with | .pri => kp = true | .alt => ka = true := by
  intro hp ha
  cases r
  · exact hp rfl
  · exact ha rfl

theorem setP_needed {r : Reg} {kp ka : Bool} (h : match r with | .pri => kp = true | .alt => ka = true) : setP r kp = kp := by
  cases r
  · exact h.symm
  · rfl

theorem setA_needed {r : Reg} {kp ka : Bool} (h : match r with | .pri => kp = true | .alt => ka = true) : setA r ka = ka := by
  cases r
  · rfl
  · exact h.symm

theorem sim_all {H : Host} {J : JitEnv} {E : Env} {method : Nat} {here : Int} {s s' : IState} {c : Ctl} {m : Mach}
    {kp ka : Bool} {i : Insn} {is : List Item} (S : Setup H J E method s) (F : FloatsAgree E.floats H.fpu)
    (h : Sim H kp ka m s) (hp : needsPri i = true → kp = true) (ha : needsAlt i = true → ka = true)
    (side : Side H s i) (hj : jit J i = .code is) (hv : visit E method here i s = .ok s' c) :
    Runs H is m (priAfter i kp) (altAfter i ka) s' := by
  have S' := S.jslot
  cases i with
  | const r v =>
    cases hj
    exact sim_const h hv
  | zero r =>
    cases hj
    exact sim_zero h hv
  | load r a =>
    cases hj
    exact sim_load S h hv
  | pop r =>
    cases hj
    exact sim_pop S h hv
  | pushC vs =>
    cases hj
    exact sim_pushC S h hv
  | loadS r sl =>
    obtain ⟨o, ho, rfl⟩ := withSlot_code hj
    rw [S'] at ho
    exact sim_loadS S h ho hv
  | lrefS r sl =>
    obtain ⟨o, ho, rfl⟩ := withSlot_code hj
    rw [S'] at ho
    exact sim_lrefS S h ho hv
  | addr r sl =>
    obtain ⟨o, ho, rfl⟩ := withSlot_code hj
    rw [S'] at ho
    exact sim_addr S h ho hv
  | storSC sl v =>
    obtain ⟨o, ho, rfl⟩ := withSlot_code hj
    rw [S'] at ho
    exact sim_storSC S h ho hv
  | zeroS sl =>
    obtain ⟨o, ho, rfl⟩ := withSlot_code hj
    rw [S'] at ho
    exact sim_zeroS S h ho hv
  | storSCI64 sl c0 c1 =>
    obtain ⟨o, ho, rfl⟩ := withSlot_code hj
    rw [S'] at ho
    exact sim_storSCI64 S h ho hv
  | zeroSI64 sl =>
    obtain ⟨o, ho, rfl⟩ := withSlot_code hj
    rw [S'] at ho
    exact sim_zeroSI64 S h ho hv
  | nop =>
    cases hj
    cases hv
    exact sim_nop h
  | brk =>
    cases hj
    cases hv
    exact sim_nop h
  | smulC v =>
    cases hp rfl
    cases hj
    exact sim_smulC h hv
  | addC v =>
    cases hp rfl
    cases hj
    exact sim_addC h hv
  | neg =>
    cases hp rfl
    cases hj
    exact sim_neg h hv
  | invert =>
    cases hp rfl
    cases hj
    exact sim_invert h hv
  | not =>
    cases hp rfl
    cases hj
    exact sim_not h hv
  | stradjust =>
    cases hp rfl
    cases hj
    exact sim_stradjust h hv
  | bounds n =>
    cases hp rfl
    cases hj
    exact sim_bounds h hv
  | loadI =>
    cases hp rfl
    cases hj
    exact sim_loadI S h hv
  | lodbI w =>
    cases hp rfl
    cases hj
    exact sim_lodbI S h hv
  | negF32 =>
    cases hp rfl
    cases hj
    exact sim_negF32 F h hv
  | cvtF32 =>
    cases hp rfl
    cases hj
    exact sim_cvtF32 F h hv
  | pushII64 =>
    cases hp rfl
    cases hj
    exact sim_pushII64 S h hv
  | truncI64 =>
    cases hp rfl
    cases hj
    exact sim_truncI64 S h hv
  | testI64 =>
    cases hp rfl
    cases hj
    exact sim_testI64 S h hv
  | cvtI64 sl =>
    cases hp rfl
    obtain ⟨o, ho, rfl⟩ := withSlot_code hj
    rw [S'] at ho
    exact sim_cvtI64 S h ho hv
  | invertI64 sl =>
    cases hp rfl
    obtain ⟨o, ho, rfl⟩ := withSlot_code hj
    rw [S'] at ho
    exact sim_invertI64 S h ho hv
  | negI64 sl =>
    cases hp rfl
    obtain ⟨o, ho, rfl⟩ := withSlot_code hj
    rw [S'] at ho
    exact sim_negI64 S h ho hv
  | storSPriI64 sl =>
    cases hp rfl
    obtain ⟨o, ho, rfl⟩ := withSlot_code hj
    rw [S'] at ho
    exact sim_storSPriI64 S h ho hv
  | xchg =>
    cases hp rfl
    cases ha rfl
    cases hj
    exact sim_xchg h hv
  | add =>
    cases hp rfl
    cases ha rfl
    cases hj
    exact sim_add h hv
  | and =>
    cases hp rfl
    cases ha rfl
    cases hj
    exact sim_and h hv
  | or =>
    cases hp rfl
    cases ha rfl
    cases hj
    exact sim_or h hv
  | xor =>
    cases hp rfl
    cases ha rfl
    cases hj
    exact sim_xor h hv
  | subAlt =>
    cases hp rfl
    cases ha rfl
    cases hj
    exact sim_subAlt h hv
  | smul =>
    cases hp rfl
    cases ha rfl
    cases hj
    exact sim_smul h hv
  | shl =>
    cases hp rfl
    cases ha rfl
    cases hj
    exact sim_shl h hv
  | shr =>
    cases hp rfl
    cases ha rfl
    cases hj
    exact sim_shr h hv
  | sshr =>
    cases hp rfl
    cases ha rfl
    cases hj
    exact sim_sshr h hv
  | sdiv r =>
    cases hp rfl
    cases ha rfl
    cases hj
    exact sim_sdiv h hv
  | sdivAltI32 =>
    cases hp rfl
    cases ha rfl
    cases hj
    exact sim_sdivAlt h hv
  | smodAltI32 =>
    cases hp rfl
    cases ha rfl
    cases hj
    exact sim_smodAlt h hv
  | storI =>
    cases hp rfl
    cases ha rfl
    cases hj
    exact sim_storI S h hv
  | moveI64 =>
    cases hp rfl
    cases ha rfl
    cases hj
    exact sim_moveI64 S h hv
  | fill n =>
    cases hp rfl
    cases ha rfl
    cases hj
    exact sim_fill S h hv
  | strbI w =>
    cases hp rfl
    cases ha rfl
    cases hj
    exact sim_strbI S h side hv
  | idxaddr =>
    cases hp rfl
    cases ha rfl
    cases hj
    exact sim_idxaddr h side.1 side.2 hv
  | movs n =>
    cases hp rfl
    cases ha rfl
    cases hj
    exact sim_movs S h side hv
  | move r =>
    cases r with
    | pri => cases ha rfl; cases hj; exact sim_move_pri h hv
    | alt => cases hp rfl; cases hj; exact sim_move_alt h hv
  | cmp o =>
    cases hp rfl
    cases ha rfl
    rw [jit] at hj
    split at hj
    · rename_i cc hc
      cases hj
      exact sim_cmp h hc hv
    · cases hj
  | cmp64 o =>
    cases hp rfl
    cases ha rfl
    rw [jit] at hj
    split at hj
    · rename_i cc hc
      cases hj
      exact sim_cmp64 S h hc hv
    · cases hj
  | bin64 op sl =>
    cases hp rfl
    cases ha rfl
    obtain ⟨o, ho, rfl⟩ := withSlot_code hj
    rw [S'] at ho
    have := sim_bin64 S h ho hv
    cases op <;> exact this
  | binF32 o =>
    cases hp rfl
    cases ha rfl
    have := sim_binF32 F h hj hv
    cases o <;> exact this
  | cmpF32 o =>
    cases hp rfl
    cases ha rfl
    exact sim_cmpF32 F h hj hv
  | testF32 =>
    exact side.elim
  | stor a r =>
    have hr := needs_reg (r := r) hp ha
    cases hj
    exact sim_stor S h hr hv
  | push r =>
    have hr := needs_reg (r := r) hp ha
    cases hj
    exact sim_push S h hr hv
  | swap r =>
    have hr := needs_reg (r := r) hp ha
    cases hj
    exact sim_swap S h hr hv
  | eqC r v =>
    have hr := needs_reg (r := r) hp ha
    cases hj
    exact sim_eqC h hr hv
  | inc r =>
    have hr := needs_reg (r := r) hp ha
    cases hj
    have := sim_inc h hr hv
    rw [setP_needed hr, setA_needed hr] at this
    exact this
  | dec r =>
    have hr := needs_reg (r := r) hp ha
    cases hj
    have := sim_dec h hr hv
    rw [setP_needed hr, setA_needed hr] at this
    exact this
  | shlC r n =>
    have hr := needs_reg (r := r) hp ha
    cases hj
    have := sim_shlC h hr hv
    rw [setP_needed hr, setA_needed hr] at this
    exact this
  | storS sl r =>
    have hr := needs_reg (r := r) hp ha
    obtain ⟨o, ho, rfl⟩ := withSlot_code hj
    rw [S'] at ho
    exact sim_storS S h hr ho hv
  | srefS sl r =>
    have hr := needs_reg (r := r) hp ha
    obtain ⟨o, ho, rfl⟩ := withSlot_code hj
    rw [S'] at ho
    exact sim_srefS S h hr ho hv
  | pushS vs =>
    rw [jit] at hj
    split at hj
    · rename_i he
      cases hj
      exact sim_pushS S h he hv
    · cases hj
  | pushAdr vs =>
    rw [jit] at hj
    split at hj
    · rename_i he
      cases hj
      exact sim_pushAdr S h he hv
    · cases hj
  | stack n =>
    cases hj
    exact sim_stack S h side.1 side.2.1 side.2.2 hv
  | heap n =>
    cases hj
    exact sim_heap S h side hv
  | heapSave =>
    cases hj
    exact sim_heapSave S h side hv
  | heapRestore =>
    cases hj
    exact sim_heapRestore S h hv
  | genarray n z =>
    rw [jit] at hj
    split at hj
    · rename_i hn
      cases hj
      exact sim_genarray S h hn side hv
    · cases hj
  | initarray r a iv cp fl v =>
    have hr := needs_reg (r := r) hp ha
    rw [jit] at hj
    split at hj
    · rename_i hn
      cases hn
      cases hj
      exact sim_initarray S h hr hv
    · cases hj
  | _ => cases hj

end Verif.Jit

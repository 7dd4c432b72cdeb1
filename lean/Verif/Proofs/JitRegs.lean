import Verif.Proofs.JitSim

/-! Instructions that work on the two registers only. -/
namespace Verif.Jit
open Verif.X64 Verif.VM

theorem setByte_bool (b : Bool) : withByte ((0#32).setWidth 64) (if b then 1 else 0) = (boolCell b).setWidth 64 := by
  cases b <;> rfl

theorem less32 {x y d : Int} (hd : d = (x - y).bmod 4294967296) (hx : -2147483648 ≤ x ∧ x < 2147483648)
    (hy : -2147483648 ≤ y ∧ y < 2147483648) :
    (decide (d < 0) != decide (x - y ≠ d)) = decide (x < y) := by
  rw [Int.bmod_def] at hd
  by_cases h1 : d < 0 <;> by_cases h2 : x - y = d <;> by_cases h3 : x < y <;> simp [h1, h2, h3] <;> split at hd <;> omega

theorem less64 {x y d : Int} (hd : d = (x - y).bmod 18446744073709551616)
    (hx : -9223372036854775808 ≤ x ∧ x < 9223372036854775808)
    (hy : -9223372036854775808 ≤ y ∧ y < 9223372036854775808) :
    (decide (d < 0) != decide (x - y ≠ d)) = decide (x < y) := by
  rw [Int.bmod_def] at hd
  by_cases h1 : d < 0 <;> by_cases h2 : x - y = d <;> by_cases h3 : x < y <;> simp [h1, h2, h3] <;> split at hd <;> omega

theorem toInt64_range (v : BitVec 64) : -9223372036854775808 ≤ v.toInt ∧ v.toInt < 9223372036854775808 := by
  have h1 := @BitVec.le_toInt 64 v
  have h2 := @BitVec.toInt_lt 64 v
  constructor <;> omega

theorem cond_cmp32 {c : Cmp} {cc : Cc} (hc : opToCondition c = some cc) (a b : BitVec 32) :
    cond (cmpFlags a b) cc = cmpCells c a b := by
  have L := less32 (BitVec.toInt_sub (x := a) (y := b)) (toInt_range a) (toInt_range b)
  have E : (a == b) = decide (a.toInt = b.toInt) := by
    rw [Bool.eq_iff_iff]; simp [BitVec.toInt_inj]
  cases c <;> cases hc <;>
    simp only [X64.cond, cmpFlags, cmpCells, BitVec.slt, BitVec.sle, L, E, bne] <;>
    grind

theorem cond_cmp64 {c : Cmp} {cc : Cc} (hc : opToCondition c = some cc) (a b : BitVec 64) :
    cond (cmpFlags a b) cc = cmp64 c a b := by
  have L := less64 (BitVec.toInt_sub (x := a) (y := b)) (toInt64_range a) (toInt64_range b)
  have E : (a == b) = decide (a.toInt = b.toInt) := by
    rw [Bool.eq_iff_iff]; simp [BitVec.toInt_inj]
  cases c <;> cases hc <;>
    simp only [X64.cond, cmpFlags, cmp64, BitVec.slt, BitVec.sle, L, E, bne] <;>
    grind

theorem cond_eq {n : Nat} (a b : BitVec n) : cond (cmpFlags a b) 4 = (a == b) := rfl
theorem cond_neq {n : Nat} (a b : BitVec n) : cond (cmpFlags a b) 5 = !(a == b) := rfl
theorem cond_below {n : Nat} (a b : BitVec n) : cond (cmpFlags a b) 2 = decide (a.toNat < b.toNat) := rfl
theorem cond_ae {n : Nat} (a b : BitVec n) : cond (cmpFlags a b) 3 = !decide (a.toNat < b.toNat) := rfl
theorem cond_above {n : Nat} (a b : BitVec n) : cond (cmpFlags a b) 7 = decide (b.toNat < a.toNat) := by
  show (!(decide (a.toNat < b.toNat) || a == b)) = _
  rw [Bool.eq_iff_iff]
  have : a = b ↔ a.toNat = b.toNat := BitVec.toNat_inj.symm
  simp [this]
  omega
theorem cond_test0 {n : Nat} (a : BitVec n) : cond (testFlags a a) 4 = (a == 0) := by
  show (a &&& a == 0) = _
  rw [BitVec.and_self]
theorem cond_test1 {n : Nat} (a : BitVec n) : cond (testFlags a a) 5 = !(a == 0) := by
  show (!(a &&& a == 0)) = _
  rw [BitVec.and_self]

section
variable {H : Host} {J : JitEnv} {E : Env} {method : Nat} {here : Int} {s s' : IState} {c : Ctl} {m : Mach} {kp ka : Bool}

theorem sim_const (h : Sim H kp ka m s) {r : Reg} {v : Cell} (hv : visit E method here (.const r v) s = .ok s' c) :
    Runs H [.op (.movlRI (regOf r) v)] m (setP r kp) (setA r ka) s' := by
  obtain rfl := setR_inv (done_inv hv)
  cases r <;> jrun [Runs, st_movlRI]
  · exact mkRegs h (fun _ => rfl) h.alt
  · exact mkRegs h h.pri (fun _ => rfl)

theorem sim_zero (h : Sim H kp ka m s) {r : Reg} (hv : visit E method here (.zero r) s = .ok s' c) :
    Runs H [.op (.alu false .xor (.reg (regOf r)) (regOf r))] m (setP r kp) (setA r ka) s' := by
  obtain rfl := setR_inv (done_inv hv)
  cases r <;> jrun [Runs, st_alu32 H _ _ (.reg _) _ trivial, alu32, get32, put32, aluFn, BitVec.xor_self]
  · exact mkRegs h (fun _ => rfl) h.alt
  · exact mkRegs h h.pri (fun _ => rfl)

theorem sim_move_pri (h : Sim H kp true m s) (hv : visit E method here (.move .pri) s = .ok s' c) :
    Runs H [.op (.movqRR rPri rAlt)] m true true s' := by
  cases done_inv hv
  jrun [Runs, st_movqRR _ _ _ 0 (by decide), st_movqRR _ _ _ 2 (by decide)]
  exact mkRegs h (fun _ => h.alt rfl) h.alt
theorem sim_move_alt (h : Sim H true ka m s) (hv : visit E method here (.move .alt) s = .ok s' c) :
    Runs H [.op (.movqRR rAlt rPri)] m true true s' := by
  cases done_inv hv
  jrun [Runs, st_movqRR _ _ _ 0 (by decide), st_movqRR _ _ _ 2 (by decide)]
  exact mkRegs h h.pri (fun _ => h.pri rfl)
theorem sim_xchg (h : Sim H true true m s) (hv : visit E method here .xchg s = .ok s' c) :
    Runs H [.op (.xchgq rPri rAlt)] m true true s' := by
  cases done_inv hv
  jrun [Runs, st_xchgq02]
  exact mkRegs h (fun _ => h.alt rfl) (fun _ => h.pri rfl)

theorem sim_add (h : Sim H true true m s) (hv : visit E method here .add s = .ok s' c) :
    Runs H [.op (.alu false .add (.reg rPri) rAlt)] m true true s' := by
  cases done_inv hv
  jrun [Runs, st_alu32 H _ _ (.reg _) _ trivial, alu32, get32, put32, aluFn, h.pri rfl, h.alt rfl, lo_zext]
  exact mkRegs h (fun _ => rfl) h.alt
theorem sim_and (h : Sim H true true m s) (hv : visit E method here .and s = .ok s' c) :
    Runs H [.op (.alu false .and (.reg rPri) rAlt)] m true true s' := by
  cases done_inv hv
  jrun [Runs, st_alu32 H _ _ (.reg _) _ trivial, alu32, get32, put32, aluFn, h.pri rfl, h.alt rfl, lo_zext]
  exact mkRegs h (fun _ => rfl) h.alt
theorem sim_or (h : Sim H true true m s) (hv : visit E method here .or s = .ok s' c) :
    Runs H [.op (.alu false .or (.reg rPri) rAlt)] m true true s' := by
  cases done_inv hv
  jrun [Runs, st_alu32 H _ _ (.reg _) _ trivial, alu32, get32, put32, aluFn, h.pri rfl, h.alt rfl, lo_zext]
  exact mkRegs h (fun _ => rfl) h.alt
theorem sim_xor (h : Sim H true true m s) (hv : visit E method here .xor s = .ok s' c) :
    Runs H [.op (.alu false .xor (.reg rPri) rAlt)] m true true s' := by
  cases done_inv hv
  jrun [Runs, st_alu32 H _ _ (.reg _) _ trivial, alu32, get32, put32, aluFn, h.pri rfl, h.alt rfl, lo_zext]
  exact mkRegs h (fun _ => rfl) h.alt
theorem sim_subAlt (h : Sim H true true m s) (hv : visit E method here .subAlt s = .ok s' c) :
    Runs H [.op (.movl (.reg rTmp) rAlt), .op (.alu false .sub (.reg rTmp) rPri), .op (.movl (.reg rPri) rTmp)]
      m true true s' := by
  cases done_inv hv
  jrun [Runs, st_alu32 H _ _ (.reg _) _ trivial, st_movlRR, alu32, get32, put32, aluFn, h.pri rfl, h.alt rfl, lo_zext]
  exact mkRegs h (fun _ => rfl) h.alt
theorem sim_smul (h : Sim H true true m s) (hv : visit E method here .smul s = .ok s' c) :
    Runs H [.op (.imul false rPri rAlt)] m true true s' := by
  cases done_inv hv
  jrun [Runs, st_imul32, h.pri rfl, h.alt rfl, lo_zext]
  exact mkRegs h (fun _ => rfl) h.alt
theorem sim_smulC (h : Sim H true ka m s) {v : Cell} (hv : visit E method here (.smulC v) s = .ok s' c) :
    Runs H [.op (.imullI rPri rPri v)] m true ka s' := by
  cases done_inv hv
  jrun [Runs, st_imullI, h.pri rfl, lo_zext]
  exact mkRegs h (fun _ => rfl) h.alt
theorem sim_addC (h : Sim H true ka m s) {v : Cell} (hv : visit E method here (.addC v) s = .ok s' c) :
    Runs H [.op (.aluI false .add (.reg rPri) v)] m true ka s' := by
  cases done_inv hv
  jrun [Runs, st_aluI32 H _ _ (.reg _) _ trivial, alu32, get32, put32, aluFn, h.pri rfl, lo_zext]
  exact mkRegs h (fun _ => rfl) h.alt
theorem sim_inc (h : Sim H kp ka m s) {r : Reg} (hr : match r with | .pri => kp = true | .alt => ka = true)
    (hv : visit E method here (.inc r) s = .ok s' c) :
    Runs H [.op (.aluI false .add (.reg (regOf r)) 1)] m (setP r kp) (setA r ka) s' := by
  cases done_inv hv
  cases r
  · jrun [Runs, st_aluI32 H _ _ (.reg _) _ trivial, alu32, get32, put32, aluFn, h.pri hr, lo_zext]
    exact mkRegs h (fun _ => rfl) h.alt
  · jrun [Runs, st_aluI32 H _ _ (.reg _) _ trivial, alu32, get32, put32, aluFn, h.alt hr, lo_zext]
    exact mkRegs h h.pri (fun _ => rfl)
theorem sim_dec (h : Sim H kp ka m s) {r : Reg} (hr : match r with | .pri => kp = true | .alt => ka = true)
    (hv : visit E method here (.dec r) s = .ok s' c) :
    Runs H [.op (.aluI false .sub (.reg (regOf r)) 1)] m (setP r kp) (setA r ka) s' := by
  cases done_inv hv
  cases r
  · jrun [Runs, st_aluI32 H _ _ (.reg _) _ trivial, alu32, get32, put32, aluFn, h.pri hr, lo_zext]
    exact mkRegs h (fun _ => rfl) h.alt
  · jrun [Runs, st_aluI32 H _ _ (.reg _) _ trivial, alu32, get32, put32, aluFn, h.alt hr, lo_zext]
    exact mkRegs h h.pri (fun _ => rfl)
theorem sim_neg (h : Sim H true ka m s) (hv : visit E method here .neg s = .ok s' c) :
    Runs H [.op (.neg false 0)] m true ka s' := by
  cases done_inv hv
  jrun [Runs, st_neg32, h.pri rfl, lo_zext]
  exact mkRegs h (fun _ => rfl) h.alt
theorem sim_invert (h : Sim H true ka m s) (hv : visit E method here .invert s = .ok s' c) :
    Runs H [.op (.not false rPri)] m true ka s' := by
  cases done_inv hv
  jrun [Runs, st_not32, h.pri rfl, lo_zext]
  exact mkRegs h (fun _ => rfl) h.alt
theorem sim_not (h : Sim H true ka m s) (hv : visit E method here .not s = .ok s' c) :
    Runs H [.op (.test false (.reg 0) 0), .op (.movlRI 0 0), .op (.set equal (.reg 0))] m true ka s' := by
  cases done_inv hv
  jrun [Runs, st_test32, st_movlRI, st_set H _ _ 0 (by decide), h.pri rfl, lo_zext, cond_test0]
  refine mkRegs h (fun _ => ?_) h.alt
  refine (setByte_bool _).trans ?_
  show (boolCell (s.pri == 0)).setWidth 64 = (if s.pri = 0 then 1 else 0 : Cell).setWidth 64
  by_cases hp : s.pri = 0 <;> simp [hp, boolCell]
theorem sim_cmp (h : Sim H true true m s) {o : Cmp} {cc : Cc} (hc : opToCondition o = some cc)
    (hv : visit E method here (.cmp o) s = .ok s' c) :
    Runs H [.op (.alu false .cmp (.reg rPri) rAlt), .op (.movlRI rPri 0), .op (.set cc (.reg 0))] m true true s' := by
  cases done_inv hv
  jrun [Runs, st_alu32 H _ _ (.reg _) _ trivial, alu32, get32, st_movlRI, st_set H _ _ 0 (by decide), h.pri rfl,
    h.alt rfl, lo_zext, cond_cmp32 hc]
  exact mkRegs h (fun _ => setByte_bool _) h.alt
theorem sim_eqC (h : Sim H kp ka m s) {r : Reg} {v : Cell} (hr : match r with | .pri => kp = true | .alt => ka = true)
    (hv : visit E method here (.eqC r v) s = .ok s' c) :
    Runs H [.op (.aluI false .cmp (.reg (regOf r)) v), .op (.movlRI rPri 0), .op (.set equal (.reg 0))] m true ka s' := by
  cases done_inv hv
  cases r
  · jrun [Runs, st_aluI32 H _ _ (.reg _) _ trivial, alu32, get32, st_movlRI, st_set H _ _ 0 (by decide), h.pri hr,
      lo_zext, cond_eq]
    exact mkRegs h (fun _ => setByte_bool _) h.alt
  · jrun [Runs, st_aluI32 H _ _ (.reg _) _ trivial, alu32, get32, st_movlRI, st_set H _ _ 0 (by decide), h.alt hr,
      lo_zext, cond_eq]
    exact mkRegs h (fun _ => setByte_bool _) h.alt

theorem cl_toNat {a : Cell} (h : a.toNat < 32) : (((a.setWidth 64)).setWidth 8).toNat % 32 = a.toNat := by
  rw [BitVec.toNat_setWidth, BitVec.toNat_setWidth]
  omega
theorem sim_shl (h : Sim H true true m s) (hv : visit E method here .shl s = .ok s' c) :
    Runs H [.op (.movl (.reg 1) rAlt), .op (.shiftCl false .shl rPri)] m true true s' := by
  have h1 := done_inv hv
  change (if s.alt.toNat < 32 then setR .pri (s.pri <<< s.alt.toNat) else undef) s = _ at h1
  split at h1
  · rename_i ha
    cases h1
    jrun [Runs, st_movlRR, st_shiftCl32, shiftFn, h.pri rfl, h.alt rfl, lo_zext, cl_toNat ha]
    exact mkRegs h (fun _ => rfl) h.alt
  · cases h1
theorem sim_shr (h : Sim H true true m s) (hv : visit E method here .shr s = .ok s' c) :
    Runs H [.op (.movl (.reg 1) rAlt), .op (.shiftCl false .shr rPri)] m true true s' := by
  have h1 := done_inv hv
  change (if s.alt.toNat < 32 then setR .pri (s.pri >>> s.alt.toNat) else undef) s = _ at h1
  split at h1
  · rename_i ha
    cases h1
    jrun [Runs, st_movlRR, st_shiftCl32, shiftFn, h.pri rfl, h.alt rfl, lo_zext, cl_toNat ha]
    exact mkRegs h (fun _ => rfl) h.alt
  · cases h1
theorem sim_sshr (h : Sim H true true m s) (hv : visit E method here .sshr s = .ok s' c) :
    Runs H [.op (.movl (.reg 1) rAlt), .op (.shiftCl false .sar rPri)] m true true s' := by
  have h1 := done_inv hv
  change (if s.alt.toNat < 32 then setR .pri (s.pri.sshiftRight s.alt.toNat) else undef) s = _ at h1
  split at h1
  · rename_i ha
    cases h1
    jrun [Runs, st_movlRR, st_shiftCl32, shiftFn, h.pri rfl, h.alt rfl, lo_zext, cl_toNat ha]
    exact mkRegs h (fun _ => rfl) h.alt
  · cases h1
theorem sim_shlC (h : Sim H kp ka m s) {r : Reg} {n : Int} (hr : match r with | .pri => kp = true | .alt => ka = true)
    (hv : visit E method here (.shlC r n) s = .ok s' c) :
    Runs H [.op (.shiftI false .shl (.reg (regOf r)) (BitVec.ofInt 8 n))] m (setP r kp) (setA r ka) s' := by
  have h1 := done_inv hv
  change (if 0 ≤ n ∧ n < 32 then setR r (s.reg r <<< n.toNat) else undef) s = _ at h1
  split at h1
  · rename_i hn
    cases h1
    have e : (BitVec.ofInt 8 n).toNat % 32 = n.toNat := by
      rw [BitVec.toNat_ofInt]; omega
    cases r
    · jrun [Runs, st_shiftI32, shiftFn, h.pri hr, lo_zext, e]
      exact mkRegs h (fun _ => rfl) h.alt
    · jrun [Runs, st_shiftI32, shiftFn, h.alt hr, lo_zext, e]
      exact mkRegs h h.pri (fun _ => rfl)
  · cases h1
theorem sim_stradjust (h : Sim H true ka m s) (hv : visit E method here .stradjust s = .ok s' c) :
    Runs H [.op (.aluI false .add (.reg rPri) 4), .op (.shiftI false .sar (.reg rPri) 2)] m true ka s' := by
  cases done_inv hv
  jrun [Runs, st_aluI32 H _ _ (.reg _) _ trivial, alu32, get32, put32, aluFn, st_shiftI32, shiftFn, h.pri rfl, lo_zext]
  exact mkRegs h (fun _ => rfl) h.alt

theorem sim_bounds (h : Sim H true ka m s) {n : Int} (hv : visit E method here (.bounds n) s = .ok s' c) :
    Runs H [.op (.aluI false .cmp (.reg 0) (bv n)), .err above (.bounds (bv n))] m true ka s' := by
  change (if s.pri.toInt < 0 ∨ s.pri.toInt > n % 4294967296 then Res.fail s Err.arrayBounds else Res.ok s Ctl.next) = _ at hv
  split at hv
  · cases hv
  · rename_i hn
    cases hv
    have e : decide ((bv n).toNat < s.pri.toNat) = false := by
      rw [bv, BitVec.toNat_ofInt]
      rw [BitVec.toInt_eq_toNat_cond] at hn
      have := s.pri.isLt
      simp only [decide_eq_false_iff_not]
      split at hn <;> omega
    jrun [Runs, st_aluI32 H _ _ (.reg _) _ trivial, alu32, get32, h.pri rfl, lo_zext, cond_above, e, Bool.false_eq_true]
    exact mkRegs h h.pri h.alt

theorem sim_idxaddr (h : Sim H true true m s) (h0 : 0 ≤ (s.alt.toNat : Int) + 4 * s.pri.toInt)
    (h1 : (s.alt.toNat : Int) + 4 * s.pri.toInt < 4294967296) (hv : visit E method here .idxaddr s = .ok s' c) :
    Runs H [.op (.movsxd rPri (.reg rPri)), .op (.lea rPri (.bisd rAlt rPri 2 0))] m true true s' := by
  cases done_inv hv
  jrun [Runs, st_movsxd, st_lea H _ _ (.bisd _ _ _ _) (show (0 : Fin 16) ≠ 4 by decide), ea_bisd2, h.pri rfl, h.alt rfl, lo_zext]
  refine mkRegs h (fun _ => ?_) h.alt
  show s.alt.setWidth 64 + s.pri.signExtend 64 <<< 2 + BitVec.ofInt 64 (0#32).toInt = (s.alt + s.pri * 4).setWidth 64
  apply BitVec.eq_of_toNat_eq
  have e1 : (s.pri.signExtend 64) = BitVec.ofInt 64 s.pri.toInt := rfl
  rw [e1, BitVec.shiftLeft_eq_mul_twoPow]
  simp only [BitVec.toNat_add, BitVec.toNat_mul, BitVec.toNat_setWidth, BitVec.toNat_ofInt, BitVec.toNat_twoPow, BitVec.toInt_zero]
  have ha := s.alt.isLt
  have hp := s.pri.isLt
  have e2 : (4 : BitVec 32).toNat = 4 := rfl
  rw [BitVec.toInt_eq_toNat_cond] at h0 h1 ⊢
  rw [e2]
  split at h0 <;> omega

theorem sim_addr (S : Setup H J E method s) (h : Sim H kp ka m s) {r : Reg} {slot o : Int}
    (ho : slotOffset E method slot = some o) (hv : visit E method here (.addr r slot) s = .ok s' c) :
    Runs H [.op (.movlRM (regOf r) (J.field .frm)), .op (.aluI false .add (.reg (regOf r)) (bv o))]
      m (setP r kp) (setA r ka) s' := by
  obtain ⟨s1, o1, h1, h2⟩ := im_bind_inv (done_inv hv)
  obtain ⟨e0, e⟩ := stackOffset_inv h1
  subst e0
  obtain rfl : o = o1 := Option.some.inj (ho.symm.trans e)
  cases h2
  have key : ∀ x, BitVec.ofInt 32 x + bv o = BitVec.ofInt 32 (wrap32 (x + o)) := by
    intro x
    rw [bv, ← BitVec.ofInt_add]
    apply BitVec.eq_of_toInt_eq
    rw [← bv, ← bv, bv_toInt, bv_toInt]
    unfold wrap32; omega
  have ea1 : ea m (J.field .frm).meaning = H.addr .frm := by rw [ea_field m S.joff, h.ctx]; rfl
  cases r <;> jrun [Runs, st_movlRM H m _ (J.field .frm) trivial, ea1, load32_field S.host, h.frmF, st_aluI32 H _ _ (.reg _) _ trivial, alu32, get32,
    put32, aluFn, lo_zext, key]
  · exact mkRegs h (fun _ => rfl) h.alt
  · exact mkRegs h h.pri (fun _ => rfl)
end

end Verif.Jit

import Verif.Proofs.JitRegs

/-! Instructions that work on globals, frame slots and the stack. -/
namespace Verif.VM
open Verif.Jit (slotOffset)

theorem slot_bind {E : Env} {method : Nat} {slot o : Int} {β : Type} {f : Int → IM β} {s s' : IState} {b : β}
    (ho : slotOffset E method slot = some o) (h : (stackOffset E method slot >>= f) s = .ok s' b) : f o s = .ok s' b := by
  obtain ⟨s1, o1, h1, h2⟩ := im_bind_inv h
  obtain ⟨rfl, e⟩ := stackOffset_inv h1
  cases ho.symm.trans e
  exact h2
theorem getR_bind {r : Reg} {β : Type} {f : Cell → IM β} {s s' : IState} {b : β}
    (h : (getR r >>= f) s = .ok s' b) : f (s.reg r) s = .ok s' b := h
theorem getFrm_bind {β : Type} {f : Int → IM β} {s s' : IState} {b : β}
    (h : (getFrm >>= f) s = .ok s' b) : f s.vm.frm s = .ok s' b := h
theorem getCell_bind {a : Int} {β : Type} {f : Cell → IM β} {s s' : IState} {b : β}
    (h : (vmOp (getCellValue a) >>= f) s = .ok s' b) :
    f (rd32 s.vm.mem a) s = .ok s' b ∧ GoodAddr s.vm a ∧ s.vm.inMem a 4 := by
  obtain ⟨s1, v, h1, h2⟩ := im_bind_inv h
  obtain ⟨v1, h3, rfl⟩ := vmOp_inv h1
  obtain ⟨rfl, rfl, g, gm⟩ := getCell_inv h3
  exact ⟨h2, g, gm⟩
theorem getFrame_bind {o : Int} {β : Type} {f : Cell → IM β} {s s' : IState} {b : β}
    (h : (vmOp (getFrameValue o) >>= f) s = .ok s' b) :
    f (rd32 s.vm.mem (wrap32 (s.vm.frm + o))) s = .ok s' b ∧ GoodAddr s.vm (wrap32 (s.vm.frm + o)) ∧
      s.vm.inMem (wrap32 (s.vm.frm + o)) 4 := getCell_bind h
theorem setCell_vm {a : Int} {v : Cell} {s s' : IState} {u : Unit} (h : vmOp (setCellValue a v) s = .ok s' u) :
    s' = { s with vm := { s.vm with mem := wr32 s.vm.mem a v } } ∧ GoodAddr s.vm a ∧ s.vm.inMem a 4 := by
  obtain ⟨v1, h3, rfl⟩ := vmOp_inv h
  obtain ⟨rfl, g, gm⟩ := setCell_inv h3
  exact ⟨rfl, g, gm⟩
theorem setFrame_vm {o : Int} {v : Cell} {s s' : IState} {u : Unit} (h : vmOp (setFrameValue o v) s = .ok s' u) :
    s' = { s with vm := { s.vm with mem := wr32 s.vm.mem (wrap32 (s.vm.frm + o)) v } } ∧
      GoodAddr s.vm (wrap32 (s.vm.frm + o)) ∧ s.vm.inMem (wrap32 (s.vm.frm + o)) 4 := setCell_vm h
theorem push_vm {s s' : IState} (L : Layout s.vm) {v : Cell} {u : Unit} (h : vmOp (pushStack v) s = .ok s' u) :
    s' = { s with vm := { s.vm with mem := wr32 s.vm.mem (s.vm.sp - 4) v, sp := s.vm.sp - 4 } } ∧ s.vm.hp + 4 < s.vm.sp := by
  obtain ⟨v1, h3, rfl⟩ := vmOp_inv h
  obtain ⟨rfl, g⟩ := push_inv L h3
  exact ⟨rfl, g⟩
/-- `push_vm` for a stack pointer that need not be a multiple of four. -/
theorem push_vm' {s s' : IState} {v : Cell} {u : Unit} (h0 : 0 ≤ s.vm.hp) (h1 : s.vm.hp < 2147483600)
    (h2 : 4 ≤ s.vm.sp) (h3 : s.vm.sp < 2147483648) (h : vmOp (pushStack v) s = .ok s' u) :
    s' = { s with vm := { s.vm with mem := wr32 s.vm.mem (s.vm.sp - 4) v, sp := s.vm.sp - 4 } } := by
  obtain ⟨v1, h4, rfl⟩ := vmOp_inv h
  unfold pushStack at h4
  split at h4
  · cases h4
  · rw [wrap32_id (by omega) (by omega)] at h4
    obtain ⟨rfl, _⟩ := storeRaw_inv h4
    rfl
theorem push_bind {s s' : IState} (L : Layout s.vm) {v : Cell} {β : Type} {f : Unit → IM β} {b : β}
    (h : (vmOp (pushStack v) >>= f) s = .ok s' b) :
    f () { s with vm := { s.vm with mem := wr32 s.vm.mem (s.vm.sp - 4) v, sp := s.vm.sp - 4 } } = .ok s' b ∧
      s.vm.hp + 4 < s.vm.sp := by
  obtain ⟨s1, u, h1, h2⟩ := im_bind_inv h
  obtain ⟨rfl, g⟩ := push_vm L h1
  exact ⟨h2, g⟩
theorem pop_bind {s s' : IState} (L : Layout s.vm) {β : Type} {f : Cell → IM β} {b : β}
    (h : (vmOp popStack >>= f) s = .ok s' b) :
    f (rd32 s.vm.mem s.vm.sp) { s with vm := { s.vm with sp := s.vm.sp + 4 } } = .ok s' b ∧ s.vm.sp < s.vm.stp := by
  obtain ⟨s1, v, h1, h2⟩ := im_bind_inv h
  obtain ⟨v1, h3, rfl⟩ := vmOp_inv h1
  obtain ⟨rfl, rfl, g⟩ := pop_inv L h3
  exact ⟨h2, g⟩

end Verif.VM

namespace Verif.Jit
open Verif.X64 Verif.VM

theorem at_bv (H : Host) (a b : Int) (h0 : -2147483648 ≤ b := by omega) (h1 : b < 2147483648 := by omega) :
    Host.at H a + BitVec.ofInt 64 (bv b).toInt = Host.at H (a + b) := by
  rw [at_add, bv_toInt, wrap32_id h0 h1]
theorem at_m4 (H : Host) (a : Int) : Host.at H a + BitVec.ofInt 64 (bv (-4)).toInt = Host.at H (a - 4) := at_bv H a (-4)
theorem at_add4 (H : Host) (a : Int) : Host.at H a + (4 : BitVec 32).signExtend 64 = Host.at H (a + 4) := by
  rw [← at_add, show (4 : BitVec 32).signExtend 64 = BitVec.ofInt 64 4 from by decide]
theorem at_sub (H : Host) (a b : Int) : Host.at H a - BitVec.ofInt 64 b = Host.at H (a - b) := by
  rw [BitVec.sub_eq_add_neg, ← BitVec.ofInt_neg, at_add]; rfl

theorem at_sub4 (H : Host) (a : Int) : Host.at H a - (4 : BitVec 32).signExtend 64 = Host.at H (a - 4) := by
  rw [← at_sub, show (4 : BitVec 32).signExtend 64 = BitVec.ofInt 64 4 from by decide]
theorem at_zero (H : Host) (a : Int) : Host.at H a + BitVec.ofInt 64 (0 : BitVec 32).toInt = Host.at H a :=
  BitVec.add_zero _

section
variable {H : Host} {J : JitEnv} {E : Env} {method : Nat} {here : Int} {s s' : IState} {c : Ctl} {m : Mach} {kp ka : Bool}

theorem sim_loadS (S : Setup H J E method s) (h : Sim H kp ka m s) {r : Reg} {slot o : Int}
    (ho : slotOffset E method slot = some o) (hv : visit E method here (.loadS r slot) s = .ok s' c) :
    Runs H [.op (.movlRM (regOf r) (.bd rFrm (bv o)))] m (setP r kp) (setA r ka) s' := by
  obtain ⟨h2, g, gm⟩ := getFrame_bind (slot_bind ho (done_inv hv))
  obtain rfl := setR_inv h2
  have e1 := frame_at S o g
  cases r <;> jrun [Runs, st_movlRM H m _ (.bd rFrm (bv o)) trivial, ea_bd, h.frm, e1, load32_at S.host g.1 (S.size ▸ gm.2)]
  · exact mkRegs h (fun _ => by rw [h.mem]; rfl) h.alt
  · exact mkRegs h h.pri (fun _ => by rw [h.mem]; rfl)

theorem sim_lrefS (S : Setup H J E method s) (h : Sim H kp ka m s) {r : Reg} {slot o : Int}
    (ho : slotOffset E method slot = some o) (hv : visit E method here (.lrefS r slot) s = .ok s' c) :
    Runs H [.op (.movlRM (regOf r) (.bd rFrm (bv o))), .op (.movlRM (regOf r) (atDat (regOf r)))]
      m (setP r kp) (setA r ka) s' := by
  obtain ⟨h2, g, gm⟩ := getFrame_bind (slot_bind ho (done_inv hv))
  obtain ⟨h3, g', gm'⟩ := getCell_bind h2
  obtain rfl := setR_inv h3
  have e1 := frame_at S o g
  cases r <;> jrun [Runs, st_movlRM H _ _ (.bd _ (bv o)) trivial, st_movlRM H _ _ (atDat 0) (at_legal 0 (by decide)),
    st_movlRM H _ _ (atDat 2) (at_legal 2 (by decide)), ea_bd, ea_at, h.frm, h.dat, h.mem, e1,
    load32_at S.host g.1 (S.size ▸ gm.2), dat_at g'.1, load32_at S.host g'.1 (S.size ▸ gm'.2)]
  · exact mkRegs h (fun _ => rfl) h.alt (em := h.mem.symm)
  · exact mkRegs h h.pri (fun _ => rfl) (em := h.mem.symm)

theorem sim_stor (S : Setup H J E method s) (h : Sim H kp ka m s) {r : Reg} {a : Int}
    (hr : match r with | .pri => kp = true | .alt => ka = true)
    (hv : visit E method here (.stor a r) s = .ok s' c) :
    Runs H [.op (.movl (.mem (.bd rDat (bv a))) (regOf r))] m kp ka s' := by
  obtain ⟨l1, l2, l3, l4, l5, l6⟩ := S.layout
  obtain ⟨rfl, g, gm⟩ := setCell_vm (getR_bind (done_inv hv))
  have e1 := dat_disp (H := H) g.1 (by have := g.2.2; omega)
  cases r
  · jrun [Runs, st_movlMR H _ (.bd _ (bv a)) _ trivial, ea_bd, h.dat, e1, store32_at S.host g.1 (S.size ▸ gm.2), h.pri hr, lo_zext]
    exact mkMem h h.pri h.alt h.stk (by rw [h.mem]; rfl) h.hpF h.scopeF
  · jrun [Runs, st_movlMR H _ (.bd _ (bv a)) _ trivial, ea_bd, h.dat, e1, store32_at S.host g.1 (S.size ▸ gm.2), h.alt hr, lo_zext]
    exact mkMem h h.pri h.alt h.stk (by rw [h.mem]; rfl) h.hpF h.scopeF

theorem sim_storS (S : Setup H J E method s) (h : Sim H kp ka m s) {r : Reg} {slot o : Int}
    (hr : match r with | .pri => kp = true | .alt => ka = true)
    (ho : slotOffset E method slot = some o) (hv : visit E method here (.storS slot r) s = .ok s' c) :
    Runs H [.op (.movl (.mem (.bd rFrm (bv o))) (regOf r))] m kp ka s' := by
  obtain ⟨rfl, g, gm⟩ := setFrame_vm (getR_bind (slot_bind ho (done_inv hv)))
  have e1 := frame_at S o g
  cases r
  · jrun [Runs, st_movlMR H _ (.bd _ (bv o)) _ trivial, ea_bd, h.frm, e1, store32_at S.host g.1 (S.size ▸ gm.2), h.pri hr, lo_zext]
    exact mkMem h h.pri h.alt h.stk (by rw [h.mem]; rfl) h.hpF h.scopeF
  · jrun [Runs, st_movlMR H _ (.bd _ (bv o)) _ trivial, ea_bd, h.frm, e1, store32_at S.host g.1 (S.size ▸ gm.2), h.alt hr, lo_zext]
    exact mkMem h h.pri h.alt h.stk (by rw [h.mem]; rfl) h.hpF h.scopeF

theorem sim_srefS (S : Setup H J E method s) (h : Sim H kp ka m s) {r : Reg} {slot o : Int}
    (hr : match r with | .pri => kp = true | .alt => ka = true)
    (ho : slotOffset E method slot = some o) (hv : visit E method here (.srefS slot r) s = .ok s' c) :
    Runs H [.op (.movlRM rTmp (.bd rFrm (bv o))), .op (.movl (.mem (atDat rTmp)) (regOf r))] m kp ka s' := by
  obtain ⟨h2, g, gm⟩ := getFrame_bind (slot_bind ho (done_inv hv))
  obtain ⟨rfl, g', gm'⟩ := setCell_vm (getR_bind h2)
  have e1 := frame_at S o g
  cases r
  · jrun [Runs, st_movlRM H _ _ (.bd _ (bv o)) trivial, st_movlMR H _ (atDat 1) _ (at_legal 1 (by decide)), ea_bd, ea_at,
      h.frm, h.dat, h.mem, e1, load32_at S.host g.1 (S.size ▸ gm.2), dat_at g'.1, store32_at S.host g'.1 (S.size ▸ gm'.2),
      h.pri hr, lo_zext]
    exact mkMem h h.pri h.alt h.stk rfl h.hpF h.scopeF
  · jrun [Runs, st_movlRM H _ _ (.bd _ (bv o)) trivial, st_movlMR H _ (atDat 1) _ (at_legal 1 (by decide)), ea_bd, ea_at,
      h.frm, h.dat, h.mem, e1, load32_at S.host g.1 (S.size ▸ gm.2), dat_at g'.1, store32_at S.host g'.1 (S.size ▸ gm'.2),
      h.alt hr, lo_zext]
    exact mkMem h h.pri h.alt h.stk rfl h.hpF h.scopeF

theorem sim_storSC (S : Setup H J E method s) (h : Sim H kp ka m s) {slot o : Int} {v : Cell}
    (ho : slotOffset E method slot = some o) (hv : visit E method here (.storSC slot v) s = .ok s' c) :
    Runs H [.op (.movlMI (.bd rFrm (bv o)) v)] m kp ka s' := by
  obtain ⟨rfl, g, gm⟩ := setFrame_vm (slot_bind ho (done_inv hv))
  have e1 := frame_at S o g
  jrun [Runs, st_movlMI H _ (.bd _ (bv o)) _ trivial, ea_bd, h.frm, e1, store32_at S.host g.1 (S.size ▸ gm.2)]
  exact mkMem h h.pri h.alt h.stk (by rw [h.mem]) h.hpF h.scopeF
theorem sim_zeroS (S : Setup H J E method s) (h : Sim H kp ka m s) {slot o : Int}
    (ho : slotOffset E method slot = some o) (hv : visit E method here (.zeroS slot) s = .ok s' c) :
    Runs H [.op (.movlMI (.bd rFrm (bv o)) 0)] m kp ka s' := by
  obtain ⟨rfl, g, gm⟩ := setFrame_vm (slot_bind ho (done_inv hv))
  have e1 := frame_at S o g
  jrun [Runs, st_movlMI H _ (.bd _ (bv o)) _ trivial, ea_bd, h.frm, e1, store32_at S.host g.1 (S.size ▸ gm.2)]
  exact mkMem h h.pri h.alt h.stk (by rw [h.mem]) h.hpF h.scopeF

theorem sim_push (S : Setup H J E method s) (h : Sim H kp ka m s) {r : Reg}
    (hr : match r with | .pri => kp = true | .alt => ka = true)
    (hv : visit E method here (.push r) s = .ok s' c) :
    Runs H [.op (.movl (.mem (.bd rStk (bv (-4)))) (regOf r)), .op (.aluI true .sub (.reg rStk) 4)] m kp ka s' := by
  obtain ⟨l1, l2, l3, l4, l5, l6⟩ := S.layout
  obtain ⟨rfl, g⟩ := push_vm S.layout (getR_bind (done_inv hv))
  have hz := S.size
  cases r
  · jrun [Runs, st_movlMR H _ (.bd _ (bv (-4))) _ trivial, st_subStk,
      ea_bd, h.stk, at_m4, at_sub4, store32_at S.host (show 0 ≤ s.vm.sp - 4 by omega) (by omega), h.pri hr, lo_zext]
    exact mkMem h h.pri h.alt rfl (by rw [h.mem]; rfl) h.hpF h.scopeF
  · jrun [Runs, st_movlMR H _ (.bd _ (bv (-4))) _ trivial, st_subStk,
      ea_bd, h.stk, at_m4, at_sub4, store32_at S.host (show 0 ≤ s.vm.sp - 4 by omega) (by omega), h.alt hr, lo_zext]
    exact mkMem h h.pri h.alt rfl (by rw [h.mem]; rfl) h.hpF h.scopeF

theorem sim_pop (S : Setup H J E method s) (h : Sim H kp ka m s) {r : Reg}
    (hv : visit E method here (.pop r) s = .ok s' c) :
    Runs H [.op (.movlRM (regOf r) (.bd rStk 0)), .op (.aluI true .add (.reg rStk) 4)] m (setP r kp) (setA r ka) s' := by
  obtain ⟨l1, l2, l3, l4, l5, l6⟩ := S.layout
  obtain ⟨h2, g⟩ := pop_bind S.layout (done_inv hv)
  obtain rfl := setR_inv h2
  have hz := S.size
  cases r <;> jrun [Runs, st_movlRM H _ _ (.bd _ 0) trivial, st_addStk,
      ea_bd, h.stk, at_zero, at_add4, load32_at S.host (show 0 ≤ s.vm.sp by omega) (by omega)]
  · exact mkMem h (fun _ => by rw [h.mem]; rfl) h.alt rfl h.mem h.hpF h.scopeF
  · exact mkMem h h.pri (fun _ => by rw [h.mem]; rfl) rfl h.mem h.hpF h.scopeF

theorem sim_swap (S : Setup H J E method s) (h : Sim H kp ka m s) {r : Reg}
    (hr : match r with | .pri => kp = true | .alt => ka = true)
    (hv : visit E method here (.swap r) s = .ok s' c) :
    Runs H [.op (.movlRM rTmp (.bd rStk 0)), .op (.movl (.mem (.bd rStk 0)) (regOf r)), .op (.movl (.reg (regOf r)) rTmp)]
      m kp ka s' := by
  obtain ⟨l1, l2, l3, l4, l5, l6⟩ := S.layout
  obtain ⟨h2, g⟩ := pop_bind S.layout (getR_bind (done_inv hv))
  obtain ⟨s1, u, h3, h4⟩ := im_bind_inv h2
  obtain rfl := setR_inv h3
  have hvm : (({ s with vm := { s.vm with sp := s.vm.sp + 4 } } : IState).setReg r (rd32 s.vm.mem s.vm.sp)).vm =
      { s.vm with sp := s.vm.sp + 4 } := by cases r <;> rfl
  obtain rfl := push_vm' (by rw [hvm]; show 0 ≤ s.vm.hp; omega) (by rw [hvm]; show s.vm.hp < _; omega)
    (by rw [hvm]; show _ ≤ s.vm.sp + 4; omega) (by rw [hvm]; show s.vm.sp + 4 < _; omega) h4
  have hz := S.size
  have e3 : s.vm.sp + 4 - 4 = s.vm.sp := by omega
  cases r
  · jrun [Runs, st_movlRM H _ _ (.bd _ 0) trivial, st_movlMR H _ (.bd _ 0) _ trivial, st_movlRR,
      ea_bd, h.stk, at_zero, load32_at S.host (show 0 ≤ s.vm.sp by omega) (show s.vm.sp + 4 ≤ H.memSize by omega),
      store32_at S.host (show 0 ≤ s.vm.sp by omega) (show s.vm.sp + 4 ≤ H.memSize by omega), h.pri hr, lo_zext]
    refine mkMem h (fun _ => ?_) h.alt ?_ ?_ h.hpF h.scopeF
    · rw [h.mem]; rfl
    · show m.reg 14 = Host.at H (s.vm.sp + 4 - 4)
      rw [e3, h.stk]
    · show wr32 m.mem s.vm.sp s.pri = wr32 s.vm.mem (s.vm.sp + 4 - 4) s.pri
      rw [e3, h.mem]
  · jrun [Runs, st_movlRM H _ _ (.bd _ 0) trivial, st_movlMR H _ (.bd _ 0) _ trivial, st_movlRR,
      ea_bd, h.stk, at_zero, load32_at S.host (show 0 ≤ s.vm.sp by omega) (show s.vm.sp + 4 ≤ H.memSize by omega),
      store32_at S.host (show 0 ≤ s.vm.sp by omega) (show s.vm.sp + 4 ≤ H.memSize by omega), h.alt hr, lo_zext]
    refine mkMem h h.pri (fun _ => ?_) ?_ ?_ h.hpF h.scopeF
    · rw [h.mem]; rfl
    · show m.reg 14 = Host.at H (s.vm.sp + 4 - 4)
      rw [e3, h.stk]
    · show wr32 m.mem s.vm.sp s.alt = wr32 s.vm.mem (s.vm.sp + 4 - 4) s.alt
      rw [e3, h.mem]
end

end Verif.Jit

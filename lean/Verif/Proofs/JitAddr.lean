import Verif.Proofs.JitPush

/-! The address check, and the instructions that go through an address in a register. -/
namespace Verif.VM

theorem range_bind {a n : Int} {β : Type} {f : Int → IM β} {s s' : IState} {b : β}
    (h : (vmOp (acquireAddrRange a n) >>= f) s = .ok s' b) :
    f a s = .ok s' b ∧ GoodAddr s.vm a := by
  obtain ⟨s1, v, h1, h2⟩ := im_bind_inv h
  obtain ⟨v1, h3, rfl⟩ := vmOp_inv h1
  obtain ⟨rfl, rfl, g, _⟩ := range_inv h3
  exact ⟨h2, g⟩
theorem addr64_bind {a : Int} {β : Type} {f : Int → IM β} {s s' : IState} {b : β}
    (h : (vmOp (acquireInt64Addr a) >>= f) s = .ok s' b) :
    f a s = .ok s' b ∧ GoodAddr s.vm a := range_bind h
theorem slot64_bind {o : Int} {β : Type} {f : Int → IM β} {s s' : IState} {b : β}
    (h : (vmOp (acquireInt64Slot o) >>= f) s = .ok s' b) :
    f (wrap32 (s.vm.frm + o)) s = .ok s' b ∧ GoodAddr s.vm (wrap32 (s.vm.frm + o)) := by
  obtain ⟨s1, v, h1, h2⟩ := im_bind_inv h
  obtain ⟨v1, h3, rfl⟩ := vmOp_inv h1
  obtain ⟨rfl, rfl, g⟩ := slot64_inv h3
  exact ⟨h2, g⟩
theorem load64_bind {a : Int} {β : Type} {f : BitVec 64 → IM β} {s s' : IState} {b : β}
    (h : (vmOp (loadRaw64 a) >>= f) s = .ok s' b) : f (rd64 s.vm.mem a) s = .ok s' b ∧ s.vm.inMem a 8 := by
  obtain ⟨s1, v, h1, h2⟩ := im_bind_inv h
  obtain ⟨v1, h3, rfl⟩ := vmOp_inv h1
  obtain ⟨rfl, rfl, g⟩ := loadRaw64_inv h3
  exact ⟨h2, g⟩
theorem store64_vm {a : Int} {v : BitVec 64} {s s' : IState} {u : Unit} (h : vmOp (storeRaw64 a v) s = .ok s' u) :
    s' = { s with vm := { s.vm with mem := wr64 s.vm.mem a v } } ∧ s.vm.inMem a 8 := by
  obtain ⟨v1, h3, rfl⟩ := vmOp_inv h
  obtain ⟨rfl, g⟩ := storeRaw64_inv h3
  exact ⟨rfl, g⟩
theorem store64_bind {a : Int} {v : BitVec 64} {β : Type} {f : Unit → IM β} {s s' : IState} {b : β}
    (h : (vmOp (storeRaw64 a v) >>= f) s = .ok s' b) :
    f () { s with vm := { s.vm with mem := wr64 s.vm.mem a v } } = .ok s' b ∧ s.vm.inMem a 8 := by
  obtain ⟨s1, u, h1, h2⟩ := im_bind_inv h
  obtain ⟨rfl, g⟩ := store64_vm h1
  exact ⟨h2, g⟩
theorem throw_bind {a : Int} {β : Type} {f : Int → IM β} {s s' : IState} {b : β}
    (h : (vmOp (throwIfBadAddress a) >>= f) s = .ok s' b) : f a s = .ok s' b ∧ GoodAddr s.vm a := by
  obtain ⟨s1, v, h1, h2⟩ := im_bind_inv h
  obtain ⟨v1, h3, rfl⟩ := vmOp_inv h1
  obtain ⟨rfl, rfl, g⟩ := throw_inv h3
  exact ⟨h2, g⟩
theorem finish64_inv {off : Int} {v : BitVec 64} {s s' : IState} {u : Unit} (h : finish64 off v s = .ok s' u) :
    s' = { s with vm := { s.vm with mem := wr64 s.vm.mem (wrap32 (s.vm.frm + off)) v },
                  pri := BitVec.ofInt 32 (wrap32 (s.vm.frm + off)) } ∧
      GoodAddr s.vm (wrap32 (s.vm.frm + off)) ∧ s.vm.inMem (wrap32 (s.vm.frm + off)) 8 := by
  obtain ⟨h1, g⟩ := slot64_bind h
  obtain ⟨h2, g2⟩ := store64_bind h1
  have h3 := getFrm_bind h2
  cases h3
  exact ⟨rfl, g, g2⟩

end Verif.VM

namespace Verif.Jit
open Verif.X64 Verif.VM

theorem Keep.sim {H : Host} {kp ka : Bool} {m m1 : Mach} {s : IState} (k : Keep m m1) (km : m1.mem = m.mem)
    (h : Sim H kp ka m s) : Sim H kp ka m1 s :=
  ⟨fun e => (k.reg 0 (by decide)).trans (h.pri e), fun e => (k.reg 2 (by decide)).trans (h.alt e),
    (k.reg 3 (by decide)).trans h.frm, (k.reg 12 (by decide)).trans h.ctx, (k.reg 14 (by decide)).trans h.stk,
    (k.reg 15 (by decide)).trans h.dat, k.df.trans h.df, km.trans h.mem, by rw [k.field, h.hpF], by rw [k.field, h.frmF],
    by rw [k.field, h.scopeF]⟩

theorem good_toNat {s : State} {p : Cell} (g : 0 ≤ p.toInt) : (p.toNat : Int) = p.toInt := by
  rw [BitVec.toInt_eq_toNat_cond] at g ⊢
  have := p.isLt
  split at g <;> split <;> omega

theorem at_toNat {H : Host} (ok : HostOk H) {a : Int} (h0 : 0 ≤ a) (h1 : a ≤ H.memSize) :
    ((Host.at H a).toNat : Int) = H.base.toNat + a := by
  have hr := ok.room
  unfold Host.at
  rw [BitVec.toNat_add, BitVec.toNat_ofInt]
  omega

theorem bv_toNat {x : Int} (h0 : 0 ≤ x) (h1 : x < 4294967296) : ((bv x).toNat : Int) = x := by
  rw [bv, BitVec.toNat_ofInt]
  omega

section
variable {H : Host} {J : JitEnv} {E : Env} {method : Nat} {here : Int} {s s' : IState} {c : Ctl} {m : Mach} {kp ka : Bool}

/-- An address the interpreter accepts passes the check. -/
theorem check_ok (S : Setup H J E method s) (h : Sim H kp ka m s) {r : Gpr} (hr4 : r ≠ 4) (hr1 : r ≠ 1) {p : Cell}
    (hr : m.reg r = p.setWidth 64) {n : Int} (n0 : 0 < n) (n8 : n ≤ 8) (g : GoodAddr s.vm p.toInt)
    (gn : p.toInt + n ≤ s.vm.memSize) (l : Nat) (rest : List Item) :
    ∃ m1, run H none (emitCheckAddress J r n l ++ rest) m = run H none rest m1 ∧ Keep m m1 ∧ m1.mem = m.mem := by
  obtain ⟨l1, l2, l3, l4, l5, l6⟩ := S.layout
  obtain ⟨g1, g2, g3⟩ := g
  have hz := S.size
  have ep := good_toNat (s := s.vm) g1
  have c1 : decide (p.toNat < (bv (J.memSize - n + 1)).toNat) = true := by
    have := bv_toNat (x := J.memSize - n + 1) (by rw [S.jsize]; omega) (by rw [S.jsize]; omega)
    rw [S.jsize] at this ⊢
    simp only [decide_eq_true_eq]
    omega
  have ehp : ((BitVec.ofInt 32 s.vm.hp).toNat : Int) = s.vm.hp := bv_toNat (by omega) (by omega)
  have ea1 : ea { m with flags := some (cmpFlags p (bv (J.memSize - n + 1))) } (J.field .hp).meaning = H.addr .hp := by
    rw [ea_field _ S.joff]
    show m.reg 12 + _ = _
    rw [h.ctx]; rfl
  by_cases hlt : p.toInt < s.vm.hp
  · refine ⟨{ m with flags := some (cmpFlags p (BitVec.ofInt 32 s.vm.hp)) }, ?_, ⟨fun _ _ => rfl, rfl, rfl, rfl⟩, rfl⟩
    have c2 : decide (p.toNat < (BitVec.ofInt 32 s.vm.hp).toNat) = true := by
      simp only [decide_eq_true_eq]; omega
    unfold emitCheckAddress
    jrun [st_aluI32 H _ _ (.reg _) _ trivial, alu32, get32, hr, lo_zext, cond_ae, c1, st_cmplRM H _ _ (J.field .hp) trivial,
      ea1, load32_field S.host, h.hpF, cond_below, c2, Bool.not_true, Bool.false_eq_true]
  · have c2 : decide (p.toNat < (BitVec.ofInt 32 s.vm.hp).toNat) = false := by
      simp only [decide_eq_false_iff_not]; omega
    have c3 : decide ((Host.at H p.toInt).toNat < (Host.at H s.vm.sp).toNat) = false := by
      have a1 := at_toNat S.host (a := p.toInt) g1 (by omega)
      have a2 := at_toNat S.host (a := s.vm.sp) (by omega) (by omega)
      simp only [decide_eq_false_iff_not]; omega
    refine ⟨{ m with
      reg := fun x => if x = 1 then Host.at H p.toInt else m.reg x
      flags := some (cmpFlags (Host.at H p.toInt) (Host.at H s.vm.sp)) }, ?_,
      ⟨fun r hr => if_neg hr, rfl, rfl, rfl⟩, rfl⟩
    unfold emitCheckAddress
    jrun [st_aluI32 H _ _ (.reg _) _ trivial, alu32, get32, hr, lo_zext, cond_ae, c1, st_cmplRM H _ _ (J.field .hp) trivial,
      ea1, load32_field S.host, h.hpF, cond_below, c2, c3, Bool.not_true, Bool.false_eq_true, st_lea H _ _ (atDat r) (at_legal r hr4),
      ea_at, h.dat, dat_at g1, st_alu64 H _ _ (.reg _) _ trivial, alu64, get64, h.stk]

theorem check_then (S : Setup H J E method s) (h : Sim H kp ka m s) {r : Gpr} (hr4 : r ≠ 4) (hr1 : r ≠ 1) {p : Cell}
    (hr : m.reg r = p.setWidth 64) {n : Int} (n0 : 0 < n) (n8 : n ≤ 8) (g : GoodAddr s.vm p.toInt)
    (gn : p.toInt + n ≤ s.vm.memSize) {l : Nat} {rest : List Item} {kp' ka' : Bool}
    (k : ∀ m1, Sim H kp ka m1 s → Runs H rest m1 kp' ka' s') : Runs H (emitCheckAddress J r n l ++ rest) m kp' ka' s' := by
  obtain ⟨m1, e, k1, k2⟩ := check_ok S h hr4 hr1 hr n0 n8 g gn l rest
  have := k m1 (k1.sim k2 h)
  unfold Runs at this ⊢
  rw [e]
  cases e2 : run H none rest m1 with
  | done m' =>
    rw [e2] at this
    exact ⟨this.1, this.2.trans k1.stack⟩
  | error _ _ => rw [e2] at this; cases this
  | fault => rw [e2] at this; cases this

theorem sim_loadI (S : Setup H J E method s) (h : Sim H true ka m s) (hv : visit E method here .loadI s = .ok s' c) :
    Runs H (emitCheckAddress J rPri 4 0 ++ [.op (.movlRM rPri (atDat rPri))]) m true ka s' := by
  obtain ⟨h2, g, gm⟩ := getCell_bind (getR_bind (done_inv hv))
  change GoodAddr s.vm s.pri.toInt at g
  change s.vm.inMem s.pri.toInt 4 at gm
  obtain rfl := setR_inv h2
  refine check_then S h (by decide) (by decide) (h.pri rfl) (by decide) (by decide) g gm.2 fun m1 h => ?_
  jrun [Runs, st_movlRM H _ _ (atDat 0) (at_legal 0 (by decide)), ea_at, h.dat, h.pri rfl, IState.reg, dat_at g.1,
    load32_at S.host g.1 (S.size ▸ gm.2)]
  exact mkRegs h (fun _ => by rw [h.mem]; rfl) h.alt

theorem sim_lodbI (S : Setup H J E method s) (h : Sim H true ka m s) {w : Int} (hv : visit E method here (.lodbI w) s = .ok s' c) :
    Runs H (emitCheckAddress J rPri 4 0 ++ [.op (.movlRM rPri (atDat rPri))] ++
      (if w = 1 then [.op (.andlRI rPri 0xff)] else if w = 2 then [.op (.andlRI rPri 0xffff)] else [])) m true ka s' := by
  obtain ⟨h2, g, gm⟩ := getCell_bind (getR_bind (done_inv hv))
  change GoodAddr s.vm s.pri.toInt at g
  change s.vm.inMem s.pri.toInt 4 at gm
  rw [List.append_assoc]
  refine check_then S h (by decide) (by decide) (h.pri rfl) (by decide) (by decide) g gm.2 fun m1 h => ?_
  split at h2
  · rename_i hw
    obtain rfl := setR_inv h2
    rw [if_pos hw]
    jrun [Runs, st_movlRM H _ _ (atDat 0) (at_legal 0 (by decide)), ea_at, h.dat, h.pri rfl, IState.reg, dat_at g.1,
      load32_at S.host g.1 (S.size ▸ gm.2), st_andlRI, alu32, get32, put32, aluFn, lo_zext]
    exact mkRegs h (fun _ => by rw [h.mem]; rfl) h.alt
  · rename_i hw
    rw [if_neg hw]
    split at h2
    · rename_i hw
      obtain rfl := setR_inv h2
      rw [if_pos hw]
      jrun [Runs, st_movlRM H _ _ (atDat 0) (at_legal 0 (by decide)), ea_at, h.dat, h.pri rfl, IState.reg, dat_at g.1,
        load32_at S.host g.1 (S.size ▸ gm.2), st_andlRI, alu32, get32, put32, aluFn, lo_zext]
      exact mkRegs h (fun _ => by rw [h.mem]; rfl) h.alt
    · rename_i hw
      rw [if_neg hw]
      split at h2
      · obtain rfl := setR_inv h2
        jrun [Runs, st_movlRM H _ _ (atDat 0) (at_legal 0 (by decide)), ea_at, h.dat, h.pri rfl, IState.reg, dat_at g.1,
          load32_at S.host g.1 (S.size ▸ gm.2)]
        exact mkRegs h (fun _ => by rw [h.mem]; rfl) h.alt
      · cases h2

theorem sim_storI (S : Setup H J E method s) (h : Sim H true true m s) (hv : visit E method here .storI s = .ok s' c) :
    Runs H (emitCheckAddress J rAlt 4 0 ++ [.op (.movl (.mem (atDat rAlt)) rPri)]) m true true s' := by
  obtain ⟨rfl, g, gm⟩ := setCell_vm (getR_bind (getR_bind (done_inv hv)))
  change GoodAddr s.vm s.alt.toInt at g
  change s.vm.inMem s.alt.toInt 4 at gm
  refine check_then S h (by decide) (by decide) (h.alt rfl) (by decide) (by decide) g gm.2 fun m1 h => ?_
  jrun [Runs, st_movlMR H _ (atDat 2) _ (at_legal 2 (by decide)), ea_at, h.dat, h.alt rfl, h.pri rfl, lo_zext, IState.reg, dat_at g.1,
    store32_at S.host g.1 (S.size ▸ gm.2)]
  exact mkMem h h.pri h.alt h.stk (by rw [h.mem]) h.hpF h.scopeF

theorem lo8 (p : Cell) : (p.setWidth 64).setWidth 8 = p.extractLsb' 0 8 := by
  apply BitVec.eq_of_toNat_eq
  rw [BitVec.toNat_setWidth, BitVec.toNat_setWidth, BitVec.extractLsb'_toNat]
  have := p.isLt
  simp only [Nat.shiftRight_zero]
  omega

theorem sim_strbI (S : Setup H J E method s) (h : Sim H true true m s) {w : Int} (hw2 : w ≠ 2)
    (hv : visit E method here (.strbI w) s = .ok s' c) :
    Runs H (emitCheckAddress J rAlt 4 0 ++
      (if w = 1 then [.op (.movb (.mem (atDat rAlt)) rPri)]
       else if w = 2 then [.op (.movw (.mem (atDat rAlt)) rPri)]
       else if w = 4 then [.op (.movl (.mem (atDat rAlt)) rPri)] else [])) m true true s' := by
  obtain ⟨l1, l2, l3, l4, l5, l6⟩ := S.layout
  obtain ⟨h2, g⟩ := throw_bind (getR_bind (getR_bind (done_inv hv)))
  have g3 := g.2.2
  have g0 := g.1
  change s.alt.toInt < _ at g3
  change 0 ≤ s.alt.toInt at g0
  have hz := S.size
  refine check_then S h (by decide) (by decide) (h.alt rfl) (by decide) (by decide) g (by show s.alt.toInt + 4 ≤ _; omega) fun m1 h => ?_
  split at h2
  · rename_i hw
    rw [if_pos hw]
    obtain ⟨v1, h3, rfl⟩ := vmOp_inv h2
    obtain ⟨rfl, gm⟩ := storeRaw8_inv h3
    jrun [Runs, st_movbMR H _ (atDat 2) 0 (at_legal 2 (by decide)) (.inl (by decide)), ea_at, h.dat, h.alt rfl, h.pri rfl, IState.reg, dat_at g0,
      store8_at S.host g0 (show s.alt.toInt + 1 ≤ H.memSize by omega), lo8]
    exact mkMem h h.pri h.alt h.stk (by rw [h.mem]) h.hpF h.scopeF
  · rename_i hw
    rw [if_neg hw, if_neg hw2]

    split at h2
    · rename_i hw
      rw [if_pos hw]
      obtain ⟨v1, h3, rfl⟩ := vmOp_inv h2
      obtain ⟨rfl, gm⟩ := storeRaw_inv h3
      jrun [Runs, st_movlMR H _ (atDat 2) _ (at_legal 2 (by decide)), ea_at, h.dat, h.alt rfl, h.pri rfl, lo_zext, IState.reg, dat_at g0,
        store32_at S.host g0 (show s.alt.toInt + 4 ≤ H.memSize by omega)]
      exact mkMem h h.pri h.alt h.stk (by rw [h.mem]) h.hpF h.scopeF
    · cases h2
end

end Verif.Jit

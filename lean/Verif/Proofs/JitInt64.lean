import Verif.Proofs.JitFloat

/-! 64-bit integer instructions. -/
namespace Verif.Jit
open Verif.X64 Verif.VM

theorem wr64_down (f : Int → BitVec 8) (a : Int) (v : BitVec 64) :
    wr32 (wr32 f (a - 4) (v.extractLsb' 32 32)) (a - 4 - 4) (v.extractLsb' 0 32) = wr64 f (a - 8) v := by
  funext x
  unfold wr64 wr32
  grind
theorem wr64_zero (f : Int → BitVec 8) (a : Int) : wr64 f a 0 = wr32 (wr32 f a 0) (a + 4) 0 := rfl

theorem at_diff {H : Host} {a : Int} (h0 : 0 ≤ a) (h1 : a < 4294967296) : Host.at H a - H.base = (BitVec.ofInt 32 a).setWidth 64 := by
  unfold Host.at
  apply BitVec.eq_of_toNat_eq
  simp only [BitVec.toNat_sub, BitVec.toNat_add, BitVec.toNat_setWidth, BitVec.toNat_ofInt]
  have := H.base.isLt
  omega

theorem setByte_any (x : BitVec 64) (b : Bool) : ((withByte x (if b then 1 else 0)).setWidth 8).setWidth 64 = (boolCell b).setWidth 64 := by
  have : ∀ y : BitVec 8, (withByte x y).setWidth 8 = y := by
    intro y
    unfold withByte
    ext i hi
    grind
  rw [this]
  cases b <;> rfl

section
variable {H : Host} {J : JitEnv} {E : Env} {method : Nat} {here : Int} {s s' : IState} {c : Ctl} {m : Mach} {kp ka : Bool}

theorem finish_ends (S : Setup H J E method s) (h : Sim H kp ka m s) {o : Int} {val : BitVec 64} {v : Gpr} {ka' : Bool}
    (g : GoodAddr s.vm (wrap32 (s.vm.frm + o))) (gm : s.vm.inMem (wrap32 (s.vm.frm + o)) 8) (m2 : Mach) 
    (e0 : m2.reg 0 = Host.at H (wrap32 (s.vm.frm + o))) (ev : m2.reg v = val)
    (alt : ka' = true → m2.reg 2 = s.alt.setWidth 64)
    (e3 : m2.reg 3 = m.reg 3 := by rfl) (e12 : m2.reg 12 = m.reg 12 := by rfl)
    (e14 : m2.reg 14 = m.reg 14 := by rfl) (e15 : m2.reg 15 = m.reg 15 := by rfl)
    (edf : m2.df = m.df := by rfl) (em : m2.mem = m.mem := by rfl) (ef : m2.field = m.field := by rfl)
    (es : m2.outer = m.outer := by rfl) :
    (run H none (Jit.finish64 v) m2).Ends (Post H true ka' m
      { s with vm := { s.vm with mem := wr64 s.vm.mem (wrap32 (s.vm.frm + o)) val },
               pri := BitVec.ofInt 32 (wrap32 (s.vm.frm + o)) }) := by
  obtain ⟨l1, l2, l3, l4, l5, l6⟩ := S.layout
  obtain ⟨g1, g2, g3⟩ := g
  have hz := S.size
  unfold Jit.finish64
  jrun [st_movqMR H _ (.bd 0 0) _ trivial, ea_bd, e0, at_zero, store64_at S.host g1 (S.size ▸ gm.2), ev,
    st_alu64 H _ _ (.reg _) _ trivial, alu64, get64, put64, aluFn, e15, h.dat, at_diff g1 (show wrap32 (s.vm.frm + o) < 4294967296 by omega)]
  exact mkMem h (fun _ => rfl) alt (e14.trans h.stk) (by show wr64 m2.mem _ _ = wr64 _ _ _; rw [em, h.mem])
    (by show m2.field _ = _; rw [ef]; exact h.hpF) (by show m2.field _ = _; rw [ef]; exact h.scopeF) e3 e12 (e15) edf
    (by show m2.field _ = _; rw [ef]) es

theorem sim_pushII64 (S : Setup H J E method s) (h : Sim H true ka m s) (hv : visit E method here .pushII64 s = .ok s' c) :
    Runs H (emitCheckAddress J rPri 8 0 ++ [.op (.movqRM rTmp (atDat rPri)),
      .op (.movqMR (.bd rStk (bv (-8))) rTmp), .op (.aluI true .sub (.reg rStk) 8)]) m true ka s' := by
  obtain ⟨l1, l2, l3, l4, l5, l6⟩ := S.layout
  obtain ⟨h1, g⟩ := range_bind (getR_bind (done_inv hv))
  obtain ⟨h2, gm⟩ := load64_bind h1
  obtain ⟨h3, p1⟩ := push_bind S.layout h2
  obtain ⟨rfl, p2⟩ := push_vm (S.push p1 _).layout h3
  change GoodAddr s.vm s.pri.toInt at g
  change s.vm.inMem s.pri.toInt 8 at gm
  change s.vm.hp + 4 < s.vm.sp - 4 at p2
  have hz := S.size
  have e8 : Host.at H s.vm.sp + BitVec.ofInt 64 (bv (-8)).toInt = Host.at H (s.vm.sp - 8) := at_bv H s.vm.sp (-8)
  have e8' : Host.at H s.vm.sp - (8 : BitVec 32).signExtend 64 = Host.at H (s.vm.sp - 8) := by
    rw [← at_sub, show (8 : BitVec 32).signExtend 64 = BitVec.ofInt 64 8 from by decide]
  refine check_then S h (by decide) (by decide) (h.pri rfl) (by decide) (by decide) g gm.2 fun m1 h => ?_
  jrun [Runs, st_movqRM H _ _ (atDat 0) (at_legal 0 (by decide)), st_movqMR H _ (.bd _ (bv (-8))) _ trivial, ea_at, ea_bd, st_subStk,
      h.dat, h.pri rfl, IState.reg, dat_at g.1, load64_at S.host g.1 (S.size ▸ gm.2), h.stk, e8, e8',
      store64_at S.host (show 0 ≤ s.vm.sp - 8 by omega) (by omega)]
  exact mkMem h h.pri h.alt (by show Host.at H (s.vm.sp - 8) = Host.at H (s.vm.sp - 4 - 4); congr 1; omega)
    (by rw [h.mem]; exact (wr64_down _ _ _).symm) h.hpF h.scopeF

theorem sim_moveI64 (S : Setup H J E method s) (h : Sim H true true m s) (hv : visit E method here .moveI64 s = .ok s' c) :
    Runs H (emitCheckAddress J rPri 8 0 ++ emitCheckAddress J rAlt 8 1 ++
      [.op (.movqRM 1 (atDat rPri)), .op (.movqMR (atDat rAlt) 1)]) m true true s' := by
  have h0 := getR_bind (done_inv hv)
  replace h0 := getR_bind h0
  obtain ⟨h1, g⟩ := range_bind h0
  obtain ⟨h2, k⟩ := range_bind h1
  obtain ⟨h3, gm⟩ := load64_bind h2
  obtain ⟨rfl, km⟩ := store64_vm h3
  change GoodAddr s.vm s.pri.toInt at g
  change s.vm.inMem s.pri.toInt 8 at gm
  change GoodAddr s.vm s.alt.toInt at k
  change s.vm.inMem s.alt.toInt 8 at km
  rw [List.append_assoc]
  refine check_then S h (by decide) (by decide) (h.pri rfl) (by decide) (by decide) g gm.2 fun m1 h => ?_
  refine check_then S h (by decide) (by decide) (h.alt rfl) (by decide) (by decide) k km.2 fun m1 h => ?_
  jrun [Runs, st_movqRM H _ _ (atDat 0) (at_legal 0 (by decide)), st_movqMR H _ (atDat 2) _ (at_legal 2 (by decide)), ea_at,
      h.dat, h.pri rfl, h.alt rfl, IState.reg, dat_at g.1, dat_at k.1, load64_at S.host g.1 (S.size ▸ gm.2),
      store64_at S.host k.1 (S.size ▸ km.2), h.mem]
  exact mkMem h h.pri h.alt h.stk rfl h.hpF h.scopeF

theorem lo_rd64 (f : Int → BitVec 8) (a : Int) : (rd64 f a).extractLsb' 0 32 = rd32 f a := by
  unfold rd64
  ext i hi
  simp only [BitVec.getElem_extractLsb', BitVec.getLsbD_append]
  grind

theorem sim_truncI64 (S : Setup H J E method s) (h : Sim H true ka m s) (hv : visit E method here .truncI64 s = .ok s' c) :
    Runs H (emitCheckAddress J rPri 8 0 ++ [.op (.movlRM rPri (atDat rPri))]) m true ka s' := by
  obtain ⟨h1, g⟩ := addr64_bind (getR_bind (done_inv hv))
  obtain ⟨h2, gm⟩ := load64_bind h1
  obtain rfl := setR_inv h2
  change GoodAddr s.vm s.pri.toInt at g
  change s.vm.inMem s.pri.toInt 8 at gm
  have g4 : s.pri.toInt + 4 ≤ H.memSize := by have := gm.2; rw [S.size]; omega
  refine check_then S h (by decide) (by decide) (h.pri rfl) (by decide) (by decide) g gm.2 fun m1 h => ?_
  jrun [Runs, st_movlRM H _ _ (atDat 0) (at_legal 0 (by decide)), ea_at,
      h.dat, h.pri rfl, IState.reg, dat_at g.1, load32_at S.host g.1 g4]
  exact mkRegs h (fun _ => by rw [h.mem]; show _ = ((rd64 s.vm.mem s.pri.toInt).extractLsb' 0 32).setWidth 64; rw [lo_rd64]; rfl) h.alt

theorem sim_testI64 (S : Setup H J E method s) (h : Sim H true ka m s) (hv : visit E method here .testI64 s = .ok s' c) :
    Runs H (emitCheckAddress J rPri 8 0 ++ [.op (.movqRM 1 (atDat rPri)), .op (.test true (.reg 1) 1),
      .op (.set notEqual (.reg 0)), .op (.movzxb rPri rPri)]) m true ka s' := by
  obtain ⟨h1, g⟩ := addr64_bind (getR_bind (done_inv hv))
  obtain ⟨h2, gm⟩ := load64_bind h1
  obtain rfl := setR_inv h2
  change GoodAddr s.vm s.pri.toInt at g
  change s.vm.inMem s.pri.toInt 8 at gm
  refine check_then S h (by decide) (by decide) (h.pri rfl) (by decide) (by decide) g gm.2 fun m1 h => ?_
  jrun [Runs, st_movqRM H _ _ (atDat 0) (at_legal 0 (by decide)), ea_at, st_test64, st_set H _ _ 0 (by decide), st_movzxb H _ 0 0 (by decide),
      h.dat, h.pri rfl, IState.reg, dat_at g.1, load64_at S.host g.1 (S.size ▸ gm.2), cond_test1]
  exact mkRegs h (fun _ => by rw [h.mem]; exact setByte_any _ _) h.alt

theorem sim_cvtI64 (S : Setup H J E method s) (h : Sim H true ka m s) {slot o : Int}
    (ho : slotOffset E method slot = some o) (hv : visit E method here (.cvtI64 slot) s = .ok s' c) :
    Runs H ([.op (.movsxd rTmp (.reg rPri)), .op (.lea rPri (.bd rFrm (bv o)))] ++ Jit.finish64 rTmp) m true ka s' := by
  obtain ⟨rfl, g, gm⟩ := finish64_inv (getR_bind (slot_bind ho (done_inv hv)))
  have e1 := frame_at S o g
  jrun [Runs, st_movsxd, st_lea H _ _ (.bd _ _) trivial, ea_bd, h.frm, e1, h.pri rfl, lo_zext]
  exact finish_ends S h g gm _ rfl rfl h.alt

theorem sim_invertI64 (S : Setup H J E method s) (h : Sim H true ka m s) {slot o : Int}
    (ho : slotOffset E method slot = some o) (hv : visit E method here (.invertI64 slot) s = .ok s' c) :
    Runs H (emitCheckAddress J rPri 8 0 ++ [.op (.movqRM 1 (atDat rPri)), .op (.not true 1), .op (.lea 0 (.bd rFrm (bv o)))] ++
      Jit.finish64 1) m true ka s' := by
  obtain ⟨h1, g⟩ := addr64_bind (getR_bind (done_inv hv))
  obtain ⟨h2, gm⟩ := load64_bind (slot_bind ho h1)
  obtain ⟨rfl, k, km⟩ := finish64_inv h2
  change GoodAddr s.vm s.pri.toInt at g
  change s.vm.inMem s.pri.toInt 8 at gm
  have e1 := frame_at S o k
  rw [List.append_assoc]
  refine check_then S h (by decide) (by decide) (h.pri rfl) (by decide) (by decide) g gm.2 fun m1 h => ?_
  jrun [Runs, st_movqRM H _ _ (atDat 0) (at_legal 0 (by decide)), ea_at, st_not64, st_lea H _ _ (.bd _ _) trivial, ea_bd, h.frm, e1,
      h.dat, h.pri rfl, IState.reg, dat_at g.1, load64_at S.host g.1 (S.size ▸ gm.2)]
  exact finish_ends S h k km _ rfl (by rw [← h.mem]; rfl) h.alt

theorem sim_negI64 (S : Setup H J E method s) (h : Sim H true ka m s) {slot o : Int}
    (ho : slotOffset E method slot = some o) (hv : visit E method here (.negI64 slot) s = .ok s' c) :
    Runs H (emitCheckAddress J rPri 8 0 ++ [.op (.movqRM 1 (atDat rPri)), .op (.neg true 1), .op (.lea 0 (.bd rFrm (bv o)))] ++
      Jit.finish64 1) m true ka s' := by
  obtain ⟨h1, g⟩ := addr64_bind (getR_bind (done_inv hv))
  obtain ⟨h2, gm⟩ := load64_bind (slot_bind ho h1)
  obtain ⟨rfl, k, km⟩ := finish64_inv h2
  change GoodAddr s.vm s.pri.toInt at g
  change s.vm.inMem s.pri.toInt 8 at gm
  have e1 := frame_at S o k
  rw [List.append_assoc]
  refine check_then S h (by decide) (by decide) (h.pri rfl) (by decide) (by decide) g gm.2 fun m1 h => ?_
  jrun [Runs, st_movqRM H _ _ (atDat 0) (at_legal 0 (by decide)), ea_at, st_neg64, st_lea H _ _ (.bd _ _) trivial, ea_bd, h.frm, e1,
      h.dat, h.pri rfl, IState.reg, dat_at g.1, load64_at S.host g.1 (S.size ▸ gm.2)]
  exact finish_ends S h k km _ rfl (by rw [← h.mem]; rfl) h.alt

theorem sim_storSCI64 (S : Setup H J E method s) (h : Sim H kp ka m s) {slot o : Int} {c0 c1 : Cell}
    (ho : slotOffset E method slot = some o) (hv : visit E method here (.storSCI64 slot c0 c1) s = .ok s' c) :
    Runs H [.op (.movqRI 1 (c1 ++ c0)), .op (.movqMR (.bd rFrm (bv o)) 1)] m kp ka s' := by
  obtain ⟨h2, k⟩ := slot64_bind (slot_bind ho (done_inv hv))
  obtain ⟨rfl, km⟩ := store64_vm h2
  have e1 := frame_at S o k
  jrun [Runs, st_movqRI, st_movqMR H _ (.bd _ (bv o)) _ trivial, ea_bd, h.frm, e1, store64_at S.host k.1 (S.size ▸ km.2)]
  exact mkMem h h.pri h.alt h.stk (by rw [h.mem]) h.hpF h.scopeF

theorem sim_storSPriI64 (S : Setup H J E method s) (h : Sim H true ka m s) {slot o : Int}
    (ho : slotOffset E method slot = some o) (hv : visit E method here (.storSPriI64 slot) s = .ok s' c) :
    Runs H (emitCheckAddress J rPri 8 0 ++ [.op (.movqRM rTmp (atDat rPri)), .op (.movqMR (.bd rFrm (bv o)) rTmp)]) m true ka s' := by
  obtain ⟨h1, g⟩ := addr64_bind (getR_bind (done_inv hv))
  obtain ⟨h2, k⟩ := slot64_bind (slot_bind ho h1)
  obtain ⟨h3, gm⟩ := load64_bind h2
  obtain ⟨rfl, km⟩ := store64_vm h3
  change GoodAddr s.vm s.pri.toInt at g
  change s.vm.inMem s.pri.toInt 8 at gm
  have e1 := frame_at S o k
  refine check_then S h (by decide) (by decide) (h.pri rfl) (by decide) (by decide) g gm.2 fun m1 h => ?_
  jrun [Runs, st_movqRM H _ _ (atDat 0) (at_legal 0 (by decide)), ea_at, st_movqMR H _ (.bd _ (bv o)) _ trivial, ea_bd, h.frm, e1,
      h.dat, h.pri rfl, IState.reg, dat_at g.1, load64_at S.host g.1 (S.size ▸ gm.2), store64_at S.host k.1 (S.size ▸ km.2)]
  exact mkMem h h.pri h.alt h.stk (by rw [h.mem]) h.hpF h.scopeF

theorem sim_zeroSI64 (S : Setup H J E method s) (h : Sim H kp ka m s) {slot o : Int}
    (ho : slotOffset E method slot = some o) (hv : visit E method here (.zeroSI64 slot) s = .ok s' c) :
    Runs H [.op (.alu true .xor (.reg rTmp) rTmp), .op (.movqMR (.bd rFrm (bv o)) rTmp)] m kp ka s' := by
  obtain ⟨l1, l2, l3, l4, l5, l6⟩ := S.layout
  obtain ⟨s1, u, h1, h2⟩ := im_bind_inv (slot_bind ho (done_inv hv))
  obtain ⟨rfl, g, gm⟩ := setFrame_vm h1
  obtain ⟨rfl, k, km⟩ := setFrame_vm h2
  have e1 := frame_at S o g
  replace k : GoodAddr s.vm (wrap32 (s.vm.frm + wrap32 (o + 4))) := k
  replace km : s.vm.inMem (wrap32 (s.vm.frm + wrap32 (o + 4))) 4 := km
  have e4 : wrap32 (s.vm.frm + wrap32 (o + 4)) = wrap32 (s.vm.frm + o) + 4 := by
    rw [wrap32_wrap]
    have := k.1
    rw [wrap32_wrap] at this
    obtain ⟨g1, g2, g3⟩ := g
    unfold wrap32 at *
    omega
  rw [e4] at km
  have km8 : wrap32 (s.vm.frm + o) + 8 ≤ H.memSize := by have := km.2; rw [S.size]; omega
  jrun [Runs, st_alu64 H _ _ (.reg _) _ trivial, alu64, get64, put64, aluFn, BitVec.xor_self,
    st_movqMR H _ (.bd _ (bv o)) _ trivial, ea_bd, h.frm, e1, store64_at S.host g.1 km8]
  exact mkMem h h.pri h.alt h.stk (by
    rw [h.mem]
    show wr64 _ _ _ = wr32 (wr32 _ _ _) (wrap32 (s.vm.frm + wrap32 (o + 4))) _
    rw [e4]; rfl) h.hpF h.scopeF

/-- Both operands of a 64-bit operation pass the check. -/
theorem load64s_then (S : Setup H J E method s) (h : Sim H true true m s) (g : GoodAddr s.vm s.pri.toInt)
    (gm : s.vm.inMem s.pri.toInt 8) (k : GoodAddr s.vm s.alt.toInt) (km : s.vm.inMem s.alt.toInt 8) {rp ra : Gpr}
    {rest : List Item} {kp' ka' : Bool}
    (t : ∀ m1, Sim H true true m1 s → Runs H (.op (.movqRM rp (atDat rPri)) :: .op (.movqRM ra (atDat rAlt)) :: rest) m1 kp' ka' s') :
    Runs H (load64s J rp ra ++ rest) m kp' ka' s' := by
  unfold load64s
  rw [List.append_assoc, List.append_assoc]
  refine check_then S h (by decide) (by decide) (h.pri rfl) (by decide) (by decide) g gm.2 fun m1 h => ?_
  refine check_then S h (by decide) (by decide) (h.alt rfl) (by decide) (by decide) k km.2 fun m1 h => ?_
  exact t m1 h

theorem sim_cmp64 (S : Setup H J E method s) (h : Sim H true true m s) {o : Cmp} {cc : Cc} (hc : opToCondition o = some cc)
    (hv : visit E method here (.cmp64 o) s = .ok s' c) :
    Runs H (load64s J 7 6 ++ [.op (.alu true .cmp (.reg 7) 6), .op (.set cc (.reg 0)), .op (.movzxb rPri rPri)]) m true true s' := by
  obtain ⟨h1, g⟩ := addr64_bind (getR_bind (done_inv hv))
  obtain ⟨h2, k⟩ := addr64_bind (getR_bind h1)
  obtain ⟨h3, gm⟩ := load64_bind h2
  obtain ⟨h4, km⟩ := load64_bind h3
  obtain rfl := setR_inv h4
  change GoodAddr s.vm s.pri.toInt at g
  change s.vm.inMem s.pri.toInt 8 at gm
  change GoodAddr s.vm s.alt.toInt at k
  change s.vm.inMem s.alt.toInt 8 at km
  refine load64s_then S h g gm k km fun m1 h => ?_
  jrun [Runs, st_movqRM H _ _ (atDat 0) (at_legal 0 (by decide)), st_movqRM H _ _ (atDat 2) (at_legal 2 (by decide)), ea_at,
      h.dat, h.pri rfl, h.alt rfl, IState.reg, dat_at g.1, dat_at k.1, load64_at S.host g.1 (S.size ▸ gm.2),
      load64_at S.host k.1 (S.size ▸ km.2), st_alu64 H _ _ (.reg _) _ trivial, alu64, get64, cond_cmp64 hc,
      st_set H _ _ 0 (by decide), st_movzxb H _ 0 0 (by decide)]
  exact mkRegs h (fun _ => by rw [h.mem]; exact setByte_any _ _) h.alt

theorem cl64_toNat {a : BitVec 64} (h : a.toNat < 64) : (a.setWidth 8).toNat % 64 = a.toNat := by
  rw [BitVec.toNat_setWidth]
  omega
theorem shl64 {x a : BitVec 64} (h : a.toNat < 64) : shiftFn .shl x (a.setWidth 8).toNat = x <<< a.toNat := by
  rw [shiftFn]; simp only [cl64_toNat h]
theorem shr64 {x a : BitVec 64} (h : a.toNat < 64) : shiftFn .shr x (a.setWidth 8).toNat = x >>> a.toNat := by
  rw [shiftFn]; simp only [cl64_toNat h]
theorem sar64 {x a : BitVec 64} (h : a.toNat < 64) : shiftFn .sar x (a.setWidth 8).toNat = x.sshiftRight a.toNat := by
  rw [shiftFn]; simp only [cl64_toNat h]

/-- The division code leaves quotient and remainder in rax and rdx. -/
theorem run_sdiv64 {x y : BitVec 64} (hp : m.reg 0 = x) (ha : m.reg 2 = y) (hd : divCheck y x = none) (rest : List Item) :
    ∃ m1, run H none ([ .op (.test true (.reg rPri) rPri),
    .err equal .divideByZero,
    .op (.aluI true .cmp (.reg rPri) (bv (-1))),
    .jl notEqual 2,
    .op (.movqRI 1 0x8000000000000000),
    .op (.alu true .cmp (.reg rAlt) 1),
    .err equal .integerOverflow,
    .bind 2,
    .op (.movqRR rTmp rPri),
    .op (.movqRR 0 rAlt),
    .op (.shiftI true .sar (.reg 2) 63),
    .op (.idiv true rTmp) ] ++ rest) m = run H none rest m1 ∧
      m1.reg 0 = y.sdiv x ∧ m1.reg 2 = y.srem x ∧
      (∀ r, r ≠ 0 → r ≠ 1 → r ≠ 2 → m1.reg r = m.reg r) ∧ m1.mem = m.mem ∧ m1.field = m.field ∧ m1.df = m.df ∧
      m1.outer = m.outer := by
  obtain ⟨h1, h2⟩ := divCheck_none hd
  refine ⟨{ m with reg := fun r => if r = 2 then y.srem x else if r = 0 then y.sdiv x
                else if r = 1 then x else m.reg r, flags := none }, ?_, rfl, rfl,
      fun r h0 h1 h2 => by show (if r = 2 then _ else if r = 0 then _ else if r = 1 then _ else _) = _; rw [if_neg h2, if_neg h0, if_neg h1],
      rfl, rfl, rfl, rfl⟩
  have em : (bv (-1)).signExtend 64 = -1#64 := by decide
  have emin : (0x8000000000000000 : BitVec 64) = BitVec.intMin 64 := by decide
  have ff : fits8 (bv (-1)) = true := by decide
  have m1 : ((-1#64 : BitVec 64) == 0) = false := by decide
  by_cases e : x = -1#64
  · have h3 : y ≠ BitVec.intMin 64 := h2.resolve_right (fun k => k e)
    jrun [st_test64, hp, ha, cond_test0, cond_eq, cond_neq, beq_no h1, Bool.false_eq_true, st_aluI64 H _ .cmp (.reg 0) _ trivial (fun e => by cases e) (fun _ => ff), alu64, get64,
        em, e, m1, BEq.rfl, Bool.not_true, emin, beq_no h3, st_movqRR _ _ _ 0 (by decide), st_movqRR _ _ _ 2 (by decide), st_movqRI, st_alu64 H _ _ (.reg _) _ trivial, st_shiftI64, shr63, st_idiv64, idiv64 (e ▸ hd)]
    congr 1
    simp only [Mach.mk.injEq, and_true]
    funext x
    grind
  · jrun [st_test64, hp, ha, cond_test0, cond_eq, cond_neq, beq_no h1, Bool.false_eq_true, st_aluI64 H _ .cmp (.reg 0) _ trivial (fun e => by cases e) (fun _ => ff), alu64, get64,
        em, beq_no e, Bool.not_false, st_movqRR _ _ _ 0 (by decide), st_movqRR _ _ _ 2 (by decide), st_shiftI64, shr63, st_idiv64, idiv64 hd]
    congr 1
    simp only [Mach.mk.injEq, and_true]
    funext x
    grind

theorem sim_bin64 (S : Setup H J E method s) (h : Sim H true true m s) {op : Op64} {slot o : Int}
    (ho : slotOffset E method slot = some o) (hv : visit E method here (.bin64 op slot) s = .ok s' c) :
    Runs H (emitBin64 J op o) m true (decide (op ≠ .sdivAlt ∧ op ≠ .smodAlt)) s' := by
  obtain ⟨h1, g⟩ := addr64_bind (getR_bind (done_inv hv))
  obtain ⟨h2, k⟩ := addr64_bind (getR_bind h1)
  obtain ⟨h3, _⟩ := slot64_bind (slot_bind ho h2)
  obtain ⟨h4, gm⟩ := load64_bind h3
  obtain ⟨h5, km⟩ := load64_bind h4
  change GoodAddr s.vm s.pri.toInt at g
  change s.vm.inMem s.pri.toInt 8 at gm
  change GoodAddr s.vm s.alt.toInt at k
  change s.vm.inMem s.alt.toInt 8 at km
  simp only [IState.reg] at h5
  obtain ⟨v, hop, h6⟩ : ∃ v, op64 op (rd64 s.vm.mem s.pri.toInt) (rd64 s.vm.mem s.alt.toInt) = some (.ok v) ∧ VM.finish64 o v s = .ok s' () := by
    cases e : op64 op (rd64 s.vm.mem s.pri.toInt) (rd64 s.vm.mem s.alt.toInt) with
    | none => rw [e] at h5; cases h5
    | some r =>
      rw [e] at h5
      cases r with
      | error _ => cases h5
      | ok v => exact ⟨v, rfl, h5⟩
  obtain ⟨rfl, q, qm⟩ := finish64_inv h6
  have e1 := frame_at S o q
  unfold emitBin64
  cases op <;> simp only [List.append_assoc]
  case sdivAlt =>
    unfold emitSdiv64
    simp only [List.append_assoc]
    refine load64s_then S h g gm k km fun m1 h => ?_
    rw [op64] at hop
    cases hd : divCheck (rd64 s.vm.mem s.alt.toInt) (rd64 s.vm.mem s.pri.toInt) with
    | some e => rw [hd] at hop; cases hop
    | none =>
    rw [hd] at hop; cases hop
    unfold Runs
    have ed : ∀ x, (m1.setReg 0 x).reg 15 = H.base := fun _ => h.dat
    have ea : ∀ x, (m1.setReg 0 x).reg 2 = s.alt.setWidth 64 := fun _ => h.alt rfl
    rw [run_op, st_movqRM H _ _ (atDat 0) (at_legal 0 (by decide)), ea_at, h.dat, h.pri rfl, dat_at g.1,
      load64_at S.host g.1 (S.size ▸ gm.2), thenRun_some,
      run_op, st_movqRM H _ _ (atDat 2) (at_legal 2 (by decide)), ea_at, ed, ea, dat_at k.1,
      load64_at S.host k.1 (S.size ▸ km.2), thenRun_some]
    obtain ⟨m2, e, e0, e2, er, em, ef, ed, es⟩ := run_sdiv64 (H := H)
      (m := (m1.setReg rPri (rd64 m1.mem s.pri.toInt)).setReg rAlt (rd64 (m1.setReg rPri (rd64 m1.mem s.pri.toInt)).mem s.alt.toInt))
      (x := rd64 s.vm.mem s.pri.toInt) (y := rd64 s.vm.mem s.alt.toInt) (by rw [← h.mem]; rfl) (by rw [← h.mem]; rfl) hd
      ([.op (.movqRR 1 0), .op (.lea 0 (.bd rFrm (bv o)))] ++ Jit.finish64 1)
    have e3 : m2.reg 3 = m1.reg 3 := er 3 (by decide) (by decide) (by decide)
    have e12 : m2.reg 12 = m1.reg 12 := er 12 (by decide) (by decide) (by decide)
    have e14 : m2.reg 14 = m1.reg 14 := er 14 (by decide) (by decide) (by decide)
    have e15 : m2.reg 15 = m1.reg 15 := er 15 (by decide) (by decide) (by decide)
    rw [e]
    jrun [st_movqRR _ _ _ 0 (by decide), st_movqRR _ _ _ 2 (by decide), st_lea H _ _ (.bd _ _) trivial, ea_bd, e3, h.frm, e1]
    exact finish_ends S h q qm _ rfl e0 (fun k => by cases k) e3 e12 e14 e15 ed em ef es
  case smodAlt =>
    unfold emitSdiv64
    simp only [List.append_assoc]
    refine load64s_then S h g gm k km fun m1 h => ?_
    rw [op64] at hop
    cases hd : divCheck (rd64 s.vm.mem s.alt.toInt) (rd64 s.vm.mem s.pri.toInt) with
    | some e => rw [hd] at hop; cases hop
    | none =>
    rw [hd] at hop; cases hop
    unfold Runs
    have ed : ∀ x, (m1.setReg 0 x).reg 15 = H.base := fun _ => h.dat
    have ea : ∀ x, (m1.setReg 0 x).reg 2 = s.alt.setWidth 64 := fun _ => h.alt rfl
    rw [run_op, st_movqRM H _ _ (atDat 0) (at_legal 0 (by decide)), ea_at, h.dat, h.pri rfl, dat_at g.1,
      load64_at S.host g.1 (S.size ▸ gm.2), thenRun_some,
      run_op, st_movqRM H _ _ (atDat 2) (at_legal 2 (by decide)), ea_at, ed, ea, dat_at k.1,
      load64_at S.host k.1 (S.size ▸ km.2), thenRun_some]
    obtain ⟨m2, e, e0, e2, er, em, ef, ed, es⟩ := run_sdiv64 (H := H)
      (m := (m1.setReg rPri (rd64 m1.mem s.pri.toInt)).setReg rAlt (rd64 (m1.setReg rPri (rd64 m1.mem s.pri.toInt)).mem s.alt.toInt))
      (x := rd64 s.vm.mem s.pri.toInt) (y := rd64 s.vm.mem s.alt.toInt) (by rw [← h.mem]; rfl) (by rw [← h.mem]; rfl) hd
      ([.op (.lea 0 (.bd rFrm (bv o)))] ++ Jit.finish64 2)
    have e3 : m2.reg 3 = m1.reg 3 := er 3 (by decide) (by decide) (by decide)
    have e12 : m2.reg 12 = m1.reg 12 := er 12 (by decide) (by decide) (by decide)
    have e14 : m2.reg 14 = m1.reg 14 := er 14 (by decide) (by decide) (by decide)
    have e15 : m2.reg 15 = m1.reg 15 := er 15 (by decide) (by decide) (by decide)
    rw [e]
    jrun [st_movqRR _ _ _ 0 (by decide), st_movqRR _ _ _ 2 (by decide), st_lea H _ _ (.bd _ _) trivial, ea_bd, e3, h.frm, e1]
    exact finish_ends S h q qm _ rfl e2 (fun k => by cases k) e3 e12 e14 e15 ed em ef es
  all_goals
    refine load64s_then S h g gm k km fun m1 h => ?_
    rw [op64] at hop
    first
    | (cases hop
       jrun [Runs, st_movqRM H _ _ (atDat 0) (at_legal 0 (by decide)), st_movqRM H _ _ (atDat 2) (at_legal 2 (by decide)), ea_at,
         h.dat, h.pri rfl, h.alt rfl, dat_at g.1, dat_at k.1, load64_at S.host g.1 (S.size ▸ gm.2),
         load64_at S.host k.1 (S.size ▸ km.2), st_lea H _ _ (.bd _ _) trivial, ea_bd, h.frm, e1, h.mem,
         st_imul64, st_alu64 H _ _ (.reg _) _ trivial, alu64, get64, put64, aluFn]
       exact finish_ends S h q qm _ rfl rfl (fun _ => h.alt rfl) (em := h.mem.symm))
    | (split at hop
       · rename_i hlt
         cases hop
         jrun [Runs, st_movqRM H _ _ (atDat 0) (at_legal 0 (by decide)), st_movqRM H _ _ (atDat 2) (at_legal 2 (by decide)), ea_at,
           h.dat, h.pri rfl, h.alt rfl, dat_at g.1, dat_at k.1, load64_at S.host g.1 (S.size ▸ gm.2),
           load64_at S.host k.1 (S.size ▸ km.2), st_lea H _ _ (.bd _ _) trivial, ea_bd, h.frm, e1, h.mem,
           st_shiftCl64, shl64 hlt, shr64 hlt, sar64 hlt]
         exact finish_ends S h q qm _ rfl rfl (fun _ => h.alt rfl) (em := h.mem.symm)
       · cases hop)

end
end Verif.Jit

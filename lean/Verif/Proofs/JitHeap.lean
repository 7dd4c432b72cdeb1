import Verif.Proofs.JitBlock

/-! Heap instructions and arrays. -/
namespace Verif.VM
theorem heapAlloc_inv {n : Int} {s s' : State} {a : Int} (h : heapAlloc n s = .ok s' a) :
    s' = { s with hp := wrap32 (s.hp + n) } ∧ a = s.hp ∧
      (n < 0 → s.dataSize ≤ wrap32 (s.hp + n)) ∧ (0 ≤ n → wrap32 (wrap32 (s.hp + n) + stackMargin) ≤ s.sp) := by
  unfold heapAlloc at h
  simp only at h
  split at h
  · split at h
    · cases h
    · cases h
      exact ⟨rfl, rfl, fun _ => by omega, fun _ => by omega⟩
  · split at h
    · cases h
    · cases h
      exact ⟨rfl, rfl, fun _ => by omega, fun _ => by omega⟩
theorem phys_inv {a : Int} {s s' : State} {b : Int} (h : localToPhysAddr a s = .ok s' b) :
    s' = s ∧ 0 ≤ a ∧ a < s.memSize := by
  unfold localToPhysAddr at h
  split at h
  · cases h
  · cases h; exact ⟨rfl, by omega, by omega⟩
end Verif.VM

namespace Verif.Jit
open Verif.X64 Verif.VM

section
variable {H : Host} {J : JitEnv} {E : Env} {method : Nat} {here : Int} {s s' : IState} {c : Ctl} {m : Mach} {kp ka : Bool}

theorem bv_add (a b : Int) : BitVec.ofInt 32 a + bv b = BitVec.ofInt 32 (a + b) := by
  rw [bv, BitVec.ofInt_add]
theorem bv_wrap (a : Int) : BitVec.ofInt 32 (wrap32 a) = BitVec.ofInt 32 a := by
  rw [← bv_toInt]; exact ofInt32_self _

theorem run_heap (S : Setup H J E method s) (h : Sim H kp ka m s) {n : Int} (side : 0 ≤ n → HeapSide H s n) {v1 : State} {a : Int}
    (hv : heapAlloc n s.vm = .ok v1 a) (rest : List Item) :
    ∃ m1, run H none (emitHeap J n ++ rest) m = run H none rest m1 ∧
      Sim H kp true m1 { s with vm := v1, alt := BitVec.ofInt 32 a } ∧ m1.outer = m.outer := by
  obtain ⟨l1, l2, l3, l4, l5, l6⟩ := S.layout
  obtain ⟨rfl, rfl, hn, hp⟩ := heapAlloc_inv hv
  have haddr : ∀ f, H.ctx + (H.off f).signExtend 64 = H.addr f := fun _ => rfl
  have hz := S.size
  by_cases hneg : n < 0
  · replace hn := hn hneg
    have hw : wrap32 (s.vm.hp + n) < 2147483648 := by unfold wrap32; omega
    refine ⟨{ m with
      reg := fun x => if x = 2 then (BitVec.ofInt 32 s.vm.hp).setWidth 64 else m.reg x
      flags := some (cmpFlags (BitVec.ofInt 32 (s.vm.hp + n)) (bv J.dataSize))
      field := fun g => if g = .hp then BitVec.ofInt 32 (s.vm.hp + n) else m.field g }, ?_, ?_, rfl⟩
    · have c1 : decide ((BitVec.ofInt 32 (s.vm.hp + n)).toNat < (bv J.dataSize).toNat) = false := by
        rw [← bv_wrap]
        have e1 := bv_toNat (x := wrap32 (s.vm.hp + n)) (by omega) (by omega)
        have e2 := bv_toNat (x := J.dataSize) (by rw [S.jdata]; omega) (by rw [S.jdata]; omega)
        rw [S.jdata] at e2 ⊢
        rw [bv] at e1
        simp only [decide_eq_false_iff_not]
        omega
      unfold emitHeap
      rw [if_pos hneg]
      jrun [st_movlRM H _ _ (J.field .hp) trivial, ea_field _ S.joff, h.ctx, haddr, load32_field S.host, h.hpF,
        st_aluI32 H _ _ (.mem (J.field .hp)) _ trivial, alu32, get32, put32, aluFn, store32_field S.host, bv_add, cond_below, c1,
        Bool.false_eq_true]
    · exact ⟨h.pri, fun _ => rfl, h.frm, h.ctx, h.stk, h.dat, h.df, h.mem, (bv_wrap _).symm, h.frmF, h.scopeF⟩
  · obtain ⟨s1, s2⟩ := side (by omega)
    replace hp := hp (by omega)
    have hw1 : wrap32 (s.vm.hp + n) = s.vm.hp + n := wrap32_id (by omega) (by omega)
    rw [hw1] at hp
    rw [wrap32_id (by unfold stackMargin; omega) (by unfold stackMargin; omega)] at hp
    unfold stackMargin at hp
    have hroom := S.host.room
    have ev : H.base + (BitVec.ofInt 32 (s.vm.hp + n)).setWidth 64 + BitVec.ofInt 64 (64 : BitVec 32).toInt = Host.at H (s.vm.hp + n + 64) := by
      have e1 := bv_toNat (x := s.vm.hp + n) (by omega) (by omega)
      rw [bv] at e1
      rw [zext_ofInt, e1, show BitVec.ofInt 64 (64 : BitVec 32).toInt = BitVec.ofInt 64 64 from by decide, BitVec.add_assoc, ← BitVec.ofInt_add]
      rfl
    refine ⟨{ m with
      reg := fun x => if x = 1 then Host.at H (s.vm.hp + n + 64) else if x = 2 then (BitVec.ofInt 32 s.vm.hp).setWidth 64 else m.reg x
      flags := some (cmpFlags ((Host.at H (s.vm.hp + n + 64)).setWidth 32) ((Host.at H s.vm.sp).setWidth 32))
      field := fun g => if g = .hp then BitVec.ofInt 32 (s.vm.hp + n) else m.field g }, ?_, ?_, rfl⟩
    · have c1 : decide (((Host.at H s.vm.sp).setWidth 32).toNat < ((Host.at H (s.vm.hp + n + 64)).setWidth 32).toNat) = false := by
        have a1 := at_toNat S.host (a := s.vm.sp) (by omega) (by omega)
        have a2 := at_toNat S.host (a := s.vm.hp + n + 64) (by omega) (by omega)
        rw [BitVec.toNat_setWidth, BitVec.toNat_setWidth]
        simp only [decide_eq_false_iff_not]
        omega
      unfold emitHeap
      rw [if_neg hneg]
      jrun [st_movlRM H _ _ (J.field .hp) trivial, ea_field _ S.joff, h.ctx, haddr, load32_field S.host, h.hpF,
        st_aluI32 H _ _ (.mem (J.field .hp)) _ trivial, alu32, get32, put32, aluFn, store32_field S.host, bv_add,
        st_lea H _ _ (.bisd _ 1 _ _) (show (1 : Fin 16) ≠ 4 by decide), ea_bisd0, h.dat, ev, st_alu32 H _ _ (.reg _) _ trivial, h.stk, cond_above, c1,
        Bool.false_eq_true]
      congr 1
      simp only [Mach.mk.injEq, and_true, true_and]
      funext x
      grind
    · exact ⟨h.pri, fun _ => rfl, h.frm, h.ctx, h.stk, h.dat, h.df, h.mem, (bv_wrap _).symm, h.frmF, h.scopeF⟩

theorem sim_heap (S : Setup H J E method s) (h : Sim H kp ka m s) {n : Int} (side : 0 ≤ n → HeapSide H s n)
    (hv : visit E method here (.heap n) s = .ok s' c) : Runs H (emitHeap J n) m kp true s' := by
  obtain ⟨s1, a, h1, h2⟩ := im_bind_inv (done_inv hv)
  obtain ⟨v1, h3, rfl⟩ := vmOp_inv h1
  cases h2
  obtain ⟨m1, e1, e2, e3⟩ := run_heap S h side h3 []
  unfold Runs
  rw [List.append_nil] at e1
  rw [e1, run_nil, ends_done]
  exact ⟨e2, e3⟩

theorem sim_heapSave (S : Setup H J E method s) (h : Sim H kp ka m s)
    (low : (H.base.toNat % 4294967296 : Int) + H.memSize ≤ 4294967296) (hv : visit E method here .heapSave s = .ok s' c) :
    Runs H (emitHeap J 4 ++
      [.op (.movlRM rPri (J.field .scope)), .op (.movl (.mem (atDat rAlt)) rPri), .op (.movl (.mem (J.field .scope)) rAlt)])
      m false false s' := by
  obtain ⟨l1, l2, l3, l4, l5, l6⟩ := S.layout
  have hz := S.size
  have haddr : ∀ f, H.ctx + (H.off f).signExtend 64 = H.addr f := fun _ => rfl
  obtain ⟨v1, h3, rfl⟩ := vmOp_inv (done_inv hv)
  unfold enterHeapScope at h3
  cases h4 : heapAlloc 4 s.vm with
  | fail _ _ => rw [h4] at h3; cases h3
  | ub => rw [h4] at h3; cases h3
  | ok s1 a =>
  rw [h4] at h3
  simp only at h3
  obtain ⟨m1, e1, h', e3⟩ := run_heap S h (fun _ => ⟨low, by omega⟩) h4
    [.op (.movlRM rPri (J.field .scope)), .op (.movl (.mem (atDat rAlt)) rPri), .op (.movl (.mem (J.field .scope)) rAlt)]
  obtain ⟨rfl, rfl, -, -⟩ := heapAlloc_inv h4
  obtain ⟨s2, b, h5, h6⟩ := vmm_bind_inv h3
  obtain ⟨rfl, rfl, g⟩ := throw_inv h5
  obtain ⟨rfl, gm⟩ := storeRaw_inv h6
  have gm2 : s.vm.hp + 4 ≤ H.memSize := by have := gm.2; simp only at this; omega
  have ea : (BitVec.ofInt 32 s.vm.hp).toInt = s.vm.hp := by
    show (bv s.vm.hp).toInt = _
    rw [bv_toInt, wrap32_id (by omega) (by omega)]
  have hx : m1.reg 2 = (BitVec.ofInt 32 s.vm.hp).setWidth 64 := h'.alt rfl
  have hsc : m1.field .scope = BitVec.ofInt 32 s.vm.hpScope := h'.scopeF
  have ed := dat_at (H := H) (p := BitVec.ofInt 32 s.vm.hp) (by rw [ea]; omega)
  rw [ea] at ed
  unfold Runs
  rw [e1]
  jrun [st_movlRM H _ _ (J.field .scope) trivial, ea_field _ S.joff, h'.ctx, haddr, load32_field S.host, hsc,
    st_movlMR H _ (atDat 2) _ (at_legal 2 (by decide)), st_movlMR H _ (J.field .scope) _ trivial, ea_at, h'.dat, hx, ed,
    store32_at S.host (show 0 ≤ s.vm.hp by omega) gm2, lo_zext, store32_field S.host]
  exact ⟨⟨fun k => (by cases k), fun k => (by cases k), h'.frm, h'.ctx, h'.stk, h'.dat, h'.df,
    by show wr32 m1.mem _ _ = _; rw [h'.mem], h'.hpF, h'.frmF, rfl⟩, e3⟩

theorem sim_heapRestore (S : Setup H J E method s) (h : Sim H kp ka m s) (hv : visit E method here .heapRestore s = .ok s' c) :
    Runs H [.op (.movlRM 1 (J.field .scope)), .op (.movlRM rAlt (atDat 1)),
      .op (.movl (.mem (J.field .hp)) 1), .op (.movl (.mem (J.field .scope)) rAlt)] m kp false s' := by
  obtain ⟨l1, l2, l3, l4, l5, l6⟩ := S.layout
  have hz := S.size
  have haddr : ∀ f, H.ctx + (H.off f).signExtend 64 = H.addr f := fun _ => rfl
  obtain ⟨v1, h3, rfl⟩ := vmOp_inv (done_inv hv)
  unfold leaveHeapScope at h3
  cases h4 : (throwIfBadAddress s.vm.hpScope >>= fun p => loadRaw p : VMM Cell) s.vm with
  | fail _ _ => rw [h4] at h3; cases h3
  | ub => rw [h4] at h3; cases h3
  | ok s1 prev =>
  rw [h4] at h3
  simp only at h3
  obtain ⟨s2, b, h5, h6⟩ := vmm_bind_inv h4
  obtain ⟨rfl, rfl, g⟩ := throw_inv h5
  obtain ⟨rfl, rfl, gm⟩ := loadRaw_inv h6
  have hv1 : v1 = { s.vm with hp := s.vm.hpScope, hpScope := (rd32 s.vm.mem s.vm.hpScope).toInt } := by
    split at h3
    · cases h7 : throwIfBadAddress (rd32 s.vm.mem s.vm.hpScope).toInt
        { s.vm with hp := s.vm.hpScope, hpScope := (rd32 s.vm.mem s.vm.hpScope).toInt } with
      | fail _ _ => rw [h7] at h3; cases h3
      | ub => rw [h7] at h3; cases h3
      | ok _ _ =>
        rw [h7] at h3
        obtain ⟨rfl, _, _⟩ := throw_inv h7
        cases h3
        rfl
    · cases h3; rfl
  subst hv1
  have ea : (BitVec.ofInt 32 s.vm.hpScope).toInt = s.vm.hpScope := by
    show (bv s.vm.hpScope).toInt = _
    have := g.1
    have := g.2.2
    rw [bv_toInt, wrap32_id (by omega) (by omega)]
  have ed := dat_at (H := H) (p := BitVec.ofInt 32 s.vm.hpScope) (by rw [ea]; exact g.1)
  rw [ea] at ed
  jrun [Runs, st_movlRM H _ _ (J.field .scope) trivial, ea_field _ S.joff, h.ctx, haddr, load32_field S.host, h.scopeF,
    st_movlRM H _ _ (atDat 1) (at_legal 1 (by decide)), ea_at, h.dat, ed, load32_at S.host g.1 (S.size ▸ gm.2),
    st_movlMR H _ (J.field .scope) _ trivial, st_movlMR H _ (J.field .hp) _ trivial, lo_zext, store32_field S.host]
  refine ⟨⟨h.pri, fun k => (by cases k), h.frm, h.ctx, h.stk, h.dat, h.df, h.mem, rfl, h.frmF, ?_⟩, rfl⟩
  show rd32 m.mem _ = BitVec.ofInt 32 (rd32 s.vm.mem _).toInt
  rw [h.mem, BitVec.ofInt_toInt]

theorem sim_initarray (S : Setup H J E method s) (h : Sim H kp ka m s) {r : Reg} {a cp fl : Int} {v : Cell}
    (hr : match r with | .pri => kp = true | .alt => ka = true)
    (hv : visit E method here (.initarray r a 0 cp fl v) s = .ok s' c) :
    Runs H ([.op (.lea 7 (atDat (regOf r)))] ++
          (if cp ≠ 0 then [.op (.lea 6 (.bd rDat (bv a))), .op .cld, .op (.movlRI 1 (bv cp)), .op .repMovsd] else []) ++
          (if fl ≠ 0 then [.op (.movlRI 0 v), .op (.movlRI 1 (bv fl)), .op .repStosd] else [])) m (kp && decide (fl = 0)) ka s' := by
  obtain ⟨l1, l2, l3, l4, l5, l6⟩ := S.layout
  have hz := S.size
  obtain ⟨v1, h3, rfl⟩ := vmOp_inv (getR_bind (done_inv hv))
  obtain ⟨x, hx⟩ : ∃ x, s.reg r = x := ⟨_, rfl⟩
  rw [hx] at h3
  have hxr : m.reg (regOf r) = x.setWidth 64 := by
    cases r
    · rw [← hx]; exact h.pri hr
    · rw [← hx]; exact h.alt hr
  have h4r : regOf r ≠ 4 := by cases r <;> decide
  unfold initArray at h3
  cases h4 : localToPhysAddr x.toInt s.vm with
  | fail _ _ => rw [h4] at h3; cases h3
  | ub => rw [h4] at h3; cases h3
  | ok s1 _ =>
  rw [h4] at h3
  obtain ⟨rfl, x0, x1⟩ := phys_inv h4
  simp only at h3
  split at h3
  · cases h3
  rename_i hneg
  split at h3
  · cases h3
  simp only [Int.zero_mul, Int.add_zero, Int.zero_add] at h3
  -- after the copy
  have fin : ∀ (m1 : Mach) (mem1 : Int → BitVec 8), m1.mem = mem1 → (∀ r, r ≠ 1 → r ≠ 6 → r ≠ 7 → m1.reg r = m.reg r) →
      m1.df = false → m1.field = m.field → m1.outer = m.outer → m1.reg 7 = Host.at H (x.toInt + cp * 4) →
      (if fl = 0 then Res.ok { s.vm with mem := mem1 } ()
        else if ¬ s.vm.inMem (x.toInt + cp * 4) (fl * 4) then Res.ub
        else Res.ok { s.vm with mem := fillCells mem1 (x.toInt + cp * 4) v fl.toNat } ()) = Res.ok v1 () →
      (run H none (if fl ≠ 0 then [.op (.movlRI 0 v), .op (.movlRI 1 (bv fl)), .op .repStosd] else []) m1).Ends
        (Post H (kp && decide (fl = 0)) ka m { s with vm := v1 }) := by
    intro m1 mem1 em er ed ef es e7 hf
    by_cases hfl : fl = 0
    · rw [if_pos hfl] at hf
      rw [if_neg (fun k => k hfl), run_nil, ends_done]
      cases hf
      exact mkMem h (fun k => by rw [er 0 (by decide) (by decide) (by decide)]; exact h.pri (by simp at k; exact k.1))
        (fun k => by rw [er 2 (by decide) (by decide) (by decide)]; exact h.alt k)
        (by rw [er 14 (by decide) (by decide) (by decide)]; exact h.stk) em (by rw [ef]; exact h.hpF) (by rw [ef]; exact h.scopeF)
        (er 3 (by decide) (by decide) (by decide)) (er 12 (by decide) (by decide) (by decide)) (er 15 (by decide) (by decide) (by decide))
        (ed.trans h.df.symm) (by rw [ef]) es
    · rw [if_neg hfl] at hf
      rw [if_pos hfl]
      split at hf
      · cases hf
      · rename_i gm
        cases hf
        have gm' : s.vm.inMem (x.toInt + cp * 4) (fl * 4) := Decidable.not_not.mp gm
        have gm0 := gm'.1
        have gm2 := gm'.2
        rw [← S.size] at gm2
        have qn : (fl.toNat : Int) = fl := Int.toNat_of_nonneg (by omega)
        jrun [st_movlRI]
        rw [st_stos (d := x.toInt + cp * 4) (n := fl.toNat) (v := v) S.host]
        rotate_left
        · exact e7
        · exact bv_wide (by omega) (by omega) qn
        · exact ed
        · exact lo_zext v
        · exact gm0
        · rw [qn]; exact gm2
        rw [thenRun_some, run_nil, ends_done]
        have kf : (kp && decide (fl = 0)) = false := by simp [hfl]
        rw [kf]
        exact mkMem h (fun k => by cases k)
          (fun k => by show m1.reg 2 = _; rw [er 2 (by decide) (by decide) (by decide)]; exact h.alt k)
          (by show m1.reg 14 = _; rw [er 14 (by decide) (by decide) (by decide)]; exact h.stk) (by show fillCells m1.mem _ _ _ = _; rw [em])
          (by show m1.field _ = _; rw [ef]; exact h.hpF) (by show m1.field _ = _; rw [ef]; exact h.scopeF)
          (er 3 (by decide) (by decide) (by decide)) (er 12 (by decide) (by decide) (by decide)) (er 15 (by decide) (by decide) (by decide))
          (ed.trans h.df.symm) (by show m1.field _ = _; rw [ef]) es
  have hlea : stepCall H (.lea 7 (atDat (regOf r))) m = some (m.setReg 7 (Host.at H x.toInt)) := by
    rw [st_lea H _ _ (atDat (regOf r)) (at_legal _ h4r), ea_at, h.dat, hxr, dat_at x0]
  by_cases hc : cp = 0
  · rw [if_pos ⟨trivial, hc⟩] at h3
    rw [if_neg (fun k => k hc)]
    unfold Runs
    rw [List.append_nil, List.cons_append, List.nil_append, run_op, hlea, thenRun_some]
    exact fin _ s.vm.mem h.mem (fun r h1 h2 h3 => if_neg h3) h.df rfl rfl (by show Host.at H _ = _; rw [hc]; simp) h3
  · rw [if_neg (fun k => hc k.2)] at h3
    rw [if_pos hc]
    cases h5 : localToPhysAddr a s.vm with
    | fail _ _ => rw [h5] at h3; cases h3
    | ub => rw [h5] at h3; cases h3
    | ok s1 _ =>
    rw [h5] at h3
    obtain ⟨rfl, a0, a1⟩ := phys_inv h5
    simp only at h3
    by_cases hd : a + (cp - 1) * 4 ≥ s.vm.dataSize
    · rw [if_pos hd] at h3; cases h3
    rw [if_neg hd] at h3
    split at h3
    · rename_i heq
      split at heq
      · cases heq
      · rename_i hub
        cases heq
        have g1 : s.vm.inMem x.toInt (cp * 4) := Decidable.not_not.mp fun k => hub (.inl k)
        have g2 : s.vm.inMem a (cp * 4) := Decidable.not_not.mp fun k => hub (.inr (.inl k))
        have g11 := g1.2
        have g22 := g2.2
        rw [← S.size] at g11 g22
        have qn : (cp.toNat : Int) = cp := Int.toNat_of_nonneg (by omega)
        unfold Runs
        simp only [List.cons_append, List.nil_append]
        rw [run_op, hlea, thenRun_some]
        jrun [st_lea H _ _ (.bd _ _) trivial, ea_bd, h.dat, dat_disp a0 (show a < 2147483648 by omega), st_cld, st_movlRI]
        rw [st_movs4 (d := x.toInt) (p := a) (n := cp.toNat) S.host _ rfl rfl (bv_wide (by omega) (by omega) qn) rfl a0
          (by rw [qn]; exact g22) x0 (by rw [qn]; exact g11), thenRun_some]
        exact fin _ _ (by show copyCells m.mem _ _ _ _ = copyCells s.vm.mem _ _ _ _; rw [h.mem]) (fun r h1 h2 h3 => by simp [h1, h2, h3]) rfl rfl rfl (by simp [qn]) h3
    · cases h3
    · cases h3

theorem cond_le0 (a : BitVec 32) : X64.cond (cmpFlags a 0) 14 = decide (a.toInt ≤ 0) := by
  rw [cond_cmp32 (c := .sleq) rfl]
  rfl

theorem sim_genarray (S : Setup H J E method s) (h : Sim H kp ka m s) {n : Int} {z : Bool} (hn : n % 4294967296 = 1)
    (scopes : s.vm.usesHeapScopes = true) (hv : visit E method here (.genarray n z) s = .ok s' c) :
    Runs H ([ .op (.movlRM rAlt (J.field .hp)),
          .op (.movlRM rTmp (.bd rStk 0)),
          .op (.aluI false .cmp (.reg rTmp) 0),
          .err lessEqual .invalidArraySize,
          .op (.movl (.mem (.bd rStk 0)) rAlt),
          .op (.lea 7 (atDat rAlt)),
          .op (.lea rAlt (.bisd rAlt rTmp 2 0)),
          .op (.lea 8 (atDat rAlt)),
          .op (.alu true .cmp (.reg 8) rStk),
          .err aboveEqual .heapLow,
          .op (.movl (.mem (J.field .hp)) rAlt) ] ++
          (if z then [.op (.push 0), .op (.alu false .xor (.reg 0) 0), .op .cld, .op .repStosd, .op (.pop 0)] else [])) m kp false s' := by
  obtain ⟨l1, l2, l3, l4, l5, l6⟩ := S.layout
  have hz := S.size
  have haddr : ∀ f, H.ctx + (H.off f).signExtend 64 = H.addr f := fun _ => rfl
  obtain ⟨v1, h3, rfl⟩ := vmOp_inv (done_inv hv)
  rw [hn] at h3
  unfold genArray at h3
  cases h4 : acquireAddrRange s.vm.sp (wrap32 (((1 : Int).toNat : Int) * 4)) s.vm with
  | fail _ _ => rw [h4] at h3; cases h3
  | ub => rw [h4] at h3; cases h3
  | ok s1 p =>
  rw [h4] at h3
  obtain ⟨rfl, rfl, g, -⟩ := range_inv h4
  simp only at h3
  rw [if_pos (by decide)] at h3
  unfold generateArray1 at h3
  cases h5 : loadRaw s.vm.sp s.vm with
  | fail _ _ => rw [h5] at h3; cases h3
  | ub => rw [h5] at h3; cases h3
  | ok s1 sz =>
  rw [h5] at h3
  obtain ⟨rfl, rfl, gm⟩ := loadRaw_inv h5
  simp only at h3
  split at h3
  · cases h3
  rename_i hz0
  split at h3
  · cases h3
  rename_i hmul
  split at h3
  · cases h3
  rename_i hlow
  obtain ⟨sz, hsz⟩ : ∃ sz, rd32 s.vm.mem s.vm.sp = sz := ⟨_, rfl⟩
  simp only [hsz] at hz0 hlow h3
  have gm2 := gm.2
  rw [← S.size] at gm2
  have g1 := g.1
  have ehp : (BitVec.ofInt 32 s.vm.hp).toInt = s.vm.hp := by
    show (bv s.vm.hp).toInt = _
    rw [bv_toInt, wrap32_id (by omega) (by omega)]
  have ed := dat_at (H := H) (p := BitVec.ofInt 32 s.vm.hp) (by rw [ehp]; omega)
  rw [ehp] at ed
  have ehp2 : ((BitVec.ofInt 32 s.vm.hp).toNat : Int) = s.vm.hp := bv_toNat (by omega) (by omega)
  have eend : (BitVec.ofInt 32 s.vm.hp).setWidth 64 + sz.setWidth 64 <<< 2 + BitVec.ofInt 64 (0 : BitVec 32).toInt =
      BitVec.ofInt 64 (s.vm.hp + sz.toNat * 4) := by
    apply BitVec.eq_of_toNat_eq
    rw [BitVec.shiftLeft_eq_mul_twoPow]
    simp only [BitVec.toNat_add, BitVec.toNat_mul, BitVec.toNat_setWidth, BitVec.toNat_ofInt, BitVec.toNat_twoPow, show (0 : BitVec 32).toInt = 0 from rfl]
    omega
  have c1 : decide (sz.toInt ≤ 0) = false := by
    rw [BitVec.toInt_eq_toNat_cond]
    simp only [decide_eq_false_iff_not]
    split <;> omega
  have c2 : decide ((Host.at H (s.vm.hp + sz.toNat * 4)).toNat < (Host.at H s.vm.sp).toNat) = true := by
    have a1 := at_toNat S.host (a := s.vm.hp + sz.toNat * 4) (by omega) (by omega)
    have a2 := at_toNat S.host (a := s.vm.sp) (by omega) (by omega)
    simp only [decide_eq_true_eq]
    omega
  have eat : H.base + BitVec.ofInt 64 (s.vm.hp + sz.toNat * 4) = Host.at H (s.vm.hp + sz.toNat * 4) := rfl
  have elo : (BitVec.ofInt 64 (s.vm.hp + sz.toNat * 4)).setWidth 32 = BitVec.ofInt 32 (s.vm.hp + sz.toNat * 4) := ofInt_lo _
  cases z
  · jrun [Runs, st_movlRM H _ _ (J.field .hp) trivial, ea_field _ S.joff, h.ctx, haddr, load32_field S.host, h.hpF,
      st_movlRM H _ _ (.bd _ 0) trivial, ea_bd, h.stk, at_zero, load32_at S.host g1 gm2, h.mem, hsz,
      st_aluI32 H _ _ (.reg _) _ trivial, alu32, get32, lo_zext, cond_le0, c1, Bool.false_eq_true,
      st_movlMR H _ (.bd _ 0) _ trivial, store32_at S.host g1 gm2, st_lea H _ _ (atDat 2) (at_legal 2 (by decide)), ea_at, h.dat, ed,
      st_lea H _ _ (.bisd _ 1 _ _) (show (1 : Fin 16) ≠ 4 by decide), ea_bisd2, eend, eat, st_alu64 H _ _ (.reg _) _ trivial, alu64, get64,
      cond_ae, c2, Bool.not_true, st_movlMR H _ (J.field .hp) _ trivial, elo, store32_field S.host, List.append_nil]
    cases h3
    exact mkMem h h.pri (fun k => by cases k) h.stk rfl (bv_wrap _).symm h.scopeF
  · rw [if_pos rfl] at h3
    split at h3
    · rename_i hin
      cases h3
      have hin2 := hin.2
      simp only at hin2
      rw [← S.size] at hin2
      jrun [Runs, st_movlRM H _ _ (J.field .hp) trivial, ea_field _ S.joff, h.ctx, haddr, load32_field S.host, h.hpF,
      st_movlRM H _ _ (.bd _ 0) trivial, ea_bd, h.stk, at_zero, load32_at S.host g1 gm2, h.mem, hsz,
      st_aluI32 H _ _ (.reg _) _ trivial, alu32, get32, lo_zext, cond_le0, c1, Bool.false_eq_true,
      st_movlMR H _ (.bd _ 0) _ trivial, store32_at S.host g1 gm2, st_lea H _ _ (atDat 2) (at_legal 2 (by decide)), ea_at, h.dat, ed,
      st_lea H _ _ (.bisd _ 1 _ _) (show (1 : Fin 16) ≠ 4 by decide), ea_bisd2, eend, eat, st_alu64 H _ _ (.reg _) _ trivial, alu64, get64,
      cond_ae, c2, Bool.not_true, st_movlMR H _ (J.field .hp) _ trivial, elo, store32_field S.host,
        st_push, st_alu32 H _ _ (.reg _) _ trivial, put32, aluFn, BitVec.xor_self, st_cld]
      rw [st_stos (d := s.vm.hp) (n := sz.toNat) (v := 0) S.host]
      rotate_left
      · rfl
      · show (sz.setWidth 64).toNat = _
        rw [BitVec.toNat_setWidth]
        have := sz.isLt
        omega
      · rfl
      · rfl
      · omega
      · exact hin2
      rw [thenRun_some]
      jrun [st_pop]
      exact mkMem h h.pri (fun k => by cases k) h.stk (fillCells_zero _ _ _) (bv_wrap _).symm h.scopeF (edf := h.df.symm)
    · cases h3

end
end Verif.Jit

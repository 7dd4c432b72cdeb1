import Verif.Proofs.JitFrame

/-! Instructions that push several values, and STACK. -/
namespace Verif.Jit
open Verif.X64 Verif.VM

/-- Only the scratch register, the memory, the flags and the float registers may have changed. -/
structure Keep (m m1 : Mach) : Prop where
  reg : ∀ r, r ≠ 1 → m1.reg r = m.reg r
  df : m1.df = m.df
  field : m1.field = m.field
  stack : m1.outer = m.outer

theorem Keep.refl (m : Mach) : Keep m m := ⟨fun _ _ => rfl, rfl, rfl, rfl⟩
theorem Keep.trans {a b c : Mach} (h : Keep a b) (k : Keep b c) : Keep a c :=
  ⟨fun r hr => (k.reg r hr).trans (h.reg r hr), k.df.trans h.df, k.field.trans h.field, k.stack.trans h.stack⟩

section
variable {H : Host} {J : JitEnv} {E : Env} {method : Nat} {here : Int} {s s' : IState} {c : Ctl} {m : Mach} {kp ka : Bool}

theorem Setup.push (S : Setup H J E method s) (g : s.vm.hp + 4 < s.vm.sp) (v : Int → BitVec 8) :
    Setup H J E method { s with vm := { s.vm with mem := v, sp := s.vm.sp - 4 } } := by
  obtain ⟨l1, l2, l3, l4, l5, l6⟩ := S.layout
  exact ⟨S.host, S.size, S.jsize, S.jdata, S.joff, S.jslot,
    ⟨l1, l2, by show s.vm.hp ≤ s.vm.sp - 4; omega, by show s.vm.sp - 4 ≤ s.vm.stp; omega, l5, l6⟩, S.frm0, S.frm1⟩

/-- One store below the stack pointer. -/
theorem store_stk (S : Setup H J E method s) (g : s.vm.hp + 4 < s.vm.sp) {i : Nat} {m : Mach}
    (hi : 1 ≤ i) (ht : s.vm.sp + 4 * (i - 1) ≤ s.vm.stp) (hs : m.reg 14 = Host.at H (s.vm.sp + 4 * (i - 1))) (v : Cell) :
    store32 H m (ea m (MemArg.bd 14 (bv (-(4 * i)))).meaning) v =
      some { m with mem := wr32 m.mem (s.vm.sp - 4) v } := by
  obtain ⟨l1, l2, l3, l4, l5, l6⟩ := S.layout
  have hz := S.size
  rw [ea_bd, hs, at_bv H _ _ (by omega) (by omega),
    show s.vm.sp + 4 * ((i : Int) - 1) + -(4 * (i : Int)) = s.vm.sp - 4 by omega]
  exact store32_at S.host (by omega) (by omega) v

theorem pushC_loop : ∀ (vs : List Cell) (i : Nat) (s s' : IState) (m : Mach) (rest : List Item),
    Setup H J E method s → 1 ≤ i → s.vm.sp + 4 * (i - 1) ≤ s.vm.stp → m.reg 14 = Host.at H (s.vm.sp + 4 * (i - 1)) →
    m.mem = s.vm.mem → vmOp (pushAll vs) s = .ok s' () →
    s' = { s with vm := { s.vm with mem := s'.vm.mem, sp := s.vm.sp - 4 * vs.length } } ∧
    s.vm.sp + 4 * (i - 1) - 2147483640 ≤ s'.vm.sp ∧
    ∃ m1, run H none (emitPushC i vs ++ rest) m = run H none rest m1 ∧ Keep m m1 ∧ m1.mem = s'.vm.mem
  | [], i, s, s', m, rest, S, hi, ht, hs, hm, hv => by
    cases hv
    obtain ⟨l1, l2, l3, l4, l5, l6⟩ := S.layout
    exact ⟨by simp only [List.length_nil, Int.sub_zero, Int.mul_zero, Int.natCast_zero], by show _ ≤ s.vm.sp; omega, m, rfl, Keep.refl m, hm⟩
  | v :: vs, i, s, s', m, rest, S, hi, ht, hs, hm, hv => by
    obtain ⟨v1, hv1, e1⟩ := vmOp_inv hv
    obtain ⟨v2, u, hp, hr⟩ := vmm_bind_inv hv1
    obtain ⟨rfl, g⟩ := push_inv S.layout hp
    have hr2 : vmOp (pushAll vs) { s with vm := { s.vm with mem := wr32 s.vm.mem (s.vm.sp - 4) v, sp := s.vm.sp - 4 } } = .ok s' () := by
      unfold vmOp
      simp only
      rw [hr, e1]
    have S2 := S.push g (wr32 s.vm.mem (s.vm.sp - 4) v)
    have ei : s.vm.sp - 4 + 4 * (((i + 1 : Nat) : Int) - 1) = s.vm.sp + 4 * (i - 1) := by omega
    obtain ⟨a1, a2, m1, a3, a4, a5⟩ := pushC_loop vs (i + 1) _ s' { m with mem := wr32 m.mem (s.vm.sp - 4) v } rest S2
      (by omega) (by show s.vm.sp - 4 + 4 * (((i + 1 : Nat) : Int) - 1) ≤ _; rw [ei]; exact ht)
      (by show m.reg 14 = Host.at H (s.vm.sp - 4 + _); rw [ei]; exact hs) (by show wr32 m.mem _ _ = _; rw [hm]) hr2
    refine ⟨?_, ?_, m1, ?_, ⟨a4.reg, a4.df, a4.field, a4.stack⟩, a5⟩
    · rw [a1]
      simp only [List.length_cons]
      congr 2
      omega
    · have : s.vm.sp - 4 + 4 * (((i + 1 : Nat) : Int) - 1) - 2147483640 ≤ s'.vm.sp := a2
      omega
    · rw [emitPushC, List.cons_append, run_op, st_movlMI H m (.bd _ _) _ trivial, store_stk S g hi ht hs v, thenRun_some, a3]

theorem sub_stk (x : Int) (n : Nat) (h : 4 * (n : Int) < 2147483648) :
    Host.at H x - (bv (4 * n)).signExtend 64 = Host.at H (x - 4 * n) := by
  have : (bv (4 * n)).signExtend 64 = BitVec.ofInt 64 (4 * n) := by
    show BitVec.ofInt 64 (bv (4 * n)).toInt = _
    rw [bv_toInt, wrap32_id (by omega) (by omega)]
  rw [this, at_sub]

theorem sim_pushC (S : Setup H J E method s) (h : Sim H kp ka m s) {vs : List Cell}
    (hv : visit E method here (.pushC vs) s = .ok s' c) :
    Runs H (emitPushC 1 vs ++ [.op (.aluI true .sub (.reg rStk) (bv (4 * vs.length)))]) m kp ka s' := by
  obtain ⟨l1, l2, l3, l4, l5, l6⟩ := S.layout
  obtain ⟨a1, a2, m1, a3, a4, a5⟩ := pushC_loop vs 1 s s' m
    [.op (.aluI true .sub (.reg rStk) (bv (4 * vs.length)))] S (by omega) (by simpa using l4) (by simpa using h.stk) h.mem (done_inv hv)
  have e2 : s'.vm.sp = s.vm.sp - 4 * vs.length := by rw [a1]
  unfold Runs
  rw [a3]
  jrun [st_subStk, a4.reg 14 (by decide), h.stk, sub_stk s.vm.sp vs.length (by omega)]
  refine mkMem h (fun k => ?_) (fun k => ?_) ?_ ?_ ?_ ?_ ?_ ?_ ?_ ?_ ?_ ?_ ?_
  · show m1.reg 0 = _; rw [a4.reg 0 (by decide), h.pri k, a1]
  · show m1.reg 2 = _; rw [a4.reg 2 (by decide), h.alt k, a1]
  · show Host.at H _ = _; rw [e2]
  · exact a5
  · show m1.field .hp = _; rw [a4.field, h.hpF, a1]
  · show m1.field .scope = _; rw [a4.field, h.scopeF, a1]
  · exact a4.reg 3 (by decide)
  · exact a4.reg 12 (by decide)
  · exact a4.reg 15 (by decide)
  · exact a4.df
  · show m1.field .frm = _; rw [a4.field]
  · exact a4.stack
  · rw [a1]

theorem pushS_loop : ∀ (vs : List Cell) (i : Nat) (s s' : IState) (m : Mach) (rest is : List Item),
    Setup H J E method s → 1 ≤ i → s.vm.sp + 4 * (i - 1) ≤ s.vm.stp → m.reg 14 = Host.at H (s.vm.sp + 4 * (i - 1)) →
    m.reg 3 = Host.at H s.vm.frm →
    m.mem = s.vm.mem → pushSlots E method vs s = .ok s' () → emitPushS J i vs = some is →
    s' = { s with vm := { s.vm with mem := s'.vm.mem, sp := s.vm.sp - 4 * vs.length } } ∧
    s.vm.sp + 4 * (i - 1) - 2147483640 ≤ s'.vm.sp ∧
    ∃ m1, run H none (is ++ rest) m = run H none rest m1 ∧ Keep m m1 ∧ m1.mem = s'.vm.mem
  | [], i, s, s', m, rest, is, S, hi, ht, hs, hf, hm, hv, he => by
    cases hv
    cases he
    obtain ⟨l1, l2, l3, l4, l5, l6⟩ := S.layout
    exact ⟨by simp only [List.length_nil, Int.sub_zero, Int.mul_zero, Int.natCast_zero], by show _ ≤ s.vm.sp; omega, m, rfl, Keep.refl m, hm⟩
  | v :: vs, i, s, s', m, rest, is, S, hi, ht, hs, hf, hm, hv, he => by
    rw [emitPushS] at he
    cases e1 : J.slot v.toInt with
    | none => rw [e1] at he; cases he
    | some o =>
    cases e2 : emitPushS J (i + 1) vs with
    | none => rw [e1, e2] at he; cases he
    | some t =>
    rw [e1, e2] at he
    cases he
    have ho : slotOffset E method v.toInt = some o := by rw [← S.jslot]; exact e1
    obtain ⟨hv1, ga, gm⟩ := getFrame_bind (slot_bind ho hv)
    obtain ⟨hr, g⟩ := push_bind S.layout hv1
    have S2 := S.push g (wr32 s.vm.mem (s.vm.sp - 4) (rd32 s.vm.mem (wrap32 (s.vm.frm + o))))
    have ei : s.vm.sp - 4 + 4 * (((i + 1 : Nat) : Int) - 1) = s.vm.sp + 4 * (i - 1) := by omega
    obtain ⟨a1, a2, m1, a3, a4, a5⟩ := pushS_loop vs (i + 1) _ s'
      { m.setReg 1 ((rd32 m.mem (wrap32 (s.vm.frm + o))).setWidth 64) with
        mem := wr32 m.mem (s.vm.sp - 4) (rd32 m.mem (wrap32 (s.vm.frm + o))) } rest t S2
      (by omega) (by show s.vm.sp - 4 + 4 * (((i + 1 : Nat) : Int) - 1) ≤ _; rw [ei]; exact ht)
      (by show m.reg 14 = Host.at H (s.vm.sp - 4 + _); rw [ei]; exact hs) (by show m.reg 3 = _; exact hf)
      (by show wr32 m.mem _ _ = _; rw [hm]) hr e2
    refine ⟨?_, ?_, m1, ?_, ⟨fun r hr => (a4.reg r hr).trans (by show (if r = 1 then _ else _) = _; rw [if_neg hr]), a4.df, a4.field, a4.stack⟩, a5⟩
    · rw [a1]
      simp only [List.length_cons]
      congr 2
      omega
    · have : s.vm.sp - 4 + 4 * (((i + 1 : Nat) : Int) - 1) - 2147483640 ≤ s'.vm.sp := a2
      omega
    · rw [List.cons_append, List.cons_append, run_op, st_movlRM H m _ (.bd _ _) trivial, ea_bd, hf, frame_at S o ga,
        load32_at S.host ga.1 (S.size ▸ gm.2)]
      simp only
      rw [thenRun_some, run_op, st_movlMR H _ (.bd _ _) _ trivial, store_stk S g hi ht (m := m.setReg 1 _) hs, thenRun_some, ← a3]
      simp only [Mach.lo, Mach.setReg, rTmp, if_true, reduceIte, lo_zext]

theorem sim_pushS (S : Setup H J E method s) (h : Sim H kp ka m s) {vs : List Cell} {is : List Item}
    (he : emitPushS J 1 vs = some is) (hv : visit E method here (.pushS vs) s = .ok s' c) :
    Runs H (is ++ [.op (.aluI true .sub (.reg rStk) (bv (4 * vs.length)))]) m kp ka s' := by
  obtain ⟨l1, l2, l3, l4, l5, l6⟩ := S.layout
  obtain ⟨a1, a2, m1, a3, a4, a5⟩ := pushS_loop vs 1 s s' m
    [.op (.aluI true .sub (.reg rStk) (bv (4 * vs.length)))] is S (by omega) (by simpa using l4) (by simpa using h.stk) h.frm h.mem (done_inv hv) he
  have e2 : s'.vm.sp = s.vm.sp - 4 * vs.length := by rw [a1]
  unfold Runs
  rw [a3]
  jrun [st_subStk, a4.reg 14 (by decide), h.stk, sub_stk s.vm.sp vs.length (by omega)]
  refine mkMem h (fun k => ?_) (fun k => ?_) ?_ ?_ ?_ ?_ ?_ ?_ ?_ ?_ ?_ ?_ ?_
  · show m1.reg 0 = _; rw [a4.reg 0 (by decide), h.pri k, a1]
  · show m1.reg 2 = _; rw [a4.reg 2 (by decide), h.alt k, a1]
  · show Host.at H _ = _; rw [e2]
  · exact a5
  · show m1.field .hp = _; rw [a4.field, h.hpF, a1]
  · show m1.field .scope = _; rw [a4.field, h.scopeF, a1]
  · exact a4.reg 3 (by decide)
  · exact a4.reg 12 (by decide)
  · exact a4.reg 15 (by decide)
  · exact a4.df
  · show m1.field .frm = _; rw [a4.field]
  · exact a4.stack
  · rw [a1]

theorem ofInt_lo (x : Int) : (BitVec.ofInt 64 x).setWidth 32 = BitVec.ofInt 32 x := by
  apply BitVec.eq_of_toNat_eq
  rw [BitVec.toNat_setWidth, BitVec.toNat_ofInt, BitVec.toNat_ofInt]
  omega
theorem ofInt_wrap (x : Int) : BitVec.ofInt 32 (wrap32 x) = BitVec.ofInt 32 x := by
  apply BitVec.eq_of_toNat_eq
  rw [BitVec.toNat_ofInt, BitVec.toNat_ofInt]
  unfold wrap32
  omega
theorem lea_adr (f o : Int) : (BitVec.ofInt 64 f + BitVec.ofInt 64 (bv o).toInt).setWidth 32 = BitVec.ofInt 32 (wrap32 (f + o)) := by
  rw [← BitVec.ofInt_add, ofInt_lo, bv_toInt, ← ofInt_wrap (f + wrap32 o), wrap32_wrap]

theorem pushAdr_loop : ∀ (vs : List Cell) (i : Nat) (s s' : IState) (m : Mach) (rest is : List Item),
    Setup H J E method s → 1 ≤ i → s.vm.sp + 4 * (i - 1) ≤ s.vm.stp → m.reg 14 = Host.at H (s.vm.sp + 4 * (i - 1)) →
    m.reg 3 = BitVec.ofInt 64 s.vm.frm →
    m.mem = s.vm.mem → pushAdrs E method vs s = .ok s' () → emitPushAdr J i vs = some is →
    s' = { s with vm := { s.vm with mem := s'.vm.mem, sp := s.vm.sp - 4 * vs.length } } ∧
    s.vm.sp + 4 * (i - 1) - 2147483640 ≤ s'.vm.sp ∧
    ∃ m1, run H none (is ++ rest) m = run H none rest m1 ∧ Keep m m1 ∧ m1.mem = s'.vm.mem
  | [], i, s, s', m, rest, is, S, hi, ht, hs, hf, hm, hv, he => by
    cases hv
    cases he
    obtain ⟨l1, l2, l3, l4, l5, l6⟩ := S.layout
    exact ⟨by simp only [List.length_nil, Int.sub_zero, Int.mul_zero, Int.natCast_zero], by show _ ≤ s.vm.sp; omega, m, rfl, Keep.refl m, hm⟩
  | v :: vs, i, s, s', m, rest, is, S, hi, ht, hs, hf, hm, hv, he => by
    rw [emitPushAdr] at he
    cases e1 : J.slot v.toInt with
    | none => rw [e1] at he; cases he
    | some o =>
    cases e2 : emitPushAdr J (i + 1) vs with
    | none => rw [e1, e2] at he; cases he
    | some t =>
    rw [e1, e2] at he
    cases he
    have ho : slotOffset E method v.toInt = some o := by rw [← S.jslot]; exact e1
    have hv2 := slot_bind ho hv
    have hv3 : (vmOp (pushStack (BitVec.ofInt 32 (wrap32 (s.vm.frm + o)))) >>= fun _ => pushAdrs E method vs) s = .ok s' () := hv2
    obtain ⟨hr, g⟩ := push_bind S.layout hv3
    have S2 := S.push g (wr32 s.vm.mem (s.vm.sp - 4) (BitVec.ofInt 32 (wrap32 (s.vm.frm + o))))
    have ei : s.vm.sp - 4 + 4 * (((i + 1 : Nat) : Int) - 1) = s.vm.sp + 4 * (i - 1) := by omega
    obtain ⟨a1, a2, m1, a3, a4, a5⟩ := pushAdr_loop vs (i + 1) _ s'
      { m.setReg 1 (BitVec.ofInt 64 s.vm.frm + BitVec.ofInt 64 (bv o).toInt) with
        mem := wr32 m.mem (s.vm.sp - 4) (BitVec.ofInt 32 (wrap32 (s.vm.frm + o))) } rest t S2
      (by omega) (by show s.vm.sp - 4 + 4 * (((i + 1 : Nat) : Int) - 1) ≤ _; rw [ei]; exact ht)
      (by show m.reg 14 = Host.at H (s.vm.sp - 4 + _); rw [ei]; exact hs) (by show m.reg 3 = _; exact hf)
      (by show wr32 m.mem _ _ = _; rw [hm]) hr e2
    refine ⟨?_, ?_, m1, ?_, ⟨fun r hr => (a4.reg r hr).trans (by show (if r = 1 then _ else _) = _; rw [if_neg hr]), a4.df, a4.field, a4.stack⟩, a5⟩
    · rw [a1]
      simp only [List.length_cons]
      congr 2
      omega
    · have : s.vm.sp - 4 + 4 * (((i + 1 : Nat) : Int) - 1) - 2147483640 ≤ s'.vm.sp := a2
      omega
    · rw [List.cons_append, List.cons_append, run_op, st_lea H m _ (.bd _ _) trivial, ea_bd, hf]
      rw [thenRun_some, run_op, st_movlMR H _ (.bd _ _) _ trivial, store_stk S g hi ht (m := m.setReg 1 _) hs, thenRun_some, ← a3]
      simp only [Mach.lo, Mach.setReg, rTmp, if_true, reduceIte, lea_adr]

theorem at_sub_base (x : Int) : Host.at H x - H.base = BitVec.ofInt 64 x := by
  rw [Host.at, BitVec.add_comm, BitVec.add_sub_cancel]
theorem at_add_base (x : Int) : BitVec.ofInt 64 x + H.base = Host.at H x := by
  rw [Host.at, BitVec.add_comm]

theorem sim_pushAdr (S : Setup H J E method s) (h : Sim H kp ka m s) {vs : List Cell} {is : List Item}
    (he : emitPushAdr J 1 vs = some is) (hv : visit E method here (.pushAdr vs) s = .ok s' c) :
    Runs H ([.op (.alu true .sub (.reg rFrm) rDat)] ++ is ++
        [.op (.aluI true .sub (.reg rStk) (bv (4 * vs.length))), .op (.alu true .add (.reg rFrm) rDat)]) m kp ka s' := by
  obtain ⟨l1, l2, l3, l4, l5, l6⟩ := S.layout
  obtain ⟨a1, a2, m1, a3, a4, a5⟩ := pushAdr_loop vs 1 s s'
    ({ m with flags := none }.setReg 3 (BitVec.ofInt 64 s.vm.frm))
    [.op (.aluI true .sub (.reg rStk) (bv (4 * vs.length))), .op (.alu true .add (.reg rFrm) rDat)] is S (by omega) (by simpa using l4)
    (by show m.reg 14 = _; simpa using h.stk) rfl (by show m.mem = _; exact h.mem) (done_inv hv) he
  have e2 : s'.vm.sp = s.vm.sp - 4 * vs.length := by rw [a1]
  unfold Runs
  rw [List.append_assoc, List.cons_append, List.nil_append, run_op, st_alu64 H m _ (.reg _) _ trivial]
  simp only [alu64, get64, RO.meaning, aluFn, put64, h.frm, h.dat, at_sub_base]
  rw [thenRun_some, a3]
  have r3 : m1.reg 3 = BitVec.ofInt 64 s.vm.frm := a4.reg 3 (by decide)
  have r14 : m1.reg 14 = Host.at H s.vm.sp := (a4.reg 14 (by decide)).trans h.stk
  have r15 : m1.reg 15 = H.base := (a4.reg 15 (by decide)).trans h.dat
  jrun [st_subStk, r3, r14, r15, sub_stk s.vm.sp vs.length (by omega), st_alu64 H _ _ (.reg _) _ trivial, alu64, get64, put64, aluFn, at_add_base]
  refine mkMem h (fun k => ?_) (fun k => ?_) ?_ ?_ ?_ ?_ ?_ ?_ ?_ ?_ ?_ ?_ ?_
  · show m1.reg 0 = _; exact (a4.reg 0 (by decide)).trans ((h.pri k).trans (by rw [a1]))
  · show m1.reg 2 = _; exact (a4.reg 2 (by decide)).trans ((h.alt k).trans (by rw [a1]))
  · show Host.at H _ = _; rw [e2]
  · exact a5
  · show m1.field .hp = _; rw [a4.field]; exact h.hpF.trans (by rw [a1])
  · show m1.field .scope = _; rw [a4.field]; exact h.scopeF.trans (by rw [a1])
  · exact h.frm.symm
  · exact a4.reg 12 (by decide)
  · exact a4.reg 15 (by decide)
  · exact a4.df
  · show m1.field .frm = _; rw [a4.field]; rfl
  · exact a4.stack
  · rw [a1]

theorem sim_stack (S : Setup H J E method s) (h : Sim H kp ka m s) {n : Int} (h0 : -2147483648 ≤ n)
    (h1 : n < 2147483648) (h2 : s.vm.sp + n < 2147483648) (hv : visit E method here (.stack n) s = .ok s' c) :
    Runs H [.op (.aluI true .add (.reg rStk) (bv n))] m kp ka s' := by
  obtain ⟨l1, l2, l3, l4, l5, l6⟩ := S.layout
  obtain ⟨v, hv1, rfl⟩ := vmOp_inv (done_inv hv)
  have e : v = { s.vm with sp := s.vm.sp + n } := by
    unfold addStack at hv1
    rw [wrap32_id (by omega) h2] at hv1
    simp only at hv1
    split at hv1 <;> split at hv1 <;> cases hv1 <;> rfl
  subst e
  have e2 : Host.at H s.vm.sp + (bv n).signExtend 64 = Host.at H (s.vm.sp + n) := at_bv H _ _ h0 h1
  jrun [Runs, st_addStk, h.stk, e2]
  exact mkMem h h.pri h.alt rfl h.mem h.hpF h.scopeF
end

end Verif.Jit

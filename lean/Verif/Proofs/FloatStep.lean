import Verif.Spec.FloatExpr
import Verif.Proofs.LongMain

/-! Lemmas for C91: what single instructions do. -/
namespace Verif.Flt
open Verif.VM hiding run
open Verif.Long (run run_append run_two run_fail)

variable {F : Frame} {E : Env} {m : Nat} {here : Int} {b : State} {σ : Store} {s : IState}

theorem Holds.regs {v : State} (h : Holds F b σ v) : v.frm = b.frm ∧ v.hp = b.hp ∧ v.stp = b.stp ∧ v.memSize = b.memSize := by
  have := h.same
  refine ⟨?_, ?_, ?_, ?_⟩ <;> rw [this]

theorem get_at (hF : F.Fits E m b) {v : State} (hH : Holds F b σ v) {a : Int} (ha : Cellular b a) :
    getCellValue a v = .ok v (rd32 v.mem a) := by
  obtain ⟨r1, r2, r3, r4⟩ := hH.regs
  have hm := hF.mem
  have ht := hH.top
  obtain ⟨a1, a2, a3⟩ := ha
  simp only [getCellValue, bind, VMM.bind, throwIfBadAddress]
  rw [if_neg (by omega)]
  simp only [loadRaw]
  rw [if_pos ⟨by omega, by omega⟩]

theorem set_at (hF : F.Fits E m b) {v : State} (hH : Holds F b σ v) {a : Int} (ha : Cellular b a) (w : Cell) :
    setCellValue a w v = .ok { v with mem := wr32 v.mem a w } () := by
  obtain ⟨r1, r2, r3, r4⟩ := hH.regs
  have hm := hF.mem
  have ht := hH.top
  obtain ⟨a1, a2, a3⟩ := ha
  simp only [setCellValue, bind, VMM.bind, throwIfBadAddress]
  rw [if_neg (by omega)]
  simp only [storeRaw]
  rw [if_pos ⟨by omega, by omega⟩]

theorem frame_at (hF : F.Fits E m b) {v : State} (hH : Holds F b σ v) {a : Int} (ha : Cellular b a) : wrap32 (v.frm + (a - b.frm)) = a := by
  obtain ⟨r1, r2, r3, r4⟩ := hH.regs
  have := hF.small
  obtain ⟨a1, a2, a3⟩ := ha
  rw [r1, show b.frm + (a - b.frm) = a by omega, wrap32_id (by omega) (by omega)]

theorem knows_has (hF : F.Fits E m b) {x : Var} (h : F.knows x) : F.has (x.obj F.tgt) := by
  cases x with
  | loc i => exact h
  | ref i => exact (hF.ref i h).1
  | glob a => exact h

/-- A variable is read. -/
theorem run_load (hF : F.Fits E m b) (hH : Holds F b σ s.vm) {x : Var} (hx : F.knows x) :
    run E m here (load x) s = .ok { s with pri := σ (x.obj F.tgt) } () := by
  have ho := hH.objs _ (knows_has hF hx)
  have hr := hF.range _ (knows_has hF hx)
  cases x with
  | loc i =>
    have hr : Cellular b (F.addr (.loc i)) := hr
    simp only [load, run, visit, bind, IM.bind, hF.loc i hx s, vmOp, getFrameValue, frame_at hF hH hr, get_at hF hH hr, setR, pure, IM.pure]
    have ho : rd32 s.vm.mem (F.addr (.loc i)) = σ (.loc i) := ho
    rw [show (Var.loc i).obj F.tgt = .loc i from rfl, ho]
    rfl
  | ref i =>
    obtain ⟨h1, h2, h3, h4⟩ := hF.ref i hx
    have hs := hF.small
    obtain ⟨a1, a2, a3⟩ := hr
    have e : (BitVec.ofInt 32 (F.addr (F.tgt i))).toInt = F.addr (F.tgt i) := by
      have a1 : 0 ≤ F.addr (F.tgt i) := a1
      have a2 : F.addr (F.tgt i) + 4 ≤ b.stp := a2
      rw [BitVec.toInt_ofInt, Int.bmod_eq_of_le (by omega) (by omega)]
    simp only [load, run, visit, bind, IM.bind, h4 s, vmOp, getFrameValue, frame_at hF hH h2, get_at hF hH h2, hH.refs i hx, e,
      get_at hF hH (hF.range _ h1), setR, pure, IM.pure]
    have ho : rd32 s.vm.mem (F.addr (F.tgt i)) = σ (F.tgt i) := ho
    rw [show (Var.ref i).obj F.tgt = F.tgt i from rfl, ho]
    rfl
  | glob a =>
    have hg := hF.glob a hx
    have hr : Cellular b (F.addr (.glob a)) := hr
    rw [hg] at hr
    simp only [load, run, visit, bind, IM.bind, vmOp, get_at hF hH hr, setR, pure, IM.pure]
    have ho : rd32 s.vm.mem (F.addr (.glob a)) = σ (.glob a) := ho
    rw [hg] at ho
    rw [show (Var.glob a).obj F.tgt = .glob a from rfl, ho]
    rfl

theorem Holds.put (hF : F.Fits E m b) {v : State} (hH : Holds F b σ v) {o : Obj} (ho : F.has o) (w : Cell) :
    Holds F b (σ.set o w) { v with mem := wr32 v.mem (F.addr o) w } := by
  refine ⟨?_, hH.top, fun o' h' => ?_, fun i hi => ?_⟩
  · have := hH.same
    rw [this]
  · show rd32 (wr32 v.mem (F.addr o) w) (F.addr o') = _
    unfold Store.set
    by_cases e : o' = o
    · rw [if_pos e, e, rd32_wr32_same]
    · rw [if_neg e, rd32_wr32_disj ((hF.apart o o' ho h' (Ne.symm e)))]
      exact hH.objs o' h'
  · show rd32 (wr32 v.mem (F.addr o) w) (F.cell i) = _
    rw [rd32_wr32_disj ((hF.ref i hi).2.2.1 o ho)]
    exact hH.refs i hi

/-- A variable is written. -/
theorem run_store (hF : F.Fits E m b) (hH : Holds F b σ s.vm) {x : Var} (hx : F.knows x) :
    run E m here (store x) s = .ok { s with vm := { s.vm with mem := wr32 s.vm.mem (F.addr (x.obj F.tgt)) s.pri } } () := by
  have hr := hF.range _ (knows_has hF hx)
  cases x with
  | loc i =>
    have hr : Cellular b (F.addr (.loc i)) := hr
    simp only [store, run, visit, bind, IM.bind, hF.loc i hx s, vmOp, setFrameValue, frame_at hF hH hr, set_at hF hH hr, getR, IState.reg, pure, IM.pure]
    rfl
  | ref i =>
    obtain ⟨h1, h2, h3, h4⟩ := hF.ref i hx
    have hs := hF.small
    obtain ⟨a1, a2, a3⟩ := hr
    have e : (BitVec.ofInt 32 (F.addr (F.tgt i))).toInt = F.addr (F.tgt i) := by
      have a1 : 0 ≤ F.addr (F.tgt i) := a1
      have a2 : F.addr (F.tgt i) + 4 ≤ b.stp := a2
      rw [BitVec.toInt_ofInt, Int.bmod_eq_of_le (by omega) (by omega)]
    simp only [store, run, visit, bind, IM.bind, h4 s, vmOp, getFrameValue, frame_at hF hH h2, get_at hF hH h2, hH.refs i hx, e,
      set_at hF hH (hF.range _ h1), getR, IState.reg, pure, IM.pure]
    rfl
  | glob a =>
    have hg := hF.glob a hx
    have hr : Cellular b (F.addr (.glob a)) := hr
    rw [hg] at hr
    simp only [store, run, visit, bind, IM.bind, vmOp, set_at hF hH hr, getR, IState.reg, pure, IM.pure]
    rw [show (Var.glob a).obj F.tgt = .glob a from rfl, hg]

theorem visit_push (hF : F.Fits E m b) (hH : Holds F b σ s.vm) (hr : b.hp + 4 < s.vm.sp) (r : Reg) :
    visit E m here (.push r) s = .ok { s with vm := { s.vm with mem := wr32 s.vm.mem (s.vm.sp - 4) (s.reg r), sp := s.vm.sp - 4 } } .next := by
  obtain ⟨r1, r2, r3, r4⟩ := hH.regs
  have hs := hF.small
  have hm := hF.mem
  have hh := hF.heap
  have hc := hF.stack
  have ht := hH.top
  simp only [visit, bind, IM.bind, getR, vmOp, pushStack, r2]
  rw [wrap32_id (by omega) (by omega), if_neg (by omega), wrap32_id (by omega) (by omega)]
  simp only [storeRaw]
  rw [if_pos ⟨by show 0 ≤ _; omega, by show _ ≤ s.vm.memSize; omega⟩]
  rfl

theorem visit_pop (hF : F.Fits E m b) (hH : Holds F b σ s.vm) (h0 : b.hp ≤ s.vm.sp) (hr : s.vm.sp + 4 ≤ b.sp) (r : Reg) :
    visit E m here (.pop r) s = .ok ({ s with vm := { s.vm with sp := s.vm.sp + 4 } }.setReg r (rd32 s.vm.mem s.vm.sp)) .next := by
  obtain ⟨r1, r2, r3, r4⟩ := hH.regs
  have hs := hF.small
  have hm := hF.mem
  have hh := hF.heap
  have hc := hF.stack
  have ht := hH.top
  simp only [visit, bind, IM.bind, vmOp, popStack]
  rw [if_neg (by omega)]
  simp only [loadRaw]
  rw [if_pos ⟨by omega, by omega⟩]
  dsimp only
  rw [wrap32_id (by omega) (by omega)]
  rfl

theorem Holds.pushed (hF : F.Fits E m b) {v : State} (hH : Holds F b σ v) (hr : b.hp + 4 < v.sp) (w : Cell) :
    Holds F b σ { v with mem := wr32 v.mem (v.sp - 4) w, sp := v.sp - 4 } := by
  have ht := hH.top
  refine ⟨?_, by show v.sp - 4 ≤ b.sp; omega, fun o ho => ?_, fun i hi => ?_⟩
  · have := hH.same
    rw [this]
  · obtain ⟨_, _, h⟩ := hF.range o ho
    show rd32 (wr32 v.mem (v.sp - 4) w) (F.addr o) = _
    rw [rd32_wr32_disj (by omega)]
    exact hH.objs o ho
  · obtain ⟨_, _, h⟩ := (hF.ref i hi).2.1
    show rd32 (wr32 v.mem (v.sp - 4) w) (F.cell i) = _
    rw [rd32_wr32_disj (by omega)]
    exact hH.refs i hi

theorem Holds.popped {v : State} (hH : Holds F b σ v) {sp : Int} (h : sp ≤ b.sp) : Holds F b σ { v with sp := sp } := by
  refine ⟨?_, h, hH.objs, hH.refs⟩
  have := hH.same
  rw [this]

/-- What is so after some code: the variables, and the stack as it was. -/
structure Post (F : Frame) (b : State) (σ : Store) (s s' : IState) : Prop where
  holds : Holds F b σ s'.vm
  sp : s'.vm.sp = s.vm.sp
  keep : ∀ x, s.vm.sp ≤ x → x < b.sp → s'.vm.mem x = s.vm.mem x

theorem Post.rfl' (h : Holds F b σ s.vm) {p a : Cell} : Post F b σ s { s with pri := p, alt := a } := ⟨h, rfl, fun _ _ _ => rfl⟩

theorem Post.trans {σ1 σ2 : Store} {s1 s2 : IState} (h : Post F b σ1 s s1) (k : Post F b σ2 s1 s2) : Post F b σ2 s s2 :=
  ⟨k.holds, k.sp.trans h.sp, fun x h1 h2 => (k.keep x (by rw [h.sp]; exact h1) h2).trans (h.keep x h1 h2)⟩

/-- Only registers have changed. -/
theorem Post.regs {s1 s2 : IState} (h : Post F b σ s s1) (e : s2.vm = s1.vm) : Post F b σ s s2 :=
  ⟨by rw [e]; exact h.holds, by rw [e]; exact h.sp, fun x h1 h2 => by rw [e]; exact h.keep x h1 h2⟩

/-- A value is pushed, code runs, and the value is popped into a register. -/
theorem run_around (hF : F.Fits E m b) (hH : Holds F b σ s.vm) (hr : b.hp + 4 < s.vm.sp) {c : List Insn} {σ' : Store} {r q : Reg}
    (s1 s2 : IState) (e1 : s1 = { s with vm := { s.vm with mem := wr32 s.vm.mem (s.vm.sp - 4) (s.reg q), sp := s.vm.sp - 4 } })
    (h : run E m here c s1 = .ok s2 ()) (hp : Post F b σ' s1 s2) :
    ∃ s', run E m here ([.push q] ++ c ++ [.pop r]) s = .ok s' () ∧ s' = { s2 with vm := { s2.vm with sp := s.vm.sp } }.setReg r (s.reg q) ∧
      Post F b σ' s s' := by
  have hsp : s2.vm.sp = s.vm.sp - 4 := by rw [hp.sp, e1]
  have ht := hH.top
  have hv : rd32 s2.vm.mem s2.vm.sp = s.reg q := by
    rw [hsp]
    have : rd32 s2.vm.mem (s.vm.sp - 4) = rd32 s1.vm.mem (s.vm.sp - 4) :=
      rd32_congr fun x h1 h2 => hp.keep x (by rw [e1]; exact h1) (by omega)
    rw [this, e1, rd32_wr32_same]
  have hpop := visit_pop (here := here) hF hp.holds (by omega) (by omega) r
  rw [hv, hsp, show s.vm.sp - 4 + 4 = s.vm.sp by omega] at hpop
  refine ⟨_, ?_, rfl, ?_⟩
  · rw [run_append, run_append]
    simp only [run, visit_push hF hH hr, ← e1, h, hpop]
  · have hb : Post F b σ' s { s2 with vm := { s2.vm with sp := s.vm.sp } } := by
      refine ⟨hp.holds.popped ht, rfl, fun x h1 h2 => ?_⟩
      show s2.vm.mem x = _
      rw [hp.keep x (by rw [e1]; show s.vm.sp - 4 ≤ x; omega) h2, e1]
      exact wr32_far (by omega)
    exact hb.regs (by cases r <;> rfl)

end Verif.Flt

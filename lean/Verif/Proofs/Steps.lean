import Verif.Proofs.Runs

/-! One rule of the program logic per instruction that the compiler emits. -/
namespace Verif.Compiled
open Verif.VM Verif.Lang Verif.CodeGen

/-! ### Encodings -/

/-- The reader gives back the instruction. -/
def Enc (i : Insn) : Prop :=
  ∃ x xs f, encode i = some (x :: xs) ∧ x ≠ 46 ∧ x ≠ 166 ∧ x ≠ 130 ∧ reader x.toNat = some (xs.length, f) ∧ f xs = some i

theorem Enc.at {E : Env} {p : Nat} {i : Insn} (he : Enc i) (h : At E.code p (ins i p)) : Insn.At E p i (p + (ins i p).length) := by
  obtain ⟨x, xs, f, e1, e2, e3, e4, e5, e6⟩ := he
  have hi : ins i p = x :: xs := by unfold ins; rw [e1]; rfl
  rw [hi] at h ⊢
  exact ⟨⟨x, h.head, e2, e3⟩, decode_at h e4 e5 e6⟩

macro "enc0" : tactic => `(tactic| exact ⟨_, _, _, rfl, by decide, by decide, by decide, rfl, rfl⟩)
macro "enc1" t:term : tactic => `(tactic| exact ⟨_, _, _, rfl, by decide, by decide, by decide, rfl, by
  simp only [Option.some.injEq]; rw [ofInt_toInt ($t).1 ($t).2]⟩)

theorem enc_push (r : Reg) : Enc (.push r) := by cases r <;> enc0
theorem enc_pop (r : Reg) : Enc (.pop r) := by cases r <;> enc0
theorem enc_swap (r : Reg) : Enc (.swap r) := by cases r <;> enc0
theorem enc_move (r : Reg) : Enc (.move r) := by cases r <;> enc0
theorem enc_zero (r : Reg) : Enc (.zero r) := by cases r <;> enc0
theorem enc_const (r : Reg) (v : Cell) : Enc (.const r v) := by cases r <;> enc0
theorem enc_inc (r : Reg) : Enc (.inc r) := by cases r <;> enc0
theorem enc_dec (r : Reg) : Enc (.dec r) := by cases r <;> enc0
theorem enc_xchg : Enc .xchg := by enc0
theorem enc_binop (op : BinOp) : Enc (int32BinaryOp op) := by cases op <;> enc0
theorem enc_unop (op : UnOp) : Enc (match op with | .inv => .invert | .not => .not | .neg => .neg) := by cases op <;> enc0
theorem enc_and : Enc .and := by enc0
theorem enc_loadI : Enc .loadI := by enc0
theorem enc_storI : Enc .storI := by enc0
theorem enc_idxaddr : Enc .idxaddr := by enc0
theorem enc_addC (v : Cell) : Enc (.addC v) := by enc0
theorem enc_brk : Enc .brk := by enc0
theorem enc_retn : Enc .retn := by enc0
theorem enc_halt (v : Cell) : Enc (.halt v) := by enc0
theorem enc_pushC (v : Cell) : Enc (.pushC [v]) := by enc0

/-- Fits in a cell. -/
abbrev I32 (x : Int) : Prop := -2147483648 ≤ x ∧ x < 2147483648

theorem enc_load {a : Int} (h : I32 a) : Enc (.load .pri a) := by enc1 h
theorem enc_stor {a : Int} (h : I32 a) : Enc (.stor a .pri) := by enc1 h
theorem enc_loadS {a : Int} (h : I32 a) : Enc (.loadS .pri a) := by enc1 h
theorem enc_storS {a : Int} (h : I32 a) : Enc (.storS a .pri) := by enc1 h
theorem enc_storSC {a : Int} (v : Cell) (h : I32 a) : Enc (.storSC a v) := by enc1 h
theorem enc_zeroS {a : Int} (h : I32 a) : Enc (.zeroS a) := by enc1 h
theorem enc_bounds {a : Int} (h : I32 a) : Enc (.bounds a) := by enc1 h
theorem enc_jump {a : Int} (h : I32 a) : Enc (.jump a) := by enc1 h
theorem enc_call {a : Int} (h : I32 a) : Enc (.call a) := by enc1 h
theorem enc_switch {a : Int} (h : I32 a) : Enc (.switch a) := by enc1 h
theorem enc_jcmp (c : Cmp) {a : Int} (h : I32 a) : Enc (.jcmp c a) := by cases c <;> enc1 h

/-! ### States -/

section
variable {E : Env} {L : Layout} {lim : Int} {m : Nat} {b : State}

/-- Push a cell. -/
def pushed (v : State) (c : Cell) : State := { v with sp := v.sp - 4, mem := wr32 v.mem (v.sp - 4) c }

/-- Pop a cell. -/
def popped (v : State) : State := { v with sp := v.sp + 4 }

theorem Holds.hp {σ : Store} {v : State} (h : Holds L b σ v) : v.hp = b.hp := by rw [h.same]
theorem Holds.stp {σ : Store} {v : State} (h : Holds L b σ v) : v.stp = b.stp := by rw [h.same]
theorem Holds.frm {σ : Store} {v : State} (h : Holds L b σ v) : v.frm = b.frm := by rw [h.same]
theorem Holds.memSize {σ : Store} {v : State} (h : Holds L b σ v) : v.memSize = b.memSize := by rw [h.same]

/-- Compiled code changes memory only. -/
structure Post (L : Layout) (b : State) (v : State) (σ' : Store) (v' : State) : Prop where
  vm : v' = { v with mem := v'.mem }
  holds : Holds L b σ' v'
  keeps : Keeps L b v.sp v.mem v'.mem

theorem Post.sp {v v' : State} {σ : Store} (h : Post L b v σ v') : v'.sp = v.sp := by rw [h.vm]

theorem Keeps.rfl {sp : Int} {mem : Int → BitVec 8} : Keeps L b sp mem mem := fun _ _ _ _ => by rfl

theorem Keeps.trans {sp : Int} {m1 m2 m3 : Int → BitVec 8} (h : Keeps L b sp m1 m2) (k : Keeps L b sp m2 m3) : Keeps L b sp m1 m3 :=
  fun a h1 h2 h3 => by rw [k a h1 h2 h3, h a h1 h2 h3]

theorem Post.refl {v : State} {σ : Store} (h : Holds L b σ v) : Post L b v σ v := ⟨rfl, h, Keeps.rfl⟩

theorem Post.trans {v1 v2 v3 : State} {σ1 σ2 : Store} (h : Post L b v1 σ1 v2) (k : Post L b v2 σ2 v3) : Post L b v1 σ2 v3 := by
  refine ⟨?_, k.holds, ?_⟩
  · rw [k.vm, h.vm]
  · have := k.keeps; rw [h.sp] at this; exact h.keeps.trans this

theorem ownG_range (hF : Fits E L lim b) {a : Int} (h : OwnG L a) : 0 ≤ a ∧ a < b.dataSize := by
  obtain ⟨x, i, hi, h1, h2⟩ := h
  have := hF.globals x i hi
  omega

theorem laddr_range {i : Int} (h : L.hasSlot i = true) : b.frm - 4 * (L.slots : Int) ≤ laddr b i ∧ laddr b i + 4 ≤ b.frm + 12 + 4 * (L.params : Int)
    ∧ (laddr b i + 4 ≤ b.frm ∨ b.frm + 12 ≤ laddr b i) := by
  unfold Layout.hasSlot at h
  simp only [Bool.and_eq_true, decide_eq_true_eq] at h
  unfold laddr
  split <;> omega

theorem ownL_range {a : Int} (h : OwnL L b a) : b.frm - 4 * (L.slots : Int) ≤ a := by
  obtain ⟨i, hi, h1, h2⟩ := h
  have := (laddr_range (b := b) hi).1
  omega

/-- A write to free space below the slots. -/
theorem Holds.wr_free (hF : Fits E L lim b) {σ : Store} {v : State} (h : Holds L b σ v) {a sp' : Int} {c : Cell} (h1 : b.hp ≤ a)
    (h2 : a + 4 ≤ b.frm - 4 * (L.slots : Int)) (h3 : b.hp ≤ sp') (h4 : sp' ≤ b.frm - 4 * (L.slots : Int)) :
    Holds L b σ { v with sp := sp', mem := wr32 v.mem a c } := by
  refine ⟨?_, h3, h4, ?_, ?_⟩
  · conv => lhs; rw [h.same]
  · intro x i hi
    have hg := hF.globals x i hi
    have hh := hF.heap
    rw [← h.globals x i hi]
    exact rd32_wr32_disj (by omega)
  · intro i w hi
    obtain ⟨k1, k2⟩ := h.locals i w hi
    have := (laddr_range (b := b) k1).1
    exact ⟨k1, by rw [← k2]; exact rd32_wr32_disj (by omega)⟩

theorem Holds.pushed (hF : Fits E L lim b) {σ : Store} {v : State} (h : Holds L b σ v) (hs : b.hp + 4 < v.sp) (c : Cell) :
    Holds L b σ (pushed v c) :=
  h.wr_free hF (by omega) (by have := h.frame; omega) (by omega) (by have := h.frame; omega)

/-- What a sub-computation with a pushed cell leaves behind. -/
theorem Post.pop (hF : Fits E L lim b) {σ σ' : Store} {v v' : State} {c : Cell} (h : Holds L b σ v) (hs : b.hp + 4 < v.sp)
    (k : Post L b (Compiled.pushed v c) σ' v') : Post L b v σ' (popped v') ∧ rd32 v'.mem v'.sp = c := by
  have hsp : v'.sp = v.sp - 4 := k.sp
  have hfr := h.frame
  have hh := hF.heap
  refine ⟨⟨?_, ⟨?_, ?_, ?_, k.holds.globals, k.holds.locals⟩, ?_⟩, ?_⟩
  · unfold popped
    have hvm := k.vm
    unfold Compiled.pushed at hvm
    rw [hvm]
    simp only
    congr 1
    omega
  · unfold popped
    conv => lhs; rw [k.holds.same]
  · show b.hp ≤ v'.sp + 4
    omega
  · show v'.sp + 4 ≤ _
    omega
  · intro a h1 h2 h3
    have := k.keeps a (by show a < b.hp ∨ v.sp - 4 ≤ a; omega) h2 h3
    show v'.mem a = v.mem a
    rw [this]
    exact wr32_far (by omega)
  · rw [hsp]
    have := rd32_wr32_same v.mem (v.sp - 4) c
    rw [← this]
    apply rd32_congr
    intro x h1 h2
    refine k.keeps x (Or.inr h1) ?_ ?_
    · intro ho; have := ownG_range hF ho; omega
    · intro ho; have := ownL_range ho; omega

theorem Holds.setG (hF : Fits E L lim b) {σ : Store} {v : State} (h : Holds L b σ v) {x i : Nat} (hi : i < L.size x) (c : Cell) :
    Post L b v (σ.setG x i c) { v with mem := wr32 v.mem (L.gaddr x + 4 * (i : Nat)) c } := by
  have hg := hF.globals x i hi
  refine ⟨rfl, ⟨?_, h.heap, h.frame, ?_, ?_⟩, ?_⟩
  · conv => lhs; rw [h.same]
  · intro y j hj
    unfold Store.setG
    simp only
    split
    · rename_i hc; obtain ⟨rfl, rfl⟩ := hc; exact rd32_wr32_same _ _ _
    · rename_i hc
      rw [← h.globals y j hj]
      apply rd32_wr32_disj
      exact hF.disjoint x y i j hi hj (by rcases Decidable.em (x = y) with e | e; exact Or.inr (fun e2 => hc ⟨e.symm, e2.symm⟩); exact Or.inl e)
  · intro j w hj
    obtain ⟨k1, k2⟩ := h.locals j w hj
    refine ⟨k1, ?_⟩
    rw [← k2]
    apply rd32_wr32_disj
    have := (laddr_range (b := b) k1).1
    have := hF.heap
    have := h.heap
    have := h.frame
    omega
  · intro a _ h2 _
    apply wr32_far
    rcases Decidable.em (a < L.gaddr x + 4 * (i : Nat)) with h | h
    · exact Or.inl h
    · rcases Decidable.em (L.gaddr x + 4 * (i : Nat) + 4 ≤ a) with h' | h'
      · exact Or.inr h'
      · exact absurd ⟨x, i, hi, by omega, by omega⟩ h2

theorem laddr_disj {i j : Int} (hij : i ≠ j) : laddr b i + 4 ≤ laddr b j ∨ laddr b j + 4 ≤ laddr b i := by
  unfold laddr
  split <;> split <;> omega

theorem Holds.setL (hF : Fits E L lim b) {σ : Store} {v : State} (h : Holds L b σ v) {i : Int} (hi : L.hasSlot i = true) (c : Cell) :
    Post L b v (σ.setL i c) { v with mem := wr32 v.mem (laddr b i) c } := by
  have hr := laddr_range (b := b) hi
  have hf := h.frame
  have hp := h.heap
  have hd := hF.heap
  refine ⟨rfl, ⟨?_, h.heap, h.frame, ?_, ?_⟩, ?_⟩
  · conv => lhs; rw [h.same]
  · intro y j hj
    have hg := hF.globals y j hj
    rw [show (σ.setL i c).g = σ.g from rfl, ← h.globals y j hj]
    apply rd32_wr32_disj
    omega
  · intro j w hj
    unfold Store.setL at hj
    simp only at hj
    split at hj
    · rename_i e; cases hj; subst e; exact ⟨hi, rd32_wr32_same _ _ _⟩
    · rename_i e
      obtain ⟨k1, k2⟩ := h.locals j w hj
      exact ⟨k1, by rw [← k2]; exact rd32_wr32_disj (laddr_disj (Ne.symm e))⟩
  · intro a _ _ h2
    apply wr32_far
    rcases Decidable.em (a < laddr b i) with h | h
    · exact Or.inl h
    · rcases Decidable.em (laddr b i + 4 ≤ a) with h' | h'
      · exact Or.inr h'
      · exact absurd ⟨i, hi, by omega, by omega⟩ h2

/-! ### Memory accesses -/

theorem getCell_ok {v : State} {a : Int} (h0 : 0 ≤ a) (h1 : a < v.hp ∨ v.sp ≤ a) (h2 : a < v.stp) (h3 : a + 4 ≤ v.memSize) :
    getCellValue a v = .ok v (rd32 v.mem a) := by
  show VMM.bind (throwIfBadAddress a) (fun p => loadRaw p) v = _
  unfold VMM.bind throwIfBadAddress
  rw [if_neg (by omega)]
  simp only
  unfold loadRaw
  rw [if_pos ⟨h0, h3⟩]

theorem setCell_ok {v : State} {a : Int} {c : Cell} (h0 : 0 ≤ a) (h1 : a < v.hp ∨ v.sp ≤ a) (h2 : a < v.stp) (h3 : a + 4 ≤ v.memSize) :
    setCellValue a c v = .ok { v with mem := wr32 v.mem a c } () := by
  show VMM.bind (throwIfBadAddress a) (fun p => storeRaw p c) v = _
  unfold VMM.bind throwIfBadAddress
  rw [if_neg (by omega)]
  simp only
  unfold storeRaw
  rw [if_pos ⟨h0, h3⟩]

/-- Facts about a state in which compiled code runs. -/
theorem Holds.ranges (hF : Fits E L lim b) (hA : Activation E L m b) {σ : Store} {v : State} (h : Holds L b σ v) :
    0 ≤ b.dataSize ∧ b.dataSize ≤ b.hp ∧ b.hp ≤ v.sp ∧ v.sp ≤ b.frm - 4 * (L.slots : Int) ∧ b.frm + 12 + 4 * (L.params : Int) ≤ b.stp ∧
    b.stp + 4 ≤ b.memSize ∧ b.memSize ≤ 2147483000 :=
  ⟨hF.data, hF.heap, h.heap, h.frame, hA.top, hF.mem, hF.big⟩

theorem stackOffset_ok (hF : Fits E L lim b) (hA : Activation E L m b) {σ : Store} {s : IState} (h : Holds L b σ s.vm) {i : Int}
    (hi : L.hasSlot i = true) : stackOffset E m i s = .ok s (laddr b i - b.frm) ∧ I32 (laddr b i - b.frm) ∧ wrap32 (s.vm.frm + (laddr b i - b.frm)) = laddr b i := by
  have hr := h.ranges hF hA
  have hl := laddr_range (b := b) hi
  have hx : L.hasSlot i = true := hi
  unfold Layout.hasSlot at hi
  simp only [Bool.and_eq_true, decide_eq_true_eq] at hi
  refine ⟨?_, by omega, ?_⟩
  · unfold stackOffset
    rw [hF.typed, if_neg (by simp)]
    split
    · rename_i hn
      rw [wrap32_id (by omega) (by omega)]
      unfold laddr
      rw [if_pos hn]
      show Res.ok s _ = _
      congr 1
      omega
    · rename_i hn
      rw [hA.offsets]
      have : ((List.range L.slots).map fun (i : Nat) => -4 * ((i : Int) + 1))[i.toNat]? = some (-4 * (i + 1)) := by
        rw [List.getElem?_map, List.getElem?_range (by omega)]
        simp only [Option.map_some, Option.some.injEq]
        omega
      rw [this]
      simp only
      unfold laddr
      rw [if_neg hn]
      show Res.ok s _ = _
      congr 1
      omega
  · rw [h.frm, wrap32_id (by omega) (by omega)]
    omega

/-! ### Rules -/

section
variable {α : Type} {N M p : Nat} {s s' : IState} {σ : Store} {o : Out α} {Q : α → Store → Nat → Nat → IState → Prop}

/-- An instruction that falls through. -/
theorem Runs.ins {i : Insn} (h : At E.code p (ins i p)) (he : Enc i) (hv : ∀ here, visit E m here i s = .ok s' .next)
    (k : Runs E L lim m N (p + (CodeGen.ins i p).length) s' o Q) : Runs E L lim m N p s o Q :=
  Runs.step (fun n => loop_next (he.at h) (hv _) n) k

theorem Runs.ins_count {i : Insn} (h : At E.code p (CodeGen.ins i p)) (he : Enc i) (hv : ∀ here, visit E m here i s = .ok s' .next)
    (k : Runs E L lim m (N - 1) (p + (CodeGen.ins i p).length) s' o Q) : Runs E L lim m N p s o Q :=
  Runs.count (fun n => loop_next (he.at h) (hv _) n) k

theorem pushStack_ok {v : State} {c : Cell} (h0 : 0 ≤ v.hp) (h1 : v.hp + 4 < v.sp) (h2 : v.sp ≤ v.memSize) (h3 : v.memSize ≤ 2147483000) :
    pushStack c v = .ok (pushed v c) () := by
  unfold pushStack
  rw [wrap32_id (by omega) (by omega), if_neg (by omega), wrap32_id (by omega) (by omega)]
  unfold storeRaw
  rw [if_pos (by show 0 ≤ v.sp - 4 ∧ v.sp - 4 + 4 ≤ v.memSize; omega)]
  rfl

theorem pushStack_low {v : State} {c : Cell} (h0 : 0 ≤ v.hp) (h1 : v.sp ≤ v.hp + 4) (h2 : v.hp ≤ v.sp) (h3 : v.sp ≤ 2147483000) :
    pushStack c v = .fail v .stackLow := by
  unfold pushStack
  rw [wrap32_id (by omega) (by omega), if_pos (by omega)]

theorem visit_push (here : Int) (r : Reg) : visit E m here (.push r) s = IM.bind (vmOp (pushStack (s.reg r))) (fun _ => IM.pure Ctl.next) s := rfl
theorem visit_pushC (here : Int) (c : Cell) : visit E m here (.pushC [c]) s = IM.bind (vmOp (pushAll [c])) (fun _ => IM.pure Ctl.next) s := rfl
theorem visit_pop (here : Int) (r : Reg) : visit E m here (.pop r) s = IM.bind (IM.bind (vmOp popStack) (fun v => setR r v)) (fun _ => IM.pure Ctl.next) s := rfl

theorem Runs.push (hF : Fits E L lim b) (hA : Activation E L m b) {r : Reg} (h : At E.code p (CodeGen.ins (.push r) p)) (hH : Holds L b σ s.vm)
    (k : b.hp + 4 < s.vm.sp → Runs E L lim m N (p + (CodeGen.ins (.push r) p).length) { s with vm := pushed s.vm (s.reg r) } o Q) :
    Runs E L lim m N p s o Q := by
  have hr := hH.ranges hF hA
  have e1 := hH.hp
  have e2 := hH.memSize
  rcases Decidable.em (b.hp + 4 < s.vm.sp) with hs | hs
  · refine Runs.ins h (enc_push r) (fun here => ?_) (k hs)
    rw [visit_push]
    simp only [IM.bind, vmOp, pushStack_ok (v := s.vm) (c := s.reg r) (by omega) (by omega) (by omega) (by omega), IM.pure]
  · refine Runs.out (s' := s) (e := .stackLow) (loop_fail ((enc_push r).at h) ?_ 0) ?_
    · rw [visit_push]
      simp only [IM.bind, vmOp, pushStack_low (v := s.vm) (c := s.reg r) (by omega) (by omega) (by omega) (by omega)]
    · show s.vm.sp - s.vm.hp < lim
      have := hF.lim
      omega

theorem pushAll_one {v : State} {c : Cell} : pushAll [c] v = pushStack c v := by
  show VMM.bind (pushStack c) (fun _ => VMM.pure ()) v = _
  unfold VMM.bind
  cases pushStack c v <;> rfl

theorem Runs.pushC (hF : Fits E L lim b) (hA : Activation E L m b) {c : Cell} (h : At E.code p (CodeGen.ins (.pushC [c]) p)) (hH : Holds L b σ s.vm)
    (k : b.hp + 4 < s.vm.sp → Runs E L lim m N (p + (CodeGen.ins (.pushC [c]) p).length) { s with vm := pushed s.vm c } o Q) :
    Runs E L lim m N p s o Q := by
  have hr := hH.ranges hF hA
  have e1 := hH.hp
  have e2 := hH.memSize
  rcases Decidable.em (b.hp + 4 < s.vm.sp) with hs | hs
  · refine Runs.ins h (enc_pushC c) (fun here => ?_) (k hs)
    rw [visit_pushC]
    simp only [IM.bind, vmOp, pushAll_one, pushStack_ok (v := s.vm) (c := c) (by omega) (by omega) (by omega) (by omega), IM.pure]
  · refine Runs.out (s' := s) (e := .stackLow) (loop_fail ((enc_pushC c).at h) ?_ 0) ?_
    · rw [visit_pushC]
      simp only [IM.bind, vmOp, pushAll_one, pushStack_low (v := s.vm) (c := c) (by omega) (by omega) (by omega) (by omega)]
    · show s.vm.sp - s.vm.hp < lim
      have := hF.lim
      omega

theorem popStack_ok {v : State} (h0 : 0 ≤ v.sp) (h1 : v.sp < v.stp) (h2 : v.stp + 4 ≤ v.memSize) (h3 : v.memSize ≤ 2147483000) :
    popStack v = .ok (popped v) (rd32 v.mem v.sp) := by
  unfold popStack
  rw [if_neg (by omega)]
  unfold loadRaw
  rw [if_pos ⟨h0, by omega⟩]
  simp only
  rw [wrap32_id (by omega) (by omega)]
  rfl

theorem Runs.pop (hF : Fits E L lim b) (hA : Activation E L m b) {r : Reg} (h : At E.code p (CodeGen.ins (.pop r) p))
    (hH : Holds L b σ s.vm)
    (k : Runs E L lim m N (p + (CodeGen.ins (.pop r) p).length) ({ s with vm := popped s.vm }.setReg r (rd32 s.vm.mem s.vm.sp)) o Q) :
    Runs E L lim m N p s o Q := by
  have hr := hH.ranges hF hA
  have e1 := hH.stp
  have e2 := hH.memSize
  refine Runs.ins h (enc_pop r) (fun here => ?_) k
  rw [visit_pop]
  simp only [IM.bind, vmOp, popStack_ok (v := s.vm) (by omega) (by omega) (by omega) (by omega), IM.pure, setR]

/-! Memory -/

theorem globals_I32 (hF : Fits E L lim b) (hA : Activation E L m b) (hH : Holds L b σ s.vm) {x i : Nat} (hi : i < L.size x) :
    I32 (L.gaddr x + 4 * (i : Nat)) := by
  have := hH.ranges hF hA
  have := hF.globals x i hi
  omega

theorem get_global (hF : Fits E L lim b) (hA : Activation E L m b) (hH : Holds L b σ s.vm) {x i : Nat} (hi : i < L.size x) :
    getCellValue (L.gaddr x + 4 * (i : Nat)) s.vm = .ok s.vm (σ.g x i) := by
  have := hH.ranges hF hA
  have := hF.globals x i hi
  have e1 := hH.stp
  have e2 := hH.memSize
  have e3 := hH.hp
  rw [getCell_ok (by omega) (by omega) (by omega) (by omega), hH.globals x i hi]

theorem set_global (hF : Fits E L lim b) (hA : Activation E L m b) (hH : Holds L b σ s.vm) {x i : Nat} (hi : i < L.size x) (c : Cell) :
    setCellValue (L.gaddr x + 4 * (i : Nat)) c s.vm = .ok { s.vm with mem := wr32 s.vm.mem (L.gaddr x + 4 * (i : Nat)) c } () := by
  have := hH.ranges hF hA
  have := hF.globals x i hi
  have e1 := hH.stp
  have e2 := hH.memSize
  have e3 := hH.hp
  rw [setCell_ok (by omega) (by omega) (by omega) (by omega)]

theorem Runs.load (hF : Fits E L lim b) (hA : Activation E L m b) {x : Nat} (hx : 0 < L.size x) (h : At E.code p (CodeGen.ins (.load .pri (L.gaddr x)) p))
    (hH : Holds L b σ s.vm) (k : Runs E L lim m N (p + (CodeGen.ins (.load .pri (L.gaddr x)) p).length) { s with pri := σ.g x 0 } o Q) :
    Runs E L lim m N p s o Q := by
  have hi := globals_I32 hF hA hH hx
  have hg := get_global hF hA hH hx
  rw [show L.gaddr x + 4 * ((0 : Nat) : Int) = L.gaddr x by omega] at hi hg
  refine Runs.ins h (enc_load hi) (fun here => ?_) k
  show IM.bind (IM.bind (vmOp (getCellValue (L.gaddr x))) (fun v => setR .pri v)) (fun _ => IM.pure Ctl.next) s = _
  simp only [IM.bind, vmOp, hg, IM.pure, setR]
  rfl

theorem Runs.stor (hF : Fits E L lim b) (hA : Activation E L m b) {x : Nat} (hx : 0 < L.size x) (h : At E.code p (CodeGen.ins (.stor (L.gaddr x) .pri) p))
    (hH : Holds L b σ s.vm)
    (k : ∀ v', Post L b s.vm (σ.setG x 0 s.pri) v' → Runs E L lim m N (p + (CodeGen.ins (.stor (L.gaddr x) .pri) p).length) { s with vm := v' } o Q) :
    Runs E L lim m N p s o Q := by
  have hi := globals_I32 hF hA hH hx
  have hg := set_global hF hA hH hx s.pri
  have hp := hH.setG hF hx s.pri
  rw [show L.gaddr x + 4 * ((0 : Nat) : Int) = L.gaddr x by omega] at hi hg hp
  refine Runs.ins h (enc_stor hi) (fun here => ?_) (k _ hp)
  show IM.bind (vmOp (setCellValue (L.gaddr x) s.pri)) (fun _ => IM.pure Ctl.next) s = _
  simp only [IM.bind, vmOp, hg, IM.pure]

theorem visit_loadI (here : Int) : visit E m here .loadI s = IM.bind (IM.bind (getR .pri) fun p => IM.bind (vmOp (getCellValue p.toInt)) (fun v => setR .pri v)) (fun _ => IM.pure Ctl.next) s := rfl

theorem Runs.loadI (hF : Fits E L lim b) (hA : Activation E L m b) {x i : Nat} (hx : i < L.size x) (h : At E.code p (CodeGen.ins .loadI p))
    (hH : Holds L b σ s.vm) (ha : s.pri = BitVec.ofInt 32 (L.gaddr x + 4 * (i : Nat)))
    (k : Runs E L lim m N (p + (CodeGen.ins .loadI p).length) { s with pri := σ.g x i } o Q) :
    Runs E L lim m N p s o Q := by
  have hi := globals_I32 hF hA hH hx
  have hg := get_global hF hA hH hx
  refine Runs.ins h enc_loadI (fun here => ?_) k
  rw [visit_loadI]
  have e : s.pri.toInt = L.gaddr x + 4 * (i : Nat) := by rw [ha, ofInt_toInt hi.1 hi.2]
  rw [← e] at hg
  simp only [IM.bind, vmOp, getR, IState.reg, hg, IM.pure, setR, IState.setReg]

theorem Runs.storI (hF : Fits E L lim b) (hA : Activation E L m b) {x i : Nat} (hx : i < L.size x) (h : At E.code p (CodeGen.ins .storI p))
    (hH : Holds L b σ s.vm) (ha : s.alt = BitVec.ofInt 32 (L.gaddr x + 4 * (i : Nat)))
    (k : ∀ v', Post L b s.vm (σ.setG x i s.pri) v' → Runs E L lim m N (p + (CodeGen.ins .storI p).length) { s with vm := v' } o Q) :
    Runs E L lim m N p s o Q := by
  have hi := globals_I32 hF hA hH hx
  have hg := set_global hF hA hH hx s.pri
  have hp := hH.setG hF hx s.pri
  refine Runs.ins h enc_storI (fun here => ?_) (k _ hp)
  show IM.bind (vmOp (setCellValue s.alt.toInt s.pri)) (fun _ => IM.pure Ctl.next) s = _
  rw [show s.alt.toInt = _ by rw [ha, ofInt_toInt hi.1 hi.2]]
  simp only [IM.bind, vmOp, hg, IM.pure]

theorem slot_I32 (hF : Fits E L lim b) (hA : Activation E L m b) (hH : Holds L b σ s.vm) {i : Int} (hi : L.hasSlot i = true) : I32 i := by
  have := hH.ranges hF hA
  unfold Layout.hasSlot at hi
  simp only [Bool.and_eq_true, decide_eq_true_eq] at hi
  omega

theorem get_local (hF : Fits E L lim b) (hA : Activation E L m b) (hH : Holds L b σ s.vm) {i : Int} (hi : L.hasSlot i = true) :
    getFrameValue (laddr b i - b.frm) s.vm = .ok s.vm (rd32 s.vm.mem (laddr b i)) := by
  have hr := hH.ranges hF hA
  have hl := laddr_range (b := b) hi
  have e1 := hH.stp
  have e2 := hH.memSize
  have e3 := hH.hp
  unfold getFrameValue
  rw [(stackOffset_ok hF hA hH hi).2.2]
  exact getCell_ok (by omega) (by omega) (by omega) (by omega)

theorem set_local (hF : Fits E L lim b) (hA : Activation E L m b) (hH : Holds L b σ s.vm) {i : Int} (hi : L.hasSlot i = true) (c : Cell) :
    setFrameValue (laddr b i - b.frm) c s.vm = .ok { s.vm with mem := wr32 s.vm.mem (laddr b i) c } () := by
  have hr := hH.ranges hF hA
  have hl := laddr_range (b := b) hi
  have e1 := hH.stp
  have e2 := hH.memSize
  have e3 := hH.hp
  unfold setFrameValue
  rw [(stackOffset_ok hF hA hH hi).2.2]
  exact setCell_ok (by omega) (by omega) (by omega) (by omega)

theorem Runs.loadS (hF : Fits E L lim b) (hA : Activation E L m b) {i : Int} {w : Cell} (h : At E.code p (CodeGen.ins (.loadS .pri i) p))
    (hH : Holds L b σ s.vm) (hw : σ.l i = some w) (k : Runs E L lim m N (p + (CodeGen.ins (.loadS .pri i) p).length) { s with pri := w } o Q) :
    Runs E L lim m N p s o Q := by
  obtain ⟨hi, hv⟩ := hH.locals i w hw
  refine Runs.ins h (enc_loadS (slot_I32 hF hA hH hi)) (fun here => ?_) k
  show IM.bind (IM.bind (stackOffset E m i) fun f => IM.bind (vmOp (getFrameValue f)) (fun v => setR .pri v)) (fun _ => IM.pure Ctl.next) s = _
  simp only [IM.bind, vmOp, (stackOffset_ok hF hA hH hi).1, get_local hF hA hH hi, IM.pure, setR, hv]
  rfl

theorem Runs.storS (hF : Fits E L lim b) (hA : Activation E L m b) {i : Int} (hi : L.hasSlot i = true) (h : At E.code p (CodeGen.ins (.storS i .pri) p))
    (hH : Holds L b σ s.vm)
    (k : ∀ v', Post L b s.vm (σ.setL i s.pri) v' → Runs E L lim m N (p + (CodeGen.ins (.storS i .pri) p).length) { s with vm := v' } o Q) :
    Runs E L lim m N p s o Q := by
  refine Runs.ins h (enc_storS (slot_I32 hF hA hH hi)) (fun here => ?_) (k _ (hH.setL hF hi s.pri))
  show IM.bind (IM.bind (stackOffset E m i) fun f => IM.bind (getR .pri) fun v => vmOp (setFrameValue f v)) (fun _ => IM.pure Ctl.next) s = _
  simp only [IM.bind, vmOp, (stackOffset_ok hF hA hH hi).1, getR, IState.reg, set_local hF hA hH hi, IM.pure]

theorem Runs.storSC (hF : Fits E L lim b) (hA : Activation E L m b) {i : Int} {c : Cell} (hi : L.hasSlot i = true) (h : At E.code p (CodeGen.ins (.storSC i c) p))
    (hH : Holds L b σ s.vm)
    (k : ∀ v', Post L b s.vm (σ.setL i c) v' → Runs E L lim m N (p + (CodeGen.ins (.storSC i c) p).length) { s with vm := v' } o Q) :
    Runs E L lim m N p s o Q := by
  refine Runs.ins h (enc_storSC c (slot_I32 hF hA hH hi)) (fun here => ?_) (k _ (hH.setL hF hi c))
  show IM.bind (IM.bind (stackOffset E m i) fun f => vmOp (setFrameValue f c)) (fun _ => IM.pure Ctl.next) s = _
  simp only [IM.bind, vmOp, (stackOffset_ok hF hA hH hi).1, set_local hF hA hH hi, IM.pure]

theorem Runs.zeroS (hF : Fits E L lim b) (hA : Activation E L m b) {i : Int} (hi : L.hasSlot i = true) (h : At E.code p (CodeGen.ins (.zeroS i) p))
    (hH : Holds L b σ s.vm)
    (k : ∀ v', Post L b s.vm (σ.setL i 0) v' → Runs E L lim m N (p + (CodeGen.ins (.zeroS i) p).length) { s with vm := v' } o Q) :
    Runs E L lim m N p s o Q := by
  refine Runs.ins h (enc_zeroS (slot_I32 hF hA hH hi)) (fun here => ?_) (k _ (hH.setL hF hi 0))
  show IM.bind (IM.bind (stackOffset E m i) fun f => vmOp (setFrameValue f 0)) (fun _ => IM.pure Ctl.next) s = _
  simp only [IM.bind, vmOp, (stackOffset_ok hF hA hH hi).1, set_local hF hA hH hi, IM.pure]

/-! Jumps -/

theorem off_I32 (hF : Fits E L lim b) {t : Nat} (ht : t < E.code.length) : I32 (off t) := by
  have := hF.code
  unfold off
  omega

theorem jumpIndex_off {t : Nat} (ht : t < E.code.length) : jumpIndex E (off t) = some t := by
  unfold jumpIndex off
  rw [if_pos (by omega)]
  congr 1
  omega

theorem takeJump_cases (here o : Int) : (∃ k, takeJump E here o s = .ok { s with polls := k } (.goto o)) ∨
    (takeJump E here o s = .fail { s with polls := s.polls + 1 } .timeout ∧ E.watchdog s.polls = false) := by
  unfold takeJump
  split
  · split
    · exact Or.inl ⟨_, rfl⟩
    · rename_i h; exact Or.inr ⟨rfl, by simpa using h⟩
  · exact Or.inl ⟨s.polls, rfl⟩

theorem Runs.jump (hF : Fits E L lim b) {t : Nat} (ht : t < E.code.length) (h : At E.code p (CodeGen.ins (.jump (off t)) p)) (hM : N - 1 ≤ M)
    (k : ∀ i, Runs E L lim m M t { s with polls := i } o Q) : Runs E L lim m N p s o Q := by
  have hA := (enc_jump (off_I32 hF ht)).at h
  rcases takeJump_cases (E := E) (s := s) (((p + (CodeGen.ins (.jump (off t)) p).length : Nat) : Int) * 4) (off t) with ⟨i, hi⟩ | ⟨h1, h2⟩
  · exact Runs.of_reach ((Reach.of_eq (fun n => loop_goto hA hi (jumpIndex_off ht) n)).relax hM) (k i)
  · exact Runs.out (loop_fail hA h1 0) ⟨s.polls, Nat.lt_succ_self _, h2⟩

theorem Runs.jcmp (hF : Fits E L lim b) {c : Cmp} {t : Nat} (ht : t < E.code.length) (h : At E.code p (CodeGen.ins (.jcmp c (off t)) p)) (hM : N - 1 ≤ M)
    (k1 : cmpCells c s.pri s.alt = true → ∀ i, Runs E L lim m M t { s with polls := i } o Q)
    (k2 : cmpCells c s.pri s.alt = false → Runs E L lim m M (p + (CodeGen.ins (.jcmp c (off t)) p).length) s o Q) : Runs E L lim m N p s o Q := by
  have hA := (enc_jcmp c (off_I32 hF ht)).at h
  have hv : ∀ here, visit E m here (.jcmp c (off t)) s = if cmpCells c s.pri s.alt then takeJump E here (off t) s else .ok s .next := fun _ => rfl
  cases hc : cmpCells c s.pri s.alt with
  | false =>
    refine Runs.of_reach ((Reach.of_eq (fun n => loop_next hA ?_ n)).relax hM) (k2 hc)
    rw [hv, hc]; rfl
  | true =>
    rcases takeJump_cases (E := E) (s := s) (((p + (CodeGen.ins (.jcmp c (off t)) p).length : Nat) : Int) * 4) (off t) with ⟨i, hi⟩ | ⟨h1, h2⟩
    · refine Runs.of_reach ((Reach.of_eq (fun n => loop_goto hA ?_ (jumpIndex_off ht) n)).relax hM) (k1 hc i)
      rw [hv, hc, if_pos rfl]; exact hi
    · refine Runs.out (e := .timeout) (s' := { s with polls := s.polls + 1 }) (loop_fail hA ?_ 0) ⟨s.polls, Nat.lt_succ_self _, h2⟩
      rw [hv, hc, if_pos rfl]; exact h1

end
end

end Verif.Compiled

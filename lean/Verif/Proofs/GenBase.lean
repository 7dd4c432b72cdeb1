import Verif.Proofs.Consts

/-! Emitted code: positions, lengths, and rules for the small pieces. -/
namespace Verif.Compiled
open Verif.VM Verif.Lang Verif.CodeGen

/-- Where code emitted at `p` ends. -/
abbrev Ends (c : Code) (p : Nat) : Nat := p + (c p).length

/-- The code is in the program at `p`. -/
abbrev Here (E : Env) (c : Code) (p : Nat) : Prop := At E.code p (c p)

theorem ends_then (a b : Code) (p : Nat) : Ends (a ⨟ b) p = Ends b (Ends a p) := by
  show p + (a p ++ b (p + (a p).length)).length = _
  rw [List.length_append, ← Nat.add_assoc]

theorem ends_skip (p : Nat) : Ends skip p = p := rfl

theorem Here.fst {E : Env} {a b : Code} {p : Nat} (h : Here E (a ⨟ b) p) : Here E a p := At.left h
theorem Here.snd {E : Env} {a b : Code} {p : Nat} (h : Here E (a ⨟ b) p) : Here E b (Ends a p) := At.right h
theorem Here.lt {E : Env} {c : Code} {p : Nat} (h : Here E c p) : Ends c p < E.code.length := h.2

theorem emitIf_true (c : Code) : emitIf true c = c := rfl
theorem emitIf_false (c : Code) : emitIf false c = skip := rfl
theorem skip_then (c : Code) : (skip ⨟ c) = c := rfl
theorem then_skip (c : Code) : (c ⨟ skip) = c := by funext p; show c p ++ [] = _; rw [List.append_nil]
theorem then_assoc (a b c : Code) : ((a ⨟ b) ⨟ c) = (a ⨟ b ⨟ c) := by
  funext p
  show (a p ++ b _) ++ c _ = a p ++ (b _ ++ c _)
  rw [List.append_assoc]
  congr 2
  show c (p + (a p ++ b _).length) = _
  rw [List.length_append, Nat.add_assoc]

/-! ### Lengths -/

/-- The length does not depend on the position. -/
def Fixed (c : Code) : Prop := ∀ p q, (c p).length = (c q).length

/-- The length does not depend on the position and the target. -/
def Fixed2 (f : Nat → Code) : Prop := ∀ t t' p q, (f t p).length = (f t' q).length

theorem Fixed.skip : Fixed skip := fun _ _ => rfl
theorem Fixed.ins (i : Insn) : Fixed (ins i) := fun _ _ => rfl
theorem Fixed.then {a b : Code} (ha : Fixed a) (hb : Fixed b) : Fixed (a ⨟ b) := fun p q => by
  show (a p ++ b _).length = (a q ++ b _).length
  rw [List.length_append, List.length_append, ha p q, hb _ (q + (a q).length)]
theorem Fixed.emitIf {c : Code} (h : Fixed c) (x : Bool) : Fixed (emitIf x c) := by cases x; exact Fixed.skip; exact h
theorem Fixed.constPri (v : Cell) : Fixed (constPri v) := by unfold CodeGen.constPri; split <;> exact Fixed.ins _
theorem Fixed.constAlt (v : Cell) : Fixed (constAlt v) := by unfold CodeGen.constAlt; split <;> exact Fixed.ins _
theorem Fixed.endLabel {f : Nat → Code} (h : Fixed2 f) : Fixed (endLabel f) := fun p q => h _ _ p q

theorem Fixed2.const {c : Code} (h : Fixed c) : Fixed2 fun _ => c := fun _ _ p q => h p q
theorem Fixed2.then {f g : Nat → Code} (hf : Fixed2 f) (hg : Fixed2 g) : Fixed2 fun t => f t ⨟ g t := fun t t' p q => by
  show (f t p ++ g t _).length = (f t' q ++ g t' _).length
  rw [List.length_append, List.length_append, hf t t' p q, hg t t' _ (q + (f t' q).length)]
theorem Fixed2.jump : Fixed2 fun t => CodeGen.ins (.jump (off t)) := fun _ _ _ _ => rfl
theorem Fixed2.jcmp (c : Cmp) : Fixed2 fun t => CodeGen.ins (.jcmp c (off t)) := fun _ _ _ _ => by cases c <;> rfl
theorem Fixed2.code {f : Nat → Code} (h : Fixed2 f) (t : Nat) : Fixed (f t) := fun p q => h t t p q

/-- A label at the end is at the end. -/
theorem endLabel_eq {f : Nat → Code} (h : Fixed2 f) (p : Nat) : endLabel f p = f (Ends (endLabel f) p) p := by
  unfold Ends
  show f (p + (f 0 p).length) p = f (p + (f (p + (f 0 p).length) p).length) p
  rw [h (p + (f 0 p).length) 0 p p]

theorem endLabel_here {E : Env} {f : Nat → Code} (h : Fixed2 f) {p : Nat} (hc : Here E (endLabel f) p) : Here E (f (Ends (endLabel f) p)) p := by
  have := endLabel_eq h p
  unfold Here
  rw [← this]
  exact hc

theorem endLabel_ends {f : Nat → Code} (h : Fixed2 f) (p : Nat) : Ends (f (Ends (endLabel f) p)) p = Ends (endLabel f) p := by
  show p + (f _ p).length = _
  rw [← endLabel_eq h p]

/-! ### Rules -/

section
variable {E : Env} {L : Layout} {lim : Int} {m : Nat} {b : State}
variable {α : Type} {N M p : Nat} {s s' : IState} {σ : Store} {o : Out α} {Q R : α → Store → Nat → Nat → IState → Prop}

theorem Runs.relax (h : Runs E L lim m N p s o Q)
    (k : ∀ a σ N' q s', o = .ok a σ → Q a σ N' q s' → ∃ M, N' ≤ M ∧ R a σ M q s') : Runs E L lim m N p s o R := by
  cases o with
  | ok a σ =>
    rcases h with ⟨N', q, s', hr, hq⟩ | h
    · obtain ⟨M, hM, hR⟩ := k _ _ _ _ _ rfl hq
      exact Or.inl ⟨M, q, s', hr.relax hM, hR⟩
    · exact Or.inr h
  | err => exact h
  | undef => exact True.intro
  | more => exact h

theorem Runs.constPri {v : Cell} (h : Here E (constPri v) p) (k : Runs E L lim m N (Ends (constPri v) p) { s with pri := v } o Q) :
    Runs E L lim m N p s o Q := by
  unfold CodeGen.constPri at h k
  split at h
  · rename_i hv
    subst hv
    exact Runs.ins h (enc_zero .pri) (fun _ => rfl) k
  · rename_i hv
    rw [if_neg hv] at k
    exact Runs.ins h (enc_const .pri v) (fun _ => rfl) k

theorem Runs.constAlt {v : Cell} (h : Here E (constAlt v) p) (k : Runs E L lim m N (Ends (constAlt v) p) { s with alt := v } o Q) :
    Runs E L lim m N p s o Q := by
  unfold CodeGen.constAlt at h k
  split at h
  · rename_i hv
    subst hv
    exact Runs.ins h (enc_zero .alt) (fun _ => rfl) k
  · rename_i hv
    rw [if_neg hv] at k
    exact Runs.ins h (enc_const .alt v) (fun _ => rfl) k

theorem visit_swap (here : Int) (r : Reg) : visit E m here (.swap r) s =
  IM.bind (IM.bind (getR r) fun t => IM.bind (vmOp popStack) fun v => IM.bind (setR r v) fun _ => vmOp (pushStack t)) (fun _ => IM.pure Ctl.next) s := rfl

theorem pushed_popped (v : State) (c : Cell) : pushed (popped v) c = { v with mem := wr32 v.mem v.sp c } := by
  unfold pushed popped
  simp only
  rw [show v.sp + 4 - 4 = v.sp by omega]

theorem Runs.swap (hF : Fits E L lim b) (hA : Activation E L m b) {r : Reg} (h : Here E (CodeGen.ins (.swap r)) p)
    (hH : Holds L b σ s.vm) (hs : b.hp < s.vm.sp)
    (k : Runs E L lim m N (Ends (CodeGen.ins (.swap r)) p)
      ({ s with vm := { s.vm with mem := wr32 s.vm.mem s.vm.sp (s.reg r) } }.setReg r (rd32 s.vm.mem s.vm.sp)) o Q) :
    Runs E L lim m N p s o Q := by
  have hr := hH.ranges hF hA
  have e1 := hH.stp
  have e2 := hH.memSize
  have e3 := hH.hp
  refine Runs.ins h (enc_swap r) (fun here => ?_) k
  rw [visit_swap]
  have hpu : ∀ c, pushStack c (popped s.vm) = .ok (pushed (popped s.vm) c) () := fun c =>
    pushStack_ok (v := popped s.vm) (c := c) (by show 0 ≤ s.vm.hp; omega) (by show s.vm.hp + 4 < s.vm.sp + 4; omega)
      (by show s.vm.sp + 4 ≤ s.vm.memSize; omega) (by show s.vm.memSize ≤ _; omega)
  have hpo : popStack s.vm = .ok (popped s.vm) (rd32 s.vm.mem s.vm.sp) := popStack_ok (by omega) (by omega) (by omega) (by omega)
  cases r
  · simp only [IM.bind, vmOp, getR, hpo, IM.pure, setR, IState.setReg, hpu, IState.reg, pushed_popped]
  · simp only [IM.bind, vmOp, getR, hpo, IM.pure, setR, IState.setReg, hpu, IState.reg, pushed_popped]

theorem Holds.wr_top (hF : Fits E L lim b) {v : State} (h : Holds L b σ v) (hs : v.sp + 4 ≤ b.frm - 4 * (L.slots : Int)) (c : Cell) :
    Holds L b σ { v with mem := wr32 v.mem v.sp c } := by
  have := h.wr_free (sp' := v.sp) (c := c) hF h.heap hs h.heap h.frame
  exact this

end

end Verif.Compiled

import Verif.Proofs.StackUse
import Verif.Proofs.JitAll

/-! Instructions keep the sizes of the memory block and the frame pointer. -/
namespace Verif.Jit
open Verif.X64 Verif.VM Verif.Verifier

/-- Block and frame of `s` are still those of `s'`. -/
structure Kept (s s' : State) : Prop where
  block : SameBlock s s'
  frm : s'.frm = s.frm

def VK {α : Type} (x : VMM α) : Prop := ∀ s s' a, x s = .ok s' a → Kept s s'
def IK {α : Type} (x : IM α) : Prop := ∀ s s' a, x s = .ok s' a → Kept s.vm s'.vm

theorem Kept.refl (s : State) : Kept s s := ⟨⟨rfl, rfl, rfl, rfl, rfl⟩, rfl⟩
theorem Kept.upd (s : State) (m : Int → BitVec 8) (hp sp sc : Int) : Kept s { s with mem := m, hp := hp, sp := sp, hpScope := sc } :=
  ⟨⟨rfl, rfl, rfl, rfl, rfl⟩, rfl⟩
theorem Kept.trans {a b c : State} (h1 : Kept a b) (h2 : Kept b c) : Kept a c :=
  ⟨⟨h2.block.1.trans h1.block.1, h2.block.2.trans h1.block.2, h2.block.3.trans h1.block.3, h2.block.4.trans h1.block.4,
    h2.block.5.trans h1.block.5⟩, h2.frm.trans h1.frm⟩

theorem vk_pure {α : Type} (a : α) : VK (pure a : VMM α) := by intro s s' b h; cases h; exact .refl _
theorem vk_bind {α β : Type} {x : VMM α} {f : α → VMM β} (hx : VK x) (hf : ∀ a, VK (f a)) : VK (x >>= f) := by
  intro s s' b h
  obtain ⟨s1, a, h1, h2⟩ := vbind_ok h
  exact (hx _ _ _ h1).trans (hf a _ _ _ h2)
theorem vk_loadRaw (a : Int) : VK (loadRaw a) := by
  intro s s' v h; unfold loadRaw at h; split at h <;> cases h; exact .refl _
theorem vk_storeRaw (a : Int) (v : Cell) : VK (storeRaw a v) := by
  intro s s' v h; unfold storeRaw at h; split at h <;> cases h; exact .upd _ _ _ _ _
theorem vk_storeRaw8 (a : Int) (v : BitVec 8) : VK (storeRaw8 a v) := by
  intro s s' v h; unfold storeRaw8 at h; split at h <;> cases h; exact .upd _ _ _ _ _
theorem vk_loadRaw64 (a : Int) : VK (loadRaw64 a) := by
  intro s s' v h; unfold loadRaw64 at h; split at h <;> cases h; exact .refl _
theorem vk_storeRaw64 (a : Int) (v : BitVec 64) : VK (storeRaw64 a v) := by
  intro s s' v h; unfold storeRaw64 at h; split at h <;> cases h; exact .upd _ _ _ _ _
theorem vk_throw (a : Int) : VK (throwIfBadAddress a) := by
  intro s s' v h; unfold throwIfBadAddress at h; split at h <;> cases h; exact .refl _
theorem vk_local (a : Int) : VK (localToPhysAddr a) := by
  intro s s' v h; unfold localToPhysAddr at h; split at h <;> cases h; exact .refl _
theorem vk_getCellValue (a : Int) : VK (getCellValue a) := vk_bind (vk_throw a) fun _ => vk_loadRaw _
theorem vk_setCellValue (a : Int) (v : Cell) : VK (setCellValue a v) := vk_bind (vk_throw a) fun _ => vk_storeRaw _ _
theorem vk_getFrameValue (o : Int) : VK (getFrameValue o) := by intro s s' v h; exact vk_getCellValue _ _ _ _ h
theorem vk_setFrameValue (o : Int) (v : Cell) : VK (setFrameValue o v) := by intro s s' u h; exact vk_setCellValue _ _ _ _ _ h
theorem vk_acquire (a n : Int) : VK (acquireAddrRange a n) := by
  refine vk_bind (vk_throw _) fun p => ?_
  split
  · exact vk_bind (vk_throw _) fun _ => vk_pure _
  · exact vk_pure _
theorem vk_acquire64 (a : Int) : VK (acquireInt64Addr a) := vk_acquire _ _
theorem vk_slot64 (o : Int) : VK (acquireInt64Slot o) := by
  intro s s' v h
  unfold acquireInt64Slot at h
  split at h
  · rename_i s1 a h1
    cases h
    exact vk_throw _ _ _ _ h1
  · cases h
theorem vk_push (v : Cell) : VK (pushStack v) := by
  intro s s' u h
  unfold pushStack at h
  split at h
  · cases h
  · exact (Kept.upd s s.mem s.hp _ s.hpScope).trans (vk_storeRaw _ _ _ _ _ h)
theorem vk_pop : VK popStack := by
  intro s s' v h
  unfold popStack at h
  split at h
  · cases h
  · split at h
    · rename_i s1 w h1
      cases h
      exact (vk_loadRaw _ _ _ _ h1).trans (Kept.upd _ _ _ _ _)
    · cases h
    · cases h
theorem vk_addStack (n : Int) : VK (addStack n) := by
  intro s s' v h
  unfold addStack at h
  simp only at h
  split at h <;> split at h <;> cases h <;> exact .upd _ _ _ _ _
theorem vk_heapAlloc (n : Int) : VK (heapAlloc n) := by
  intro s s' v h
  unfold heapAlloc at h
  simp only at h
  split at h <;> split at h <;> cases h <;> exact .upd _ _ _ _ _
theorem vk_pushTracker (n : Int) : VK (pushTracker n) := by
  intro s s' v h
  unfold pushTracker at h
  split at h
  · cases h
  · split at h
    · cases h
    · exact (Kept.upd s s.mem _ s.sp s.hpScope).trans (vk_storeRaw _ _ _ _ _ h)
theorem vk_popTracker : VK popTracker := by
  intro s s' v h
  unfold popTracker at h
  split at h
  · cases h
  · simp only at h
    split at h
    · rename_i s1 amt h1
      have e := vk_loadRaw _ _ _ _ h1
      split at h
      · cases h
      · cases h; exact ((Kept.upd s s.mem _ s.sp s.hpScope).trans e).trans (Kept.upd _ _ _ _ _)
    · cases h
    · cases h
theorem vk_enter : VK enterHeapScope := by
  intro s s' v h
  unfold enterHeapScope at h
  split at h
  · rename_i s1 a h1
    have e := vk_heapAlloc _ _ _ _ h1
    have e2 := vk_bind (vk_throw a) (fun p => vk_storeRaw p (BitVec.ofInt 32 s.hpScope)) _ _ _ h
    exact (e.trans (Kept.upd _ _ _ _ _)).trans e2
  · cases h
  · cases h
theorem vk_leave : VK leaveHeapScope := by
  intro s s' v h
  unfold leaveHeapScope at h
  split at h
  · rename_i s1 prev h1
    have e := vk_bind (vk_throw s.hpScope) (fun p => vk_loadRaw p) _ _ _ h1
    simp only at h
    split at h
    · split at h
      · rename_i s3 _ h3
        have e3 := vk_throw _ _ _ _ h3
        cases h
        exact (e.trans (Kept.upd _ _ _ _ _)).trans e3
      · cases h
      · cases h
    · cases h; exact e.trans (Kept.upd _ _ _ _ _)
  · cases h
  · cases h
theorem vk_bump (a : Int) (d : Cell) : VK (bumpCell a d) :=
  vk_bind (vk_throw _) fun _ => vk_bind (vk_loadRaw _) fun _ => vk_storeRaw _ _
theorem vk_initArray (arr dat iv cp fl : Int) (v : Cell) : VK (initArray arr dat iv cp fl v) := by
  intro s s' u h
  unfold initArray at h
  split at h
  · cases h
  · cases h
  · rename_i s1 p h1
    have e1 := vk_local _ _ _ _ h1
    split at h
    · cases h
    · simp only at h
      split at h
      · cases h
      · split at h
        · rename_i s2 u2 h2
          have e2 : Kept s1 s2 := by
            clear h
            split at h2
            · cases h2; exact .refl _
            · split at h2
              · cases h2
              · cases h2
              · rename_i s3 p3 h3
                have e3 := vk_local _ _ _ _ h3
                split at h2
                · cases h2
                · split at h2
                  · cases h2
                  · cases h2; exact e3.trans (Kept.upd _ _ _ _ _)
          split at h
          · cases h; exact e1.trans e2
          · split at h
            · cases h
            · cases h; exact (e1.trans e2).trans (Kept.upd _ _ _ _ _)
        · cases h
        · cases h
theorem vk_generate1 (p : Int) (z : Bool) : VK (generateArray1 p z) := by
  intro s s' u h
  unfold generateArray1 at h
  split at h
  · rename_i s1 c h1
    have e1 := vk_loadRaw _ _ _ _ h1
    simp only at h
    split at h
    · cases h
    · split at h
      · cases h
      · split at h
        · cases h
        · split at h
          · split at h
            · split at h
              · cases h; exact e1.trans (Kept.upd _ _ _ _ _)
              · cases h
            · cases h; exact e1.trans (Kept.upd _ _ _ _ _)
          · split at h
            · rename_i s3 u3 h3
              have e3 := (e1.trans (Kept.upd _ _ _ _ _)).trans (vk_pushTracker _ _ _ _ h3)
              split at h
              · split at h
                · cases h; exact e3.trans (Kept.upd _ _ _ _ _)
                · cases h
              · cases h; exact e3
            · cases h
            · cases h
  · cases h
  · cases h
theorem vk_genArray1 (z : Bool) : VK (genArray 1 z) := by
  intro s s' u h
  unfold genArray at h
  split at h
  · rename_i s1 p h1
    rw [if_pos rfl] at h
    exact (vk_acquire _ _ _ _ _ h1).trans (vk_generate1 _ _ _ _ _ h)
  · cases h
  · cases h
theorem vk_pushAll : ∀ vs : List Cell, VK (pushAll vs)
  | [] => vk_pure ()
  | v :: vs => vk_bind (vk_push v) fun _ => vk_pushAll vs
theorem vk_pushAddrs : ∀ vs : List Cell, VK (pushAddrs vs)
  | [] => vk_pure ()
  | v :: vs => vk_bind (vk_getCellValue v.toInt) fun w => vk_bind (vk_push w) fun _ => vk_pushAddrs vs

/-! ## Actions of the interpreter -/

theorem ik_pure {α : Type} (a : α) : IK (pure a : IM α) := by intro s s' b h; cases h; exact .refl _
theorem ik_bind {α β : Type} {x : IM α} {f : α → IM β} (hx : IK x) (hf : ∀ a, IK (f a)) : IK (x >>= f) := by
  intro s s' b h
  obtain ⟨s1, a, h1, h2⟩ := ibind_ok h
  exact (hx _ _ _ h1).trans (hf a _ _ _ h2)
theorem ik_vmOp {α : Type} {x : VMM α} (h : VK x) : IK (vmOp x) := by intro s s' a hx; exact h _ _ _ (vmOp_ok hx)
theorem ik_getR (r : Reg) : IK (getR r) := by intro s s' a h; cases h; exact .refl _
theorem ik_setR (r : Reg) (v : Cell) : IK (setR r v) := by intro s s' a h; cases h; cases r <;> exact .refl _
theorem ik_throwE {α : Type} (e : Err) : IK (throwE e : IM α) := by intro s s' a h; cases h
theorem ik_undef {α : Type} : IK (undef : IM α) := by intro s s' a h; cases h
theorem ik_getFrm : IK getFrm := by intro s s' a h; cases h; exact .refl _
theorem ik_getSp : IK getSp := by intro s s' a h; cases h; exact .refl _
theorem ik_stackOffset (E : Env) (m : Nat) (o : Int) : IK (stackOffset E m o) := by
  unfold stackOffset
  split
  · exact ik_pure _
  · split
    · exact ik_pure _
    · split
      · exact ik_pure _
      · exact ik_undef
theorem ik_finish64 (o : Int) (v : BitVec 64) : IK (VM.finish64 o v) :=
  ik_bind (ik_vmOp (vk_slot64 _)) fun _ => ik_bind (ik_vmOp (vk_storeRaw64 _ _)) fun _ => ik_bind ik_getFrm fun _ => ik_setR _ _
theorem ik_ite {α : Type} {c : Prop} [Decidable c] {x y : IM α} (hx : IK x) (hy : IK y) : IK (if c then x else y) := by
  split <;> assumption
theorem ik_pushSlots (E : Env) (m : Nat) : ∀ vs : List Cell, IK (pushSlots E m vs)
  | [] => ik_pure ()
  | v :: vs => ik_bind (ik_stackOffset E m _) fun _ => ik_bind (ik_vmOp (vk_getFrameValue _)) fun _ =>
      ik_bind (ik_vmOp (vk_push _)) fun _ => ik_pushSlots E m vs
theorem ik_pushAdrs (E : Env) (m : Nat) : ∀ vs : List Cell, IK (pushAdrs E m vs)
  | [] => ik_pure ()
  | v :: vs => ik_bind (ik_stackOffset E m _) fun _ => ik_bind ik_getFrm fun _ =>
      ik_bind (ik_vmOp (vk_push _)) fun _ => ik_pushAdrs E m vs
theorem ik_takeJump (E : Env) (h o : Int) : IK (takeJump E h o) := by
  intro s s' a hx
  unfold takeJump at hx
  split at hx
  · split at hx
    · cases hx; exact .refl _
    · cases hx
  · cases hx; exact .refl _

theorem ik_jcmp (E : Env) (m : Nat) (h o : Int) (c : Cmp) : IK (visit E m h (.jcmp c o)) := by
  intro s s' a hx
  unfold visit at hx
  simp only at hx
  split at hx
  · exact ik_takeJump _ _ _ _ _ _ hx
  · cases hx; exact .refl _

theorem ik_switch (E : Env) (m : Nat) (h o : Int) : IK (visit E m h (.switch o)) := by
  intro s s' a hx
  unfold visit at hx
  simp only at hx
  split at hx
  · cases hx
  · cases hx; exact .refl _

theorem ik_bounds (E : Env) (m : Nat) (h n : Int) : IK (visit E m h (.bounds n)) := by
  intro s s' a hx
  unfold visit at hx
  simp only at hx
  split at hx <;> cases hx; exact .refl _

theorem ik_movs (E : Env) (m : Nat) (h n : Int) : IK (visit E m h (.movs n)) := by
  refine ik_bind ?_ fun _ => ik_pure _
  intro s s' a hx
  refine ik_bind (ik_vmOp (vk_acquire _ _)) (fun src => ik_bind (ik_vmOp (vk_acquire _ _)) fun dst =>
    ik_vmOp ?_) s s' a hx
  intro v v' u hv
  simp only at hv
  split at hv <;> cases hv; exact .upd _ _ _ _ _

theorem ik_fill (E : Env) (m : Nat) (h n : Int) : IK (visit E m h (.fill n)) := by
  refine ik_bind ?_ fun _ => ik_pure _
  intro s s' a hx
  refine ik_bind (ik_vmOp (vk_acquire _ _)) (fun dst => ik_vmOp ?_) s s' a hx
  intro v v' u hv
  simp only at hv
  split at hv <;> cases hv; exact .upd _ _ _ _ _

theorem ik_bin64 (E : Env) (m : Nat) (h o : Int) (op : Op64) : IK (visit E m h (.bin64 op o)) := by
  refine ik_bind ?_ fun _ => ik_pure _
  refine ik_bind (ik_getR _) fun p => ik_bind (ik_vmOp (vk_acquire64 _)) fun pp => ik_bind (ik_getR _) fun a =>
    ik_bind (ik_vmOp (vk_acquire64 _)) fun pa => ik_bind (ik_stackOffset _ _ _) fun off =>
    ik_bind (ik_vmOp (vk_slot64 _)) fun _ => ik_bind (ik_vmOp (vk_loadRaw64 _)) fun x =>
    ik_bind (ik_vmOp (vk_loadRaw64 _)) fun y => ?_
  split
  · exact ik_undef
  · exact ik_throwE _
  · exact ik_finish64 _ _

/-- Instructions that are compiled to code of their own keep block and frame. -/
theorem ik_visit {J : JitEnv} {i : Insn} {is : List Item} (hj : jit J i = .code is) (E : Env) (m : Nat) (h : Int) :
    IK (visit E m h i) := by
  cases i
  case bounds o => exact ik_bounds _ _ _ _
  case movs o => exact ik_movs _ _ _ _
  case fill o => exact ik_fill _ _ _ _
  case bin64 op o => exact ik_bin64 _ _ _ _ _
  case genarray n z =>
    simp only [jit] at hj
    split at hj
    · rename_i e
      refine ik_bind ?_ fun _ => ik_pure _
      rw [e]
      exact ik_vmOp (vk_genArray1 z)
    · cases hj
  case sysreqN => cases hj
  case sysreqC => cases hj
  case call => cases hj
  case retn => cases hj
  case jump => cases hj
  case jcmp => cases hj
  case switch => cases hj
  all_goals
    first
      | exact ik_pure _
      | exact ik_undef
      | exact ik_throwE _
      | (refine ik_bind ?_ fun _ => ik_pure _
         repeat' first
           | with_reducible exact ik_setR _ _
           | with_reducible exact ik_getR _
           | with_reducible exact ik_getFrm
           | with_reducible exact ik_undef
           | with_reducible exact ik_throwE _
           | with_reducible exact ik_stackOffset _ _ _
           | with_reducible exact ik_finish64 _ _
           | with_reducible exact ik_pushSlots _ _ _
           | with_reducible exact ik_pushAdrs _ _ _
           | with_reducible exact ik_vmOp (vk_getCellValue _)
           | with_reducible exact ik_vmOp (vk_setCellValue _ _)
           | with_reducible exact ik_vmOp (vk_getFrameValue _)
           | with_reducible exact ik_vmOp (vk_setFrameValue _ _)
           | with_reducible exact ik_vmOp (vk_heapAlloc _)
           | with_reducible exact ik_vmOp (vk_bump _ _)
           | with_reducible exact ik_vmOp (vk_throw _)
           | with_reducible exact ik_vmOp (vk_storeRaw8 _ _)
           | with_reducible exact ik_vmOp (vk_storeRaw _ _)
           | with_reducible exact ik_vmOp (vk_acquire _ _)
           | with_reducible exact ik_vmOp (vk_acquire64 _)
           | with_reducible exact ik_vmOp (vk_slot64 _)
           | with_reducible exact ik_vmOp (vk_loadRaw64 _)
           | with_reducible exact ik_vmOp (vk_storeRaw64 _ _)
           | with_reducible exact ik_vmOp (vk_pushTracker _)
           | with_reducible exact ik_vmOp vk_popTracker
           | with_reducible exact ik_vmOp vk_enter
           | with_reducible exact ik_vmOp vk_leave
           | with_reducible exact ik_vmOp vk_pop
           | with_reducible exact ik_vmOp (vk_push _)
           | with_reducible exact ik_vmOp (vk_pushAll _)
           | with_reducible exact ik_vmOp (vk_pushAddrs _)
           | with_reducible exact ik_vmOp (vk_addStack _)
           | with_reducible exact ik_vmOp (vk_initArray _ _ _ _ _ _)
           | with_reducible refine ik_ite ?_ ?_
           | with_reducible refine ik_bind ?_ fun _ => ?_
           | split)

/-- The setting is still there after an instruction that keeps block and frame. -/
theorem Setup.kept {H : Host} {J : JitEnv} {E : Env} {method : Nat} {s s' : IState} (S : Setup H J E method s)
    (k : Kept s.vm s'.vm) (L : Layout s'.vm) : Setup H J E method s' := by
  obtain ⟨b, f⟩ := k
  exact { S with
    size := by rw [S.size, b.1]
    jsize := by rw [S.jsize, b.1]
    jdata := by rw [S.jdata, b.2]
    layout := L
    frm0 := by rw [f]; exact S.frm0
    frm1 := by rw [f, b.3]; exact S.frm1 }

end Verif.Jit

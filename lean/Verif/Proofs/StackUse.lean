import Verif.Proofs.Mem
import Verif.Spec.Verifier

/-! How instructions move the stack pointer. -/
namespace Verif.Verifier
open Verif.VM

/-! ## Operations of the plugin -/

/-- The stack pointer is moved by `k` bytes. -/
def VMoves {α : Type} (x : VMM α) (k : Int) : Prop := ∀ s s' a, x s = .ok s' a → Is32 s.sp → s'.sp = wrap32 (s.sp + k)

/-- The stack pointer stays. -/
def VKeeps {α : Type} (x : VMM α) : Prop := ∀ s s' a, x s = .ok s' a → s'.sp = s.sp

theorem wrap_add (x k l : Int) : wrap32 (wrap32 (x + k) + l) = wrap32 (x + (k + l)) := by unfold wrap32; omega

theorem is32_wrap (x : Int) : Is32 (wrap32 x) := wrap32_range x

theorem vbind_ok {α β : Type} {x : VMM α} {f : α → VMM β} {s s' : State} {b : β} (h : (x >>= f) s = .ok s' b) :
    ∃ s1 a, x s = .ok s1 a ∧ f a s1 = .ok s' b := by
  have h' : VMM.bind x f s = .ok s' b := h
  unfold VMM.bind at h'
  split at h'
  · exact ⟨_, _, ‹_›, h'⟩
  · cases h'
  · cases h'

theorem vkeeps_pure {α : Type} (a : α) : VKeeps (pure a : VMM α) := by
  intro s s' b h; cases h; rfl

theorem vkeeps_bind {α β : Type} {x : VMM α} {f : α → VMM β} (hx : VKeeps x) (hf : ∀ a, VKeeps (f a)) : VKeeps (x >>= f) := by
  intro s s' b h
  obtain ⟨s1, a, h1, h2⟩ := vbind_ok h
  rw [hf a _ _ _ h2, hx _ _ _ h1]

theorem vmoves_of_keeps {α : Type} {x : VMM α} (h : VKeeps x) : VMoves x 0 := by
  intro s s' a hx hr
  rw [h _ _ _ hx, Int.add_zero, wrap32_id hr.1 hr.2]

theorem vmoves_bind {α β : Type} {x : VMM α} {f : α → VMM β} {k l : Int} (hx : VMoves x k) (hf : ∀ a, VMoves (f a) l) :
    VMoves (x >>= f) (k + l) := by
  intro s s' b h hr
  obtain ⟨s1, a, h1, h2⟩ := vbind_ok h
  have e1 := hx _ _ _ h1 hr
  rw [hf a _ _ _ h2 (by rw [e1]; exact is32_wrap _), e1, wrap_add]

theorem vkeeps_loadRaw (a : Int) : VKeeps (loadRaw a) := by
  intro s s' v h; unfold loadRaw at h; split at h <;> cases h; rfl

theorem vkeeps_storeRaw (a : Int) (v : Cell) : VKeeps (storeRaw a v) := by
  intro s s' u h; unfold storeRaw at h; split at h <;> cases h; rfl

theorem vkeeps_storeRaw8 (a : Int) (v : BitVec 8) : VKeeps (storeRaw8 a v) := by
  intro s s' u h; unfold storeRaw8 at h; split at h <;> cases h; rfl

theorem vkeeps_throwIfBadAddress (a : Int) : VKeeps (throwIfBadAddress a) := by
  intro s s' v h; unfold throwIfBadAddress at h; split at h <;> cases h; rfl

theorem vkeeps_localToPhysAddr (a : Int) : VKeeps (localToPhysAddr a) := by
  intro s s' v h; unfold localToPhysAddr at h; split at h <;> cases h; rfl

theorem vkeeps_getCellValue (a : Int) : VKeeps (getCellValue a) :=
  vkeeps_bind (vkeeps_throwIfBadAddress a) fun _ => vkeeps_loadRaw _

theorem vkeeps_setCellValue (a : Int) (v : Cell) : VKeeps (setCellValue a v) :=
  vkeeps_bind (vkeeps_throwIfBadAddress a) fun _ => vkeeps_storeRaw _ _

theorem vkeeps_getFrameValue (o : Int) : VKeeps (getFrameValue o) := by
  intro s s' v h; exact vkeeps_getCellValue _ _ _ _ h

theorem vkeeps_setFrameValue (o : Int) (v : Cell) : VKeeps (setFrameValue o v) := by
  intro s s' u h; exact vkeeps_setCellValue _ _ _ _ _ h

theorem vkeeps_heapAlloc (n : Int) : VKeeps (heapAlloc n) := by
  intro s s' v h
  unfold heapAlloc at h
  simp only at h
  split at h <;> split at h <;> cases h <;> rfl

theorem vkeeps_pushTracker (n : Int) : VKeeps (pushTracker n) := by
  intro s s' v h
  unfold pushTracker at h
  split at h
  · cases h
  · split at h
    · cases h
    · have := vkeeps_storeRaw _ _ _ _ _ h
      exact this

theorem vkeeps_popTracker : VKeeps popTracker := by
  intro s s' v h
  unfold popTracker at h
  split at h
  · cases h
  · simp only at h
    split at h
    · rename_i s1 amt h1
      have e := vkeeps_loadRaw _ _ _ _ h1
      split at h
      · cases h
      · cases h; exact e
    · cases h
    · cases h

theorem vkeeps_enterHeapScope : VKeeps enterHeapScope := by
  intro s s' v h
  unfold enterHeapScope at h
  split at h
  · rename_i s1 a h1
    have e := vkeeps_heapAlloc _ _ _ _ h1
    have e2 := vkeeps_bind (vkeeps_throwIfBadAddress a) (fun p => vkeeps_storeRaw p (BitVec.ofInt 32 s.hpScope)) _ _ _ h
    rw [e2]; exact e
  · cases h
  · cases h

theorem vkeeps_leaveHeapScope : VKeeps leaveHeapScope := by
  intro s s' v h
  unfold leaveHeapScope at h
  split at h
  · rename_i s1 prev h1
    have e := vkeeps_bind (vkeeps_throwIfBadAddress s.hpScope) (fun p => vkeeps_loadRaw p) _ _ _ h1
    simp only at h
    split at h
    · split at h
      · rename_i s3 _ h3
        have e3 := vkeeps_throwIfBadAddress _ _ _ _ h3
        cases h
        rw [e3]; exact e
      · cases h
      · cases h
    · cases h; exact e
  · cases h
  · cases h

theorem vkeeps_acquireAddrRange (a n : Int) : VKeeps (acquireAddrRange a n) := by
  refine vkeeps_bind (vkeeps_throwIfBadAddress _) fun p => ?_
  split
  · exact vkeeps_bind (vkeeps_throwIfBadAddress _) fun _ => vkeeps_pure _
  · exact vkeeps_pure _

theorem vkeeps_acquireInt64Addr (a : Int) : VKeeps (acquireInt64Addr a) := vkeeps_acquireAddrRange _ _

theorem vkeeps_acquireInt64Slot (o : Int) : VKeeps (acquireInt64Slot o) := by
  intro s s' v h
  unfold acquireInt64Slot at h
  split at h
  · rename_i s1 a h1
    cases h
    exact vkeeps_throwIfBadAddress _ _ _ _ h1
  · cases h

theorem vkeeps_loadRaw64 (a : Int) : VKeeps (loadRaw64 a) := by
  intro s s' v h; unfold loadRaw64 at h; split at h <;> cases h; rfl

theorem vkeeps_storeRaw64 (a : Int) (v : BitVec 64) : VKeeps (storeRaw64 a v) := by
  intro s s' u h; unfold storeRaw64 at h; split at h <;> cases h; rfl

theorem vkeeps_bumpCell (a : Int) (d : Cell) : VKeeps (bumpCell a d) :=
  vkeeps_bind (vkeeps_throwIfBadAddress _) fun _ => vkeeps_bind (vkeeps_loadRaw _) fun _ => vkeeps_storeRaw _ _

theorem vkeeps_initArray (arr dat iv cp fl : Int) (v : Cell) : VKeeps (initArray arr dat iv cp fl v) := by
  intro s s' u h
  unfold initArray at h
  split at h
  · cases h
  · cases h
  · rename_i s1 p h1
    have e1 := vkeeps_localToPhysAddr _ _ _ _ h1
    split at h
    · cases h
    · simp only at h
      split at h
      · cases h
      · split at h
        · rename_i s2 u2 h2
          have e2 : s2.sp = s1.sp := by
            clear h
            split at h2
            · cases h2; rfl
            · split at h2
              · cases h2
              · cases h2
              · rename_i s3 p3 h3
                have e3 := vkeeps_localToPhysAddr _ _ _ _ h3
                split at h2
                · cases h2
                · split at h2
                  · cases h2
                  · cases h2; exact e3
          split at h
          · cases h; rw [e2, e1]
          · split at h
            · cases h
            · cases h; exact e2.trans e1
        · cases h
        · cases h

theorem vmoves_pushStack (v : Cell) : VMoves (pushStack v) (-4) := by
  intro s s' u h _
  unfold pushStack at h
  split at h
  · cases h
  · have := vkeeps_storeRaw _ _ _ _ _ h
    rw [this]; rfl

theorem vmoves_popStack : VMoves popStack 4 := by
  intro s s' v h _
  unfold popStack at h
  split at h
  · cases h
  · split at h
    · rename_i s1 w h1
      have := vkeeps_loadRaw _ _ _ _ h1
      cases h
      simp only
      rw [this]
    · cases h
    · cases h

theorem vmoves_addStack (n : Int) : VMoves (addStack n) n := by
  intro s s' v h _
  unfold addStack at h
  simp only at h
  split at h <;> split at h <;> cases h <;> rfl

theorem vmoves_popN : ∀ n : Nat, VMoves (popN n) (4 * n)
  | 0 => vmoves_of_keeps (vkeeps_pure ())
  | n+1 => by
    have := vmoves_bind vmoves_popStack fun _ => vmoves_popN n
    rw [show (4 : Int) + 4 * n = 4 * ((n + 1 : Nat) : Int) by omega] at this
    exact this

theorem vmoves_popList : ∀ n : Nat, VMoves (popList n) (4 * n)
  | 0 => vmoves_of_keeps (vkeeps_pure ([] : List Cell))
  | n+1 => by
    have := vmoves_bind vmoves_popStack fun v => vmoves_bind (vmoves_popList n) fun vs => vmoves_of_keeps (vkeeps_pure (v :: vs))
    rw [show (4 : Int) + (4 * n + 0) = 4 * ((n + 1 : Nat) : Int) by omega] at this
    exact this

theorem vmoves_pushAll : ∀ vs : List Cell, VMoves (pushAll vs) (-(4 * vs.length))
  | [] => vmoves_of_keeps (vkeeps_pure ())
  | v :: vs => by
    have := vmoves_bind (vmoves_pushStack v) fun _ => vmoves_pushAll vs
    rw [show (-4 : Int) + -(4 * vs.length) = -(4 * ((v :: vs).length : Int)) by rw [List.length_cons]; omega] at this
    exact this

theorem vmoves_pushAddrs : ∀ vs : List Cell, VMoves (pushAddrs vs) (-(4 * vs.length))
  | [] => vmoves_of_keeps (vkeeps_pure ())
  | v :: vs => by
    have := vmoves_bind (vmoves_of_keeps (vkeeps_getCellValue v.toInt)) fun w => vmoves_bind (vmoves_pushStack w) fun _ => vmoves_pushAddrs vs
    rw [show (0 : Int) + (-4 + -(4 * vs.length)) = -(4 * ((v :: vs).length : Int)) by rw [List.length_cons]; omega] at this
    exact this

theorem vkeeps_generateArray1 (p : Int) (z : Bool) : VKeeps (generateArray1 p z) := by
  intro s s' u h
  unfold generateArray1 at h
  split at h
  · rename_i s1 c h1
    have e1 := vkeeps_loadRaw _ _ _ _ h1
    simp only at h
    split at h
    · cases h
    · split at h
      · cases h
      · split at h
        · cases h
        · split at h
          · split at h
            · split at h
              · cases h; exact e1
              · cases h
            · cases h; exact e1
          · split at h
            · rename_i s3 u3 h3
              have e3 := vkeeps_pushTracker _ _ _ _ h3
              split at h
              · split at h
                · cases h; exact e3.trans e1
                · cases h
              · cases h; exact e3.trans e1
            · cases h
            · cases h
  · cases h
  · cases h

theorem vkeeps_generateFullArray (ds : List Int) (z : Bool) : VKeeps (generateFullArray ds z) := by
  intro s s' u h
  unfold generateFullArray at h
  split at h
  · cases h
  · simp only at h
    split at h
    · cases h
    · split at h
      · cases h
      · split at h
        · cases h
        · split at h
          · cases h; rfl
          · split at h
            · rename_i s3 u3 h3
              have e3 := vkeeps_pushTracker _ _ _ _ h3
              cases h; exact e3
            · cases h
            · cases h

theorem vmoves_genArray (n : Nat) (hn : 0 < n) (z : Bool) : VMoves (genArray n z) (4 * (n - 1)) := by
  intro s s' u h hr
  unfold genArray at h
  split at h
  · rename_i s1 p h1
    have e1 := vkeeps_acquireAddrRange _ _ _ _ _ h1
    split at h
    · rename_i h1
      rw [vkeeps_generateArray1 _ _ _ _ _ h, e1, h1]
      rw [show s.sp + 4 * (((1 : Nat) : Int) - 1) = s.sp by omega, wrap32_id hr.1 hr.2]
    · split at h
      · rename_i s2 base h2
        have e2 := vkeeps_generateFullArray _ _ _ _ _ h2
        have := vmoves_bind (vmoves_of_keeps (vkeeps_storeRaw (p + (n - 1) * 4) (BitVec.ofInt 32 base))) (fun _ => vmoves_popN (n - 1))
          _ _ _ h (by rw [e2, e1]; exact hr)
        rw [this, e2, e1]
        congr 1
        omega
      · cases h
      · cases h
  · cases h
  · cases h

/-- What is on top after pushing values. -/
theorem pushAll_top : ∀ (vs : List Cell) (s s' : State) (u : Unit) (v : Cell), pushAll vs s = .ok s' u → vs.getLast? = some v →
    rd32 s'.mem s'.sp = v
  | [], _, _, _, _, _, h => by cases h
  | [w], s, s', u, v, h, hl => by
    cases hl
    obtain ⟨s1, _, h1, h2⟩ := vbind_ok h
    cases h2
    unfold pushStack storeRaw at h1
    split at h1
    · cases h1
    · split at h1
      · cases h1; exact rd32_wr32_same ..
      · cases h1
  | w :: w' :: vs, s, s', u, v, h, hl => by
    obtain ⟨s1, _, h1, h2⟩ := vbind_ok h
    exact pushAll_top (w' :: vs) s1 s' u v h2 (by rw [List.getLast?_cons_cons] at hl; exact hl)

/-! ## Actions of the interpreter -/

/-- The stack pointer is moved by `k` bytes. -/
def Moves {α : Type} (x : IM α) (k : Int) : Prop := ∀ s s' a, x s = .ok s' a → Is32 s.vm.sp → s'.vm.sp = wrap32 (s.vm.sp + k)

/-- The stack pointer stays. -/
def Keeps {α : Type} (x : IM α) : Prop := ∀ s s' a, x s = .ok s' a → s'.vm.sp = s.vm.sp

theorem ibind_ok {α β : Type} {x : IM α} {f : α → IM β} {s s' : IState} {b : β} (h : (x >>= f) s = .ok s' b) :
    ∃ s1 a, x s = .ok s1 a ∧ f a s1 = .ok s' b := by
  have h' : IM.bind x f s = .ok s' b := h
  unfold IM.bind at h'
  split at h'
  · exact ⟨_, _, ‹_›, h'⟩
  · cases h'
  · cases h'

theorem keeps_pure {α : Type} (a : α) : Keeps (pure a : IM α) := by
  intro s s' b h; cases h; rfl

theorem keeps_bind {α β : Type} {x : IM α} {f : α → IM β} (hx : Keeps x) (hf : ∀ a, Keeps (f a)) : Keeps (x >>= f) := by
  intro s s' b h
  obtain ⟨s1, a, h1, h2⟩ := ibind_ok h
  rw [hf a _ _ _ h2, hx _ _ _ h1]

theorem moves_of_keeps {α : Type} {x : IM α} (h : Keeps x) : Moves x 0 := by
  intro s s' a hx hr
  rw [h _ _ _ hx, Int.add_zero, wrap32_id hr.1 hr.2]

theorem moves_bind {α β : Type} {x : IM α} {f : α → IM β} {k l : Int} (hx : Moves x k) (hf : ∀ a, Moves (f a) l) :
    Moves (x >>= f) (k + l) := by
  intro s s' b h hr
  obtain ⟨s1, a, h1, h2⟩ := ibind_ok h
  have e1 := hx _ _ _ h1 hr
  rw [hf a _ _ _ h2 (by rw [e1]; exact is32_wrap _), e1, wrap_add]

theorem vmOp_ok {α : Type} {x : VMM α} {s s' : IState} {a : α} (h : vmOp x s = .ok s' a) : x s.vm = .ok s'.vm a := by
  unfold vmOp at h
  split at h
  · cases h; assumption
  · cases h
  · cases h

theorem keeps_vmOp {α : Type} {x : VMM α} (h : VKeeps x) : Keeps (vmOp x) := by
  intro s s' a hx; exact h _ _ _ (vmOp_ok hx)

theorem moves_vmOp {α : Type} {x : VMM α} {k : Int} (h : VMoves x k) : Moves (vmOp x) k := by
  intro s s' a hx hr; exact h _ _ _ (vmOp_ok hx) hr

theorem keeps_getR (r : Reg) : Keeps (getR r) := by intro s s' a h; cases h; rfl
theorem keeps_setR (r : Reg) (v : Cell) : Keeps (setR r v) := by intro s s' a h; cases h; cases r <;> rfl
theorem keeps_throwE {α : Type} (e : Err) : Keeps (throwE e : IM α) := by intro s s' a h; cases h
theorem keeps_undef {α : Type} : Keeps (undef : IM α) := by intro s s' a h; cases h
theorem keeps_getFrm : Keeps getFrm := by intro s s' a h; cases h; rfl

theorem keeps_stackOffset (E : Env) (m : Nat) (o : Int) : Keeps (stackOffset E m o) := by
  unfold stackOffset
  split
  · exact keeps_pure _
  · split
    · exact keeps_pure _
    · split
      · exact keeps_pure _
      · exact keeps_undef

theorem keeps_finish64 (o : Int) (v : BitVec 64) : Keeps (finish64 o v) :=
  keeps_bind (keeps_vmOp (vkeeps_acquireInt64Slot _)) fun _ => keeps_bind (keeps_vmOp (vkeeps_storeRaw64 _ _)) fun _ =>
    keeps_bind keeps_getFrm fun _ => keeps_setR _ _

theorem keeps_ite {α : Type} {c : Prop} [Decidable c] {x y : IM α} (hx : Keeps x) (hy : Keeps y) : Keeps (if c then x else y) := by
  split <;> assumption

theorem keeps_invokeNative (E : Env) (i : Int) : Keeps (invokeNative E i) := by
  intro s s' a h
  unfold invokeNative at h
  split at h
  · cases h
  · split at h
    · cases h
    · split at h
      · split at h
        · cases h; rfl
        · cases h
        · cases h
      · cases h

theorem keeps_takeJump (E : Env) (h o : Int) : Keeps (takeJump E h o) := by
  intro s s' a hx
  unfold takeJump at hx
  split at hx
  · split at hx <;> cases hx; rfl
  · cases hx; rfl

theorem moves_pushSlots (E : Env) (m : Nat) : ∀ vs : List Cell, Moves (pushSlots E m vs) (-(4 * vs.length))
  | [] => moves_of_keeps (keeps_pure ())
  | v :: vs => by
    have := moves_bind (moves_of_keeps (keeps_stackOffset E m v.toInt)) fun off =>
      moves_bind (moves_of_keeps (keeps_vmOp (vkeeps_getFrameValue off))) fun w =>
        moves_bind (moves_vmOp (vmoves_pushStack w)) fun _ => moves_pushSlots E m vs
    rw [show (0 : Int) + (0 + (-4 + -(4 * vs.length))) = -(4 * ((v :: vs).length : Int)) by rw [List.length_cons]; omega] at this
    exact this

theorem moves_pushAdrs (E : Env) (m : Nat) : ∀ vs : List Cell, Moves (pushAdrs E m vs) (-(4 * vs.length))
  | [] => moves_of_keeps (keeps_pure ())
  | v :: vs => by
    have := moves_bind (moves_of_keeps (keeps_stackOffset E m v.toInt)) fun off =>
      moves_bind (moves_of_keeps keeps_getFrm) fun f =>
        moves_bind (moves_vmOp (vmoves_pushStack (BitVec.ofInt 32 (wrap32 (f + off))))) fun _ => moves_pushAdrs E m vs
    rw [show (0 : Int) + (0 + (-4 + -(4 * vs.length))) = -(4 * ((v :: vs).length : Int)) by rw [List.length_cons]; omega] at this
    exact this

end Verif.Verifier

namespace Verif.Verifier
open Verif.VM

/-! ## Instructions -/

/-- Cells an instruction adds to the stack (a CALL is counted when it comes back). -/
def net : Insn → Int
  | .push _ => 1
  | .pop _ => -1
  | .pushC vs => vs.length
  | .pushA vs => vs.length
  | .pushS vs => vs.length
  | .pushAdr vs => vs.length
  | .pushII64 => 2
  | .stack n => -(n / 4)
  | .sysreqN _ n => -n
  | .genarray n _ => -(n - 1)
  | _ => 0

/-- Operands with which an instruction is as `net` says. -/
def Fits (E : Env) : Insn → Prop
  | .stack n => n % 4 = 0
  | .sysreqN i n => 0 ≤ n ∧ n ≤ 127 ∧
      ∀ nat k f, E.natives i.toNat = some nat → nat.bound = true → nat.fixed = true → nat.replacement = some (k, f) → n = k
  | .genarray n _ => 0 < n ∧ n < 2147483648
  | _ => True

theorem keeps_visit_jcmp (E : Env) (m : Nat) (h o : Int) (c : Cmp) : Keeps (visit E m h (.jcmp c o)) := by
  intro s s' a hx
  unfold visit at hx
  simp only at hx
  split at hx
  · exact keeps_takeJump _ _ _ _ _ _ hx
  · cases hx; rfl

theorem keeps_switch (E : Env) (m : Nat) (h o : Int) : Keeps (visit E m h (.switch o)) := by
  intro s s' a hx
  unfold visit at hx
  simp only at hx
  split at hx
  · cases hx
  · cases hx; rfl

theorem keeps_bounds (E : Env) (m : Nat) (h n : Int) : Keeps (visit E m h (.bounds n)) := by
  intro s s' a hx
  unfold visit at hx
  simp only at hx
  split at hx <;> cases hx; rfl

theorem keeps_match {α β : Type} {o : Option α} {x : IM β} {y : α → IM β} (hx : Keeps x) (hy : ∀ a, Keeps (y a)) :
    Keeps (match o with | none => x | some a => y a) := by
  cases o
  · exact hx
  · exact hy _

theorem keeps_movs (E : Env) (m : Nat) (h n : Int) : Keeps (visit E m h (.movs n)) := by
  refine keeps_bind ?_ fun _ => keeps_pure _
  intro s s' a hx
  refine keeps_bind (keeps_vmOp (vkeeps_acquireAddrRange _ _)) (fun src => keeps_bind (keeps_vmOp (vkeeps_acquireAddrRange _ _)) fun dst =>
    keeps_vmOp ?_) s s' a hx
  intro v v' u hv
  simp only at hv
  split at hv <;> cases hv; rfl

theorem keeps_fill (E : Env) (m : Nat) (h n : Int) : Keeps (visit E m h (.fill n)) := by
  refine keeps_bind ?_ fun _ => keeps_pure _
  intro s s' a hx
  refine keeps_bind (keeps_vmOp (vkeeps_acquireAddrRange _ _)) (fun dst => keeps_vmOp ?_) s s' a hx
  intro v v' u hv
  simp only at hv
  split at hv <;> cases hv; rfl

theorem keeps_bin64 (E : Env) (m : Nat) (h o : Int) (op : Op64) : Keeps (visit E m h (.bin64 op o)) := by
  refine keeps_bind ?_ fun _ => keeps_pure _
  refine keeps_bind (keeps_getR _) fun p => keeps_bind (keeps_vmOp (vkeeps_acquireInt64Addr _)) fun pp => keeps_bind (keeps_getR _) fun a =>
    keeps_bind (keeps_vmOp (vkeeps_acquireInt64Addr _)) fun pa => keeps_bind (keeps_stackOffset _ _ _) fun off =>
    keeps_bind (keeps_vmOp (vkeeps_acquireInt64Slot _)) fun _ => keeps_bind (keeps_vmOp (vkeeps_loadRaw64 _)) fun x =>
    keeps_bind (keeps_vmOp (vkeeps_loadRaw64 _)) fun y => ?_
  split
  · exact keeps_undef
  · exact keeps_throwE _
  · exact keeps_finish64 _ _

theorem moves_sysreqN (E : Env) (m : Nat) (h i n : Int) (hf : Fits E (.sysreqN i n)) : Moves (visit E m h (.sysreqN i n)) (4 * n) := by
  obtain ⟨h0, h127, hk⟩ := hf
  have hx : Moves (fun s =>
      match E.natives i.toNat with
      | none => .ub
      | some nat =>
        if i < 0 then .ub
        else match (if nat.bound && nat.fixed then nat.replacement else none) with
          | some (k, f) => (do let vs ← vmOp (popList k); setR .pri (f vs) : IM Unit) s
          | none => (do
              vmOp (Verif.VM.pushStack (BitVec.ofInt 32 n))
              invokeNative E i
              vmOp (popN ((n + 1) % 4294967296).toNat) : IM Unit) s : IM Unit) (4 * n) := by
    intro s s' a hx hr
    simp only at hx
    split at hx
    · cases hx
    · rename_i nat hn
      split at hx
      · cases hx
      · split at hx
        · rename_i k f he
          have hb : nat.bound = true ∧ nat.fixed = true := by
            revert he
            cases nat.bound <;> cases nat.fixed <;> simp
          rw [hb.1, hb.2] at he
          have := hk nat k f hn hb.1 hb.2 he
          have hm := moves_bind (moves_vmOp (vmoves_popList k)) (fun vs => moves_of_keeps (keeps_setR .pri (f vs))) _ _ _ hx hr
          rw [hm]
          congr 1
          omega
        · have hm := moves_bind (moves_vmOp (vmoves_pushStack (BitVec.ofInt 32 n))) (fun _ =>
            moves_bind (moves_of_keeps (keeps_invokeNative E i)) fun _ => moves_vmOp (vmoves_popN ((n + 1) % 4294967296).toNat)) _ _ _ hx hr
          rw [hm]
          congr 1
          omega
  have := moves_bind hx fun _ => moves_of_keeps (keeps_pure Ctl.next)
  rw [Int.add_zero] at this
  exact this

/-- Instructions that write the stack pointer. -/
def moving : Insn → Bool
  | .retn => true
  | .pushC _ => true
  | .pushA _ => true
  | .pushS _ => true
  | .pushAdr _ => true
  | .push _ => true
  | .pop _ => true
  | .pushII64 => true
  | .swap _ => true
  | .stack _ => true
  | .genarray _ _ => true
  | .sysreqN _ _ => true
  | _ => false

theorem visit_keeps (E : Env) (m : Nat) (h : Int) (i : Insn) (hm : moving i = false) : Keeps (visit E m h i) := by
  cases i
  case retn => cases hm
  case pushC => cases hm
  case pushA => cases hm
  case pushS => cases hm
  case pushAdr => cases hm
  case push => cases hm
  case pop => cases hm
  case pushII64 => cases hm
  case swap => cases hm
  case stack => cases hm
  case genarray => cases hm
  case sysreqN => cases hm
  case jump o => exact keeps_takeJump _ _ _
  case jcmp c o => exact keeps_visit_jcmp _ _ _ _ _
  case switch o => exact keeps_switch _ _ _ _
  case bounds o => exact keeps_bounds _ _ _ _
  case movs o => exact keeps_movs _ _ _ _
  case fill o => exact keeps_fill _ _ _ _
  case bin64 op o => exact keeps_bin64 _ _ _ _ _
  all_goals
    first
      | exact keeps_pure _
      | exact keeps_undef
      | exact keeps_throwE _
      | (refine keeps_bind ?_ fun _ => keeps_pure _
         repeat' first
           | with_reducible exact keeps_setR _ _
           | with_reducible exact keeps_getR _
           | with_reducible exact keeps_getFrm
           | with_reducible exact keeps_undef
           | with_reducible exact keeps_throwE _
           | with_reducible exact keeps_stackOffset _ _ _
           | with_reducible exact keeps_finish64 _ _
           | with_reducible exact keeps_invokeNative _ _
           | with_reducible exact keeps_vmOp (vkeeps_getCellValue _)
           | with_reducible exact keeps_vmOp (vkeeps_setCellValue _ _)
           | with_reducible exact keeps_vmOp (vkeeps_getFrameValue _)
           | with_reducible exact keeps_vmOp (vkeeps_setFrameValue _ _)
           | with_reducible exact keeps_vmOp (vkeeps_heapAlloc _)
           | with_reducible exact keeps_vmOp (vkeeps_bumpCell _ _)
           | with_reducible exact keeps_vmOp (vkeeps_throwIfBadAddress _)
           | with_reducible exact keeps_vmOp (vkeeps_storeRaw8 _ _)
           | with_reducible exact keeps_vmOp (vkeeps_storeRaw _ _)
           | with_reducible exact keeps_vmOp (vkeeps_acquireAddrRange _ _)
           | with_reducible exact keeps_vmOp (vkeeps_acquireInt64Addr _)
           | with_reducible exact keeps_vmOp (vkeeps_acquireInt64Slot _)
           | with_reducible exact keeps_vmOp (vkeeps_loadRaw64 _)
           | with_reducible exact keeps_vmOp (vkeeps_storeRaw64 _ _)
           | with_reducible exact keeps_vmOp (vkeeps_pushTracker _)
           | with_reducible exact keeps_vmOp vkeeps_popTracker
           | with_reducible exact keeps_vmOp vkeeps_enterHeapScope
           | with_reducible exact keeps_vmOp vkeeps_leaveHeapScope
           | with_reducible exact keeps_vmOp (vkeeps_initArray _ _ _ _ _ _)
           | with_reducible refine keeps_ite ?_ ?_
           | with_reducible refine keeps_bind ?_ fun _ => ?_
           | split)

/-- What an instruction does to the stack pointer. -/
theorem visit_moves (E : Env) (m : Nat) (h : Int) (i : Insn) (hf : Fits E i) (hr : i ≠ .retn) : Moves (visit E m h i) (-(4 * net i)) := by
  have keep : net i = 0 → Keeps (visit E m h i) → Moves (visit E m h i) (-(4 * net i)) := by
    intro h0 hk
    rw [h0]
    exact moves_of_keeps hk
  have move : ∀ {x : IM Unit} {k : Int}, Moves x k → Moves (do x; pure Ctl.next) k := by
    intro x k hx
    have := moves_bind hx fun _ => moves_of_keeps (keeps_pure Ctl.next)
    rw [Int.add_zero] at this
    exact this
  have fix : ∀ {x : IM Ctl} {k l : Int}, Moves x k → k = l → Moves x l := fun hx he => he ▸ hx
  cases i
  case retn => exact absurd rfl hr
  case pushC vs => exact move (moves_vmOp (vmoves_pushAll vs))
  case pushA vs => exact move (moves_vmOp (vmoves_pushAddrs vs))
  case pushS vs => exact move (moves_pushSlots E m vs)
  case pushAdr vs => exact move (moves_pushAdrs E m vs)
  case push r => exact fix (move (moves_bind (moves_of_keeps (keeps_getR r)) fun v => moves_vmOp (vmoves_pushStack v))) rfl
  case pop r => exact fix (move (moves_bind (moves_vmOp vmoves_popStack) fun v => moves_of_keeps (keeps_setR r v))) rfl
  case pushII64 =>
    refine fix (move (moves_bind (moves_of_keeps (keeps_getR .pri)) fun p =>
      moves_bind (moves_of_keeps (keeps_vmOp (vkeeps_acquireAddrRange p.toInt 8))) fun a =>
      moves_bind (moves_of_keeps (keeps_vmOp (vkeeps_loadRaw64 a))) fun v =>
      moves_bind (moves_vmOp (vmoves_pushStack _)) fun _ => moves_vmOp (vmoves_pushStack _))) rfl
  case swap r =>
    refine fix (move (moves_bind (moves_of_keeps (keeps_getR r)) fun t => moves_bind (moves_vmOp vmoves_popStack) fun v =>
      moves_bind (moves_of_keeps (keeps_setR r v)) fun _ => moves_vmOp (vmoves_pushStack t))) rfl
  case stack n =>
    have : n % 4 = 0 := hf
    refine fix (move (moves_vmOp (vmoves_addStack n))) ?_
    simp only [net]; omega
  case genarray n z =>
    have h0 : 0 < n ∧ n < 2147483648 := hf
    refine fix (move (moves_vmOp (vmoves_genArray (n % 4294967296).toNat (by omega) z))) ?_
    simp only [net]; omega
  case sysreqN j n =>
    refine fix (moves_sysreqN E m h j n hf) ?_
    simp only [net]; omega
  all_goals exact keep rfl (visit_keeps _ _ _ _ rfl)

end Verif.Verifier

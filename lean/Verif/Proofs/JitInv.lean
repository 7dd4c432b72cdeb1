import Verif.Model.Jit
import Verif.Proofs.History

/-! What a successful operation of the interpreter says about its state. -/
namespace Verif.VM
open Verif.Jit (slotOffset)

theorem im_bind_inv {α β : Type} {x : IM α} {f : α → IM β} {s s' : IState} {b : β}
    (h : (x >>= f) s = .ok s' b) : ∃ s1 a, x s = .ok s1 a ∧ f a s1 = .ok s' b := by
  change IM.bind x f s = _ at h
  unfold IM.bind at h
  split at h
  · exact ⟨_, _, ‹_›, h⟩
  · cases h
  · cases h

theorem vmm_bind_inv {α β : Type} {x : VMM α} {f : α → VMM β} {s s' : State} {b : β}
    (h : (x >>= f) s = .ok s' b) : ∃ s1 a, x s = .ok s1 a ∧ f a s1 = .ok s' b := by
  change VMM.bind x f s = _ at h
  unfold VMM.bind at h
  split at h
  · exact ⟨_, _, ‹_›, h⟩
  · cases h
  · cases h

/-- Peel the final `pure .next`. -/
theorem done_inv {x : IM Unit} {s s' : IState} {c : Ctl} (h : (x >>= fun _ => pure Ctl.next) s = .ok s' c) :
    x s = .ok s' () := by
  obtain ⟨s1, a, h1, h2⟩ := im_bind_inv h
  cases h2
  exact h1

theorem vmOp_inv {α : Type} {x : VMM α} {s s' : IState} {a : α} (h : vmOp x s = .ok s' a) :
    ∃ v, x s.vm = .ok v a ∧ s' = { s with vm := v } := by
  unfold vmOp at h
  split at h
  · cases h; exact ⟨_, ‹_›, rfl⟩
  · cases h
  · cases h

theorem getR_inv {r : Reg} {s s' : IState} {a : Cell} (h : getR r s = .ok s' a) : s' = s ∧ a = s.reg r := by
  cases h; exact ⟨rfl, rfl⟩
theorem setR_inv {r : Reg} {v : Cell} {s s' : IState} {a : Unit} (h : setR r v s = .ok s' a) : s' = s.setReg r v := by
  cases h; rfl
theorem getFrm_inv {s s' : IState} {a : Int} (h : getFrm s = .ok s' a) : s' = s ∧ a = s.vm.frm := by
  cases h; exact ⟨rfl, rfl⟩
theorem im_pure_inv {α : Type} {a b : α} {s s' : IState} (h : (pure a : IM α) s = .ok s' b) : s' = s ∧ b = a := by
  cases h; exact ⟨rfl, rfl⟩

/-- An address the interpreter accepts. -/
def GoodAddr (s : State) (a : Int) : Prop := 0 ≤ a ∧ (a < s.hp ∨ s.sp ≤ a) ∧ a < s.stp

theorem throw_inv {a : Int} {s s' : State} {b : Int} (h : throwIfBadAddress a s = .ok s' b) :
    s' = s ∧ b = a ∧ GoodAddr s a := by
  unfold throwIfBadAddress at h
  split at h
  · cases h
  · rename_i hc
    cases h
    exact ⟨rfl, rfl, by unfold GoodAddr; omega⟩

theorem loadRaw_inv {a : Int} {s s' : State} {v : Cell} (h : loadRaw a s = .ok s' v) :
    s' = s ∧ v = rd32 s.mem a ∧ s.inMem a 4 := by
  unfold loadRaw at h
  split at h
  · cases h; exact ⟨rfl, rfl, ‹_›⟩
  · cases h
theorem storeRaw_inv {a : Int} {s s' : State} {v : Cell} {u : Unit} (h : storeRaw a v s = .ok s' u) :
    s' = { s with mem := wr32 s.mem a v } ∧ s.inMem a 4 := by
  unfold storeRaw at h
  split at h
  · cases h; exact ⟨rfl, ‹_›⟩
  · cases h
theorem storeRaw8_inv {a : Int} {s s' : State} {v : BitVec 8} {u : Unit} (h : storeRaw8 a v s = .ok s' u) :
    s' = { s with mem := wr8 s.mem a v } ∧ s.inMem a 1 := by
  unfold storeRaw8 at h
  split at h
  · cases h; exact ⟨rfl, ‹_›⟩
  · cases h
theorem loadRaw64_inv {a : Int} {s s' : State} {v : BitVec 64} (h : loadRaw64 a s = .ok s' v) :
    s' = s ∧ v = rd64 s.mem a ∧ s.inMem a 8 := by
  unfold loadRaw64 at h
  split at h
  · cases h; exact ⟨rfl, rfl, ‹_›⟩
  · cases h
theorem storeRaw64_inv {a : Int} {s s' : State} {v : BitVec 64} {u : Unit} (h : storeRaw64 a v s = .ok s' u) :
    s' = { s with mem := wr64 s.mem a v } ∧ s.inMem a 8 := by
  unfold storeRaw64 at h
  split at h
  · cases h; exact ⟨rfl, ‹_›⟩
  · cases h

theorem getCell_inv {a : Int} {s s' : State} {v : Cell} (h : getCellValue a s = .ok s' v) :
    s' = s ∧ v = rd32 s.mem a ∧ GoodAddr s a ∧ s.inMem a 4 := by
  obtain ⟨s1, b, h1, h2⟩ := vmm_bind_inv h
  obtain ⟨rfl, rfl, g⟩ := throw_inv h1
  obtain ⟨e1, e2, g2⟩ := loadRaw_inv h2
  exact ⟨e1, e2, g, g2⟩
theorem setCell_inv {a : Int} {s s' : State} {v : Cell} {u : Unit} (h : setCellValue a v s = .ok s' u) :
    s' = { s with mem := wr32 s.mem a v } ∧ GoodAddr s a ∧ s.inMem a 4 := by
  obtain ⟨s1, b, h1, h2⟩ := vmm_bind_inv h
  obtain ⟨rfl, rfl, g⟩ := throw_inv h1
  obtain ⟨e1, g2⟩ := storeRaw_inv h2
  exact ⟨e1, g, g2⟩
theorem getFrame_inv {o : Int} {s s' : State} {v : Cell} (h : getFrameValue o s = .ok s' v) :
    s' = s ∧ v = rd32 s.mem (wrap32 (s.frm + o)) ∧ GoodAddr s (wrap32 (s.frm + o)) ∧ s.inMem (wrap32 (s.frm + o)) 4 :=
  getCell_inv h
theorem setFrame_inv {o : Int} {s s' : State} {v : Cell} {u : Unit} (h : setFrameValue o v s = .ok s' u) :
    s' = { s with mem := wr32 s.mem (wrap32 (s.frm + o)) v } ∧ GoodAddr s (wrap32 (s.frm + o)) ∧
      s.inMem (wrap32 (s.frm + o)) 4 := setCell_inv h

theorem push_inv {s s' : State} (L : Layout s) {v : Cell} {u : Unit} (h : pushStack v s = .ok s' u) :
    s' = { s with mem := wr32 s.mem (s.sp - 4) v, sp := s.sp - 4 } ∧ s.hp + 4 < s.sp := by
  rcases pushStack_cases L v with ⟨_, e⟩ | ⟨g, e⟩
  · rw [e] at h; cases h
  · rw [e] at h; cases h; exact ⟨rfl, g⟩
theorem pop_inv {s s' : State} (L : Layout s) {v : Cell} (h : popStack s = .ok s' v) :
    s' = { s with sp := s.sp + 4 } ∧ v = rd32 s.mem s.sp ∧ s.sp < s.stp := by
  rcases popStack_cases L with ⟨_, e⟩ | ⟨g, e⟩
  · rw [e] at h; cases h
  · rw [e] at h; cases h; exact ⟨rfl, rfl, g⟩

theorem range_inv {a n : Int} {s s' : State} {b : Int} (h : acquireAddrRange a n s = .ok s' b) :
    s' = s ∧ b = a ∧ GoodAddr s a ∧ (n ≠ 0 → GoodAddr s (wrap32 (a + n - 1))) := by
  unfold acquireAddrRange at h
  obtain ⟨s1, b1, h1, h2⟩ := vmm_bind_inv h
  obtain ⟨rfl, rfl, g⟩ := throw_inv h1
  split at h2
  · obtain ⟨s2, b2, h3, h4⟩ := vmm_bind_inv h2
    obtain ⟨rfl, rfl, g2⟩ := throw_inv h3
    cases h4
    exact ⟨rfl, rfl, g, fun _ => g2⟩
  · rename_i hn
    cases h2
    exact ⟨rfl, rfl, g, fun h => absurd h (by omega)⟩

theorem slot64_inv {o : Int} {s s' : State} {b : Int} (h : acquireInt64Slot o s = .ok s' b) :
    s' = s ∧ b = wrap32 (s.frm + o) ∧ GoodAddr s (wrap32 (s.frm + o)) := by
  unfold acquireInt64Slot at h
  split at h
  · rename_i e
    cases h
    exact throw_inv e
  · cases h

theorem stackOffset_inv {E : Env} {method : Nat} {slot : Int} {s s' : IState} {o : Int}
    (h : stackOffset E method slot s = .ok s' o) : s' = s ∧ slotOffset E method slot = some o := by
  unfold stackOffset at h
  unfold slotOffset
  split at h
  · rename_i e; cases h; rw [if_pos e]; exact ⟨rfl, rfl⟩
  · rename_i e
    rw [if_neg e]
    split at h
    · rename_i e2; cases h; rw [if_pos e2]; exact ⟨rfl, rfl⟩
    · rename_i e2
      rw [if_neg e2]
      cases e3 : (E.localOffsets method)[slot.toNat]? with
      | none => rw [e3] at h; cases h
      | some o' => rw [e3] at h; cases h; exact ⟨rfl, rfl⟩

end Verif.VM

import Verif.Proofs.History

/-!
C02 (loads and stores are confined) and C03 (read after write).
The only assumption on the state is that the stack top register is where the constructor puts it,
four bytes below the end of the block; it never changes afterwards.
-/
namespace Verif.VM

/-- `a` is an address a script may use: not negative, below the stack top, and not in the unused gap
between heap and stack. -/
def Usable (s : State) (a : Int) : Prop := 0 ≤ a ∧ a < s.stp ∧ (a < s.hp ∨ s.sp ≤ a)

instance (s : State) (a : Int) : Decidable (Usable s a) := by unfold Usable; infer_instance

/-- **C02, stores.** A store is refused with invalid-address and changes nothing, or its address is
usable, its four bytes are inside the block and no other byte changes.  Never undefined behaviour. -/
theorem C02_store_confined (s : State) (hs : s.stp = s.memSize - 4) (a : Int) (v : Cell) :
    (¬ Usable s a ∧ setCellValue a v s = .fail s .invalidAddress) ∨
    (Usable s a ∧ 0 ≤ a ∧ a + 4 ≤ s.memSize ∧
      ∃ m', setCellValue a v s = .ok { s with mem := m' } () ∧ rd32 m' a = v ∧
        ∀ x, x < a ∨ a + 4 ≤ x → m' x = s.mem x) := by
  unfold setCellValue Usable
  by_cases k : a < 0 ∨ (s.hp ≤ a ∧ a < s.sp) ∨ s.stp ≤ a
  · left
    rw [bind_fail (throw_fail k)]
    exact ⟨by omega, rfl⟩
  · right
    rw [bind_ok (throw_ok (by omega) (by omega) (by omega)), storeRaw_ok ⟨by omega, by omega⟩]
    exact ⟨by omega, by omega, by omega, _, rfl, rd32_wr32_same .., fun x hx => wr32_far hx⟩

/-- **C02, loads.** A load is refused, or reads four bytes of the block; the state never changes. -/
theorem C02_load_confined (s : State) (hs : s.stp = s.memSize - 4) (a : Int) :
    (¬ Usable s a ∧ getCellValue a s = .fail s .invalidAddress) ∨
    (Usable s a ∧ 0 ≤ a ∧ a + 4 ≤ s.memSize ∧ getCellValue a s = .ok s (rd32 s.mem a)) := by
  unfold getCellValue Usable
  by_cases k : a < 0 ∨ (s.hp ≤ a ∧ a < s.sp) ∨ s.stp ≤ a
  · left
    rw [bind_fail (throw_fail k)]
    exact ⟨by omega, rfl⟩
  · right
    rw [bind_ok (throw_ok (by omega) (by omega) (by omega)), loadRaw_ok ⟨by omega, by omega⟩]
    exact ⟨by omega, by omega, by omega, rfl⟩

/-- **C02, frame-relative access** is an access at `frm + offset` computed in 32 bits, and is confined
in the same way. -/
theorem C02_frame_confined (s : State) (hs : s.stp = s.memSize - 4) (off : Int) (v : Cell) :
    ((¬ Usable s (wrap32 (s.frm + off)) ∧ getFrameValue off s = .fail s .invalidAddress ∧
        setFrameValue off v s = .fail s .invalidAddress) ∨
     (Usable s (wrap32 (s.frm + off)) ∧
        0 ≤ wrap32 (s.frm + off) ∧ wrap32 (s.frm + off) + 4 ≤ s.memSize ∧
        getFrameValue off s = .ok s (rd32 s.mem (wrap32 (s.frm + off))) ∧
        setFrameValue off v s = .ok { s with mem := wr32 s.mem (wrap32 (s.frm + off)) v } ())) := by
  unfold getFrameValue setFrameValue
  generalize wrap32 (s.frm + off) = a
  unfold getCellValue setCellValue Usable
  by_cases k : a < 0 ∨ (s.hp ≤ a ∧ a < s.sp) ∨ s.stp ≤ a
  · left
    rw [bind_fail (throw_fail k), bind_fail (throw_fail k)]
    exact ⟨by omega, rfl, rfl⟩
  · right
    rw [bind_ok (throw_ok (by omega) (by omega) (by omega)), loadRaw_ok ⟨by omega, by omega⟩,
      bind_ok (throw_ok (by omega) (by omega) (by omega)), storeRaw_ok ⟨by omega, by omega⟩]
    exact ⟨by omega, by omega, by omega, rfl, rfl⟩

/-- **C02, host-side translation.** A pointer is handed to the host only for an address inside the
block and outside the gap. -/
theorem C02_local_to_phys (s s' : State) (a p : Int) (h : localToPhysAddr a s = .ok s' p) :
    s' = s ∧ p = a ∧ 0 ≤ a ∧ a < s.memSize ∧ ¬ (s.hp ≤ a ∧ a < s.sp) := by
  unfold localToPhysAddr at h
  split at h
  · cases h
  · cases h
    refine ⟨rfl, rfl, ?_, ?_, ?_⟩ <;> omega

/-- **C03.** After a successful store a load of the same address returns the stored value ... -/
theorem C03_read_own_write (s s' : State) (hs : s.stp = s.memSize - 4) (a : Int) (v : Cell)
    (h : setCellValue a v s = .ok s' ()) : getCellValue a s' = .ok s' v := by
  rcases C02_store_confined s hs a v with ⟨_, e⟩ | ⟨u, _, _, m', e, hr, _⟩
  · rw [h] at e; cases e
  · rw [h] at e
    cases e
    rcases C02_load_confined { s with mem := m' } hs a with ⟨u', _⟩ | ⟨_, _, _, e⟩
    · exact (u' u).elim
    · rw [e]; dsimp only; rw [hr]

/-- ... and a load from an address at least four bytes away gives the same outcome as before. -/
theorem C03_other_reads_unchanged (s s' : State) (hs : s.stp = s.memSize - 4) (a b : Int) (v : Cell)
    (h : setCellValue a v s = .ok s' ()) (hab : a + 4 ≤ b ∨ b + 4 ≤ a) :
    (∀ w, getCellValue b s = .ok s w → getCellValue b s' = .ok s' w) ∧
    (∀ e, getCellValue b s = .fail s e → getCellValue b s' = .fail s' e) := by
  rcases C02_store_confined s hs a v with ⟨_, e⟩ | ⟨u, _, _, m', e, hr, hf⟩
  · rw [h] at e; cases e
  · rw [h] at e
    cases e
    rcases C02_load_confined s hs b with ⟨n1, e1⟩ | ⟨u1, _, _, e1⟩ <;>
    rcases C02_load_confined { s with mem := m' } hs b with ⟨n2, e2⟩ | ⟨u2, _, _, e2⟩
    · rw [e1, e2]
      exact ⟨(fun w h => by cases h), (fun e h => by cases h; rfl)⟩
    · exact (n1 u2).elim
    · exact (n2 u1).elim
    · rw [e1, e2]
      refine ⟨fun w h => ?_, (fun e h => by cases h)⟩
      cases h
      dsimp only
      rw [rd32_congr (m := s.mem) (fun x h1 h2 => hf x (by omega))]

/-- **C03, stack.** Push then pop returns the pushed value and restores the stack pointer; the bytes
at and above the old stack pointer and the heap are untouched. -/
theorem C03_push_pop (s s1 : State) (L : Layout s) (v : Cell) (h : pushStack v s = .ok s1 ()) :
    ∃ s2, popStack s1 = .ok s2 v ∧ s2.sp = s.sp ∧ s2.hp = s.hp ∧ s2.frm = s.frm ∧
      ∀ x, s.sp ≤ x ∨ x < s.sp - 4 → s2.mem x = s.mem x := by
  have L' := L
  obtain ⟨l1, l2, l3, l4, l5, l6⟩ := L'
  rcases pushStack_cases L v with ⟨_, e⟩ | ⟨h0, e⟩
  · rw [h] at e; cases e
  · rw [h] at e
    cases e
    have L2 : Layout { s with mem := wr32 s.mem (s.sp - 4) v, sp := s.sp - 4 } :=
      ⟨l1, l2, by somega, by somega, l5, l6⟩
    rcases popStack_cases L2 with ⟨k, _⟩ | ⟨_, e2⟩
    · dsimp only at k; omega
    · rw [e2]
      dsimp only
      rw [rd32_wr32_same]
      refine ⟨_, rfl, by somega, rfl, rfl, fun x hx => wr32_far (by omega)⟩

/-! ### Non-vacuity and sharpness -/

/-- A state with data, heap, gap and stack. -/
def c02State : State :=
  { mem := fun _ => 0, memSize := 16384, dataSize := 64, stp := 16380, hp := 128, sp := 16000,
    frm := 16100, hpScope := -1, directArrays := true, usesHeapScopes := true }

example : Usable c02State 124 ∧ ¬ Usable c02State 128 ∧ ¬ Usable c02State 15999 ∧
    Usable c02State 16000 ∧ Usable c02State 16379 ∧ ¬ Usable c02State 16380 ∧ ¬ Usable c02State (-1) := by
  decide

example : ∃ s', setCellValue 16379 0x11223344 c02State = .ok s' () := ⟨_, rfl⟩
example : Layout c02State := ⟨by decide, by decide, by decide, by decide, by decide, by decide⟩
example : ∃ s1, pushStack 5 c02State = .ok s1 () := ⟨_, rfl⟩
example : ∃ s' p, localToPhysAddr 16381 c02State = .ok s' p := ⟨_, _, rfl⟩

end Verif.VM

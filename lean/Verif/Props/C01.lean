import Verif.Proofs.HistoryExec

/-!
C01: heap and stack never cross.
`Layout s` (Spec/Memory.lean) is the English claim: data ≤ heap top ≤ stack pointer ≤ stack top, all
inside the plugin's memory block.
-/
namespace Verif.VM

/-- A freshly constructed runtime satisfies the layout, whatever its image asks for
(sizes below the 31-bit address limit). -/
theorem C01_fresh_runtime (mem : Int → BitVec 8) (dataSize heapSize : Int) (d h : Bool)
    (h0 : 0 ≤ dataSize) (h1 : dataSize ≤ 2147400000) (h2 : heapSize ≤ 2147400000) :
    Layout (init mem dataSize (computeMemSize dataSize heapSize) d h) := by
  unfold init computeMemSize
  refine ⟨h0, Int.le_refl _, ?_, Int.le_refl _, rfl, ?_⟩ <;> dsimp only <;> (split <;> split <;> omega)

/-- A fresh runtime is a valid start of a history. -/
theorem base_fresh (mem : Int → BitVec 8) (dataSize heapSize : Int) (d h : Bool)
    (h0 : 0 ≤ dataSize) (h1 : dataSize ≤ 2147400000) (h2 : heapSize ≤ 2147400000) :
    Base (init mem dataSize (computeMemSize dataSize heapSize) d h) := by
  have L := C01_fresh_runtime mem dataSize heapSize d h h0 h1 h2
  obtain ⟨l1, l2, l3, l4, l5, l6⟩ := L
  refine ⟨⟨l1, l2, l3, l4, l5, l6⟩, ?_, Or.inl rfl⟩
  have : (init mem dataSize (computeMemSize dataSize heapSize) d h).frm =
    (init mem dataSize (computeMemSize dataSize heapSize) d h).sp := rfl
  omega

/-- **C01 (partial).** Along every history of pushes, pops, stack and heap adjustments, tracker
operations, heap scopes, calls, returns and stores, in which the script does not destroy the VM's
bookkeeping records, an arbitrary next such operation never leaves the memory block, and the layout
holds afterwards, whether the operation succeeds or is refused.

Missing from the full claim: operations that destroy a live record (see the two counterexamples
below), amounts that overflow 32 bits, and multi-dimensional array creation (C09). -/
theorem C01_layout_partial {b : State} (Bb : Base b) {ops : List Op} {s : State} {g : List Link}
    (H : History b ops s g) (op : Op) (hl : Legal b s g op) :
    (∃ s', op.exec s = .ok s' () ∧ Layout s') ∨ (∃ s' e, op.exec s = .fail s' e ∧ Layout s') := by
  have := good_step Bb (good_history Bb H) op hl
  revert this
  cases op.exec s with
  | ok s' a => intro h; exact Or.inl ⟨s', rfl, h.lay⟩
  | fail s' e => intro h; exact Or.inr ⟨s', e, rfl, h.1⟩
  | ub => intro h; exact h.elim

/-- Operations that neither consult script-writable bookkeeping nor take an unchecked amount keep
the layout from *every* state in which it holds, with no assumption on the history. -/
theorem C01_layout_any_state {s : State} (L : Layout s) (op : Op)
    (hop : (∃ v, op = .push v) ∨ op = .pop ∨ (∃ n, op = .trackPush n) ∨ op = .trackPop ∨
      op = .enter ∨ op = .call ∨ (∃ a v, op = .store a v) ∨
      (∃ n, op = .stack n ∧ -2147483648 ≤ n ∧ s.sp + n < 2147483648) ∨
      (∃ n, op = .heap n ∧ -2147483648 ≤ n ∧ s.hp + n + 64 < 2147483648))
    (hal : s.sp % 4 = 0 ∧ s.stp % 4 = 0) :
    (∃ s', op.exec s = .ok s' () ∧ Layout s') ∨ (∃ s' e, op.exec s = .fail s' e ∧ Layout s') := by
  have L' := L
  obtain ⟨l1, l2, l3, l4, l5, l6⟩ := L'
  rcases hop with ⟨v, rfl⟩ | rfl | ⟨n, rfl⟩ | rfl | rfl | rfl | ⟨a, v, rfl⟩ | ⟨n, rfl, h1, h2⟩ |
    ⟨n, rfl, h1, h2⟩
  · rcases pushStack_cases L v with ⟨_, e⟩ | ⟨_, e⟩
    · exact Or.inr ⟨_, _, e, L⟩
    · exact Or.inl ⟨_, e, l1, l2, by somega, by somega, l5, l6⟩
  · show (∃ s', (popStack >>= fun _ => pure ()) s = _ ∧ _) ∨ (∃ s' e,
      (popStack >>= fun _ => pure ()) s = _ ∧ _)
    rcases popStack_cases L with ⟨_, e⟩ | ⟨_, e⟩
    · exact Or.inr ⟨_, _, bind_fail e, L⟩
    · rw [bind_ok e]
      exact Or.inl ⟨_, rfl, l1, l2, by somega, by somega, l5, l6⟩
  · show (∃ s', pushTracker n s = _ ∧ _) ∨ (∃ s' e, pushTracker n s = _ ∧ _)
    unfold pushTracker
    simp only [stackMargin, wrap32_id (x := s.sp - s.hp) (by omega) (by omega)]
    split
    · exact Or.inr ⟨_, _, rfl, L⟩
    split
    · exact Or.inr ⟨_, _, rfl, L⟩
    · simp only [wrap32_id (x := s.hp + 4) (by omega) (by omega)]
      rw [storeRaw_ok ⟨by somega, by somega⟩]
      exact Or.inl ⟨_, rfl, l1, by somega, by somega, l4, l5, l6⟩
  · show (∃ s', popTracker s = _ ∧ _) ∨ (∃ s' e, popTracker s = _ ∧ _)
    unfold popTracker
    simp only [wrap32_id (x := s.hp - s.dataSize) (by omega) (by omega),
      wrap32_id (x := s.hp - 4) (by omega) (by omega)]
    split
    · exact Or.inr ⟨_, _, rfl, L⟩
    · rw [loadRaw_ok ⟨by somega, by somega⟩]
      dsimp only
      have hr := toInt_range (rd32 s.mem (s.hp - 4))
      simp only [wrap32_id (x := s.hp - 4 - s.dataSize) (by omega) (by omega)]
      split
      · exact Or.inr ⟨_, _, rfl, l1, by somega, by somega, l4, l5, l6⟩
      · have hw := wrap32_id (x := s.hp - 4 - (rd32 s.mem (s.hp - 4)).toInt) (by omega) (by omega)
        rw [hw]
        exact Or.inl ⟨_, rfl, l1, by somega, by somega, l4, l5, l6⟩
  · show (∃ s', enterHeapScope s = _ ∧ _) ∨ (∃ s' e, enterHeapScope s = _ ∧ _)
    unfold enterHeapScope
    rcases heapAlloc_cases L (n := 4) (by omega) (by omega)
      with (⟨_, _, e⟩ | ⟨_, _, e⟩) | ⟨k1, k2, e⟩
    · rw [e]; exact Or.inr ⟨_, _, rfl, L⟩
    · rw [e]; exact Or.inr ⟨_, _, rfl, L⟩
    · rw [e]
      dsimp only
      rw [bind_ok (throw_ok (by somega) (by somega) (by somega)), storeRaw_ok ⟨by somega, by somega⟩]
      exact Or.inl ⟨_, rfl, l1, k1, by somega, l4, l5, l6⟩
  · show (∃ s', pushAmxFrame s = _ ∧ _) ∨ (∃ s' e, pushAmxFrame s = _ ∧ _)
    unfold pushAmxFrame
    rcases pushStack_cases L (BitVec.ofInt 32 s.frm) with ⟨_, e⟩ | ⟨h0, e⟩
    · rw [bind_fail e]; exact Or.inr ⟨_, _, rfl, L⟩
    rw [bind_ok e]
    have L1 : Layout { s with
        mem := wr32 s.mem (s.sp - 4) (BitVec.ofInt 32 s.frm), sp := s.sp - 4 } :=
      ⟨l1, l2, by somega, by somega, l5, l6⟩
    rcases heapAlloc_cases L1 (n := 4) (by omega) (by somega)
      with (⟨_, _, e⟩ | ⟨_, _, e⟩) | ⟨k1, k2, e⟩
    · rw [bind_fail e]; exact Or.inr ⟨_, _, rfl, L1⟩
    · rw [bind_fail e]; exact Or.inr ⟨_, _, rfl, L1⟩
    rw [bind_ok e]
    dsimp only at k1 k2
    rw [bind_ok (throw_ok (by somega) (by somega) (by somega)),
      bind_ok (storeRaw_ok ⟨by somega, by somega⟩)]
    dsimp only
    have L2 : Layout { s with
        mem := wr32 (wr32 s.mem (s.sp - 4) (BitVec.ofInt 32 s.frm)) s.hp (BitVec.ofInt 32 s.hpScope),
        sp := s.sp - 4, hp := s.hp + 4 } :=
      ⟨l1, by somega, by somega, by somega, l5, l6⟩
    rcases pushStack_cases L2 (BitVec.ofInt 32 s.hp) with ⟨k, e⟩ | ⟨k, e⟩
    · rw [bind_fail e]; exact Or.inr ⟨_, _, rfl, L2⟩
    rw [bind_ok e]
    exact Or.inl ⟨_, rfl, l1, by somega, by somega, by somega, l5, l6⟩
  · show (∃ s', setCellValue a v s = _ ∧ _) ∨ (∃ s' e, setCellValue a v s = _ ∧ _)
    unfold setCellValue
    by_cases k : a < 0 ∨ (s.hp ≤ a ∧ a < s.sp) ∨ s.stp ≤ a
    · rw [bind_fail (throw_fail k)]; exact Or.inr ⟨_, _, rfl, L⟩
    · rw [bind_ok (throw_ok (by omega) (by omega) (by omega)), storeRaw_ok ⟨by omega, by omega⟩]
      exact Or.inl ⟨_, rfl, l1, l2, l3, l4, l5, l6⟩
  · show (∃ s', addStack n s = _ ∧ _) ∨ (∃ s' e, addStack n s = _ ∧ _)
    unfold addStack
    simp only [stackMargin, wrap32_id (x := s.sp + n) (by omega) (by omega),
      wrap32_id (x := s.hp + 64) (by omega) (by omega)]
    split
    · split
      · exact Or.inr ⟨_, _, rfl, L⟩
      · exact Or.inl ⟨_, rfl, l1, l2, by somega, by somega, l5, l6⟩
    · split
      · exact Or.inr ⟨_, _, rfl, L⟩
      · exact Or.inl ⟨_, rfl, l1, l2, by somega, by somega, l5, l6⟩
  · show (∃ s', (heapAlloc n >>= fun _ => pure ()) s = _ ∧ _) ∨ (∃ s' e,
      (heapAlloc n >>= fun _ => pure ()) s = _ ∧ _)
    rcases heapAlloc_cases L h1 h2 with (⟨_, _, e⟩ | ⟨_, _, e⟩) | ⟨k1, k2, e⟩
    · exact Or.inr ⟨_, _, bind_fail e, L⟩
    · exact Or.inr ⟨_, _, bind_fail e, L⟩
    · rw [bind_ok e]
      refine Or.inl ⟨_, rfl, l1, k1, ?_, l4, l5, l6⟩
      by_cases 0 ≤ n
      · somega
      · somega

/-! ### The unconditional claim is false of the code -/

/-- A small runtime used as a witness: 64 bytes of data and a minimal heap. -/
def tiny : State := init (fun _ => 0) 64 (computeMemSize 64 0) true true

/-- Counterexample 1: an allocation of 0x7ffffffc bytes is *accepted* (the sum wraps around) and
leaves a negative heap pointer. -/
theorem C01_heap_overflow_accepted :
    ∃ s', Op.exec (.heap 0x7ffffffc) tiny = .ok s' () ∧ s'.hp < 0 := by
  refine ⟨{ tiny with hp := wrap32 (tiny.hp + 0x7ffffffc) }, rfl, by decide⟩

/-- Counterexample 2: a script that overwrites its return linkage gets the VM to read outside the
memory block on a later return. -/
theorem C01_forged_frame_leaves_memory :
    ∃ s1 s2 s3 s4 s5 s6 s7, Op.exec (.push 0) tiny = .ok s1 () ∧ Op.exec .call s1 = .ok s2 () ∧
      Op.exec (.push 0) s2 = .ok s3 () ∧ Op.exec .call s3 = .ok s4 () ∧
      Op.exec (.store (s4.frm + 4) (BitVec.ofInt 32 (-100))) s4 = .ok s5 () ∧
      Op.exec .ret s5 = .ok s6 () ∧ Op.exec .ret s6 = s7 ∧ s7 = .ub :=
  ⟨_, _, _, _, _, _, _, rfl, rfl, rfl, rfl, rfl, rfl, rfl, rfl⟩

/-! ### Non-vacuity -/

/-- `tiny` can start a history. -/
example : Base tiny := base_fresh _ 64 0 true true (by omega) (by omega) (by omega)

/-- A history with nested calls, a scope, an allocation, stores and a tracked allocation. -/
example : ∃ s g, History tiny [.push 7, .push 1, .call, .enter, .heap 16, .store 0 5, .push 0, .call,
    .heap 8, .trackPush 8, .trackPop, .ret, .leave, .ret] s g :=
  runFrom_isSome (by decide +kernel)

end Verif.VM

import Verif.Proofs.GenAll

/-! Calls and returns: frames. -/
namespace Verif.Compiled
open Verif.VM Verif.Lang Verif.CodeGen

/-- The memory with a new frame. -/
def framed (v : State) : Int → BitVec 8 :=
  wr32 (wr32 (wr32 v.mem (v.sp - 4) (BitVec.ofInt 32 v.frm)) v.hp (BitVec.ofInt 32 v.hpScope)) (v.sp - 8) (BitVec.ofInt 32 v.hp)

/-- The state at the beginning of a function with so many local slots. -/
def entered (v : State) (slots : Nat) : State := { v with sp := v.sp - 8 - 4 * (slots : Int), frm := v.sp - 8, hp := v.hp + 4, mem := framed v }

theorem heapAlloc4_low {v : State} (h0 : 0 ≤ v.hp) (h1 : v.hp ≤ 2147483000) (h : v.sp < v.hp + 68) : heapAlloc 4 v = .fail v .heapLow := by
  unfold heapAlloc
  rw [wrap32_id (x := v.hp + 4) (by omega) (by omega)]
  unfold stackMargin
  rw [if_neg (by omega), wrap32_id (by omega) (by omega), if_pos (by omega)]

theorem heapAlloc4_ok {v : State} (h0 : 0 ≤ v.hp) (h1 : v.hp ≤ 2147483000) (h : v.hp + 68 ≤ v.sp) : heapAlloc 4 v = .ok { v with hp := v.hp + 4 } v.hp := by
  unfold heapAlloc
  rw [wrap32_id (x := v.hp + 4) (by omega) (by omega)]
  unfold stackMargin
  rw [if_neg (by omega), wrap32_id (by omega) (by omega), if_neg (by omega)]

theorem good_address {v : State} {a : Int} (h0 : 0 ≤ a) (h1 : a < v.hp ∨ v.sp ≤ a) (h2 : a < v.stp) : throwIfBadAddress a v = .ok v a := by
  unfold throwIfBadAddress
  rw [if_neg (by omega)]

theorem storeRaw_ok {v : State} {a : Int} {c : Cell} (h0 : 0 ≤ a) (h1 : a + 4 ≤ v.memSize) : storeRaw a c v = .ok { v with mem := wr32 v.mem a c } () := by
  unfold storeRaw
  rw [if_pos ⟨h0, h1⟩]

theorem addStack_neg {v : State} {k : Int} (hk : 0 < k) (hk2 : k ≤ 2147483648) (h0 : 0 ≤ v.hp) (h1 : v.hp ≤ v.sp) (h2 : v.sp ≤ 2147483000) :
    addStack (-k) v = if v.sp - k < v.hp + 64 then .fail v .stackLow else .ok { v with sp := v.sp - k } () := by
  unfold addStack
  rw [wrap32_id (x := v.sp + -k) (by omega) (by omega)]
  unfold stackMargin
  rw [if_pos (by omega), wrap32_id (by omega) (by omega)]
  rfl

theorem pushAmxFrame_cases {v : State} (h0 : 0 ≤ v.hp) (h1 : v.hp ≤ v.sp) (h2 : v.sp ≤ v.stp) (h3 : v.stp + 4 ≤ v.memSize) (h4 : v.memSize ≤ 2147483000) :
    (v.hp + 72 ≤ v.sp ∧ pushAmxFrame v = .ok (entered v 0) ()) ∨
    ∃ v' e, pushAmxFrame v = .fail v' e ∧ (e = .stackLow ∨ e = .heapLow) ∧ v'.sp - v'.hp < 72 := by
  unfold pushAmxFrame
  show _ ∨ ∃ v' e, VMM.bind (pushStack (BitVec.ofInt 32 v.frm)) (fun _ => VMM.bind (heapAlloc 4) fun a => VMM.bind (throwIfBadAddress a) fun p =>
    VMM.bind (storeRaw p (BitVec.ofInt 32 v.hpScope)) fun _ => VMM.bind (pushStack (BitVec.ofInt 32 a)) fun _ => fun s => .ok { s with frm := s.sp } ()) v = .fail v' e ∧ _
  rcases Int.lt_or_le (v.hp + 4) v.sp with h | h
  · have e1 := pushStack_ok (v := v) (c := BitVec.ofInt 32 v.frm) h0 h (by omega) h4
    rcases Int.lt_or_le (v.sp - 4) (v.hp + 68) with h5 | h5
    · right
      have e2 := heapAlloc4_low (v := pushed v (BitVec.ofInt 32 v.frm)) h0 (by show v.hp ≤ _; omega) (by show v.sp - 4 < v.hp + 68; omega)
      refine ⟨pushed v (BitVec.ofInt 32 v.frm), .heapLow, ?_, Or.inr rfl, ?_⟩
      · unfold VMM.bind; rw [e1]; simp only; rw [e2]
      · show v.sp - 4 - v.hp < 72; omega
    · left
      refine ⟨by omega, ?_⟩
      show VMM.bind (pushStack (BitVec.ofInt 32 v.frm)) (fun _ => VMM.bind (heapAlloc 4) fun a => VMM.bind (throwIfBadAddress a) fun p =>
        VMM.bind (storeRaw p (BitVec.ofInt 32 v.hpScope)) fun _ => VMM.bind (pushStack (BitVec.ofInt 32 a)) fun _ => fun s => .ok { s with frm := s.sp } ()) v = _
      have e2 : heapAlloc 4 (pushed v (BitVec.ofInt 32 v.frm)) = .ok { pushed v (BitVec.ofInt 32 v.frm) with hp := v.hp + 4 } v.hp :=
        heapAlloc4_ok (v := pushed v (BitVec.ofInt 32 v.frm)) h0 (by show v.hp ≤ _; omega) (by show v.hp + 68 ≤ v.sp - 4; omega)
      have e3 := good_address (v := { pushed v (BitVec.ofInt 32 v.frm) with hp := v.hp + 4 }) (a := v.hp) h0 (Or.inl (by show v.hp < v.hp + 4; omega))
        (by show v.hp < v.stp; omega)
      have e4 := storeRaw_ok (v := { pushed v (BitVec.ofInt 32 v.frm) with hp := v.hp + 4 }) (a := v.hp) (c := BitVec.ofInt 32 v.hpScope) h0
        (by show v.hp + 4 ≤ v.memSize; omega)
      have e5 := pushStack_ok (c := BitVec.ofInt 32 v.hp)
        (v := { pushed v (BitVec.ofInt 32 v.frm) with hp := v.hp + 4, mem := wr32 (pushed v (BitVec.ofInt 32 v.frm)).mem v.hp (BitVec.ofInt 32 v.hpScope) })
        (by show 0 ≤ v.hp + 4; omega) (by show v.hp + 4 + 4 < v.sp - 4; omega) (by show v.sp - 4 ≤ v.memSize; omega) h4
      unfold VMM.bind
      rw [e1]; simp only
      rw [e2]; simp only
      rw [e3]; simp only
      rw [e4]; simp only
      rw [e5]; simp only
      unfold entered framed pushed
      simp only
      rw [show v.sp - 4 - 4 = v.sp - 8 by omega, show v.sp - 8 - 4 * ((0 : Nat) : Int) = v.sp - 8 by omega]
  · right
    have e1 := pushStack_low (v := v) (c := BitVec.ofInt 32 v.frm) h0 h h1 (by omega)
    refine ⟨v, .stackLow, ?_, Or.inl rfl, by omega⟩
    unfold VMM.bind; rw [e1]

theorem stackSize_eq {E : Env} {t slots : Nat} (h : E.localOffsets t = (List.range slots).map fun (i : Nat) => -4 * ((i : Int) + 1)) :
    stackSizeForLocals E t = -4 * (slots : Int) := by
  unfold stackSizeForLocals
  rw [h]
  cases slots with
  | zero => rfl
  | succ k =>
    rw [List.range_succ, List.map_append, List.map_cons, List.map_nil, List.getLast?_append]
    simp

theorem enterMethod_cases {E : Env} {t slots : Nat} {s : IState} (ho : E.localOffsets t = (List.range slots).map fun (i : Nat) => -4 * ((i : Int) + 1)) (hs : slots ≤ 536870912)
    (h0 : 0 ≤ s.vm.hp) (h1 : s.vm.hp ≤ s.vm.sp) (h2 : s.vm.sp ≤ s.vm.stp) (h3 : s.vm.stp + 4 ≤ s.vm.memSize) (h4 : s.vm.memSize ≤ 2147483000) :
    (s.vm.hp + 4 ≤ s.vm.sp - 8 - 4 * (slots : Int) ∧ enterMethod E t s = .ok { s with vm := entered s.vm slots, pri := 0, alt := 0 } ()) ∨
    ∃ s' e, enterMethod E t s = .fail s' e ∧ (e = .stackLow ∨ e = .heapLow) ∧ (s'.vm.sp - s'.vm.hp < 72 ∨ s'.vm.sp - s'.vm.hp < 64 + 4 * (slots : Int)) := by
  have hdef : enterMethod E t s = IM.bind (vmOp pushAmxFrame) (fun _ => if stackSizeForLocals E t ≠ 0 then vmOp (addStack (stackSizeForLocals E t)) else IM.pure ())
      { s with pri := 0, alt := 0 } := by
    unfold enterMethod
    show IM.bind _ _ _ = _
    congr 1
  rw [hdef, stackSize_eq ho]
  unfold IM.bind
  rcases pushAmxFrame_cases h0 h1 h2 h3 h4 with ⟨hr, h⟩ | ⟨v', e, h, he, hlt⟩
  · have e1 : vmOp pushAmxFrame { s with pri := 0, alt := 0 } = .ok { s with vm := entered s.vm 0, pri := 0, alt := 0 } () := by
      unfold vmOp; simp only; rw [h]
    rw [e1]
    simp only
    by_cases hz : slots = 0
    · subst hz
      left
      refine ⟨by omega, ?_⟩
      rw [if_neg (by simp)]
      rfl
    · rw [if_pos (by omega)]
      have e2 : addStack (-4 * (slots : Int)) (entered s.vm 0) =
          if s.vm.sp - 8 - 4 * (slots : Int) < s.vm.hp + 4 + 64 then .fail (entered s.vm 0) .stackLow else .ok (entered s.vm slots) () := by
        rw [show -4 * (slots : Int) = -(4 * (slots : Int)) by omega]
        have := addStack_neg (v := entered s.vm 0) (k := 4 * (slots : Int)) (by omega) (by omega) (by show 0 ≤ s.vm.hp + 4; omega)
          (by show s.vm.hp + 4 ≤ s.vm.sp - 8 - 4 * ((0 : Nat) : Int); omega) (by show s.vm.sp - 8 - 4 * ((0 : Nat) : Int) ≤ _; omega)
        rw [this]
        have e : (entered s.vm 0).sp = s.vm.sp - 8 := by show s.vm.sp - 8 - 4 * ((0 : Nat) : Int) = _; omega
        rw [e]
        rfl
      unfold vmOp
      simp only
      rw [e2]
      by_cases hlt : s.vm.sp - 8 - 4 * (slots : Int) < s.vm.hp + 4 + 64
      · rw [if_pos hlt]
        right
        refine ⟨{ s with vm := entered s.vm 0, pri := 0, alt := 0 }, .stackLow, rfl, Or.inl rfl, Or.inr ?_⟩
        show s.vm.sp - 8 - 4 * ((0 : Nat) : Int) - (s.vm.hp + 4) < _
        omega
      · rw [if_neg hlt]
        left
        exact ⟨by omega, rfl⟩
  · right
    have e1 : vmOp pushAmxFrame { s with pri := 0, alt := 0 } = .fail { s with vm := v', pri := 0, alt := 0 } e := by
      unfold vmOp; simp only; rw [h]
    rw [e1]
    exact ⟨_, e, rfl, he, Or.inl hlt⟩

/-- Leaving a function. -/
theorem popAmxFrame_ok {v : State} {hp frm scope : Int} {n : Nat} (e1 : rd32 v.mem v.frm = BitVec.ofInt 32 hp) (e2 : rd32 v.mem (v.frm + 4) = BitVec.ofInt 32 frm)
    (e3 : rd32 v.mem (v.frm + 8) = BitVec.ofNat 32 n) (e4 : rd32 v.mem hp = BitVec.ofInt 32 scope)
    (h0 : 0 ≤ v.dataSize) (h1 : v.dataSize ≤ hp) (h2 : hp < v.hp) (h3 : v.hp ≤ v.frm) (h4 : v.frm + 12 + 4 * (n : Int) ≤ v.stp)
    (h5 : v.stp + 4 ≤ v.memSize) (h6 : v.memSize ≤ 2147483000) (h7 : 0 ≤ frm ∧ frm ≤ 2147483000) (h8 : -2147483648 ≤ scope ∧ scope < 2147483648) :
    popAmxFrame v = .ok { v with sp := v.frm + 12 + 4 * (n : Int), frm := frm, hp := hp, hpScope := scope } () := by
  have p1 : popStack { v with sp := v.frm } = .ok { v with sp := v.frm + 4 } (rd32 v.mem v.frm) :=
    popStack_ok (v := { v with sp := v.frm }) (by show 0 ≤ v.frm; omega) (by show v.frm < v.stp; omega) h5 h6
  have t1 : (BitVec.ofInt 32 hp).toInt = hp := ofInt_toInt (by omega) (by omega)
  have t2 : (BitVec.ofInt 32 frm).toInt = frm := ofInt_toInt (by omega) (by omega)
  have t4 : (BitVec.ofInt 32 scope).toInt = scope := ofInt_toInt (by omega) (by omega)
  have hn : (BitVec.ofNat 32 n).toNat = n := by rw [BitVec.toNat_ofNat]; omega
  have t3 : (BitVec.ofNat 32 n).toInt = n := by rw [BitVec.toInt_eq_toNat_cond, hn]; omega
  have p2 : throwIfBadAddress hp { v with sp := v.frm + 4 } = .ok { v with sp := v.frm + 4 } hp := 
    good_address (by omega) (Or.inl h2) (by show hp < v.stp; omega)
  have p3 : loadRaw hp { v with sp := v.frm + 4 } = .ok { v with sp := v.frm + 4 } (rd32 v.mem hp) := by
    unfold loadRaw
    rw [if_pos (by constructor; omega; show hp + 4 ≤ v.memSize; omega)]
  have p4 : restoreHeap hp scope { v with sp := v.frm + 4 } = .ok { v with sp := v.frm + 4, hpScope := scope, hp := hp } () := by
    unfold restoreHeap
    rw [if_neg (by show ¬ (hp < v.dataSize ∨ hp > v.frm + 4); omega)]
  have p5 := popStack_ok (v := { v with sp := v.frm + 4, hpScope := scope, hp := hp }) (by show 0 ≤ v.frm + 4; omega) (by show v.frm + 4 < v.stp; omega) h5 h6
  have p6 := popStack_ok (v := { v with sp := v.frm + 4 + 4, hpScope := scope, hp := hp, frm := frm }) (by show 0 ≤ v.frm + 4 + 4; omega) (by show v.frm + 4 + 4 < v.stp; omega) h5 h6
  have p7 : dropArgs (n : Int) { v with sp := v.frm + 4 + 4 + 4, hpScope := scope, hp := hp, frm := frm } =
      .ok { v with sp := v.frm + 12 + 4 * (n : Int), hpScope := scope, hp := hp, frm := frm } () := by
    unfold dropArgs
    rw [wrap32_id (by show _ ≤ v.frm + 4 + 4 + 4 + (n : Int) * 4; omega) (by show v.frm + 4 + 4 + 4 + (n : Int) * 4 < _; omega),
      if_neg (by show ¬ ((n : Int) < 0 ∨ v.frm + 4 + 4 + 4 + (n : Int) * 4 > v.stp); omega)]
    show Res.ok { v with sp := v.frm + 4 + 4 + 4 + (n : Int) * 4, hpScope := scope, hp := hp, frm := frm } () = _
    rw [show v.frm + 4 + 4 + 4 + (n : Int) * 4 = v.frm + 12 + 4 * (n : Int) by omega]
  unfold popAmxFrame
  show VMM.bind popStack (fun saved => VMM.bind (throwIfBadAddress saved.toInt) fun p => VMM.bind (loadRaw p) fun sc =>
    VMM.bind (restoreHeap saved.toInt sc.toInt) fun _ => VMM.bind popStack fun frm => VMM.bind (setFrm frm.toInt) fun _ => VMM.bind popStack fun nargs =>
    dropArgs nargs.toInt) { v with sp := v.frm } = _
  unfold VMM.bind
  rw [p1]; simp only
  rw [e1, t1, p2]; simp only
  rw [p3]; simp only
  rw [e4, t4, p4]; simp only
  rw [p5]; simp only [popped]
  rw [e2, t2]
  unfold setFrm
  simp only
  rw [p6]; simp only [popped]
  rw [show v.frm + 4 + 4 = v.frm + 8 by omega] at p7 ⊢
  rw [e3, t3, p7]

end Verif.Compiled

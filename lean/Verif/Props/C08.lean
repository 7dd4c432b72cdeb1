import Verif.Model.Interp
import Verif.Proofs.History
import Verif.Props.C09

/-! C08: native calls. -/
namespace Verif.VM

/-- **C08 (call).** SYSREQ_C on a bound native: the native runs on the plugin as it is, whatever it does to
the stack and heap pointers is undone, its result is in PRI; an error it reports stops the script with
both pointers restored too. -/
theorem C08_call (E : Env) (m : Nat) (here i : Int) (hi : 0 ≤ i) (s : IState) (n : Native)
    (hn : E.natives i.toNat = some n) (hb : n.bound = true) :
    (∀ v r, n.call s.vm = .ok v r → ∃ s', visit E m here (.sysreqC i) s = .ok s' .next ∧
      s'.pri = r ∧ s'.alt = s.alt ∧ s'.vm.sp = s.vm.sp ∧ s'.vm.hp = s.vm.hp ∧ s'.vm.mem = v.mem) ∧
    (∀ v e, n.call s.vm = .fail v e → ∃ s', visit E m here (.sysreqC i) s = .fail s' e ∧
      s'.vm.sp = s.vm.sp ∧ s'.vm.hp = s.vm.hp) := by
  constructor <;> intro v x hv
  · simp only [visit, bind, IM.bind, invokeNative, hn, if_neg (show ¬ i < 0 by omega), hb, hv, if_true]
    exact ⟨_, rfl, rfl, rfl, rfl, rfl, rfl⟩
  · simp only [visit, bind, IM.bind, invokeNative, hn, if_neg (show ¬ i < 0 by omega), hb, hv, if_true]
    exact ⟨_, rfl, rfl, rfl⟩

/-- **C08 (unbound).** A native that is not bound is never run: the script is stopped with an
invalid-native error and nothing else changes. -/
theorem C08_unbound (E : Env) (m : Nat) (here i : Int) (hi : 0 ≤ i) (s : IState) (n : Native)
    (hn : E.natives i.toNat = some n) (hb : n.bound = false) :
    visit E m here (.sysreqC i) s = .fail s .invalidNative := by
  simp only [visit, bind, IM.bind, invokeNative, hn, if_neg (show ¬ i < 0 by omega), hb]
  rfl

/-- The plugin as the native sees it when called by the combined instruction: the argument count has been
pushed in front of the arguments, nothing else has changed. -/
structure NativeView (s v : State) (n : Int) : Prop where
  sp : v.sp = s.sp - 4
  count : rd32 v.mem v.sp = BitVec.ofInt 32 n
  above : ∀ x, s.sp ≤ x → v.mem x = s.mem x
  below : ∀ x, x < v.sp → v.mem x = s.mem x
  hp : v.hp = s.hp
  frm : v.frm = s.frm
  scope : v.hpScope = s.hpScope
  same : SameBlock s v

/-- **C08 (combined call).** SYSREQ_N with `n` arguments on the stack, for a native without an instruction
replacement: either the count does not fit (stack error, nothing done), or an unbound native is refused,
or the native runs on the view above; when it returns, whatever it did to the pointers, the stack
pointer has moved up by exactly the `n` arguments and the heap pointer is unchanged. -/
theorem C08_combined_call (E : Env) (m : Nat) (here i : Int) (hi : 0 ≤ i) (s : IState) (L : Layout s.vm)
    (nat : Native) (hn : E.natives i.toNat = some nat)
    (hrep : nat.bound = false ∨ nat.fixed = false ∨ nat.replacement = none)
    (hblk : ∀ v w r, nat.call v = .ok w r → SameBlock v w)
    (n : Nat) (hroom : s.vm.sp + 4 * (n : Int) ≤ s.vm.stp) :
    visit E m here (.sysreqN i n) s = .fail s .stackLow ∨
    ∃ v, NativeView s.vm v n ∧
      (nat.bound = false →
        ∃ s', visit E m here (.sysreqN i n) s = .fail s' .invalidNative ∧ s'.vm = v) ∧
      (nat.bound = true →
        (nat.call v = .ub → visit E m here (.sysreqN i n) s = .ub) ∧
        (∀ w e, nat.call v = .fail w e → ∃ s', visit E m here (.sysreqN i n) s = .fail s' e ∧
          s'.vm.sp = v.sp ∧ s'.vm.hp = s.vm.hp) ∧
        (∀ w r, nat.call v = .ok w r → ∃ s', visit E m here (.sysreqN i n) s = .ok s' .next ∧
          s'.pri = r ∧ s'.vm.sp = s.vm.sp + 4 * (n : Int) ∧ s'.vm.hp = s.vm.hp ∧ s'.vm.mem = w.mem)) := by
  obtain ⟨l1, l2, l3, l4, l5, l6⟩ := L
  have hrp : (if (nat.bound && nat.fixed) = true then nat.replacement else none) = none := by
    rcases hrep with h | h | h <;> simp [h]
  have hpop : (((n : Int) + 1) % 4294967296).toNat = n + 1 := by omega
  by_cases hlow : s.vm.sp ≤ wrap32 (s.vm.hp + 4)
  · left
    simp only [visit, bind, IM.bind, hn, if_neg (show ¬ i < 0 by omega), hrp, vmOp, pushStack, if_pos hlow]
  · right
    have hw1 : wrap32 (s.vm.hp + 4) = s.vm.hp + 4 := wrap32_id (by omega) (by omega)
    have hw2 : wrap32 (s.vm.sp - 4) = s.vm.sp - 4 := wrap32_id (by omega) (by omega)
    rw [hw1] at hlow
    refine ⟨{ s.vm with sp := s.vm.sp - 4, mem := wr32 s.vm.mem (s.vm.sp - 4) (BitVec.ofInt 32 n) }, ?_, ?_⟩
    · exact ⟨rfl, rd32_wr32_same _ _ _, fun x h => wr32_far (by omega), fun x h => wr32_far (by dsimp only at h; omega),
        rfl, rfl, rfl, ⟨rfl, rfl, rfl, rfl, rfl⟩⟩
    have hpush : pushStack (BitVec.ofInt 32 (n : Int)) s.vm =
        .ok { s.vm with sp := s.vm.sp - 4, mem := wr32 s.vm.mem (s.vm.sp - 4) (BitVec.ofInt 32 n) } () := by
      unfold pushStack storeRaw
      rw [hw1, if_neg hlow, hw2, if_pos ⟨by somega, by somega⟩]
    generalize hv : ({ s.vm with sp := s.vm.sp - 4, mem := wr32 s.vm.mem (s.vm.sp - 4) (BitVec.ofInt 32 n) } : State) = v
    rw [hv] at hpush
    have hvsp : v.sp = s.vm.sp - 4 := by rw [← hv]
    have hvhp : v.hp = s.vm.hp := by rw [← hv]
    have hvb : SameBlock s.vm v := by rw [← hv]; exact ⟨rfl, rfl, rfl, rfl, rfl⟩
    have key : visit E m here (.sysreqN i n) s =
        (match invokeNative E i { s with vm := v } with
          | .ok t _ => (match vmOp (popN (n + 1)) t with
            | .ok u _ => .ok u .next
            | .fail u e => .fail u e
            | .ub => .ub)
          | .fail t e => .fail t e
          | .ub => .ub) := by
      simp only [visit, bind, IM.bind, hn, if_neg (show ¬ i < 0 by omega), hrp, vmOp, hpush, hpop, pure, IM.pure]
      cases invokeNative E i { s with vm := v } <;> try rfl
      rename_i t _
      dsimp only
      cases popN (n + 1) t.vm <;> rfl
    rw [key]
    simp only [invokeNative, hn, if_neg (show ¬ i < 0 by omega)]
    constructor
    · intro hb
      exact ⟨{ s with vm := v }, by rw [hb]; rfl, rfl⟩
    · intro hb
      simp only [hb, if_true]
      refine ⟨?_, ?_, ?_⟩
      · intro hc; rw [hc]
      · intro w e hc
        rw [hc]
        exact ⟨_, rfl, rfl, hvhp⟩
      · intro w r hc
        rw [hc]
        have hb1 := hblk _ _ _ hc
        have hp := popN_ok (n + 1) (s := { w with sp := v.sp, hp := v.hp })
          ⟨by dsimp only; rw [hb1.dataSize, hvb.dataSize]; omega, by dsimp only; rw [hb1.dataSize, hvb.dataSize]; omega,
           by dsimp only; omega, by dsimp only; rw [hb1.stp, hvb.stp]; omega,
           by dsimp only; rw [hb1.stp, hvb.stp, hb1.memSize, hvb.memSize]; omega,
           by dsimp only; rw [hb1.memSize, hvb.memSize]; omega⟩
          (by dsimp only; rw [hb1.stp, hvb.stp]; omega)
        dsimp only at hp
        simp only [vmOp, hp]
        refine ⟨_, rfl, rfl, ?_, hvhp, rfl⟩
        dsimp only
        omega

/-- The next `k` cells from address `a` upwards. -/
def cellsAt (m : Int → BitVec 8) (a : Int) : Nat → List Cell
  | 0 => []
  | k+1 => rd32 m a :: cellsAt m (a + 4) k

theorem popList_ok : ∀ (k : Nat) {s : State}, Layout s → s.sp + 4 * (k : Int) ≤ s.stp →
    popList k s = .ok { s with sp := s.sp + 4 * (k : Int) } (cellsAt s.mem s.sp k)
  | 0, s, _, _ => by
      show Res.ok s [] = _
      simp [cellsAt]
  | k+1, s, L, h => by
      have L' := L
      obtain ⟨l1, l2, l3, l4, l5, l6⟩ := L'
      rcases popStack_cases L with ⟨k, e⟩ | ⟨_, e⟩
      · omega
      · unfold popList
        rw [bind_ok e]
        have ih := popList_ok k (s := { s with sp := s.sp + 4 })
          ⟨l1, l2, by somega, by somega, l5, l6⟩ (by somega)
        rw [bind_ok ih]
        dsimp only [pure_def]
        rw [show s.sp + 4 + 4 * (k : Int) = s.sp + 4 * ((k + 1 : Nat) : Int) by omega]
        rfl

/-- **C08 (built-in replacement).** A bound native the VM replaces by a built-in instruction with `k`
operands takes exactly those `k` cells from the stack, whatever count the call names; the heap pointer
and memory are untouched. -/
theorem C08_replaced_call (E : Env) (m : Nat) (here i : Int) (hi : 0 ≤ i) (s : IState) (L : Layout s.vm)
    (nat : Native) (hn : E.natives i.toNat = some nat) (hb : nat.bound = true) (hx : nat.fixed = true)
    (k : Nat) (f : List Cell → Cell) (hrep : nat.replacement = some (k, f)) (n : Int)
    (hroom : s.vm.sp + 4 * (k : Int) ≤ s.vm.stp) :
    ∃ s', visit E m here (.sysreqN i n) s = .ok s' .next ∧ s'.pri = f (cellsAt s.vm.mem s.vm.sp k) ∧
      s'.vm.sp = s.vm.sp + 4 * (k : Int) ∧ s'.vm.hp = s.vm.hp ∧ s'.vm.mem = s.vm.mem := by
  have hp := popList_ok k L hroom
  simp only [visit, bind, IM.bind, hn, if_neg (show ¬ i < 0 by omega), hb, hx, hrep, Bool.and_self, if_true,
    vmOp, hp, setR, IState.setReg]
  exact ⟨_, rfl, rfl, rfl, rfl, rfl⟩

/-- The replacement hypothesis is needed: a native replaced by a built-in float instruction pops that
instruction's own number of operands, whatever count the call names. -/
theorem C08_replacement_ignores_count :
    ∃ (E : Env) (s s' : IState) (nat : Native), Layout s.vm ∧ E.natives 0 = some nat ∧ nat.bound = true ∧
      s.vm.sp + 4 * 3 ≤ s.vm.stp ∧ visit E 0 0 (.sysreqN 0 3) s = .ok s' .next ∧ s'.vm.sp = s.vm.sp + 4 :=
  ⟨{ code := [], floats := ⟨fun _ => true, id, fun _ a _ => a, fun _ _ _ => true, id⟩,
     natives := fun _ => some ⟨true, true, some (1, fun vs => vs.headD 0), fun v => .ok v 0⟩,
     legacyStack := true, localOffsets := fun _ => [], validate := fun _ => none, watchdog := fun _ => true },
   ⟨init (fun _ => 0) 64 16384 true true |> fun v => { v with sp := 16000 }, 0, 0, 0⟩, _, _,
   ⟨by decide, by decide, by decide, by decide, by decide, by decide⟩, rfl, rfl, by decide, rfl, rfl⟩

/-! ### Non-vacuity -/

/-- A native that leaves the pointers in a mess and returns 9. -/
def c08Native (bound : Bool) : Native := ⟨bound, true, none, fun v => .ok { v with sp := 1, hp := 2 } 9⟩
def c08Env (bound : Bool) : Env :=
  { code := [], floats := ⟨fun _ => true, id, fun _ a _ => a, fun _ _ _ => true, id⟩,
    natives := fun _ => some (c08Native bound), legacyStack := true, localOffsets := fun _ => [],
    validate := fun _ => none, watchdog := fun _ => true }
def c08State : IState := ⟨{ init (fun _ => 0) 64 16384 true true with sp := 16000 }, 0, 0, 0⟩

example : Layout c08State.vm := ⟨by decide, by decide, by decide, by decide, by decide, by decide⟩
example : ∀ v w r, (c08Native true).call v = .ok w r → SameBlock v w := by
  intro v w r h; cases h; exact ⟨rfl, rfl, rfl, rfl, rfl⟩
example : ∃ s', visit (c08Env true) 0 0 (.sysreqN 0 2) c08State = .ok s' .next ∧ s'.vm.sp = 16008 ∧
    s'.vm.hp = 64 ∧ s'.pri = 9 := ⟨_, rfl, rfl, rfl, rfl⟩
example : ∃ s', visit (c08Env false) 0 0 (.sysreqN 0 2) c08State = .fail s' .invalidNative := ⟨_, rfl⟩

end Verif.VM

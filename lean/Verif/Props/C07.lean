import Verif.Model.Invoke
import Verif.Proofs.History

/-! C07: calling into a plugin restores its registers and passes the arguments faithfully. -/
namespace Verif.VM

/-- What the callee finds when it starts: the argument count on the stack top, the arguments above it
in order, everything above them and the heap untouched. -/
structure CalleeView (s t : State) (params : List Cell) : Prop where
  sp : t.sp = s.sp - 4 * ((params.length : Int) + 1)
  count : rd32 t.mem t.sp = BitVec.ofInt 32 params.length
  args : ∀ i (h : i < params.length), rd32 t.mem (t.sp + 4 * ((i : Int) + 1)) = params[i]
  rest : ∀ x, x < t.sp ∨ s.sp ≤ x → t.mem x = s.mem x
  regs : t.hp = s.hp ∧ t.frm = s.frm ∧ t.hpScope = s.hpScope ∧ SameBlock s t
  room : s.hp + 64 ≤ t.sp

theorem storeParams_far : ∀ {ps : List Cell} {m : Int → BitVec 8} {a x : Int},
    (x < a ∨ a + 4 * (ps.length : Int) ≤ x) → storeParams m a ps x = m x
  | [], _, _, _, _ => rfl
  | p :: ps, m, a, x, h => by
    simp only [List.length_cons] at h
    unfold storeParams
    rw [storeParams_far (by omega), wr32_far (by omega)]

theorem storeParams_get : ∀ {ps : List Cell} {m : Int → BitVec 8} {a : Int} (i : Nat) (h : i < ps.length),
    rd32 (storeParams m a ps) (a + 4 * (i : Int)) = ps[i]
  | p :: ps, m, a, 0, _ => by
    unfold storeParams
    rw [rd32_congr (m := wr32 m a p) (fun x h1 h2 => storeParams_far (by omega))]
    simp only [Int.natCast_zero, Int.mul_zero, Int.add_zero, List.getElem_cons_zero]
    exact rd32_wr32_same ..
  | p :: ps, m, a, i+1, h => by
    unfold storeParams
    have := storeParams_get (m := wr32 m a p) (a := a + 4) (ps := ps) i (by simpa using h)
    rw [show a + 4 * ((i + 1 : Nat) : Int) = a + 4 + 4 * (i : Int) by omega, this]
    simp

/-- **C07.** Invoking any function with any arguments in any well laid out state: either it is refused
with nothing changed, or the callee runs with exactly the passed arguments and, however it ends
(result or error, at any depth, with any registers), the plugin's four registers are afterwards what
they were before. -/
theorem C07_invoke {s : State} (L : Layout s) (env : InvokeEnv) (fnid : Nat) (params : List Cell)
    (hn : params.length < 536870912) :
    (∃ e, invoke env fnid params s = .fail s e) ∨
    (∃ body t, env.publics (fnid / 2) = some (some body) ∧ CalleeView s t params ∧
      ((∃ t' r s', body t = .ok t' r ∧ invoke env fnid params s = .ok s' r ∧ s'.mem = t'.mem ∧
          s'.sp = s.sp ∧ s'.hp = s.hp ∧ s'.frm = s.frm ∧ s'.hpScope = s.hpScope) ∨
       (∃ t' e s', body t = .fail t' e ∧ invoke env fnid params s = .fail s' e ∧ s'.mem = t'.mem ∧
          s'.sp = s.sp ∧ s'.hp = s.hp ∧ s'.frm = s.frm ∧ s'.hpScope = s.hpScope) ∨
       (body t = .ub ∧ invoke env fnid params s = .ub))) := by
  obtain ⟨l1, l2, l3, l4, l5, l6⟩ := L
  unfold invoke
  split
  · exact Or.inl ⟨_, rfl⟩
  split
  · exact Or.inl ⟨_, rfl⟩
  rename_i method hm
  split
  · exact Or.inl ⟨_, rfl⟩
  simp only [stackMargin, wrap32_id (x := s.sp - 4 * ((params.length : Int) + 1)) (by omega) (by omega),
    wrap32_id (x := s.hp + 64) (by omega) (by omega)]
  split
  · exact Or.inl ⟨_, rfl⟩
  rename_i hroom
  split
  · exact Or.inl ⟨_, rfl⟩
  rename_i body
  rw [if_neg (show ¬ ¬ s.inMem _ _ by
    rw [Classical.not_not]; exact ⟨by omega, by omega⟩)]
  right
  refine ⟨body, { s with
      mem := storeParams (wr32 s.mem (s.sp - 4 * ((params.length : Int) + 1))
        (BitVec.ofInt 32 params.length)) (s.sp - 4 * ((params.length : Int) + 1) + 4) params,
      sp := s.sp - 4 * ((params.length : Int) + 1) }, hm, ?_, ?_⟩
  · refine ⟨rfl, ?_, ?_, ?_, ⟨rfl, rfl, rfl, rfl, rfl, rfl, rfl, rfl⟩, by somega⟩
    · dsimp only
      rw [rd32_congr (m := wr32 s.mem (s.sp - 4 * ((params.length : Int) + 1))
        (BitVec.ofInt 32 params.length)) (fun x h1 h2 => storeParams_far (by omega)), rd32_wr32_same]
    · intro i h
      dsimp only
      rw [show s.sp - 4 * ((params.length : Int) + 1) + 4 * ((i : Int) + 1)
        = s.sp - 4 * ((params.length : Int) + 1) + 4 + 4 * (i : Int) by omega]
      exact storeParams_get i h
    · intro x hx
      dsimp only at hx ⊢
      rw [storeParams_far (by omega), wr32_far (by omega)]
  · split
    · rename_i t' r e
      exact Or.inl ⟨t', r, _, e, rfl, rfl, rfl, rfl, rfl, rfl⟩
    · rename_i t' er e
      exact Or.inr (Or.inl ⟨t', er, _, e, rfl, rfl, rfl, rfl, rfl, rfl⟩)
    · rename_i e
      exact Or.inr (Or.inr ⟨e, rfl⟩)

/-- **C07, in one line**: the registers after the call are those before it. -/
theorem C07_registers_restored {s : State} (L : Layout s) (env : InvokeEnv) (fnid : Nat)
    (params : List Cell) (hn : params.length < 536870912) (s' : State)
    (h : (∃ r, invoke env fnid params s = .ok s' r) ∨ (∃ e, invoke env fnid params s = .fail s' e)) :
    s'.sp = s.sp ∧ s'.hp = s.hp ∧ s'.frm = s.frm ∧ s'.hpScope = s.hpScope := by
  rcases C07_invoke L env fnid params hn with ⟨e, h1⟩ | ⟨body, t, _, _, h1⟩
  · rcases h with ⟨r, h⟩ | ⟨e', h⟩
    · rw [h1] at h; cases h
    · rw [h1] at h; cases h; exact ⟨rfl, rfl, rfl, rfl⟩
  · rcases h1 with ⟨_, _, _, _, h1, _, k⟩ | ⟨_, _, _, _, h1, _, k⟩ | ⟨_, h1⟩
    · rcases h with ⟨r, h⟩ | ⟨e', h⟩
      · rw [h1] at h; cases h; exact k
      · rw [h1] at h; cases h
    · rcases h with ⟨r, h⟩ | ⟨e', h⟩
      · rw [h1] at h; cases h
      · rw [h1] at h; cases h; exact k
    · rcases h with ⟨r, h⟩ | ⟨e', h⟩ <;> (rw [h1] at h; cases h)

/-! ### Non-vacuity -/

/-- A callee that wrecks all four registers and then fails, and one that returns its first argument. -/
def c07Env : InvokeEnv where
  interruptOk := true
  publics := fun i =>
    if i = 0 then some (some fun s => .fail { s with sp := 0, hp := -5, frm := 1, hpScope := 99 } .stackLow)
    else if i = 1 then some (some fun s => .ok { s with hp := s.hp + 100 } (rd32 s.mem (s.sp + 4)))
    else none
  paused := false

def c07State : State := init (fun _ => 0) 64 (computeMemSize 64 0) true true

example : Layout c07State := ⟨by decide, by decide, by decide, by decide, by decide, by decide⟩
example : ∃ s', invoke c07Env 1 [7, 8] c07State = .fail s' .stackLow ∧ s'.hp = 64 := ⟨_, rfl, rfl⟩
example : ∃ s' r, invoke c07Env 3 [7, 8] c07State = .ok s' r ∧ (s'.hp == 64 && r == 7) = true :=
  Res.exists_ok (p := fun (s : State) r => s.hp == 64 && r == 7) (by decide +kernel)
example : invoke c07Env 5 [] c07State = .fail c07State .notFound := rfl

end Verif.VM

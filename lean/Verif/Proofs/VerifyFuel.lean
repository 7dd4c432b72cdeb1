import Verif.Model.Verifier

/-! More fuel does not change the outcome of a verification that did not run out of it. -/
namespace Verif.Graph

/-- The second outcome is the first, unless that ran out of fuel. -/
def Sub {α : Type} (a b : Out α) : Prop := a = .fuel ∨ a = b

variable {α β : Type}

theorem Sub.rfl {a : Out α} : Sub a a := Or.inr _root_.rfl

theorem Sub.bind {a b : Out α} {f g : α → Out β} (h : Sub a b) (hf : ∀ x, Sub (f x) (g x)) : Sub (a >>= f) (b >>= g) := by
  rcases h with h | h
  · rw [h]; exact Or.inl _root_.rfl
  · subst h
    cases a with
    | ok x => exact hf x
    | rejected => exact Sub.rfl
    | ub => exact Sub.rfl
    | fuel => exact Or.inl _root_.rfl

theorem prescanLoop_sub {code : List VM.Cell} {start : Nat} : ∀ {n n' : Nat} (S : Pre), n ≤ n' → Sub (prescanLoop code start n S) (prescanLoop code start n' S)
  | 0, _, _, _ => Or.inl rfl
  | n+1, 0, _, h => by omega
  | n+1, n'+1, S, h => by
    unfold prescanLoop
    split
    · exact Sub.rfl
    · split
      · exact Sub.rfl
      · split
        · exact Sub.rfl
        · simp only
          split <;> exact Sub.rfl.bind fun S => prescanLoop_sub S (by omega)

theorem scanRun_sub {code : List VM.Cell} {P : Pre} {b : Nat} : ∀ {n n' : Nat} (c : Nat), n ≤ n' → Sub (scanRun code P b n c) (scanRun code P b n' c)
  | 0, _, _, _ => Or.inl rfl
  | n+1, 0, _, h => by omega
  | n+1, n'+1, c, h => by
    unfold scanRun
    split
    · exact Sub.rfl
    · split
      · exact Sub.rfl
      · refine Sub.rfl.bind fun op => ?_
        split
        · exact Sub.rfl
        · exact Sub.rfl.bind fun c => scanRun_sub c (by omega)

theorem scanLoop_sub {code : List VM.Cell} {P : Pre} {len len' : Nat} (hl : len ≤ len') : ∀ {n n' : Nat} (B : Build), n ≤ n' →
    Sub (scanLoop code P len n B) (scanLoop code P len' n' B)
  | 0, _, _, _ => Or.inl rfl
  | n+1, 0, _, h => by omega
  | n+1, n'+1, B, h => by
    unfold scanLoop
    split
    · exact Sub.rfl
    · split
      · exact Sub.rfl
      · exact (scanRun_sub _ hl).bind fun R => scanLoop_sub hl _ (by omega)

theorem build_sub {code : List VM.Cell} {start n n' : Nat} (h : n ≤ n') : Sub (build code start n) (build code start n') := by
  unfold build
  refine Sub.bind ?_ fun P => Sub.bind ?_ fun B => Sub.rfl
  · unfold prescan
    split
    · exact prescanLoop_sub _ h
    · exact Sub.rfl
  · exact (scanRun_sub _ h).bind fun R => scanLoop_sub h _ h

end Verif.Graph

namespace Verif.Verifier
open Verif.Graph

theorem verifyRun_sub {C : Ctx} {stop : Nat} : ∀ {n n' : Nat} (prev : Option Nat) (pc : Nat) (S : Cur), n ≤ n' → Sub (verifyRun C stop n prev pc S) (verifyRun C stop n' prev pc S)
  | 0, _, _, _, _, _ => Or.inl rfl
  | n+1, 0, _, _, _, h => by omega
  | n+1, n'+1, prev, pc, S, h => by
    unfold verifyRun
    split
    · exact Sub.rfl
    · exact Sub.rfl.bind fun op => Sub.rfl.bind fun x => verifyRun_sub _ _ _ (by omega)

theorem verifyBlocks_sub {C : Ctx} {M : Method} {n n' : Nat} (h : n ≤ n') : ∀ (bs : List Nat) (S : VState), Sub (verifyBlocks C M n bs S) (verifyBlocks C M n' bs S)
  | [], _ => Sub.rfl
  | b :: bs, S => by
    unfold verifyBlocks
    refine Sub.bind ?_ fun S => verifyBlocks_sub h bs S
    unfold verifyBlock
    refine Sub.rfl.bind fun S => ?_
    split
    · exact (verifyRun_sub _ _ _ h).bind fun T => Sub.rfl
    · exact Sub.rfl

theorem verify_sub {C : Ctx} {start n n' : Nat} (h : n ≤ n') : Sub (verify C start n) (verify C start n') := by
  unfold verify
  refine (build_sub h).bind fun x => ?_
  exact (verifyBlocks_sub h _ _).bind fun S => Sub.rfl

/-- A verification that ended otherwise than for lack of fuel ends that way with more. -/
theorem verify_mono {C : Ctx} {start n n' : Nat} (h : n ≤ n') (hf : verify C start n ≠ .fuel) : verify C start n' = verify C start n := by
  rcases verify_sub (C := C) (start := start) h with h | h
  · exact absurd h hf
  · exact h.symm

end Verif.Verifier

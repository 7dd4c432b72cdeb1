import Verif.Model.Mem
import Verif.Spec.Memory

/-! Lemmas about the raw memory accesses. -/
namespace Verif.VM

/-- `omega` after reducing projections of explicit states. -/
macro "somega" : tactic => `(tactic| ((try dsimp only [State.inMem]) <;> omega))

theorem wrap32_id {x : Int} (h1 : -2147483648 ≤ x) (h2 : x < 2147483648) : wrap32 x = x := by
  unfold wrap32; omega

theorem wrap32_range (x : Int) : -2147483648 ≤ wrap32 x ∧ wrap32 x < 2147483648 := by
  unfold wrap32; omega

theorem ofInt_toInt {x : Int} (h1 : -2147483648 ≤ x) (h2 : x < 2147483648) :
    (BitVec.ofInt 32 x).toInt = x := by
  rw [BitVec.toInt_ofInt]
  exact Int.bmod_eq_of_le (by omega) (by omega)

theorem toInt_range (v : Cell) : -2147483648 ≤ v.toInt ∧ v.toInt < 2147483648 := by
  have h1 := @BitVec.le_toInt 32 v
  have h2 := @BitVec.toInt_lt 32 v
  constructor <;> omega

theorem wr32_far {m : Int → BitVec 8} {a x : Int} {v : Cell} (h : x < a ∨ a + 4 ≤ x) :
    wr32 m a v x = m x := by
  unfold wr32
  rw [if_neg (by omega), if_neg (by omega), if_neg (by omega), if_neg (by omega)]

theorem rd32_congr {m m' : Int → BitVec 8} {a : Int}
    (h : ∀ x, a ≤ x → x < a + 4 → m' x = m x) : rd32 m' a = rd32 m a := by
  unfold rd32
  rw [h a (by omega) (by omega), h (a+1) (by omega) (by omega), h (a+2) (by omega) (by omega),
    h (a+3) (by omega) (by omega)]

theorem rd32_wr32_disj {m : Int → BitVec 8} {a b : Int} {v : Cell} (h : a + 4 ≤ b ∨ b + 4 ≤ a) :
    rd32 (wr32 m a v) b = rd32 m b :=
  rd32_congr fun _ _ _ => wr32_far (by omega)

theorem split4 (v : Cell) :
    v.extractLsb' 24 8 ++ v.extractLsb' 16 8 ++ v.extractLsb' 8 8 ++ v.extractLsb' 0 8 = v := by
  apply BitVec.eq_of_getLsbD_eq
  intro i hi
  simp only [BitVec.getLsbD_append, BitVec.getLsbD_extractLsb']
  rcases Nat.lt_or_ge i 8 with h | h
  · simp [h]
  rcases Nat.lt_or_ge i 16 with h' | h'
  · simp [show ¬ i < 8 by omega, show i - 8 < 8 by omega, show 8 + (i - 8) = i by omega]
  rcases Nat.lt_or_ge i 24 with h'' | h''
  · simp [show ¬ i < 8 by omega, show ¬ i - 8 < 8 by omega, show i - 8 - 8 < 8 by omega,
      show 16 + (i - 8 - 8) = i by omega]
  · simp [show ¬ i < 8 by omega, show ¬ i - 8 < 8 by omega, show ¬ i - 8 - 8 < 8 by omega,
      show i - 8 - 8 - 8 < 8 by omega, show 24 + (i - 8 - 8 - 8) = i by omega]

theorem rd32_wr32_same (m : Int → BitVec 8) (a : Int) (v : Cell) : rd32 (wr32 m a v) a = v := by
  unfold rd32 wr32
  simp only [show ¬ (a + 3 = a) by omega, show ¬ (a + 3 = a + 1) by omega,
    show ¬ (a + 3 = a + 2) by omega, show ¬ (a + 2 = a) by omega, show ¬ (a + 2 = a + 1) by omega,
    show ¬ (a + 1 = a) by omega, if_false, if_true]
  exact split4 v

theorem SameBlock.rfl {s : State} : SameBlock s s := ⟨by simp, by simp, by simp, by simp, by simp⟩

theorem SameBlock.trans {s t u : State} (h : SameBlock s t) (k : SameBlock t u) : SameBlock s u :=
  ⟨by rw [k.1, h.1], by rw [k.2, h.2], by rw [k.3, h.3], by rw [k.4, h.4], by rw [k.5, h.5]⟩

/-- Run a check on a successful result (used to evaluate concrete examples). -/
def Res.test {σ α : Type} (r : Res σ α) (p : σ → α → Bool) : Bool :=
  match r with
  | .ok s a => p s a
  | _ => false

theorem Res.exists_ok {σ α : Type} {r : Res σ α} {p : σ → α → Bool} (h : r.test p = true) :
    ∃ s a, r = .ok s a ∧ p s a = true := by
  cases r with
  | ok s a => exact ⟨s, a, rfl, h⟩
  | fail => cases h
  | ub => cases h

end Verif.VM

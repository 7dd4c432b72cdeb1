import Verif.Model.Arrays
import Verif.Proofs.History

/-! C12: initialising an array from a data template. -/
namespace Verif.VM

theorem copyCells_far {m : Int → BitVec 8} {dst src : Int} {rel : Cell} : ∀ {n : Nat} {x : Int},
    (x < dst ∨ dst + 4 * (n : Int) ≤ x) → copyCells m dst src rel n x = m x
  | 0, _, _ => rfl
  | n+1, x, h => by
    unfold copyCells
    rw [wr32_far (by omega), copyCells_far (by omega)]

theorem copyCells_get {m : Int → BitVec 8} {dst src : Int} {rel : Cell} {N : Nat}
    (hd : dst + 4 * (N : Int) ≤ src ∨ src + 4 * (N : Int) ≤ dst) : ∀ {n : Nat}, n ≤ N →
    ∀ i : Nat, i < n → rd32 (copyCells m dst src rel n) (dst + 4 * (i : Int)) = rd32 m (src + 4 * (i : Int)) + rel
  | 0, _, _, h => by omega
  | n+1, hN, i, h => by
    unfold copyCells
    dsimp only
    by_cases hi : i = n
    · subst hi
      rw [show dst + (i : Int) * 4 = dst + 4 * (i : Int) by omega, rd32_wr32_same]
      rw [rd32_congr (m := m) (fun x h1 h2 => copyCells_far (by omega))]
      rw [show src + (i : Int) * 4 = src + 4 * (i : Int) by omega]
    · rw [rd32_wr32_disj (by omega)]
      exact copyCells_get hd (by omega) i (by omega)

theorem fillCells_far {m : Int → BitVec 8} {a : Int} {v : Cell} : ∀ {n : Nat} {x : Int},
    (x < a ∨ a + 4 * (n : Int) ≤ x) → fillCells m a v n x = m x
  | 0, _, _ => rfl
  | n+1, x, h => by
    unfold fillCells
    rw [wr32_far (by omega), fillCells_far (by omega)]

theorem fillCells_get {m : Int → BitVec 8} {a : Int} {v : Cell} : ∀ {n : Nat} (i : Nat), i < n →
    rd32 (fillCells m a v n) (a + 4 * (i : Int)) = v
  | n+1, i, h => by
    unfold fillCells
    by_cases hi : i = n
    · subst hi
      rw [show a + (i : Int) * 4 = a + 4 * (i : Int) by omega, rd32_wr32_same]
    · rw [rd32_wr32_disj (by omega)]
      exact fillCells_get i (by omega)

/-- What initialising `arr` from the template `dat` must do: `iv` row pointers relocated by the array
base, then `copy` cells copied, then `fill` cells set, and nothing else. -/
structure Initialised (m m' : Int → BitVec 8) (arr dat : Int) (iv copy fill : Nat) (v : Cell) : Prop where
  pointers : ∀ i : Nat, i < iv →
    rd32 m' (arr + 4 * (i : Int)) = rd32 m (dat + 4 * (i : Int)) + BitVec.ofInt 32 arr
  copied : ∀ i : Nat, i < copy →
    rd32 m' (arr + 4 * ((iv + i : Nat) : Int)) = rd32 m (dat + 4 * ((iv + i : Nat) : Int))
  filled : ∀ i : Nat, i < fill → rd32 m' (arr + 4 * ((iv + copy + i : Nat) : Int)) = v
  frame : ∀ x, x < arr ∨ arr + 4 * ((iv + copy + fill : Nat) : Int) ≤ x → m' x = m x

/-- **C12.** With cell-aligned addresses and a template that does not overlap the array, `initArray`
either reports an error with nothing changed, or both ranges fit (the array in memory, the template
in the data section) and the array is initialised exactly as specified.  Never undefined behaviour. -/
theorem C12_init_array {s : State} (L : Layout s)
    (hal : s.memSize % 4 = 0 ∧ s.dataSize % 4 = 0) {arr dat : Int} (ha : arr % 4 = 0) (hdal : dat % 4 = 0)
    (iv copy fill : Nat) (v : Cell)
    (hdisj : iv + copy = 0 ∨ arr + 4 * ((iv + copy + fill : Nat) : Int) ≤ dat ∨
      dat + 4 * ((iv + copy : Nat) : Int) ≤ arr) :
    (∃ e, initArray arr dat iv copy fill v s = .fail s e) ∨
    (∃ m', initArray arr dat iv copy fill v s = .ok { s with mem := m' } () ∧
      0 ≤ arr ∧ arr + 4 * ((iv + copy + fill : Nat) : Int) ≤ s.memSize ∧
      (0 < iv + copy → 0 ≤ dat ∧ dat + 4 * ((iv + copy : Nat) : Int) ≤ s.dataSize) ∧
      Initialised s.mem m' arr dat iv copy fill v) := by
  obtain ⟨l1, l2, l3, l4, l5, l6⟩ := L
  unfold initArray
  unfold localToPhysAddr
  by_cases h1 : (arr ≥ s.hp ∧ arr < s.sp) ∨ arr < 0 ∨ arr ≥ s.memSize
  · rw [if_pos h1]; exact Or.inl ⟨_, rfl⟩
  rw [if_neg h1]
  dsimp only
  rw [if_neg (by omega)]
  by_cases h2 : arr + (iv : Int) * 4 + ((copy : Int) + fill - 1) * 4 ≥ s.memSize
  · rw [if_pos h2]; exact Or.inl ⟨_, rfl⟩
  rw [if_neg h2]
  have hfit : arr + 4 * ((iv + copy + fill : Nat) : Int) ≤ s.memSize := by omega
  by_cases h3 : (iv : Int) = 0 ∧ (copy : Int) = 0
  · rw [if_pos h3]
    dsimp only
    have hi : iv = 0 := by omega
    have hc : copy = 0 := by omega
    subst hi hc
    by_cases h4 : (fill : Int) = 0
    · rw [if_pos h4]
      refine Or.inr ⟨s.mem, rfl, by omega, hfit, by omega, ?_, ?_, ?_, fun _ _ => rfl⟩ <;>
        (intro i h; omega)
    · rw [if_neg h4, if_neg (show ¬ ¬ s.inMem _ _ by
        rw [Classical.not_not]; exact ⟨by omega, by omega⟩)]
      refine Or.inr ⟨_, rfl, by omega, hfit, by omega, ?_, ?_, ?_, ?_⟩
      · intro i h; omega
      · intro i h; omega
      · intro i h
        have := fillCells_get (m := s.mem) (a := arr + ((0 : Nat) : Int) * 4 + ((0 : Nat) : Int) * 4) (v := v)
          (n := (fill : Int).toNat) i (by omega)
        refine Eq.trans (congrArg (rd32 _) ?_) this; omega
      · intro x hx
        exact fillCells_far (by omega)
  · rw [if_neg h3]
    have hpos : 0 < iv + copy := by omega
    have hdj := hdisj.resolve_left (by omega)
    by_cases h4 : (dat ≥ s.hp ∧ dat < s.sp) ∨ dat < 0 ∨ dat ≥ s.memSize
    · rw [if_pos h4]; exact Or.inl ⟨_, rfl⟩
    rw [if_neg h4]
    dsimp only
    by_cases h5 : dat + (iv : Int) * 4 + ((copy : Int) - 1) * 4 ≥ s.dataSize
    · rw [if_pos h5]; exact Or.inl ⟨_, rfl⟩
    rw [if_neg h5]
    rw [if_neg (show ¬ (¬ s.inMem arr (((iv : Int) + copy) * 4) ∨ ¬ s.inMem dat (((iv : Int) + copy) * 4) ∨
        ((copy : Int) ≠ 0 ∧ ¬ (arr + (iv : Int) * 4 + (copy : Int) * 4 ≤ dat + (iv : Int) * 4 ∨
          dat + (iv : Int) * 4 + (copy : Int) * 4 ≤ arr + (iv : Int) * 4))) by
      rintro (h | h | ⟨_, h⟩)
      · exact h ⟨by omega, by omega⟩
      · exact h ⟨by omega, by omega⟩
      · omega)]
    dsimp only
    -- the three memories
    generalize hm1 : copyCells s.mem arr dat (BitVec.ofInt 32 arr) (iv : Int).toNat = m1
    generalize hm2 : copyCells m1 (arr + (iv : Int) * 4) (dat + (iv : Int) * 4) 0 (copy : Int).toNat = m2
    have g1 : ∀ i : Nat, i < iv → rd32 m1 (arr + 4 * (i : Int))
        = rd32 s.mem (dat + 4 * (i : Int)) + BitVec.ofInt 32 arr := by
      intro i h
      rw [← hm1]
      exact copyCells_get (N := iv) (by omega) (by omega) i (by omega)
    have f1 : ∀ x, x < arr ∨ arr + 4 * (iv : Int) ≤ x → m1 x = s.mem x := by
      intro x hx
      rw [← hm1]
      exact copyCells_far (by omega)
    have g2 : ∀ i : Nat, i < copy → rd32 m2 (arr + 4 * ((iv + i : Nat) : Int))
        = rd32 s.mem (dat + 4 * ((iv + i : Nat) : Int)) := by
      intro i h
      rw [← hm2]
      have := copyCells_get (m := m1) (dst := arr + (iv : Int) * 4) (src := dat + (iv : Int) * 4) (rel := 0)
        (N := copy) (by omega) (n := (copy : Int).toNat) (by omega) i (by omega)
      rw [show arr + (iv : Int) * 4 + 4 * (i : Int) = arr + 4 * ((iv + i : Nat) : Int) by omega,
        show dat + (iv : Int) * 4 + 4 * (i : Int) = dat + 4 * ((iv + i : Nat) : Int) by omega] at this
      rw [this, rd32_congr (m := s.mem) (fun x h1 h2 => f1 x (by omega))]
      exact BitVec.add_zero _
    have f2 : ∀ x, x < arr + 4 * (iv : Int) ∨ arr + 4 * ((iv + copy : Nat) : Int) ≤ x → m2 x = m1 x := by
      intro x hx
      rw [← hm2]
      exact copyCells_far (by omega)
    by_cases h6 : (fill : Int) = 0
    · rw [if_pos h6]
      refine Or.inr ⟨m2, rfl, by omega, hfit, fun _ => by omega, ?_, g2, ?_, ?_⟩
      · intro i h
        rw [rd32_congr (m := m1) (fun x h1 h2 => f2 x (by omega)), g1 i h]
      · intro i h; omega
      · intro x hx
        rw [f2 x (by omega), f1 x (by omega)]
    · rw [if_neg h6, if_neg (show ¬ ¬ State.inMem _ _ _ by
        rw [Classical.not_not]; exact ⟨by somega, by somega⟩)]
      have f3 : ∀ x, x < arr + 4 * ((iv + copy : Nat) : Int) ∨
          arr + 4 * ((iv + copy + fill : Nat) : Int) ≤ x →
          fillCells m2 (arr + (iv : Int) * 4 + (copy : Int) * 4) v (fill : Int).toNat x = m2 x := by
        intro x hx
        exact fillCells_far (by omega)
      refine Or.inr ⟨_, rfl, by omega, hfit, fun _ => by omega, ?_, ?_, ?_, ?_⟩
      · intro i h
        rw [rd32_congr (m := m2) (fun x h1 h2 => f3 x (by omega)),
          rd32_congr (m := m1) (fun x h1 h2 => f2 x (by omega)), g1 i h]
      · intro i h
        rw [rd32_congr (m := m2) (fun x h1 h2 => f3 x (by omega)), g2 i h]
      · intro i h
        have := fillCells_get (m := m2) (a := arr + (iv : Int) * 4 + (copy : Int) * 4) (v := v)
          (n := (fill : Int).toNat) i (by omega)
        refine Eq.trans (congrArg (rd32 _) ?_) this; omega
      · intro x hx
        rw [f3 x (by omega), f2 x (by omega), f1 x (by omega)]

/-- A reachable layout used by the counterexample below. -/
def c12Unaligned : State :=
  { mem := fun _ => 0, memSize := 16384, dataSize := 64, stp := 16380, hp := 64, sp := 16000,
    frm := 16000, hpScope := -1, directArrays := true, usesHeapScopes := true }

/-- The restriction to aligned addresses is needed: the end check is made on the last cell's address,
so an unaligned array may run up to three bytes past the end of memory. -/
theorem C12_unaligned_overrun :
    ∃ s : State, Layout s ∧ initArray 16377 0 0 0 2 7 s = .ub :=
  ⟨c12Unaligned, ⟨by decide, by decide, by decide, by decide, by decide, by decide⟩, rfl⟩

/-! ### Non-vacuity -/

/-- A template with two row pointers and four data cells at address 0, a heap array at 64. -/
def c12State : State :=
  { mem := wr32 (wr32 (wr32 (fun _ => 0) 0 8) 4 16) 8 42, memSize := 16384, dataSize := 64, stp := 16380,
    hp := 128, sp := 16000, frm := 16000, hpScope := -1, directArrays := true, usesHeapScopes := true }

example : Layout c12State := ⟨by decide, by decide, by decide, by decide, by decide, by decide⟩
example : ∃ s' u, initArray 64 0 2 4 3 7 c12State = .ok s' u ∧
    (rd32 s'.mem 64 == 72 && rd32 s'.mem 68 == 80 && rd32 s'.mem 72 == 42 && rd32 s'.mem 88 == 7) = true :=
  Res.exists_ok (p := fun (s' : State) _ =>
    rd32 s'.mem 64 == 72 && rd32 s'.mem 68 == 80 && rd32 s'.mem 72 == 42 && rd32 s'.mem 88 == 7)
    (by decide +kernel)
example : ∃ e, initArray 64 0 2 40 3 7 c12State = .fail c12State e := ⟨_, rfl⟩

end Verif.VM

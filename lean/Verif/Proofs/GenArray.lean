import Verif.Proofs.Arrays
import Verif.Proofs.History

/-! What a successful or refused array creation does, for both layouts. -/
namespace Verif.VM

/-- Everything that is true after a successful creation. -/
structure ArrayMade (s s' : State) (base : Int) (dims : List Int) (autozero : Bool) : Prop where
  pos : dims ≠ [] ∧ Pos dims
  base_eq : base = s.hp
  hp_eq : s'.hp = s.hp + 4 * (ptrCells dims + dataCells dims) + (if s.usesHeapScopes then 0 else 4)
  inside : s'.hp ≤ s.memSize
  regs : s'.sp = s.sp ∧ s'.frm = s.frm ∧ s'.hpScope = s.hpScope
  same : SameBlock s s'
  frame : ∀ x, x < s.hp ∨ s'.hp ≤ x → s'.mem x = s.mem x
  walk : ∀ m', (∀ x, s.hp ≤ x → x < s.hp + 4 * ptrCells dims → m' x = s'.mem x) →
    ∀ is, ValidIx dims is →
    (if s.directArrays then walkAbs m' base is else walkRel m' base is)
      = base + 4 * ptrCells dims + 4 * flat dims is
  data : ∀ x, s.hp + 4 * ptrCells dims ≤ x → x < s.hp + 4 * (ptrCells dims + dataCells dims) →
    s'.mem x = if autozero then 0 else s.mem x

theorem pushTracker_ok {s : State} (L : Layout s) {n : Int} (h : n ≤ 2147483647)
    (h2 : s.hp + 64 ≤ s.sp) :
    pushTracker n s =
      .ok { s with mem := wr32 s.mem s.hp (BitVec.ofInt 32 n), hp := s.hp + 4 } () := by
  obtain ⟨l1, l2, l3, l4, l5, l6⟩ := L
  unfold pushTracker
  simp only [stackMargin, wrap32_id (x := s.sp - s.hp) (by omega) (by omega),
    wrap32_id (x := s.hp + 4) (by omega) (by omega)]
  rw [if_neg (by omega), if_neg (by omega), storeRaw_ok ⟨by somega, by somega⟩]

theorem genRel_one (base : Int) (d : Int) (st : RelState) : genRel base [d] st = st := rfl

/-- The shape of array creation. -/
theorem generateFullArray_unfold {s : State} (L : Layout s) {argv : List Int} {cells iv : Int}
    (az : Bool) (ha : arraySizes argv = some (cells, iv)) :
    ∃ m1 : Int → BitVec 8,
      generateFullArray argv az s =
        (if !addSafe s.hp (cells * 4) then .fail s .arrayTooBig
        else if s.hp + cells * 4 ≥ (s.sp - 64) % 4294967296 then .fail s .heapLow
        else if ¬ s.inMem s.hp (cells * 4) then .ub
        else if s.usesHeapScopes then .ok { s with mem := m1, hp := wrap32 (s.hp + cells * 4) } s.hp
        else match pushTracker (cells * 4) { s with mem := m1, hp := wrap32 (s.hp + cells * 4) } with
          | .ok s2 _ => .ok s2 s.hp
          | .fail s2 e => .fail s2 e
          | .ub => .ub) ∧
      (s.inMem s.hp (cells * 4) →
        (∀ x, x < s.hp ∨ s.hp + cells * 4 ≤ x → m1 x = s.mem x) ∧
        (∀ x, s.hp + 4 * ptrCells argv.reverse ≤ x → x < s.hp + cells * 4 →
          m1 x = if az then 0 else s.mem x) ∧
        (∀ m', (∀ x, s.hp ≤ x → x < s.hp + 4 * ptrCells argv.reverse → m' x = m1 x) →
          ∀ is, ValidIx argv.reverse is →
          (if s.directArrays then walkAbs m' s.hp is else walkRel m' s.hp is)
            = s.hp + 4 * ptrCells argv.reverse + 4 * flat argv.reverse is)) := by
  obtain ⟨l1, l2, l3, l4, l5, l6⟩ := L
  obtain ⟨hne, hp, hc, hiv, hcb⟩ := arraySizes_spec ha
  have hne' : argv.reverse ≠ [] := by simpa using hne
  unfold generateFullArray
  rw [ha]
  generalize argv.reverse = dims at *
  have hP := ptrCells_nonneg hp
  have hD := dataCells_pos hp
  unfold totalCells at hc
  dsimp only
  simp only [stackMargin, show s.hp % 4294967296 = s.hp by omega]
  generalize hm0 : (if az = true then zeroFill s.mem (s.hp + iv) (cells * 4 - iv) else s.mem) = m0
  generalize hm1 : (if s.directArrays = true then
      (genAbs s.hp dims { mem := m0, iv := 0, data := iv }).1.mem
    else (genRel s.hp dims { mem := m0, cur := 0, data := calcIndirection dims }).mem) = m1
  refine ⟨m1, rfl, ?_⟩
  rintro ⟨in1, in2⟩
  rw [wrap32_id (by omega) (by omega)] at hiv
  have m0f : ∀ x, x < s.hp + iv ∨ s.hp + cells * 4 ≤ x → m0 x = s.mem x := by
    intro x hx
    rw [← hm0]
    split
    · unfold zeroFill; rw [if_neg (by omega)]
    · rfl
  have m0d : ∀ x, s.hp + iv ≤ x → x < s.hp + cells * 4 → m0 x = if az then 0 else s.mem x := by
    intro x hx1 hx2
    rw [← hm0]
    split
    · unfold zeroFill; rw [if_pos (by omega)]
    · rfl
  have m1f : ∀ x, ¬ (s.hp ≤ x ∧ x < s.hp + iv) → m1 x = m0 x := by
    intro x hx
    rw [← hm1]
    split
    · exact (genAbs_spec s.hp dims hne' hp _).frame x (by dsimp only; omega)
    · match dims, hne', hp with
      | [d], _, _ => rfl
      | d :: d' :: ds, _, hp => exact (genRel_spec s.hp _ (by simp) hp _).frame x (by dsimp only; omega)
  refine ⟨?_, ?_, ?_⟩
  · intro x hx
    rw [m1f x (by omega), m0f x (by omega)]
  · intro x hx1 hx2
    rw [m1f x (by omega), m0d x (by omega) (by omega)]
  · intro m' hm' is his
    rw [← hm1] at hm'
    split
    · rename_i hda
      rw [if_pos hda] at hm'
      have := (genAbs_spec s.hp dims hne' hp { mem := m0, iv := 0, data := iv })
      have hoff : (genAbs s.hp dims { mem := m0, iv := 0, data := iv }).2 = 0 := by
        match dims, hne', hiv with
        | [d], _, hiv => simp [genAbs, hiv, ptrCells]
        | d :: d' :: ds, _, _ => rfl
      have w := this.walk (by omega) (by dsimp only; omega) (by dsimp only; omega)
        (by dsimp only; omega) (by dsimp only; omega) m' (fun x a b => hm' x (by dsimp only at *; omega)
          (by dsimp only at *; omega)) is his
      rw [hoff] at w
      rw [Int.add_zero] at w
      rw [w]; dsimp only; omega
    · rename_i hda
      rw [if_neg hda] at hm'
      match dims, hne', hp, hiv, hc, hP, hD with
      | [d], _, _, _, _, _, _ =>
        match is, his with
        | [i], _ => simp [walkRel, flat, dataCells, ptrCells]
        | _ :: _ :: _, hi => exact hi.2.elim
      | d :: d' :: ds, _, hp, _, _, _, _ =>
        have w := (genRel_spec s.hp (d :: d' :: ds) (by simp) hp
          { mem := m0, cur := 0, data := calcIndirection (d :: d' :: ds) }).walk (by dsimp only; omega)
          (by rw [calcIndirection_eq]; dsimp only; omega) (by dsimp only; omega)
          (by rw [calcIndirection_eq]; dsimp only; omega) m'
          (fun x a b => hm' x (by dsimp only at *; omega) (by dsimp only at *; omega)) is his
        dsimp only at w
        rw [calcIndirection_eq] at w
        rw [show s.hp + 4 * 0 = s.hp by omega] at w
        exact w

/-- A successful creation has made the array. -/
theorem generateFullArray_made {s s' : State} (L : Layout s) {argv : List Int} {az : Bool} {base : Int}
    (h : generateFullArray argv az s = .ok s' base) : ArrayMade s s' base argv.reverse az := by
  have L' := L
  obtain ⟨l1, l2, l3, l4, l5, l6⟩ := L'
  cases ha : arraySizes argv with
  | none => unfold generateFullArray at h; rw [ha] at h; cases h
  | some p =>
    obtain ⟨cells, iv⟩ := p
    obtain ⟨m1, e, f⟩ := generateFullArray_unfold L az ha
    obtain ⟨hne, hp, hc, hiv, hcb⟩ := arraySizes_spec ha
    have hne' : argv.reverse ≠ [] := by simpa using hne
    rw [e] at h
    generalize argv.reverse = dims at *
    have hP := ptrCells_nonneg hp
    have hD := dataCells_pos hp
    unfold totalCells at hc
    split at h
    · cases h
    split at h
    · cases h
    split at h
    · cases h
    rename_i hin
    rw [Classical.not_not] at hin
    obtain ⟨f1, f2, f3⟩ := f hin
    obtain ⟨in1, in2⟩ := hin
    rw [wrap32_id (by omega) (by omega)] at h
    cases hu : s.usesHeapScopes with
    | true =>
      rw [if_pos hu] at h
      cases h
      refine ⟨⟨hne', hp⟩, rfl, ?_, ?_, ⟨rfl, rfl, rfl⟩, ⟨rfl, rfl, rfl, rfl, rfl⟩, ?_, ?_, ?_⟩
      · rw [hu]; dsimp only; simp; omega
      · dsimp only; omega
      · exact f1
      · exact f3
      · intro x hx1 hx2
        exact f2 x hx1 (by omega)
    | false =>
      rw [if_neg (by simp [hu])] at h
      unfold pushTracker at h
      dsimp only at h
      rw [if_neg (by omega)] at h
      split at h
      · rename_i s2 u hq
        cases h
        split at hq
        · cases hq
        rw [wrap32_id (by omega) (by omega)] at hq
        unfold storeRaw at hq
        split at hq
        · rename_i hin2
          cases hq
          obtain ⟨in3, in4⟩ := hin2
          dsimp only at in3 in4
          refine ⟨⟨hne', hp⟩, rfl, ?_, ?_, ⟨rfl, rfl, rfl⟩, ⟨rfl, rfl, rfl, rfl, rfl⟩, ?_, ?_, ?_⟩
          · rw [hu]; dsimp only; simp; omega
          · dsimp only; omega
          · intro x hx
            dsimp only at hx ⊢
            rw [wr32_far (by omega), f1 x (by omega)]
          · intro m' hm' is his
            refine f3 m' (fun x a b => ?_) is his
            rw [hm' x a b]
            dsimp only
            rw [wr32_far (by omega)]
          · intro x hx1 hx2
            dsimp only
            rw [wr32_far (by omega), f2 x hx1 (by omega)]
        · cases hq
      · cases h
      · cases h

/-- With at least 64 bytes below the stack pointer, array creation either makes the array or reports
an error and changes nothing. -/
theorem generateFullArray_cases {s : State} (L : Layout s) (hsp : 64 ≤ s.sp) (argv : List Int)
    (az : Bool) :
    (∃ s', generateFullArray argv az s = .ok s' s.hp ∧ ArrayMade s s' s.hp argv.reverse az ∧
      s.hp + 4 * (ptrCells argv.reverse + dataCells argv.reverse) + 64 < s.sp) ∨
    (∃ e, generateFullArray argv az s = .fail s e ∧
      (arraySizes argv = none ∨ 4294967295 < s.hp + 4 * (ptrCells argv.reverse + dataCells argv.reverse)
        ∨ s.sp ≤ s.hp + 4 * (ptrCells argv.reverse + dataCells argv.reverse) + 64)) := by
  have L' := L
  obtain ⟨l1, l2, l3, l4, l5, l6⟩ := L'
  cases ha : arraySizes argv with
  | none => right; unfold generateFullArray; rw [ha]; exact ⟨_, rfl, Or.inl rfl⟩
  | some p =>
    obtain ⟨cells, iv⟩ := p
    obtain ⟨m1, e, f⟩ := generateFullArray_unfold L az ha
    obtain ⟨hne, hp, hc, hiv, hcb⟩ := arraySizes_spec ha
    have hP := ptrCells_nonneg hp
    have hD := dataCells_pos hp
    unfold totalCells at hc
    rw [show (s.sp - 64) % 4294967296 = s.sp - 64 by omega] at e
    by_cases h1 : ¬ s.hp + cells * 4 ≤ 4294967295
    · rw [if_pos (by simpa [addSafe] using h1)] at e
      exact Or.inr ⟨_, e, Or.inr (Or.inl (by omega))⟩
    rw [Classical.not_not] at h1
    rw [if_neg (by simpa [addSafe] using h1)] at e
    by_cases h2 : s.hp + cells * 4 ≥ s.sp - 64
    · rw [if_pos h2] at e
      exact Or.inr ⟨_, e, Or.inr (Or.inr (by omega))⟩
    rw [if_neg h2] at e
    rw [if_neg (show ¬ ¬ s.inMem s.hp (cells * 4) by
      rw [Classical.not_not]; exact ⟨by omega, by omega⟩)] at e
    rw [wrap32_id (by omega) (by omega)] at e
    left
    have hx : ∃ s', generateFullArray argv az s = .ok s' s.hp := by
      rw [e]
      split
      · exact ⟨_, rfl⟩
      · rw [pushTracker_ok (s := { s with mem := m1, hp := s.hp + cells * 4 })
          ⟨l1, by somega, by somega, l4, l5, l6⟩ (by omega) (by somega)]
        exact ⟨_, rfl⟩
    obtain ⟨s', hs'⟩ := hx
    exact ⟨s', hs', generateFullArray_made L hs', by omega⟩

end Verif.VM

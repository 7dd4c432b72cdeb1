import Verif.Model.Source

/-! Lemmas about source positions. -/
namespace Verif.Source

/-! ## Lines -/

theorem endsLine_cons (b : Byte) (r : List Byte) (j : Nat) : EndsLine (b :: r) (j + 1) ↔ EndsLine r j := by
  unfold EndsLine
  simp only [List.getElem?_cons_succ]

theorem endsLine_zero (b : Byte) (r : List Byte) : EndsLine (b :: r) 0 ↔ b = 10 ∨ (b = 13 ∧ r[0]? ≠ some 10) := by
  unfold EndsLine
  simp only [List.getElem?_cons_zero, Nat.zero_add, List.getElem?_cons_succ, Option.some.injEq]

theorem filter_cons (b : Byte) (r : List Byte) :
    (List.range (b :: r).length).filter (fun i => decide (EndsLine (b :: r) i)) =
    (if EndsLine (b :: r) 0 then [0] else []) ++ ((List.range r.length).filter (fun i => decide (EndsLine r i))).map (· + 1) := by
  rw [List.length_cons, List.range_succ_eq_map, List.filter_cons]
  have : List.filter (fun i => decide (EndsLine (b :: r) i)) (List.map Nat.succ (List.range r.length)) =
      ((List.range r.length).filter (fun i => decide (EndsLine r i))).map (· + 1) := by
    rw [List.filter_map]
    congr 1
  rw [this]
  by_cases h : EndsLine (b :: r) 0 <;> simp [h]

theorem extentsFrom_eq : ∀ (i : Nat) (d : List Byte),
    extentsFrom i d = ((List.range d.length).filter (fun j => decide (EndsLine d j))).map (fun j => i + j + 1)
  | _, [] => rfl
  | i, b :: r => by
    have ih := extentsFrom_eq (i + 1) r
    have step : extentsFrom i (b :: r) = if EndsLine (b :: r) 0 then (i + 1) :: extentsFrom (i + 1) r
        else if b = 13 ∨ b = 10 then extentsFrom i (b :: r) else extentsFrom (i + 1) r := by
      by_cases hb : b = 13 ∧ ∃ r', r = 10 :: r'
      · obtain ⟨rfl, r', rfl⟩ := hb
        rw [if_neg (by rw [endsLine_zero]; simp), if_pos (Or.inl rfl)]
      · have he : EndsLine (b :: r) 0 ↔ (b = 13 ∨ b = 10) := by
          rw [endsLine_zero]
          constructor
          · rintro (h | ⟨h, _⟩)
            · exact Or.inr h
            · exact Or.inl h
          · rintro (h | h)
            · refine Or.inr ⟨h, ?_⟩
              intro h10
              cases r with
              | nil => cases h10
              | cons x r' =>
                rw [List.getElem?_cons_zero] at h10
                injection h10 with h10
                exact hb ⟨h, r', by rw [h10]⟩
            · exact Or.inl h
        have hd : extentsFrom i (b :: r) = if b = 13 ∨ b = 10 then (i + 1) :: extentsFrom (i + 1) r else extentsFrom (i + 1) r := by
          rw [extentsFrom]
          intro r' h1 h2
          exact hb ⟨h1, r', h2⟩
        by_cases h : b = 13 ∨ b = 10
        · rw [if_pos (he.2 h), hd, if_pos h]
        · rw [if_neg (fun x => h (he.1 x)), if_neg h, hd, if_neg h]
    by_cases hcr : b = 13 ∧ ∃ r', r = 10 :: r'
    · obtain ⟨rfl, r', rfl⟩ := hcr
      have ih := extentsFrom_eq (i + 2) r'
      rw [show extentsFrom i (13 :: 10 :: r') = (i + 2) :: extentsFrom (i + 2) r' from rfl, filter_cons, filter_cons, ih]
      have h0 : ¬ EndsLine (13 :: 10 :: r') 0 := by rw [endsLine_zero]; simp
      have h1 : EndsLine (10 :: r') 0 := by rw [endsLine_zero]; simp
      rw [if_neg h0, if_pos h1]
      simp only [List.map_cons, List.nil_append, List.map_map, List.singleton_append, Nat.zero_add]
      congr 1
      apply List.map_congr_left
      intro a _
      simp only [Function.comp]
      omega
    · rw [step, filter_cons]
      by_cases he : EndsLine (b :: r) 0
      · rw [if_pos he, if_pos he, ih]
        simp only [List.singleton_append, List.map_cons, List.map_map, Nat.add_zero]
        congr 1
        apply List.map_congr_left
        intro a _
        simp only [Function.comp]
        omega
      · have hn : ¬ (b = 13 ∨ b = 10) := by
          intro h
          apply he
          rw [endsLine_zero]
          rcases h with h | h
          · refine Or.inr ⟨h, ?_⟩
            intro h10
            cases r with
            | nil => cases h10
            | cons x r' =>
              rw [List.getElem?_cons_zero] at h10
              injection h10 with h10
              exact hcr ⟨h, r', by rw [h10]⟩
          · exact Or.inl h
        rw [if_neg he, if_neg he, if_neg hn, ih]
        simp only [List.nil_append, List.map_map]
        apply List.map_congr_left
        intro a _
        simp only [Function.comp]
        omega
  termination_by _ d => d.length

/-- The starts of lines up to an offset, and those after it. -/
theorem lineExtents_split (d : List Byte) (off : Nat) (h : off ≤ d.length) :
    ∃ l1 l2, lineExtents d = 0 :: (l1 ++ l2) ∧ l1.length + 1 = lineOf d off ∧ (∀ x ∈ l1, x ≤ off ∧ ∃ i, x = i + 1 ∧ EndsLine d i) ∧
      (∀ x ∈ l2, off < x) ∧ (∀ i, i < off → EndsLine d i → i + 1 ∈ l1) ∧ l1.Pairwise (· < ·) := by
  have hr : List.range d.length = List.range off ++ List.range' off (d.length - off) := by
    rw [List.range_eq_range', List.range_eq_range']
    have := List.range'_append (s := 0) (m := off) (n := d.length - off) (step := 1)
    rw [show 0 + 1 * off = off by omega, show off + (d.length - off) = d.length by omega] at this
    exact this.symm
  refine ⟨((List.range off).filter (fun j => decide (EndsLine d j))).map (fun j => 0 + j + 1),
    ((List.range' off (d.length - off)).filter (fun j => decide (EndsLine d j))).map (fun j => 0 + j + 1), ?_, ?_, ?_, ?_, ?_, ?_⟩
  · unfold lineExtents
    rw [extentsFrom_eq, hr, List.filter_append, List.map_append]
  · unfold lineOf
    rw [List.length_map]
    omega
  · intro x hx
    simp only [List.mem_map, List.mem_filter, List.mem_range, decide_eq_true_eq] at hx
    obtain ⟨i, ⟨h1, h2⟩, rfl⟩ := hx
    exact ⟨by omega, i, by omega, h2⟩
  · intro x hx
    simp only [List.mem_map, List.mem_filter, List.mem_range'_1] at hx
    obtain ⟨i, ⟨h1, h2⟩, rfl⟩ := hx
    omega
  · intro i hi he
    simp only [List.mem_map, List.mem_filter, List.mem_range, decide_eq_true_eq]
    exact ⟨i, ⟨hi, he⟩, by omega⟩
  · rw [List.pairwise_map]
    apply List.Pairwise.filter
    apply List.Pairwise.imp _ (List.pairwise_lt_range (n := off))
    intro a b h
    omega

/-- The search finds the last start of a line up to the offset. -/
theorem lineSearch_ok {d : List Byte} {off : Nat} (hoff : off < d.length) {l1 l2 : List Nat} (h1 : ∀ x ∈ l1, x ≤ off) (h2 : ∀ x ∈ l2, off < x) :
    ∀ (fuel lower upper : Nat), upper - lower < fuel → lower ≤ l1.length → l1.length < upper → upper ≤ (0 :: (l1 ++ l2)).length →
    lineSearch d (0 :: (l1 ++ l2)) off fuel lower upper = some (l1.length + 1, off - (0 :: l1).getD l1.length 0 + 1)
  | 0, _, _, hf, _, _, _ => by omega
  | fuel+1, lower, upper, hf, hl, hu, hlen => by
    simp only [List.length_cons, List.length_append] at hlen
    have hle : ∀ i, i ≤ l1.length → (0 :: (l1 ++ l2)).getD i 0 ≤ off := by
      intro i hi
      cases i with
      | zero => exact Nat.zero_le _
      | succ i =>
        rw [List.getD_cons_succ, List.getD_eq_getElem?_getD, List.getElem?_append_left (by omega), List.getElem?_eq_getElem (by omega), Option.getD_some]
        exact h1 _ (List.getElem_mem ..)
    have hgt : ∀ i, l1.length < i → i < l1.length + l2.length + 1 → off < (0 :: (l1 ++ l2)).getD i 0 := by
      intro i hi hi2
      cases i with
      | zero => omega
      | succ i =>
        rw [List.getD_cons_succ, List.getD_eq_getElem?_getD, List.getElem?_append_right (by omega), List.getElem?_eq_getElem (by omega), Option.getD_some]
        exact h2 _ (List.getElem_mem ..)
    unfold lineSearch
    rw [if_pos (by omega)]
    simp only
    generalize hm : (lower + upper) / 2 = index
    have hm1 : lower ≤ index := by omega
    have hm2 : index < upper := by omega
    by_cases hc : index ≤ l1.length
    · rw [if_neg (Nat.not_lt.2 (hle index hc))]
      by_cases hlast : index = l1.length
      · have hend : ¬ off ≥ (if index < (0 :: (l1 ++ l2)).length - 1 then (0 :: (l1 ++ l2)).getD (index + 1) 0 else d.length) := by
          simp only [List.length_cons, List.length_append, Nat.add_sub_cancel]
          split
          · have := hgt (index + 1) (by omega) (by omega)
            omega
          · omega
        rw [if_neg hend, hlast]
        have : (0 :: (l1 ++ l2)).getD l1.length 0 = (0 :: l1).getD l1.length 0 := by
          rw [← List.cons_append, List.getD_eq_getElem?_getD, List.getElem?_append_left (by simp), ← List.getD_eq_getElem?_getD]
        rw [this]
      · have hend : off ≥ (if index < (0 :: (l1 ++ l2)).length - 1 then (0 :: (l1 ++ l2)).getD (index + 1) 0 else d.length) := by
          simp only [List.length_cons, List.length_append, Nat.add_sub_cancel]
          rw [if_pos (by omega)]
          exact hle (index + 1) (by omega)
        rw [if_pos hend]
        exact lineSearch_ok hoff h1 h2 fuel (index + 1) upper (by omega) (by omega) hu (by simp; omega)
    · rw [if_pos (hgt index (by omega) (by omega))]
      exact lineSearch_ok hoff h1 h2 fuel lower index (by omega) hl (by omega) (by simp; omega)

theorem offsetToLineAndCol_ok {d : List Byte} {off : Nat} (h : off < d.length) :
    ∃ s, LineStart d off s ∧ offsetToLineAndCol d off = some (lineOf d off, off - s + 1) := by
  obtain ⟨l1, l2, e, hc, h1, h2, h3, h4⟩ := lineExtents_split d off (by omega)
  have hs := lineSearch_ok h (fun x hx => (h1 x hx).1) h2 ((0 :: (l1 ++ l2)).length + 1) 0 (0 :: (l1 ++ l2)).length (by omega) (by omega)
    (by simp; omega) (Nat.le_refl _)
  refine ⟨(0 :: l1).getD l1.length 0, ?_, ?_⟩
  · cases l1 with
    | nil =>
      refine ⟨Nat.zero_le _, Or.inl rfl, ?_⟩
      intro i _ hi he
      exact absurd (h3 i hi he) (by simp)
    | cons x l =>
      have hmem : (0 :: x :: l).getD (x :: l).length 0 ∈ x :: l := by
        rw [List.length_cons, List.getD_cons_succ, List.getD_eq_getElem?_getD, List.getElem?_eq_getElem (by simp), Option.getD_some]
        exact List.getElem_mem ..
      obtain ⟨g1, i, g2, g3⟩ := h1 _ hmem
      refine ⟨g1, Or.inr ⟨i, g2, g3⟩, ?_⟩
      intro j hj1 hj2 hj3
      have hj := h3 j hj2 hj3
      obtain ⟨n, hn, hn2⟩ := List.mem_iff_getElem.1 hj
      rw [List.length_cons, List.getD_cons_succ, List.getD_eq_getElem?_getD, List.getElem?_eq_getElem (by simp), Option.getD_some] at hj1
      have hle : (x :: l)[n] ≤ (x :: l)[l.length] := by
        by_cases heq : n = l.length
        · subst heq; exact Nat.le_refl _
        · rw [List.length_cons] at hn
          exact Nat.le_of_lt (List.pairwise_iff_getElem.1 h4 n l.length (by simpa using hn) (by simp) (by omega))
      omega
  · unfold offsetToLineAndCol
    rw [if_neg (by omega)]
    simp only
    rw [if_neg (by omega), e, hs, ← hc]

theorem offsetToLineAndCol_end (d : List Byte) : offsetToLineAndCol d d.length = some (lineOf d d.length, 0) := by
  obtain ⟨l1, l2, e, hc, h1, h2, h3, h4⟩ := lineExtents_split d d.length (Nat.le_refl _)
  have hl2 : l2 = [] := by
    cases l2 with
    | nil => rfl
    | cons x l =>
      have hx : x ∈ lineExtents d := by rw [e]; simp
      unfold lineExtents at hx
      rw [extentsFrom_eq] at hx
      have h2x := h2 x (List.mem_cons_self ..)
      simp only [List.mem_cons, List.mem_map, List.mem_filter, List.mem_range] at hx
      rcases hx with rfl | ⟨i, ⟨hi, _⟩, rfl⟩ <;> omega
  unfold offsetToLineAndCol
  rw [if_neg (by omega)]
  simp only
  rw [if_pos trivial, e, hl2, ← hc]
  simp

/-! ## Texts of lines -/

theorem lineExtents_sorted (d : List Byte) : (lineExtents d).Pairwise (· < ·) ∧ ∀ x ∈ lineExtents d, x ≤ d.length := by
  obtain ⟨l1, l2, e, hc, h1, h2, h3, h4⟩ := lineExtents_split d d.length (Nat.le_refl _)
  unfold lineExtents
  rw [extentsFrom_eq]
  constructor
  · rw [List.pairwise_cons]
    refine ⟨?_, ?_⟩
    · intro x hx
      simp only [List.mem_map] at hx
      obtain ⟨i, _, rfl⟩ := hx
      omega
    · rw [List.pairwise_map]
      apply List.Pairwise.filter
      apply List.Pairwise.imp _ (List.pairwise_lt_range (n := d.length))
      intro a b h
      omega
  · intro x hx
    simp only [List.mem_cons, List.mem_map, List.mem_filter, List.mem_range] at hx
    rcases hx with rfl | ⟨i, ⟨hi, _⟩, rfl⟩ <;> omega

/-- Cutting a text at increasing offsets, the first 0. -/
theorem cut_flat (d : List Byte) : ∀ (e : List Nat) (a : Nat), (a :: e).Pairwise (· < ·) → (∀ x ∈ a :: e, x ≤ d.length) →
    ((List.range (a :: e).length).map (fun k => (d.drop ((a :: e).getD k 0)).take ((if k + 1 = (a :: e).length then d.length else (a :: e).getD (k + 1) 0) -
      (a :: e).getD k 0))).flatten = d.drop a
  | [], a, _, _ => by
    simp [List.range_succ]
    rw [List.take_of_length_le (by simp)]
  | b :: e, a, hp, hle => by
    have ih := cut_flat d e b (List.pairwise_cons.1 hp).2 (fun x hx => hle x (List.mem_cons_of_mem _ hx))
    have hab : a < b := (List.pairwise_cons.1 hp).1 b (List.mem_cons_self ..)
    rw [show (a :: b :: e).length = (b :: e).length + 1 from rfl, List.range_succ_eq_map, List.map_cons, List.flatten_cons, List.map_map]
    have : (fun k => (d.drop ((a :: b :: e).getD k 0)).take ((if k + 1 = (b :: e).length + 1 then d.length else (a :: b :: e).getD (k + 1) 0) -
      (a :: b :: e).getD k 0)) ∘ Nat.succ = (fun k => (d.drop ((b :: e).getD k 0)).take ((if k + 1 = (b :: e).length then d.length else (b :: e).getD (k + 1) 0) -
      (b :: e).getD k 0)) := by
      funext k
      simp only [Function.comp, Nat.succ_eq_add_one, List.getD_cons_succ, Nat.add_right_cancel_iff]
    rw [this, ih]
    simp only [List.length_cons, List.getD_cons_zero, Nat.zero_add, List.getD_cons_succ]
    rw [if_neg (by omega)]
    have e1 : d.drop b = (d.drop a).drop (b - a) := by rw [List.drop_drop]; congr 1; omega
    rw [e1, List.take_append_drop]

/-! ## Ranges -/

theorem locOffset_eq (x : Nat) (h : x < 2147483648) : locOffset x = x ∧ locOffset (x ||| 2147483648) = x := by
  have hm : ∀ y, locOffset y = y % 2147483648 := by
    intro y
    have := Nat.and_two_pow_sub_one_eq_mod y 31
    simpa [locOffset] using this
  refine ⟨by rw [hm]; omega, ?_⟩
  have h2 : x ||| 2147483648 = 2147483648 + x := by
    have := Nat.two_pow_add_eq_or_of_lt (i := 31) (b := x) (by omega) 1
    rw [Nat.mul_one, show (2 : Nat) ^ 31 = 2147483648 by decide] at this
    rw [Nat.or_comm]
    exact this.symm
  rw [hm, h2]
  omega

/-- A range is that of text `k`. -/
def Matches (s : Sources) (t : List Origin) (k : Nat) (r : Range) : Origin → Prop
  | .file f => r.expansion = 0 ∧ r.content = .file f ∧ f < s.opened.length
  | .macro text k' off' => r.expansion = s.posOf k' off' ∧ r.content = .text text ∧ k' < k ∧ off' ≤ len s t k'

structure Inv (s : Sources) (t : List Origin) : Prop where
  count : s.ranges.length = t.length + 1
  texts : ∀ k o, t[k]? = some o → Matches s t k (s.rg k) o
  before : ∀ j k, j < k → k < t.length → (s.rg j).id + len s t j + 2 ≤ (s.rg k).id
  fits : ∀ k, k < t.length → 1 ≤ (s.rg k).id ∧ (s.rg k).id + len s t k + 2 ≤ s.next
  max : s.next ≤ 2147483647
  pos : 1 ≤ s.next
  last : s.last < s.ranges.length
  zero : s.ranges.getD 0 noRange = noRange

/-- No text has 2^32 bytes or more. -/
def Small (s : Sources) (t : List Origin) : Prop := ∀ o ∈ t, o.length s.opened < 4294967296

theorem length_eq {s : Sources} {t : List Origin} (h : Inv s t) (hs : Small s t) {k : Nat} (hk : k < t.length) : s.length (s.rg k) = len s t k := by
  have ht : t[k]? = some t[k] := List.getElem?_eq_getElem hk
  have hm := h.texts k _ ht
  have hsm := hs _ (List.getElem_mem hk)
  have hid := (h.fits k hk).1
  have hl : len s t k = t[k].length s.opened := by
    unfold len
    rw [List.getD_eq_getElem?_getD, ht, Option.getD_some]
  rw [hl]
  unfold Sources.length
  rw [if_neg (by omega)]
  cases ho : t[k] with
  | file f =>
    rw [ho] at hm hsm
    obtain ⟨_, hc, _⟩ := hm
    rw [hc]
    exact Nat.mod_eq_of_lt hsm
  | «macro» text k' off' =>
    rw [ho] at hm hsm
    obtain ⟨_, hc, _⟩ := hm
    rw [hc]
    exact Nat.mod_eq_of_lt hsm

theorem posOf_offset {s : Sources} {t : List Origin} (h : Inv s t) {k off : Nat} (hk : k < t.length) (ho : off ≤ len s t k) :
    locOffset (s.posOf k off) = (s.rg k).id + off ∧ s.posOf k off ≠ 0 := by
  have h1 := h.fits k hk
  have h2 := h.max
  have := locOffset_eq ((s.rg k).id + off) (by omega)
  unfold Sources.posOf Range.pos
  simp only
  rw [Nat.mod_eq_of_lt (by omega)]
  split
  · refine ⟨this.2, ?_⟩
    intro h0
    have h3 := this.2
    rw [h0] at h3
    have h4 : locOffset 0 = 0 := by decide
    omega
  · exact ⟨this.1, by omega⟩

theorem owns_iff {s : Sources} {t : List Origin} (h : Inv s t) (hs : Small s t) {k off j : Nat} (hk : k < t.length) (ho : off ≤ len s t k)
    (hj : j < s.ranges.length) : s.owns (s.ranges.getD j noRange) (s.posOf k off) = true ↔ j = k + 1 := by
  obtain ⟨hp, hp0⟩ := posOf_offset h hk ho
  have hfk := h.fits k hk
  have hmax := h.max
  unfold Sources.owns
  rw [decide_eq_true_iff, hp]
  cases j with
  | zero =>
    rw [h.zero]
    simp only [noRange, Sources.length, if_true, Nat.zero_add, Nat.zero_mod]
    omega
  | succ j =>
    have hj' : j < t.length := by rw [h.count] at hj; omega
    have hfj := h.fits j hj'
    rw [show s.ranges.getD (j + 1) noRange = s.rg j from rfl, length_eq h hs hj']
    have e : ((s.rg j).id + len s t j) % 4294967296 = (s.rg j).id + len s t j := Nat.mod_eq_of_lt (by omega)
    rw [e]
    constructor
    · rintro ⟨_, h1, h2⟩
      by_cases hlt : j < k
      · have := h.before j k hlt hk; omega
      · by_cases hgt : k < j
        · have := h.before k j hgt hj'
          omega
        · omega
    · intro heq
      have : j = k := by omega
      subst this
      exact ⟨hp0, by omega, by omega⟩

theorem rangeSearch_ok {s : Sources} {t : List Origin} (h : Inv s t) (hs : Small s t) {k off : Nat} (hk : k < t.length) (ho : off ≤ len s t k) :
    ∀ (fuel lower upper : Nat), upper - lower < fuel → 1 ≤ lower → lower ≤ k + 1 → k + 1 < upper → upper ≤ s.ranges.length →
    s.rangeSearch (s.posOf k off) fuel lower upper = k + 1
  | 0, _, _, hf, _, _, _, _ => by omega
  | fuel+1, lower, upper, hf, hl1, hl, hu, hlen => by
    obtain ⟨hp, hp0⟩ := posOf_offset h hk ho
    have hfk := h.fits k hk
    have hmax := h.max
    have hcount := h.count
    unfold Sources.rangeSearch
    rw [if_pos (by omega)]
    simp only
    generalize hm : (lower + upper) / 2 = mid
    obtain ⟨j, rfl⟩ : ∃ j, mid = j + 1 := ⟨mid - 1, by omega⟩
    have hj' : j < t.length := by omega
    have hfj := h.fits j hj'
    rw [hp, show s.ranges.getD (j + 1) noRange = s.rg j from rfl, length_eq h hs hj']
    have e : ((s.rg j).id + len s t j + 1) % 4294967296 = (s.rg j).id + len s t j + 1 := Nat.mod_eq_of_lt (by omega)
    rw [e]
    by_cases hlt : j < k
    · have hb := h.before j k hlt hk
      rw [if_neg (by omega), if_pos (by omega)]
      exact rangeSearch_ok h hs hk ho fuel (j + 1 + 1) upper (by omega) (by omega) (by omega) hu hlen
    · by_cases hgt : k < j
      · have hb := h.before k j hgt hj'
        rw [if_pos (by omega)]
        exact rangeSearch_ok h hs hk ho fuel lower (j + 1) (by omega) hl1 hl (by omega) (by omega)
      · have : j = k := by omega
        subst this
        rw [if_neg (by omega), if_neg (by omega)]

theorem rangeSearch_lt (s : Sources) (loc : Nat) : ∀ (fuel lower upper : Nat), 1 ≤ upper → s.rangeSearch loc fuel lower upper < upper
  | 0, _, _, h => h
  | fuel+1, lower, upper, h => by
    unfold Sources.rangeSearch
    split
    · simp only
      split
      · by_cases h0 : 1 ≤ (lower + upper) / 2
        · have := rangeSearch_lt s loc fuel lower ((lower + upper) / 2) h0
          omega
        · rename_i hlt hid
          have : (lower + upper) / 2 = 0 := by omega
          rw [this]
          cases fuel with
          | zero => exact h
          | succ f => unfold Sources.rangeSearch; rw [if_neg (by omega)]; omega
      · split
        · exact rangeSearch_lt s loc fuel _ upper h
        · omega
    · omega

/-- A manager that differs in the cache only. -/
def Cached (s s' : Sources) : Prop := ∃ l, l < s.ranges.length ∧ s' = { s with last := l }

theorem Inv.cached {s s' : Sources} {t : List Origin} (h : Inv s t) (hc : Cached s s') : Inv s' t := by
  obtain ⟨l, hl, rfl⟩ := hc
  exact ⟨h.count, h.texts, h.before, h.fits, h.max, h.pos, hl, h.zero⟩

theorem Cached.refl {s : Sources} (h : s.last < s.ranges.length) : Cached s s := ⟨s.last, h, rfl⟩

theorem Cached.trans {a b c : Sources} (h1 : Cached a b) (h2 : Cached b c) : Cached a c := by
  obtain ⟨l, hl, rfl⟩ := h1
  obtain ⟨l', hl', rfl⟩ := h2
  exact ⟨l', hl', rfl⟩

theorem Cached.last_lt {a b : Sources} (h : Cached a b) : b.last < b.ranges.length := by
  obtain ⟨l, hl, rfl⟩ := h
  exact hl

theorem findLocRange_cached {s : Sources} (loc : Nat) (h : s.last < s.ranges.length) : Cached s (s.findLocRange loc).2 := by
  have hlt := rangeSearch_lt s loc (s.ranges.length + 1) 1 s.ranges.length (by omega)
  unfold Sources.findLocRange
  generalize s.rangeSearch loc (s.ranges.length + 1) 1 s.ranges.length = mid at *
  split
  · exact Cached.refl h
  · simp only
    split
    · exact Cached.refl h
    · exact ⟨mid, hlt, rfl⟩

theorem findLocRange_ok {s : Sources} {t : List Origin} (h : Inv s t) (hs : Small s t) {k off : Nat} (hk : k < t.length) (ho : off ≤ len s t k) :
    (s.findLocRange (s.posOf k off)).1 = k + 1 := by
  unfold Sources.findLocRange
  split
  · rename_i hown
    exact (owns_iff h hs hk ho h.last).1 hown
  · have hc := h.count
    simp only
    exact rangeSearch_ok h hs hk ho (s.ranges.length + 1) 1 s.ranges.length (by omega) (by omega) (by omega) (by omega) (Nat.le_refl _)

theorem expand_cached : ∀ (fuel : Nat) (s : Sources) (i loc : Nat), s.last < s.ranges.length → Cached s (Sources.expand fuel s i loc).2.2
  | 0, s, _, _, h => Cached.refl h
  | fuel+1, s, i, loc, h => by
    unfold Sources.expand
    simp only
    have h1 := findLocRange_cached (s.ranges.getD i noRange).expansion h
    generalize s.findLocRange (s.ranges.getD i noRange).expansion = p at *
    obtain ⟨j, s1⟩ := p
    simp only at h1 ⊢
    split
    · exact h1.trans (expand_cached fuel s1 _ _ h1.last_lt)
    · exact Cached.refl h

theorem findSourceFileRangeIndex_cached {s : Sources} (loc : Nat) (h : s.last < s.ranges.length) :
    Cached s (s.findSourceFileRangeIndex loc).2.2 := by
  unfold Sources.findSourceFileRangeIndex
  have h1 := findLocRange_cached loc h
  generalize s.findLocRange loc = p at *
  obtain ⟨i, s1⟩ := p
  simp only at h1 ⊢
  split
  · exact h1
  · have h2 := h1.trans (expand_cached s1.ranges.length s1 i loc h1.last_lt)
    generalize Sources.expand s1.ranges.length s1 i loc = q at *
    obtain ⟨i2, loc2, s2⟩ := q
    simp only at h2 ⊢
    split <;> exact h2

theorem getSourceFileIndex_cached {s : Sources} (loc : Nat) (h : s.last < s.ranges.length) : Cached s (s.getSourceFileIndex loc).2 := by
  unfold Sources.getSourceFileIndex
  have h1 := findSourceFileRangeIndex_cached loc h
  generalize s.findSourceFileRangeIndex loc = p at *
  obtain ⟨i, l, s1⟩ := p
  simp only at h1 ⊢
  split
  · exact h1
  · split <;> exact h1

theorem getLineAndCol_cached {s : Sources} (loc : Nat) (h : s.last < s.ranges.length) : Cached s (s.getLineAndCol loc).2 := by
  unfold Sources.getLineAndCol
  have h1 := findSourceFileRangeIndex_cached loc h
  generalize s.findSourceFileRangeIndex loc = p at *
  obtain ⟨i, l, s1⟩ := p
  simp only at h1 ⊢
  by_cases h0 : loc = 0
  · rw [if_pos h0]; exact Cached.refl h
  · rw [if_neg h0]
    by_cases hi : i = 0
    · rw [if_pos hi]; exact h1
    · rw [if_neg hi]; exact h1

theorem Sources.posOf_last (s : Sources) (l k off : Nat) : Sources.posOf { s with last := l } k off = s.posOf k off := rfl

theorem len_last (s : Sources) (t : List Origin) (l k : Nat) : len { s with last := l } t k = len s t k := rfl

theorem small_last {s : Sources} {t : List Origin} (h : Small s t) (l : Nat) : Small { s with last := l } t := h

theorem expand_ok {t : List Origin} {k off f o : Nat} (hc : Comes t k off f o) : ∀ (fuel : Nat) (s : Sources), Inv s t → Small s t → k < fuel →
    off ≤ len s t k → ∃ j s', Sources.expand fuel s (k + 1) (s.posOf k off) = (j + 1, s.posOf j o, s') ∧ t[j]? = some (.file f) ∧ o ≤ len s t j ∧ Cached s s' := by
  induction hc with
  | @file k f off ht =>
    intro fuel s h hs hf ho
    obtain ⟨fuel, rfl⟩ : ∃ n, fuel = n + 1 := ⟨fuel - 1, by omega⟩
    have hm := h.texts k _ ht
    refine ⟨k, s, ?_, ht, ho, Cached.refl h.last⟩
    unfold Sources.expand
    simp only
    rw [show s.ranges.getD (k + 1) noRange = s.rg k from rfl]
    rw [if_neg]
    rintro ⟨_, hmac⟩
    unfold Range.isMacro at hmac
    rw [hm.1] at hmac
    exact absurd hmac (by decide)
  | @«macro» k k' off' f o text off ht _ ih =>
    intro fuel s h hs hf ho
    obtain ⟨fuel, rfl⟩ : ∃ n, fuel = n + 1 := ⟨fuel - 1, by omega⟩
    obtain ⟨hm1, hm2, hm3, hm4⟩ := h.texts k _ ht
    have hk : k < t.length := by
      rcases List.getElem?_eq_some_iff.1 ht with ⟨h, _⟩
      exact h
    have hp := posOf_offset h (Nat.lt_trans hm3 hk) hm4
    have hfl := findLocRange_ok h hs (Nat.lt_trans hm3 hk) hm4
    have hca := findLocRange_cached (s.posOf k' off') h.last
    unfold Sources.expand
    simp only
    rw [show s.ranges.getD (k + 1) noRange = s.rg k from rfl]
    rw [if_pos]
    · rw [hm1]
      generalize hfr : s.findLocRange (s.posOf k' off') = p at *
      obtain ⟨j, s1⟩ := p
      simp only at hfl hca
      subst hfl
      obtain ⟨l, hl, rfl⟩ := hca
      obtain ⟨j, s2, e1, e2, e3, e4⟩ := ih fuel { s with last := l } (h.cached ⟨l, hl, rfl⟩) (small_last hs l) (by omega)
        (by rw [len_last]; exact hm4)
      rw [Sources.posOf_last s l k' off', Sources.posOf_last s l j o] at e1
      rw [len_last] at e3
      refine ⟨j, s2, e1, e2, e3, ?_⟩
      exact Cached.trans ⟨l, hl, rfl⟩ e4
    · refine ⟨by omega, ?_⟩
      unfold Range.isMacro
      rw [hm1]
      exact decide_eq_true hp.2

theorem findSourceFileRangeIndex_ok {s : Sources} {t : List Origin} (h : Inv s t) (hs : Small s t) {k off f o : Nat} (hk : k < t.length)
    (ho : off ≤ len s t k) (hc : Comes t k off f o) :
    ∃ j s', s.findSourceFileRangeIndex (s.posOf k off) = (j + 1, s.posOf j o, s') ∧ t[j]? = some (.file f) ∧ o ≤ len s t j ∧ Cached s s' := by
  have hfl := findLocRange_ok h hs hk ho
  have hca := findLocRange_cached (s.posOf k off) h.last
  unfold Sources.findSourceFileRangeIndex
  generalize hfr : s.findLocRange (s.posOf k off) = p at *
  obtain ⟨i, s1⟩ := p
  simp only at hfl hca
  subst hfl
  obtain ⟨l, hl, rfl⟩ := hca
  have hcount := h.count
  obtain ⟨j, s2, e1, e2, e3, e4⟩ := expand_ok hc s.ranges.length { s with last := l } (h.cached ⟨l, hl, rfl⟩) (small_last hs l)
    (by omega) (by rw [len_last]; exact ho)
  rw [Sources.posOf_last s l k off, Sources.posOf_last s l j o] at e1
  rw [len_last] at e3
  refine ⟨j, s2, ?_, e2, e3, Cached.trans ⟨l, hl, rfl⟩ e4⟩
  simp only
  rw [if_neg (by omega)]
  rw [e1]
  simp only
  obtain ⟨l2, hl2, rfl⟩ := e4
  have hm := (h.texts j _ e2).2.1
  show (match (s.rg j).content with | .file _ => _ | _ => _) = _
  rw [hm]

theorem Origin.length_prefix {files : List (List Byte)} {d : List Byte} {s : Sources} {t : List Origin} {k : Nat} {o : Origin} {r : Range}
    (hm : Matches s t k r o) (hf : s.opened = files) : o.length (files ++ [d]) = o.length files := by
  subst hf
  cases o with
  | file f =>
    show ((s.opened ++ [d]).getD f []).length = (s.opened.getD f []).length
    rw [List.getD_eq_getElem?_getD, List.getElem?_append_left hm.2.2, ← List.getD_eq_getElem?_getD]
  | «macro» => rfl

theorem getD_append_lt {α : Type} (l m : List α) (d : α) {k : Nat} (h : k < l.length) : (l ++ m).getD k d = l.getD k d := by
  rw [List.getD_eq_getElem?_getD, List.getElem?_append_left h, ← List.getD_eq_getElem?_getD]

theorem getD_append_self {α : Type} (l : List α) (x d : α) : (l ++ [x]).getD l.length d = x := by
  rw [List.getD_eq_getElem?_getD, List.getElem?_append_right (Nat.le_refl _), Nat.sub_self]
  rfl

theorem Inv.opened {s : Sources} {t : List Origin} (h : Inv s t) (d : List Byte) : Inv { s with opened := s.opened ++ [d] } t := by
  have hlen : ∀ k, k < t.length → len { s with opened := s.opened ++ [d] } t k = len s t k := by
    intro k hk
    have ht : t[k]? = some t[k] := List.getElem?_eq_getElem hk
    have hm := h.texts k _ ht
    unfold len
    rw [List.getD_eq_getElem?_getD, ht, Option.getD_some]
    exact Origin.length_prefix hm rfl
  refine ⟨h.count, ?_, ?_, ?_, h.max, h.pos, h.last, h.zero⟩
  · intro k o ho
    have hm := h.texts k o ho
    have hk : k < t.length := (List.getElem?_eq_some_iff.1 ho).1
    cases o with
    | file f =>
      obtain ⟨h1, h2, h3⟩ := hm
      exact ⟨h1, h2, by rw [List.length_append]; omega⟩
    | «macro» text k' off' =>
      obtain ⟨h1, h2, h3, h4⟩ := hm
      exact ⟨h1, h2, h3, by rw [hlen k' (by omega)]; exact h4⟩
  · intro j k hjk hk
    rw [hlen j (by omega)]
    exact h.before j k hjk hk
  · intro k hk
    rw [hlen k hk]
    exact h.fits k hk

/-- One more text. -/
theorem Inv.enter {s : Sources} {t : List Origin} (h : Inv s t) (o : Origin) (e : Nat) (c : Content)
    (hsm : o.length s.opened < 4294967296) (n : Nat) (hn : s.trackExtents (o.length s.opened) = some n)
    (ho : Matches s t t.length ⟨s.next, e, c⟩ o) (hle : ∀ text k off, o = .macro text k off → k < t.length) :
    Inv { s with ranges := s.ranges ++ [⟨s.next, e, c⟩], next := n } (t ++ [o]) := by
  have hc := h.count
  have hn' : n = s.next + o.length s.opened + 2 ∧ n ≤ 2147483647 := by
    unfold Sources.trackExtents at hn
    rw [Nat.mod_eq_of_lt hsm] at hn
    simp only at hn
    split at hn
    · cases hn
    · split at hn
      · cases hn
      · split at hn
        · cases hn
        · injection hn with hn
          omega
  have hrg : ∀ k, k < t.length → Sources.rg { s with ranges := s.ranges ++ [⟨s.next, e, c⟩], next := n } k = s.rg k := by
    intro k hk
    exact getD_append_lt _ _ _ (by omega)
  have hrgn : Sources.rg { s with ranges := s.ranges ++ [⟨s.next, e, c⟩], next := n } t.length = ⟨s.next, e, c⟩ := by
    show (s.ranges ++ [(⟨s.next, e, c⟩ : Range)]).getD (t.length + 1) noRange = _
    rw [← hc]
    exact getD_append_self _ _ _
  have hlen : ∀ k, k < t.length → len { s with ranges := s.ranges ++ [⟨s.next, e, c⟩], next := n } (t ++ [o]) k = len s t k := by
    intro k hk
    unfold len
    rw [getD_append_lt _ _ _ hk]
  have hlenn : len { s with ranges := s.ranges ++ [⟨s.next, e, c⟩], next := n } (t ++ [o]) t.length = o.length s.opened := by
    unfold len
    rw [getD_append_self]
  have hmat : ∀ k r x, (∀ text k' off', x = .macro text k' off' → k' < t.length) → Matches s t k r x →
      Matches { s with ranges := s.ranges ++ [⟨s.next, e, c⟩], next := n } (t ++ [o]) k r x := by
    intro k r x hx hm
    cases x with
    | file f => exact hm
    | «macro» text k' off' =>
      have hk' := hx _ _ _ rfl
      obtain ⟨h1, h2, h3, h4⟩ := hm
      refine ⟨?_, h2, h3, by rw [hlen k' hk']; exact h4⟩
      rw [h1]
      unfold Sources.posOf
      rw [hrg k' hk']
  refine ⟨by simp [hc], ?_, ?_, ?_, hn'.2, by show 1 ≤ n; omega, ?_, ?_⟩
  · intro k x hx
    by_cases hk : k < t.length
    · rw [List.getElem?_append_left hk] at hx
      have hm := h.texts k x hx
      rw [hrg k hk]
      refine hmat k _ x ?_ hm
      intro text k' off' he
      subst he
      have := hm.2.2.1
      omega
    · have hkl : k < (t ++ [o]).length := (List.getElem?_eq_some_iff.1 hx).1
      have : k = t.length := by simp at hkl; omega
      subst this
      rw [List.getElem?_append_right (Nat.le_refl _), Nat.sub_self] at hx
      injection hx with hx
      subst hx
      rw [hrgn]
      exact hmat _ _ _ hle ho
  · intro j k hjk hk
    have hk2 : k ≤ t.length := by simp at hk; omega
    rw [hrg j (by omega), hlen j (by omega)]
    by_cases hk' : k < t.length
    · rw [hrg k hk']
      exact h.before j k hjk hk'
    · have : k = t.length := by omega
      subst this
      rw [hrgn]
      exact (h.fits j hjk).2
  · intro k hk
    have hk2 : k ≤ t.length := by simp at hk; omega
    by_cases hk' : k < t.length
    · rw [hrg k hk', hlen k hk']
      have := h.fits k hk'
      exact ⟨this.1, by show _ ≤ n; omega⟩
    · have : k = t.length := by omega
      subst this
      rw [hrgn, hlenn]
      exact ⟨h.pos, by show _ ≤ n; simp only; omega⟩
  · show s.last < (s.ranges ++ [_]).length
    have := h.last
    rw [List.length_append]
    omega
  · show (s.ranges ++ [_]).getD 0 noRange = noRange
    rw [getD_append_lt _ _ _ (by omega)]
    exact h.zero

end Verif.Source

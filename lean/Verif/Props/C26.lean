import Verif.Model.BitSet

/-! C26: the bit set behaves as a set of natural numbers. -/
namespace Verif.BitSet

/-- Operations of a client. -/
inductive Op where
  | set (n : Nat)
  | unset (n : Nat)
  | takeAny
  /-- union with a set built by its own history -/
  | orWith (other : List Op)

/-- What a client sees as the result of an operation. -/
abbrev Seen := List (Option Nat)

mutual
/-- The bit set after an operation, and what take-any returned. -/
def step (ws : Words) : Op → Option (Option Nat) × Words
  | .set n => (none, BitSet.set ws n)
  | .unset n => (none, BitSet.unset ws n)
  | .takeAny => let (r, ws') := BitSet.takeAny ws; (some r, ws')
  | .orWith os => (none, BitSet.orWith ws (steps [] os))
/-- The bit set after a history. -/
def steps (ws : Words) : List Op → Words
  | [] => ws
  | o :: os => steps (step ws o).2 os
end

mutual
/-- `S'` is a possible set after operation `o` on the set `S`; `r` is what take-any returned. -/
def specStep (S : Nat → Prop) (o : Op) (r : Option (Option Nat)) (S' : Nat → Prop) : Prop :=
  match o with
  | .set n => r = none ∧ ∀ k, S' k ↔ S k ∨ k = n
  | .unset n => r = none ∧ ∀ k, S' k ↔ S k ∧ k ≠ n
  | .takeAny =>
    (r = some none ∧ (∀ k, ¬ S k) ∧ ∀ k, ¬ S' k) ∨
    (∃ n, r = some (some n) ∧ S n ∧ ∀ k, S' k ↔ S k ∧ k ≠ n)
  | .orWith os => r = none ∧ ∃ T, specSteps (fun _ => False) os T ∧ ∀ k, S' k ↔ S k ∨ T k
/-- `S'` is a possible set after a history on `S`. -/
def specSteps (S : Nat → Prop) (os : List Op) (S' : Nat → Prop) : Prop :=
  match os with
  | [] => ∀ k, S' k ↔ S k
  | o :: os => ∃ r T, specStep S o r T ∧ specSteps T os S'
end

theorem mask_getLsbD (p i : Nat) (hp : p < 64) : (mask p).getLsbD i = decide (i = p) := by
  unfold mask
  rw [BitVec.getLsbD_shiftLeft]
  by_cases h : i = p
  · subst h; simp [hp]
  · simp only [h, decide_false, BitVec.getLsbD_one]
    by_cases h2 : i < p
    · simp [h2]
    · simp [show ¬ (i - p = 0) by omega]

theorem test_iff {ws : Words} {n : Nat} :
    test ws n = true ↔ ∃ w, ws[n / 64]? = some w ∧ w.getLsbD (n % 64) = true := by
  unfold test
  cases h : ws[n / 64]? with
  | none => simp
  | some w =>
    have hp : n % 64 < 64 := Nat.mod_lt _ (by omega)
    simp only [bne_iff_ne, ne_eq, Option.some.injEq, exists_eq_left']
    constructor
    · intro hne
      apply Classical.byContradiction
      intro hb
      apply hne
      apply BitVec.eq_of_getLsbD_eq
      intro i hi
      rw [BitVec.getLsbD_and, mask_getLsbD _ _ hp]
      by_cases h : i = n % 64
      · subst h; simpa using hb
      · simp [h]
    · intro hb h0
      have := congrArg (fun v => BitVec.getLsbD v (n % 64)) h0
      simp [BitVec.getLsbD_and, mask_getLsbD _ _ hp, hb] at this

/-- Word `i`, zero beyond the end. -/
def wordAt (ws : Words) (i : Nat) : BitVec 64 := ws.getD i 0

theorem test_wordAt {ws : Words} {n : Nat} : test ws n = (wordAt ws (n / 64)).getLsbD (n % 64) := by
  rw [Bool.eq_iff_iff, test_iff]
  unfold wordAt
  rw [List.getD_eq_getElem?_getD]
  cases ws[n / 64]? <;> simp

theorem wordAt_grow (ws : Words) (n i : Nat) : wordAt (grow ws n) i = wordAt ws i := by
  unfold wordAt grow
  simp only [List.getD_eq_getElem?_getD]
  rcases Nat.lt_or_ge i ws.length with h | h
  · rw [List.getElem?_append_left h]
  · rw [List.getElem?_append_right h, List.getElem?_eq_none (l := ws) h]
    by_cases h2 : i - ws.length < n - ws.length
    · simp [h2]
    · simp [h2]

theorem wordAt_modify (ws : Words) (j i : Nat) (f : BitVec 64 → BitVec 64) (hj : j < ws.length) :
    wordAt (ws.modify j f) i = if i = j then f (wordAt ws i) else wordAt ws i := by
  unfold wordAt
  simp only [List.getD_eq_getElem?_getD, List.getElem?_modify]
  by_cases h : i = j
  · subst h; simp [hj]
  · simp [h, show ¬ j = i from fun e => h e.symm]

theorem grow_length (ws : Words) (n : Nat) (h : ws.length ≤ n) : (grow ws n).length = n := by
  unfold grow; simp; omega

theorem div_mod_eq {k n : Nat} (h1 : k / 64 = n / 64) (h2 : k % 64 = n % 64) : k = n := by omega

theorem test_set (ws : Words) (n k : Nat) : test (set ws n) k = (test ws k || decide (k = n)) := by
  have hp : n % 64 < 64 := Nat.mod_lt _ (by omega)
  rw [test_wordAt, test_wordAt]
  unfold set
  dsimp only
  rw [wordAt_modify _ _ _ _ (by split <;> (try rw [grow_length _ _ (by omega)]) <;> omega)]
  have hg : wordAt (if n / 64 ≥ ws.length then grow ws (n / 64 + 1) else ws) (k / 64) = wordAt ws (k / 64) := by
    split
    · exact wordAt_grow _ _ _
    · rfl
  rw [hg]
  by_cases h : k / 64 = n / 64
  · rw [if_pos h, BitVec.getLsbD_or, mask_getLsbD _ _ hp]
    congr 1
    rw [decide_eq_decide]
    exact ⟨fun h2 => div_mod_eq h h2, fun h2 => by rw [h2]⟩
  · rw [if_neg h]
    simp [show ¬ k = n from fun e => h (by rw [e])]

theorem test_unset (ws : Words) (n k : Nat) : test (unset ws n) k = (test ws k && decide (k ≠ n)) := by
  have hp : n % 64 < 64 := Nat.mod_lt _ (by omega)
  unfold unset
  split
  case isTrue hl =>
    rw [test_wordAt, test_wordAt, wordAt_modify _ _ _ _ hl]
    by_cases h : k / 64 = n / 64
    · rw [if_pos h, BitVec.getLsbD_and, BitVec.getLsbD_not, mask_getLsbD _ _ hp]
      congr 1
      have hk : k % 64 < 64 := Nat.mod_lt _ (by omega)
      simp only [hk, decide_true, Bool.true_and, ne_eq, decide_not]
      congr 1
      rw [decide_eq_decide]
      exact ⟨fun h2 => div_mod_eq h h2, fun h2 => by rw [h2]⟩
    · rw [if_neg h]
      simp [show ¬ k = n from fun e => h (by rw [e])]
  case isFalse hl =>
    by_cases h : k = n
    · subst h
      rw [test_wordAt]
      unfold wordAt
      rw [List.getD_eq_getElem?_getD, List.getElem?_eq_none (by omega)]
      simp
    · simp [h]

theorem lowBit_spec {w : BitVec 64} (h : w ≠ 0) :
    lowBit w < 64 ∧ w.getLsbD (lowBit w) = true ∧ ∀ i, i < lowBit w → w.getLsbD i = false := by
  unfold lowBit
  cases hf : (List.range 64).find? (fun i => w.getLsbD i) with
  | none =>
    exfalso; apply h
    apply BitVec.eq_of_getLsbD_eq
    intro i hi
    rw [List.find?_eq_none] at hf
    have := hf i (List.mem_range.2 hi)
    simp_all
  | some b =>
    simp only [Option.getD_some]
    rw [List.find?_range_eq_some] at hf
    refine ⟨by have := hf.2.1; simpa using this, hf.1, ?_⟩
    intro i hi
    simpa using hf.2.2 i hi

theorem takeAny_append (ws : Words) (w : BitVec 64) :
    takeAny (ws ++ [w]) = if w ≠ 0 then (some (ws.length * 64 + lowBit w), ws ++ [w &&& ~~~ mask (lowBit w)])
      else takeAny ws := by
  unfold takeAny
  rw [List.reverse_append]
  simp only [List.reverse_cons, List.reverse_nil, List.nil_append, List.cons_append, takeAnyRev]
  split <;> simp

theorem test_append (ws : Words) (w : BitVec 64) (k : Nat) :
    test (ws ++ [w]) k = if k / 64 = ws.length then w.getLsbD (k % 64) else test ws k := by
  rw [test_wordAt, test_wordAt]
  unfold wordAt
  simp only [List.getD_eq_getElem?_getD]
  by_cases h : k / 64 = ws.length
  · rw [if_pos h, h]; simp
  · rw [if_neg h]
    rcases Nat.lt_or_ge (k / 64) ws.length with h2 | h2
    · rw [List.getElem?_append_left h2]
    · rw [List.getElem?_append_right h2, List.getElem?_eq_none (l := ws) h2]
      obtain ⟨m, hm⟩ : ∃ m, k / 64 - ws.length = m + 1 := ⟨k / 64 - ws.length - 1, by omega⟩
      rw [hm]; simp

theorem takeAny_spec (ws : Words) :
    ((takeAny ws).1 = none ∧ (∀ k, test ws k = false) ∧ ∀ k, test (takeAny ws).2 k = false) ∨
    ∃ n, (takeAny ws).1 = some n ∧ test ws n = true ∧
      ∀ k, test (takeAny ws).2 k = (test ws k && decide (k ≠ n)) := by
  -- induction on the number of words, from the back
  generalize hl : ws.length = l
  induction l generalizing ws with
  | zero =>
    have : ws = [] := List.length_eq_zero_iff.1 hl
    subst this
    exact Or.inl ⟨rfl, fun _ => rfl, fun _ => rfl⟩
  | succ l ih =>
    have hne : ws ≠ [] := by intro h; subst h; cases hl
    obtain ⟨ws, w, rfl⟩ : ∃ a b, ws = a ++ [b] := ⟨ws.dropLast, ws.getLast hne, (List.dropLast_concat_getLast hne).symm⟩
    have hl' : ws.length = l := by simpa using hl
    rw [takeAny_append]
    by_cases h : w ≠ 0
    · rw [if_pos h]
      obtain ⟨b1, b2, b3⟩ := lowBit_spec h
      refine Or.inr ⟨_, rfl, ?_, ?_⟩
      · rw [test_append, if_pos (by omega), show (ws.length * 64 + lowBit w) % 64 = lowBit w by omega, b2]
      · intro k
        dsimp only
        rw [test_append, test_append]
        by_cases hk : k / 64 = ws.length
        · rw [if_pos hk, if_pos hk, BitVec.getLsbD_and, BitVec.getLsbD_not, mask_getLsbD _ _ b1]
          have hk' : k % 64 < 64 := Nat.mod_lt _ (by omega)
          simp only [hk', decide_true, Bool.true_and, ne_eq, decide_not]
          congr 2
          rw [decide_eq_decide]
          omega
        · rw [if_neg hk, if_neg hk]
          simp [show ¬ k = ws.length * 64 + lowBit w by omega]
    · rw [if_neg h]
      have hw : w = 0 := Classical.not_not.1 h
      have ht : ∀ k, test (ws ++ [w]) k = test ws k := by
        intro k
        rw [test_append]
        split
        case isTrue hk =>
          rw [hw, test_wordAt]; unfold wordAt
          rw [List.getD_eq_getElem?_getD, List.getElem?_eq_none (by omega)]; simp
        case isFalse => rfl
      rcases ih ws hl' with ⟨e, e1, e2⟩ | ⟨n, e, e1, e2⟩
      · exact Or.inl ⟨e, fun k => by rw [ht, e1], e2⟩
      · exact Or.inr ⟨n, e, by rw [ht, e1], fun k => by rw [ht, e2]⟩

theorem wordAt_orHead : ∀ (ws os : Words) (i : Nat), i < ws.length →
    wordAt (orHead ws os) i = wordAt ws i ||| wordAt os i
  | [], _, _, h => by cases h
  | w :: ws, [], i, _ => by unfold orHead; simp [wordAt]
  | w :: ws, o :: os, i, h => by
    unfold orHead
    cases i with
    | zero => simp [wordAt]
    | succ i =>
      have := wordAt_orHead ws os i (by simpa using h)
      simpa [wordAt] using this

theorem orHead_length : ∀ (ws os : Words), (orHead ws os).length = ws.length
  | [], _ => rfl
  | w :: ws, [] => rfl
  | w :: ws, o :: os => by unfold orHead; simp [orHead_length ws os]

theorem wordAt_beyond {ws : Words} {i : Nat} (h : ws.length ≤ i) : wordAt ws i = 0 := by
  unfold wordAt; rw [List.getD_eq_getElem?_getD, List.getElem?_eq_none h]; rfl

theorem wordAt_orTail : ∀ (os : List (BitVec 64)) (ws : Words) (j i : Nat), ws.length ≤ j →
    wordAt (orTail ws j os) i = if i < j then wordAt ws i else wordAt os (i - j)
  | [], ws, j, i, h => by
    unfold orTail
    split
    · rfl
    · rw [wordAt_beyond (by omega)]; simp [wordAt]
  | o :: os, ws, j, i, h => by
    unfold orTail
    have hos : ∀ m, wordAt (o :: os) (m + 1) = wordAt os m := fun m => by simp [wordAt]
    have ho0 : wordAt (o :: os) 0 = o := by simp [wordAt]
    split
    case isTrue h0 =>
      rw [wordAt_orTail os ws (j + 1) i (by omega)]
      by_cases h1 : i < j
      · rw [if_pos h1, if_pos (by omega)]
      · rw [if_neg h1]
        by_cases h2 : i = j
        · subst h2; rw [if_pos (by omega), wordAt_beyond h, Nat.sub_self, ho0, h0]
        · rw [if_neg (by omega), show i - j = (i - (j + 1)) + 1 by omega, hos]
    case isFalse h0 =>
      have hg := grow_length ws (j + 1) (by omega)
      rw [wordAt_orTail os _ (j + 1) i (by simp [hg])]
      by_cases h1 : i < j
      · rw [if_pos h1, if_pos (by omega), ← wordAt_grow ws (j + 1)]
        unfold wordAt
        simp only [List.getD_eq_getElem?_getD]
        rw [List.getElem?_set_ne (by omega)]
      · rw [if_neg h1]
        by_cases h2 : i = j
        · subst h2
          rw [if_pos (by omega), Nat.sub_self, ho0]
          unfold wordAt
          rw [List.getD_eq_getElem?_getD, List.getElem?_set_self (by omega)]; rfl
        · rw [if_neg (by omega), show i - j = (i - (j + 1)) + 1 by omega, hos]

theorem wordAt_orWith (ws os : Words) (i : Nat) : wordAt (orWith ws os) i = wordAt ws i ||| wordAt os i := by
  unfold orWith
  rw [wordAt_orTail _ _ _ _ (by rw [orHead_length]; omega)]
  by_cases h : i < ws.length
  · rw [if_pos h, wordAt_orHead _ _ _ h]
  · rw [if_neg h, wordAt_beyond (ws := ws) (by omega)]
    unfold wordAt
    simp only [List.getD_eq_getElem?_getD, List.getElem?_drop]
    rw [show ws.length + (i - ws.length) = i by omega]
    simp

theorem test_orWith (ws os : Words) (k : Nat) : test (orWith ws os) k = (test ws k || test os k) := by
  rw [test_wordAt, test_wordAt, test_wordAt, wordAt_orWith, BitVec.getLsbD_or]

/-- One operation refines the set operation; the abstract set is what `test` answers. -/
theorem step_refines : ∀ (o : Op) (ws : Words),
    specStep (fun k => test ws k = true) o (step ws o).1 (fun k => test (step ws o).2 k = true)
  | .set n, ws => by simp [specStep, step, test_set]
  | .unset n, ws => by simp [specStep, step, test_unset]
  | .takeAny, ws => by
    simp only [specStep, step]
    rcases takeAny_spec ws with ⟨e, h1, h2⟩ | ⟨n, e, h1, h2⟩
    · exact Or.inl ⟨by rw [e], by simp [h1], by simp [h2]⟩
    · exact Or.inr ⟨n, by rw [e], h1, by simp [h2]⟩
  | .orWith os, ws => by
    simp only [specStep, step]
    refine ⟨trivial, fun k => test (steps [] os) k = true, ?_, by simp [test_orWith]⟩
    have : (fun _ : Nat => False) = fun k => test [] k = true := by
      funext k; simp [test]
    rw [this]
    exact steps_refine os []
where
  /-- A history refines the abstract history. -/
  steps_refine : ∀ (os : List Op) (ws : Words),
      specSteps (fun k => test ws k = true) os (fun k => test (steps ws os) k = true)
  | [], ws => by simp [specSteps, steps]
  | o :: os, ws => by
    simp only [specSteps, steps]
    exact ⟨(step ws o).1, _, step_refines o ws, steps_refine os _⟩

/-- **C26.** After any history of operations on an initially empty bit set, what `test` answers is a set
that the same history produces on mathematical sets; and the next operation again behaves as on sets,
take-any included. -/
theorem C26_bitset (os : List Op) (o : Op) :
    specSteps (fun _ => False) os (fun k => test (steps [] os) k = true) ∧
    specStep (fun k => test (steps [] os) k = true) o (step (steps [] os) o).1
      (fun k => test (step (steps [] os) o).2 k = true) := by
  have : (fun _ : Nat => False) = fun k => test [] k = true := by funext k; simp [test]
  refine ⟨?_, step_refines o _⟩
  rw [this]
  exact step_refines.steps_refine os []

theorem wordBits_spec : ∀ (n : Nat) (w : BitVec 64) (lo : Nat), 64 ≤ lo + n → (∀ i, i < lo → w.getLsbD i = false) →
    (∀ b, b ∈ wordBits n w ↔ b < 64 ∧ w.getLsbD b = true) ∧ (wordBits n w).Pairwise (· < ·) ∧
    ∀ b ∈ wordBits n w, lo ≤ b
  | 0, w, lo, h, hlo => by
    refine ⟨fun b => ⟨fun hb => (by cases hb), fun hb => ?_⟩, List.Pairwise.nil, fun b hb => (by cases hb)⟩
    rw [hlo b (by omega)] at hb; exact absurd hb.2 (by decide)
  | n+1, w, lo, h, hlo => by
    unfold wordBits
    by_cases hw : w = 0
    · rw [if_pos hw]
      refine ⟨fun b => ⟨fun hb => (by cases hb), fun hb => ?_⟩, List.Pairwise.nil, fun b hb => (by cases hb)⟩
      rw [hw] at hb; simp at hb
    · rw [if_neg hw]
      obtain ⟨b1, b2, b3⟩ := lowBit_spec hw
      have hlob : lo ≤ lowBit w := by
        rcases Nat.lt_or_ge (lowBit w) lo with h' | h'
        · rw [hlo _ h'] at b2; cases b2
        · exact h'
      have hget : ∀ i, i < 64 → (w &&& ~~~ mask (lowBit w)).getLsbD i = (w.getLsbD i && decide (i ≠ lowBit w)) := by
        intro i hi
        rw [BitVec.getLsbD_and, BitVec.getLsbD_not, mask_getLsbD _ _ b1]
        simp [hi]
      have hlow : ∀ i, i < lowBit w + 1 → (w &&& ~~~ mask (lowBit w)).getLsbD i = false := by
        intro i hi
        rw [hget i (by omega)]
        by_cases h' : i = lowBit w
        · simp [h']
        · rw [b3 i (by omega)]; rfl
      obtain ⟨i1, i2, i3⟩ := wordBits_spec n (w &&& ~~~ mask (lowBit w)) (lowBit w + 1) (by omega) hlow
      refine ⟨?_, ?_, ?_⟩
      · intro b
        rw [List.mem_cons, i1]
        constructor
        · rintro (rfl | ⟨h1, h2⟩)
          · exact ⟨b1, b2⟩
          · rw [hget b h1] at h2; simp at h2; exact ⟨h1, h2.1⟩
        · rintro ⟨h1, h2⟩
          by_cases hb : b = lowBit w
          · exact Or.inl hb
          · right; refine ⟨h1, ?_⟩; rw [hget b h1, h2]; simp [hb]
      · rw [List.pairwise_cons]
        exact ⟨fun b hb => by have := i3 b hb; omega, i2⟩
      · intro b hb
        rcases List.mem_cons.1 hb with rfl | hb
        · exact hlob
        · have := i3 b hb; omega

theorem forEachFrom_spec : ∀ (ws : Words) (i : Nat),
    (∀ b, b ∈ forEachFrom i ws ↔ i * 64 ≤ b ∧ test ws (b - i * 64) = true) ∧
    (forEachFrom i ws).Pairwise (· < ·)
  | [], i => by simp [forEachFrom, test]
  | w :: ws, i => by
    obtain ⟨w1, w2, _⟩ := wordBits_spec 64 w 0 (by omega) (by intro i h; omega)
    obtain ⟨r1, r2⟩ := forEachFrom_spec ws (i + 1)
    unfold forEachFrom
    have hsm : ∀ b ∈ (wordBits 64 w).map (i * 64 + ·), i * 64 ≤ b ∧ b < (i + 1) * 64 := by
      intro b hb
      obtain ⟨c, hc, rfl⟩ := List.mem_map.1 hb
      have := ((w1 c).1 hc).1
      omega
    refine ⟨?_, ?_⟩
    · intro b
      rw [List.mem_append, r1]
      have htest : test (w :: ws) (b - i * 64) =
          if (b - i * 64) < 64 then w.getLsbD (b - i * 64) else test ws (b - i * 64 - 64) := by
        rw [test_wordAt, test_wordAt]
        split
        case isTrue h =>
          rw [show (b - i * 64) / 64 = 0 by omega, show (b - i * 64) % 64 = b - i * 64 by omega]; simp [wordAt]
        case isFalse h =>
          rw [show (b - i * 64) / 64 = (b - i * 64 - 64) / 64 + 1 by omega,
            show (b - i * 64) % 64 = (b - i * 64 - 64) % 64 by omega]; simp [wordAt]
      constructor
      · rintro (hb | ⟨h1, h2⟩)
        · obtain ⟨c, hc, rfl⟩ := List.mem_map.1 hb
          have := (w1 c).1 hc
          refine ⟨by omega, ?_⟩
          rw [htest, if_pos (by omega), show i * 64 + c - i * 64 = c by omega]
          exact this.2
        · refine ⟨by omega, ?_⟩
          rw [htest, if_neg (by omega), show b - i * 64 - 64 = b - (i + 1) * 64 by omega]
          exact h2
      · rintro ⟨h1, h2⟩
        rw [htest] at h2
        by_cases hb : b - i * 64 < 64
        · rw [if_pos hb] at h2
          exact Or.inl (List.mem_map.2 ⟨b - i * 64, (w1 _).2 ⟨hb, h2⟩, by omega⟩)
        · rw [if_neg hb] at h2
          exact Or.inr ⟨by omega, by rw [show b - (i + 1) * 64 = b - i * 64 - 64 by omega]; exact h2⟩
    · rw [List.pairwise_append]
      refine ⟨?_, r2, ?_⟩
      · rw [List.pairwise_map]
        exact w2.imp (fun h => by omega)
      · intro a ha b hb
        have := hsm a ha
        have := ((r1 b).1 hb).1
        omega

/-- **C26 (enumeration).** Enumeration visits exactly the members, each once, in increasing order. -/
theorem C26_for_each (ws : Words) :
    (∀ b, b ∈ forEach ws ↔ test ws b = true) ∧ (forEach ws).Pairwise (· < ·) := by
  have := forEachFrom_spec ws 0
  simpa [forEach] using this

/-! ### Non-vacuity -/

example : test (steps [] [.set 3, .set 200, .unset 3, .orWith [.set 1000, .takeAny, .set 70]]) 70 = true := by decide +kernel
example : test (steps [] [.set 3, .set 200, .unset 3, .orWith [.set 1000, .takeAny, .set 70]]) 1000 = false := by decide +kernel
example : (takeAny (steps [] [.set 3, .set 200, .set 199])).1 = some 199 := by decide +kernel
example : forEach (steps [] [.set 200, .set 3, .set 199]) = [3, 199, 200] := by decide +kernel

end Verif.BitSet

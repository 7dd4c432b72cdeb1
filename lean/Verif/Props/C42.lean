import Verif.Proofs.Text

/-! C42, C43, C44, C56: literals. -/
namespace Verif.Text

/-! ## C42 -/

/-- **C42.** A string of n bytes becomes n / 4 + 1 cells, and their bytes, lowest first, are the string and one to four zeros. -/
theorem C42_cells (s : List Byte) :
    (stringToCells s).length = s.length / 4 + 1 ∧
    ∃ k, 1 ≤ k ∧ k ≤ 4 ∧ (stringToCells s).flatMap cellBytes = s ++ List.replicate k 0 := by
  obtain ⟨h1, h2⟩ := toCells_ok s [] (by decide)
  simp only [List.length_nil, Nat.zero_add, List.nil_append] at h1 h2
  refine ⟨h2, 4 - s.length % 4, ?_, ?_, h1⟩ <;> omega

/-- Five bytes. -/
example : stringToCells [1, 2, 3, 4, 5] = [0x04030201, 5] := by decide

/-! ## C43 -/

/-- How literals start: nothing for decimal, `0b`, `0o`, `0x`. -/
def prefixOf : Nat → List Byte
  | 2 => [48, 98]
  | 8 => [48, 111]
  | 16 => [48, 120]
  | _ => []

/-- The token of a number: a cell if it fits (into the positive cells, for decimal), or else 64 bits. -/
def tokenOf (base v : Nat) : NumTok :=
  if v < (if base = 10 then 2147483648 else 4294967296) then .number (.ofNat 32 v) else .number64 v

/-- What may follow a literal. -/
structure Follows (base : Nat) (rest : List Byte) : Prop where
  /-- no letter, digit, underscore or at sign -/
  ends : ∀ b, rest.head? = some b → alphanum b = false
  /-- no fraction -/
  whole : base = 10 → ∀ b r, rest = 46 :: b :: r → isDigit b = false

theorem numTok_eq {base v : Nat} (h : v ≤ 18446744073709551615) : numTok base v = tokenOf base v := by
  unfold numTok tokenOf
  by_cases hb : base = 10
  · rw [if_pos hb]
    have e : (v : Int).bmod 18446744073709551616 = if v < 9223372036854775808 then (v : Int) else v - 18446744073709551616 := by
      rw [Int.bmod_def]
      split <;> split <;> omega
    rw [e]
    by_cases hv : v < 2147483648
    · rw [if_neg (by rw [if_pos (by omega)]; omega), if_pos hv]
    · rw [if_neg hv, if_pos]
      by_cases hm : v > 4294967295
      · exact Or.inl hm
      · refine Or.inr ⟨hb, ?_⟩
        rw [if_pos (by omega)]
        omega
  · rw [if_neg hb]
    by_cases hv : v < 4294967296
    · rw [if_neg (by omega), if_pos hv]
    · rw [if_pos (by omega), if_neg hv]

theorem alphanum_digit {b : Byte} (h : alphanum b = false) : digitOf b = none ∧ b ≠ 95 := by
  have : ∀ x : Fin 256, alphanum (.ofFin x) = false → digitOf (.ofFin x) = none ∧ (BitVec.ofFin x : Byte) ≠ 95 := by decide +kernel
  exact this b.toFin h

theorem Follows.stop {base : Nat} {rest : List Byte} (h : Follows base rest) : rest ≠ [] → digitOf (peek rest) = none ∧ peek rest ≠ 95 := by
  intro hne
  cases rest with
  | nil => exact absurd rfl hne
  | cons b r => exact alphanum_digit (h.ends b rfl)

theorem filter_eq (l : List Byte) : l.filterMap digitValue = l.filterMap digitOf := by
  rw [show digitValue = digitOf from funext digitOf_eq]

theorem chars_eq {base : Nat} {l : List Byte} : (∀ b ∈ l, b = 95 ∨ ∃ d, digitValue b = some d ∧ d < base) ↔
    (∀ b ∈ l, b = 95 ∨ ∃ d, digitOf b = some d ∧ d < base) := by
  rw [show digitValue = digitOf from funext digitOf_eq]

theorem Body.some_digits {base : Nat} {body : List Byte} (h : Body base body) : 0 < (body.filterMap digitOf).length := by
  obtain ⟨b, hb, h95⟩ := h.digit
  rcases chars_eq.1 h.chars b hb with h | ⟨d, hd, _⟩
  · exact absurd h h95
  · apply List.length_pos_of_mem (a := d)
    rw [List.mem_filterMap]
    exact ⟨b, hb, hd⟩

/-- After the prefix: what is left of a body, and the digits counted for what is gone. -/
theorem lexPrefix_ok {base : Nat} {body rest : List Byte} (hbase : base = 2 ∨ base = 8 ∨ base = 10 ∨ base = 16) (hb : Body base body)
    (hf : Follows base rest) (h1 : base = 10 → ∃ d r, body = d :: r ∧ isDigit d = true) :
    ∃ n body', lexPrefix (prefixOf base ++ body ++ rest) = (base, n, body' ++ rest) ∧ (∀ b ∈ body', b = 95 ∨ ∃ d, digitOf b = some d ∧ d < base) ∧
      positional base (body'.filterMap digitOf) = positional base (body.filterMap digitOf) ∧ 0 < n + (body'.filterMap digitOf).length := by
  have hp := hb.some_digits
  have hc := chars_eq.1 hb.chars
  rcases hbase with h | h | h | h
  · subst h; exact ⟨0, body, rfl, hc, rfl, by omega⟩
  · subst h; exact ⟨0, body, rfl, hc, rfl, by omega⟩
  · subst h
    obtain ⟨d, r, rfl, hd⟩ := h1 rfl
    by_cases h0 : d = 48
    · subst h0
      refine ⟨1, r, ?_, fun b hb => hc b (List.mem_cons_of_mem _ hb), ?_, by omega⟩
      · show lexPrefix (48 :: (r ++ rest)) = _
        have hh : ∀ b l, r ++ rest = b :: l → b ≠ 98 ∧ b ≠ 111 ∧ b ≠ 120 := by
          intro b l he
          cases r with
          | nil =>
            rw [List.nil_append] at he
            have := hf.ends b (by rw [he]; rfl)
            refine ⟨?_, ?_, ?_⟩ <;> (intro h; subst h; revert this; decide)
          | cons x xs =>
            rw [List.cons_append] at he
            injection he with he _
            subst he
            rcases hc x (List.mem_cons_of_mem _ (List.mem_cons_self ..)) with h | ⟨d, hd, hlt⟩
            · subst h; decide
            · refine ⟨?_, ?_, ?_⟩
              · intro h; subst h
                have : digitOf 98 = some 11 := by decide
                rw [this] at hd; cases hd; omega
              · intro h; subst h
                have : digitOf 111 = none := by decide
                rw [this] at hd; cases hd
              · intro h; subst h
                have : digitOf 120 = none := by decide
                rw [this] at hd; cases hd
        unfold lexPrefix
        split
        · rename_i heq; injection heq with _ heq; exact absurd rfl (hh _ _ heq).1
        · rename_i heq; injection heq with _ heq; exact absurd rfl (hh _ _ heq).2.1
        · rename_i heq; injection heq with _ heq; exact absurd rfl (hh _ _ heq).2.2
        · rename_i heq; injection heq with _ h2; rw [h2]
        · rename_i h4; exact absurd rfl (h4 _)
      · have : digitOf 48 = some 0 := by decide
        rw [List.filterMap_cons_some this]
        simp [positional]
    · refine ⟨0, d :: r, ?_, hc, rfl, by omega⟩
      show lexPrefix (d :: (r ++ rest)) = _
      unfold lexPrefix
      split
      · rename_i heq; injection heq with heq; exact absurd heq h0
      · rename_i heq; injection heq with heq; exact absurd heq h0
      · rename_i heq; injection heq with heq; exact absurd heq h0
      · rename_i heq; injection heq with heq; exact absurd heq h0
      · rfl
  · subst h; exact ⟨0, body, rfl, hc, rfl, by omega⟩

theorem Follows.peek {base : Nat} {rest : List Byte} (h : Follows base rest) : alphanum (peek rest) = false := by
  cases rest with
  | nil => decide
  | cons b r => exact h.ends b rfl

/-- **C43: literals that fit.** A prefix and a string of digits of its base, underscores between them or not, whose value is below 2^64,
and that is followed by neither a letter or digit nor a fraction, is read to its end without a report; the token is the cell with the
positional value of the digits if that fits, and otherwise the 64-bit number. -/
theorem C43_fits (base : Nat) (hbase : base = 2 ∨ base = 8 ∨ base = 10 ∨ base = 16) (body rest : List Byte) (hb : Body base body)
    (hf : Follows base rest) (h1 : base = 10 → ∃ d r, body = d :: r ∧ isDigit d = true) (hv : Body.value base body < 18446744073709551616) :
    lexNumber (prefixOf base ++ body ++ rest) = ⟨some (tokenOf base (Body.value base body)), [], rest⟩ := by
  obtain ⟨n, body', e1, e2, e3, e4⟩ := lexPrefix_ok hbase hb hf h1
  have ev : Body.value base body = positional base (body'.filterMap digitOf) := by
    unfold Body.value
    rw [filter_eq, e3]
  rw [ev] at hv ⊢
  have hd := lexDigits_ok hf.stop body' 0 n [] e2 (by rw [Nat.zero_mul]; omega)
  rw [Nat.zero_mul, Nat.zero_add] at hd
  unfold lexNumber
  rw [e1]
  simp only
  rw [hd]
  simp only
  rw [if_neg (by omega), hf.peek]
  simp only [Bool.false_eq_true, if_false]
  rw [if_neg (by omega), numTok_eq (by omega)]
  split
  · rename_i r
    rw [if_neg]
    intro ⟨hb10, hdig⟩
    cases r with
    | nil => exact absurd hdig (by decide)
    | cons b r =>
      have := hf.whole hb10 b r rfl
      have hdig : isDigit b = true := hdig
      rw [this] at hdig
      cases hdig
  · rfl

/-- **C43: literals that do not fit** are reported (error 135). -/
theorem C43_too_large (base : Nat) (hbase : base = 2 ∨ base = 8 ∨ base = 10 ∨ base = 16) (body rest : List Byte) (hb : Body base body)
    (hf : Follows base rest) (h1 : base = 10 → ∃ d r, body = d :: r ∧ isDigit d = true)
    (hv : 18446744073709551616 ≤ Body.value base body) :
    135 ∈ (lexNumber (prefixOf base ++ body ++ rest)).reports := by
  obtain ⟨n, body', e1, e2, e3, e4⟩ := lexPrefix_ok hbase hb hf h1
  have ev : Body.value base body = positional base (body'.filterMap digitOf) := by
    unfold Body.value
    rw [filter_eq, e3]
  rw [ev] at hv
  have hd := lexDigits_overflow (rest := rest) body' 0 n [] e2 (by omega) (by rw [Nat.zero_mul]; omega)
  unfold lexNumber
  rw [e1]
  simp only
  generalize lexDigits base (body' ++ rest) 0 n [] = D at hd
  have hm : ∀ x y : Bool, 135 ∈ (if x then D.reports ++ [53] else if y then D.reports ++ [424] else D.reports) := by
    intro x y
    cases x <;> cases y <;> simp [hd]
  have hm' : 135 ∈ (if alphanum (peek D.rest) then D.reports ++ [53] else if D.ndigits = 0 then D.reports ++ [424] else D.reports) := by
    have := hm (alphanum (peek D.rest)) (decide (D.ndigits = 0))
    simpa using this
  split
  · exact hd
  · split
    · split
      · exact hm'
      · exact hm'
    · exact hm'

theorem lexPrefix_cases (l : List Byte) : (∃ r, l = [48, 98] ++ r ∧ lexPrefix l = (2, 0, r)) ∨ (∃ r, l = [48, 111] ++ r ∧ lexPrefix l = (8, 0, r)) ∨
    (∃ r, l = [48, 120] ++ r ∧ lexPrefix l = (16, 0, r)) ∨ (∃ r, l = 48 :: r ∧ lexPrefix l = (10, 1, r)) ∨ lexPrefix l = (10, 0, l) := by
  unfold lexPrefix
  split
  · exact Or.inl ⟨_, rfl, rfl⟩
  · exact Or.inr (Or.inl ⟨_, rfl, rfl⟩)
  · exact Or.inr (Or.inr (Or.inl ⟨_, rfl, rfl⟩))
  · exact Or.inr (Or.inr (Or.inr (Or.inl ⟨_, rfl, rfl⟩)))
  · exact Or.inr (Or.inr (Or.inr (Or.inr rfl)))

/-- **C43: nothing else is a number.** If `lex_number`, called on text that starts with a digit, reports nothing and produces an integer,
then the text it has read is a literal as above, with a value below 2^64, and the token is the one for that value. -/
theorem C43_sound (l : List Byte) (hl : isDigit (peek l) = true) (t : NumTok) (rest : List Byte) (h : lexNumber l = ⟨some t, [], rest⟩)
    (ht : ∀ w, t ≠ .float w) :
    ∃ base body, (base = 2 ∨ base = 8 ∨ base = 10 ∨ base = 16) ∧ l = prefixOf base ++ body ++ rest ∧ Body base body ∧ Follows base rest ∧
      (base = 10 → ∃ d r, body = d :: r ∧ isDigit d = true) ∧
      Body.value base body < 18446744073709551616 ∧ t = tokenOf base (Body.value base body) := by
  have main : ∀ base n0 l', (base = 2 ∨ base = 8 ∨ base = 10 ∨ base = 16) → lexPrefix l = (base, n0, l') →
      ∃ body, l' = body ++ rest ∧ (∀ b ∈ body, b = 95 ∨ ∃ d, digitOf b = some d ∧ d < base) ∧ 0 < n0 + (body.filterMap digitOf).length ∧
        Follows base rest ∧ positional base (body.filterMap digitOf) ≤ 18446744073709551615 ∧
        t = tokenOf base (positional base (body.filterMap digitOf)) := by
    intro base n0 l' hbase hp
    unfold lexNumber at h
    rw [hp] at h
    simp only at h
    have hs := lexDigits_sound (base := base) l' 0 n0 (by omega)
    have hk := fun (rest : List Byte) (hs : rest ≠ [] → digitOf (peek rest) = none ∧ peek rest ≠ 95) (body : List Byte) =>
      lexDigits_ok (base := base) hs body 0 n0 []
    generalize hD : lexDigits base l' 0 n0 [] = D at h hs
    have hr : D.reports = [] ∧ D.rest = rest ∧ alphanum (peek D.rest) = false ∧ 0 < D.ndigits ∧ t = numTok base D.value ∧
        (base = 10 → ∀ b r, D.rest = 46 :: b :: r → isDigit b = false) := by
      split at h
      · injection h with h1; cases h1
      · rename_i hnb
        have hrep : ∀ r : List Nat, (if alphanum (peek D.rest) then D.reports ++ [53] else if D.ndigits = 0 then D.reports ++ [424] else D.reports) = [] →
            D.reports = [] ∧ alphanum (peek D.rest) = false ∧ 0 < D.ndigits := by
          intro _ h
          split at h
          · simp at h
          · rename_i ha
            split at h
            · simp at h
            · exact ⟨h, by simpa using ha, by omega⟩
        split at h
        · rename_i r hr46
          split at h
          · injection h with h1
            injection h1 with h1
            exact absurd h1.symm (ht _)
          · rename_i hnf
            injection h with h1 h2 h3
            obtain ⟨q1, q2, q3⟩ := hrep [] h2
            injection h1 with h1
            refine ⟨q1, h3, q2, q3, h1.symm, ?_⟩
            intro hb10 b r' he
            rw [hr46] at he
            injection he with _ he
            subst he
            have : ¬ isDigit b = true := fun hd => hnf ⟨hb10, hd⟩
            simpa using this
        · rename_i hn46
          injection h with h1 h2 h3
          obtain ⟨q1, q2, q3⟩ := hrep [] h2
          injection h1 with h1
          refine ⟨q1, h3, q2, q3, h1.symm, ?_⟩
          intro _ b r he
          exact absurd he (hn46 _)
    obtain ⟨r1, r2, r3, r4, r5, r6⟩ := hr
    obtain ⟨body, g1, g2, g3, g4⟩ := hs r1
    rw [Nat.zero_mul, Nat.zero_add] at g4
    have hk := hk D.rest g3 body g2 (by rw [Nat.zero_mul, Nat.zero_add]; exact g4)
    rw [← g1, hD, Nat.zero_mul, Nat.zero_add] at hk
    have k1 : D.value = positional base (body.filterMap digitOf) := by rw [hk]
    have k2 : D.ndigits = n0 + (body.filterMap digitOf).length := by rw [hk]
    subst r2
    refine ⟨body, g1, g2, by omega, ⟨?_, r6⟩, g4, ?_⟩
    · intro b hb
      cases hr : D.rest with
      | nil => rw [hr] at hb; cases hb
      | cons x xs =>
        rw [hr] at hb r3
        cases hb
        exact r3
    · rw [r5, k1, numTok_eq g4]
  have mkBody : ∀ base body, (∀ b ∈ body, b = 95 ∨ ∃ d, digitOf b = some d ∧ d < base) → 0 < (body.filterMap digitOf).length → Body base body := by
    intro base body hc hp
    refine ⟨chars_eq.2 hc, ?_⟩
    obtain ⟨d, hd⟩ := List.exists_mem_of_length_pos hp
    rw [List.mem_filterMap] at hd
    obtain ⟨b, hb, hbd⟩ := hd
    refine ⟨b, hb, ?_⟩
    intro h
    subst h
    rw [digitOf_95] at hbd
    cases hbd
  rcases lexPrefix_cases l with ⟨r, hl', hp⟩ | ⟨r, hl', hp⟩ | ⟨r, hl', hp⟩ | ⟨r, hl', hp⟩ | hp
  · obtain ⟨body, k1, k2, k3, k4, k5, k6⟩ := main _ _ _ (by decide) hp
    refine ⟨2, body, by decide, by rw [hl', k1, ← List.append_assoc]; rfl, mkBody _ _ k2 (by omega), k4, by intro h; omega, ?_, ?_⟩
    · unfold Body.value; rw [filter_eq]; omega
    · unfold Body.value; rw [filter_eq]; exact k6
  · obtain ⟨body, k1, k2, k3, k4, k5, k6⟩ := main _ _ _ (by decide) hp
    refine ⟨8, body, by decide, by rw [hl', k1, ← List.append_assoc]; rfl, mkBody _ _ k2 (by omega), k4, by intro h; omega, ?_, ?_⟩
    · unfold Body.value; rw [filter_eq]; omega
    · unfold Body.value; rw [filter_eq]; exact k6
  · obtain ⟨body, k1, k2, k3, k4, k5, k6⟩ := main _ _ _ (by decide) hp
    refine ⟨16, body, by decide, by rw [hl', k1, ← List.append_assoc]; rfl, mkBody _ _ k2 (by omega), k4, by intro h; omega, ?_, ?_⟩
    · unfold Body.value; rw [filter_eq]; omega
    · unfold Body.value; rw [filter_eq]; exact k6
  · obtain ⟨body, k1, k2, k3, k4, k5, k6⟩ := main _ _ _ (by decide) hp
    have h48 : digitOf 48 = some 0 := by decide
    have ev : positional 10 ((48 :: body).filterMap digitOf) = positional 10 (body.filterMap digitOf) := by
      rw [List.filterMap_cons_some h48]
      simp [positional]
    refine ⟨10, 48 :: body, by decide, by rw [hl', k1]; rfl, mkBody _ _ ?_ ?_, k4, fun _ => ⟨48, body, rfl, by decide⟩, ?_, ?_⟩
    · intro b hb
      rcases List.mem_cons.1 hb with h | h
      · exact Or.inr ⟨0, by rw [h]; exact h48, by decide⟩
      · exact k2 b h
    · rw [List.filterMap_cons_some h48]
      exact Nat.zero_lt_succ _
    · unfold Body.value; rw [filter_eq, ev]; omega
    · unfold Body.value; rw [filter_eq, ev]; exact k6
  · obtain ⟨body, k1, k2, k3, k4, k5, k6⟩ := main _ _ _ (by decide) hp
    refine ⟨10, body, by decide, by rw [k1]; rfl, mkBody _ _ k2 (by omega), k4, ?_, ?_, ?_⟩
    · intro _
      cases body with
      | nil => simp at k3
      | cons d r => rw [k1] at hl; exact ⟨d, r, rfl, hl⟩
    · unfold Body.value; rw [filter_eq]; omega
    · unfold Body.value; rw [filter_eq]; exact k6

/-- `1_0;`, `0xFfFf_FFFF)` and `2147483648 ` are literals. -/
example : lexNumber [49, 95, 48, 59] = ⟨some (.number 10), [], [59]⟩ ∧
    lexNumber [48, 120, 70, 102, 70, 102, 95, 70, 70, 70, 70, 41] = ⟨some (.number 0xFFFFFFFF), [], [41]⟩ ∧
    lexNumber [50, 49, 52, 55, 52, 56, 51, 54, 52, 56, 32] = ⟨some (.number64 2147483648), [], [32]⟩ := by decide +kernel

/-- The hypotheses of the theorems hold of the first. -/
example : Body 10 [49, 95, 48] ∧ Follows 10 [59] ∧ Body.value 10 [49, 95, 48] = 10 := by
  refine ⟨⟨?_, 49, by decide, by decide⟩, ⟨?_, ?_⟩, by decide +kernel⟩
  · intro b hb
    simp only [List.mem_cons, List.not_mem_nil, or_false] at hb
    rcases hb with rfl | rfl | rfl
    · exact Or.inr ⟨1, by decide +kernel, by decide⟩
    · exact Or.inl rfl
    · exact Or.inr ⟨0, by decide +kernel, by decide⟩
  · intro b hb; cases hb; decide
  · intro _ b r h; cases h

/-! ## C44 -/

theorem litchar_high {ctrl b : Byte} {l : List Byte} (hc : ctrl.toNat < 0x80) (hb : 0x80 ≤ b.toNat) :
    litchar ctrl (b :: l) = match getUtf8 b l with
      | (some c, r) => .char c true [] r
      | (none, _) => .char b.toNat false [248] l := by
  unfold litchar
  simp only
  rw [if_pos (by intro h; subst h; omega), if_pos (by omega)]
  rfl

/-- **C44 for one character.** Outside ASCII, a character's encoding in the source is copied to the string. -/
theorem C44_char_partial (ctrl : Byte) (hc : ctrl.toNat < 0x80) (c : Nat) (h1 : 0x80 ≤ c) (h2 : Scalar c) (rest : List Byte) :
    packedChar ctrl (utf8 c ++ rest) = .ok (utf8 c) [] rest := by
  have h3 : c ≤ 0x10FFFF := by unfold Scalar at h2; omega
  obtain ⟨b, r, e, hr⟩ := utf8_read c h3
  have hb := utf8_high e h1 h3
  unfold packedChar
  conv => lhs; rw [e]
  rw [List.cons_append, litchar_high hc hb, hr rest]
  simp only
  rw [if_neg (by omega), if_pos trivial, Int.toNat_natCast, if_pos h2]

/-- Characters that stand for themselves between double quotes. -/
def Plain (ctrl : Byte) (c : Nat) : Prop := Scalar c ∧ c ≠ 0 ∧ c ≠ 10 ∧ c ≠ 13 ∧ c ≠ 34 ∧ c ≠ 92 ∧ c ≠ ctrl.toNat

theorem plain_step {ctrl : Byte} (hc : ctrl.toNat < 0x80) {c : Nat} (h : Plain ctrl c) (rest : List Byte) :
    packedChar ctrl (utf8 c ++ rest) = .ok (utf8 c) [] rest ∧
    ∃ b r, utf8 c = b :: r ∧ b ≠ 34 ∧ b ≠ 0 ∧ b ≠ 92 ∧ isNewline b = false := by
  obtain ⟨h1, h2, h3, h4, h5, h6, h7⟩ := h
  by_cases hlow : c < 0x80
  · have e : utf8 c = [.ofNat 8 c] := by unfold utf8; rw [if_pos hlow]
    have en : (BitVec.ofNat 8 c).toNat = c := by rw [BitVec.toNat_ofNat]; omega
    have ne (x : Byte) (hx : c ≠ x.toNat) : (BitVec.ofNat 8 c : Byte) ≠ x := by intro h; rw [← h, en] at hx; exact hx rfl
    refine ⟨?_, _, _, e, ne _ h5, ne _ h2, ne _ h6, ?_⟩
    · rw [e]
      unfold packedChar
      have hl : litchar ctrl ([.ofNat 8 c] ++ rest) = .char c false [] rest := by
        show litchar ctrl (.ofNat 8 c :: rest) = _
        unfold litchar
        simp only
        rw [if_pos (ne _ h7), en, if_neg (by omega)]
      rw [hl]
      simp only
      rw [if_neg (by omega)]
      rfl
    · unfold isNewline
      rw [en]
      exact decide_eq_false (by omega)
  · refine ⟨C44_char_partial ctrl hc c (by omega) h1 rest, ?_⟩
    obtain ⟨b, r, e, _⟩ := utf8_read c (by unfold Scalar at h1; omega)
    have hb := utf8_high e (by omega) (by unfold Scalar at h1; omega)
    refine ⟨b, r, e, ?_, ?_, ?_, ?_⟩
    · intro h; subst h; exact absurd hb (by decide)
    · intro h; subst h; exact absurd hb (by decide)
    · intro h; subst h; exact absurd hb (by decide)
    · unfold isNewline
      exact decide_eq_false (by omega)

theorem packedLoop_plain {ctrl : Byte} (hc : ctrl.toNat < 0x80) (rest : List Byte) :
    ∀ (text : List Nat) (fuel : Nat) (data : List Byte) (reports : List Nat), (∀ c ∈ text, Plain ctrl c) → text.length < fuel →
    packedLoop ctrl 34 fuel (text.flatMap utf8 ++ 34 :: rest) data reports = .ok (data ++ text.flatMap utf8) reports (34 :: rest)
  | _, 0, _, _, _, hf => by omega
  | [], fuel+1, data, reports, _, _ => by
    have hpk : peek (List.flatMap utf8 [] ++ 34 :: rest) = 34 := rfl
    unfold packedLoop
    simp only [hpk]
    simp
  | c :: text, fuel+1, data, reports, hp, hf => by
    have hpc := hp c (List.mem_cons_self ..)
    have ih := packedLoop_plain hc rest text fuel (data ++ utf8 c) (reports ++ []) (fun x hx => hp x (List.mem_cons_of_mem _ hx))
      (by rw [List.length_cons] at hf; omega)
    obtain ⟨h1, b, r, e, n1, n2, n3, n4⟩ := plain_step hc hpc (text.flatMap utf8 ++ 34 :: rest)
    rw [List.flatMap_cons, List.append_assoc]
    unfold packedLoop
    have hpk : peek (utf8 c ++ (text.flatMap utf8 ++ 34 :: rest)) = b := by rw [e]; rfl
    have hlc : lineContinuation (utf8 c ++ (text.flatMap utf8 ++ 34 :: rest)) = none := by
      rw [e, List.cons_append]
      unfold lineContinuation
      split
      · rename_i heq
        injection heq with heq
        exact absurd heq n3
      · rfl
    simp only [hpk]
    rw [if_neg (by intro h; rcases h with h | h; exact n1 h; exact n2 h), hlc]
    simp only
    rw [n4, h1]
    simp only [Bool.false_eq_true, if_false]
    rw [ih, List.append_nil, List.append_assoc]

/-- **C44.** A text of Unicode scalar values without quotes, backslashes, control characters of the language, line breaks or NUL, between
double quotes, becomes the string of exactly its UTF-8 bytes, and nothing is reported.
Missing: byte sequences that are not the UTF-8 of a text.  They are not all copied: see `C44_overlong`, `C44_beyond`, `C44_malformed`. -/
theorem C44_string_partial (ctrl : Byte) (hc : ctrl.toNat < 0x80) (text : List Nat) (rest : List Byte) (hp : ∀ c ∈ text, Plain ctrl c)
    (hq : text = [] → rest.head? ≠ some 34) :
    lexString ctrl (text.flatMap utf8 ++ 34 :: rest) = .ok (text.flatMap utf8) [] rest := by
  have hlen : ∀ t : List Nat, t.length ≤ (t.flatMap utf8).length := by
    intro t
    induction t with
    | nil => simp
    | cons c t ih =>
      have : 1 ≤ (utf8 c).length := by
        unfold utf8
        split
        · simp
        · split
          · simp
          · split <;> simp
      rw [List.flatMap_cons, List.length_append, List.length_cons]
      omega
  have h := packedLoop_plain hc rest text ((text.flatMap utf8 ++ 34 :: rest).length + 1) [] [] hp (by
    have := hlen text
    rw [List.length_append]
    omega)
  unfold lexString
  split
  · rename_i r heq
    cases text with
    | nil =>
      rw [List.flatMap_nil, List.nil_append] at heq
      injection heq with _ heq
      exact absurd (by rw [heq]; rfl) (hq rfl)
    | cons c t =>
      obtain ⟨_, b, r', e, n1, _⟩ := plain_step hc (hp c (List.mem_cons_self ..)) []
      rw [List.flatMap_cons, e] at heq
      injection heq with heq
      exact absurd heq n1
  · rw [h]
    rfl

/-- The string `é€😀`. -/
example : (∀ c ∈ [0xE9, 0x20AC, 0x1F600], Plain 92 c) ∧
    lexString 92 [0xC3, 0xA9, 0xE2, 0x82, 0xAC, 0xF0, 0x9F, 0x98, 0x80, 34, 59] =
      .ok [0xC3, 0xA9, 0xE2, 0x82, 0xAC, 0xF0, 0x9F, 0x98, 0x80] [] [59] := by
  refine ⟨?_, by decide +kernel⟩
  intro c hc
  simp only [List.mem_cons, List.not_mem_nil, or_false] at hc
  unfold Plain
  rcases hc with rfl | rfl | rfl <;> decide

/-- Bytes that do not start a sequence, or start one that is not finished, are copied one at a time, with a report (248). -/
theorem C44_malformed (ctrl : Byte) (hc : ctrl.toNat < 0x80) (b : Byte) (l : List Byte) (hb : 0x80 ≤ b.toNat) (h : (getUtf8 b l).1 = none) :
    packedChar ctrl (b :: l) = .ok [b] [248] l := by
  unfold packedChar
  rw [litchar_high hc hb]
  cases hg : getUtf8 b l with
  | mk o r =>
    rw [hg] at h
    simp only at h
    subst h
    simp only
    rw [if_neg (by omega), if_neg (by decide)]
    have : BitVec.ofInt 8 (b.toNat : Int) = b := by simp
    rw [this]

/-- A lone continuation byte. -/
example : (getUtf8 0x80 [65]).1 = none := by decide

/-- **An overlong sequence is not copied:** C0 80 becomes a NUL. -/
theorem C44_overlong : lexString 92 [0xC0, 0x80, 34] = .ok [0] [] [] := by decide +kernel

/-- **A sequence for a number that is no scalar value makes the compiler throw:** F4 90 80 80 (110000), ED A0 80 (a surrogate). -/
theorem C44_beyond : lexString 92 [0xF4, 0x90, 0x80, 0x80, 34] = .throws ∧ lexString 92 [0xED, 0xA0, 0x80, 34] = .throws := by decide +kernel

/-! ## C56 -/

/-- Escapes with a letter, and the byte each denotes. -/
def letters : List (Byte × Nat) := [(97, 7), (98, 8), (101, 27), (102, 12), (110, 10), (114, 13), (116, 9), (118, 11), (39, 39), (34, 34), (37, 37)]

/-- **C56: letters.** `\a`, `\b`, `\e`, `\f`, `\n`, `\r`, `\t`, `\v`, `\'`, `\"` and `\%` are the bytes of `letters`, and the control character
after itself is itself. -/
theorem C56_letters (ctrl : Byte) (rest : List Byte) :
    (∀ e ∈ letters, e.1 ≠ ctrl → packedChar ctrl (ctrl :: e.1 :: rest) = .ok [.ofNat 8 e.2] [] rest) ∧
    (ctrl.toNat < 0x80 → packedChar ctrl (ctrl :: ctrl :: rest) = .ok [ctrl] [] rest) := by
  constructor
  · intro e he hne
    have hl : litchar ctrl (ctrl :: e.1 :: rest) = escape (e.1 :: rest) := by
      unfold litchar
      simp only
      rw [if_neg (by simp), if_neg hne]
    unfold packedChar
    rw [hl]
    simp only [letters, List.mem_cons, List.not_mem_nil, or_false] at he
    rcases he with rfl | rfl | rfl | rfl | rfl | rfl | rfl | rfl | rfl | rfl | rfl <;> rfl
  · intro hc
    have hl : litchar ctrl (ctrl :: ctrl :: rest) = .char ctrl.toInt false [] rest := by
      unfold litchar
      simp only
      rw [if_neg (by simp), if_pos trivial]
    unfold packedChar
    rw [hl]
    simp only
    have : ctrl.toInt = ctrl.toNat := BitVec.toInt_eq_toNat_of_lt (by omega)
    rw [this, if_neg (by omega), if_neg (by decide)]
    have : BitVec.ofInt 8 (ctrl.toNat : Int) = ctrl := by simp
    rw [this]

/-- **C56: hexadecimal.** `\x` and two hexadecimal digits (and a semicolon) is the byte with that value. -/
theorem C56_hex (ctrl a b : Byte) (x y : Nat) (rest : List Byte) (h0 : ctrl ≠ 120) (hx : digitValue a = some x) (hy : digitValue b = some y) :
    packedChar ctrl (ctrl :: 120 :: a :: b :: rest) = .ok [.ofNat 8 (16 * x + y)] [] (skipSemi rest) := by
  rw [digitOf_eq] at hx hy
  have hl : litchar ctrl (ctrl :: 120 :: a :: b :: rest) = escape (120 :: a :: b :: rest) := by
    unfold litchar
    simp only
    rw [if_neg (by simp), if_neg (fun h => h0 h.symm)]
  have he : escape (120 :: a :: b :: rest) = .char (16 * x + y : Nat) false [] (skipSemi rest) := by
    show (let (c, r) := hexEscape 2 0 (a :: b :: rest); Lit.char c false [] (skipSemi r)) = _
    unfold hexEscape
    rw [show peek (a :: b :: rest) = a from rfl, hx]
    simp only
    unfold hexEscape
    rw [show peek (List.tail (a :: b :: rest)) = b from rfl, hy]
    simp only [hexEscape, List.tail_cons]
    congr 2
    omega
  unfold packedChar
  rw [hl, he]
  simp only
  rw [if_neg (by omega), if_neg (by decide)]
  rfl

theorem decEscape_ok : ∀ (ds : List Nat) (c n : Nat) (rest : List Byte), (∀ d ∈ ds, d < 10) → (∀ b, rest.head? = some b → isDigit b = false) →
    c * 10 ^ ds.length + positional 10 ds ≤ 2147483647 →
    decEscape (ds.map (fun d => BitVec.ofNat 8 (48 + d)) ++ rest) c n = some (c * 10 ^ ds.length + positional 10 ds, n + ds.length, rest)
  | [], c, n, rest, _, hr, _ => by
    simp only [List.map_nil, List.nil_append, List.length_nil, Nat.pow_zero, Nat.mul_one, positional, Nat.add_zero]
    cases rest with
    | nil => rfl
    | cons b r =>
      unfold decEscape
      rw [hr b rfl]
      rfl
  | d :: ds, c, n, rest, hd, hr, hv => by
    have hd0 := hd d (List.mem_cons_self ..)
    have e : (BitVec.ofNat 8 (48 + d)).toNat = 48 + d := by rw [BitVec.toNat_ofNat]; omega
    have hdig : isDigit (BitVec.ofNat 8 (48 + d)) = true := by unfold isDigit; rw [e]; exact decide_eq_true (by omega)
    rw [List.map_cons, List.cons_append]
    unfold decEscape
    rw [hdig, e]
    simp only [List.length_cons, positional, Nat.pow_succ] at hv ⊢
    have e2 : c * (10 ^ ds.length * 10) + (d * 10 ^ ds.length + positional 10 ds) = (c * 10 + d) * 10 ^ ds.length + positional 10 ds := by
      rw [Nat.add_mul, ← Nat.add_assoc, Nat.mul_comm (10 ^ _) 10, ← Nat.mul_assoc]
    rw [e2] at hv ⊢
    have hp : 0 < 10 ^ ds.length := Nat.pow_pos (by omega)
    have hle : c * 10 + d ≤ (c * 10 + d) * 10 ^ ds.length := Nat.le_mul_of_pos_right _ hp
    rw [show 48 + d - 48 = d by omega]
    simp only [if_true]
    rw [if_neg (by omega), decEscape_ok ds (c * 10 + d) (n + 1) rest (fun x hx => hd x (List.mem_cons_of_mem _ hx)) hr hv]
    congr 3
    omega

/-- **C56: decimal.** The control character and one to three decimal digits with a value of at most 255 (and a semicolon) is the byte with
that value; above that, or with more digits, it is reported (27). -/
theorem C56_decimal (ctrl : Byte) (d : Nat) (ds : List Nat) (rest : List Byte) (h0 : isDigit ctrl = false) (hd : ∀ x ∈ d :: ds, x < 10)
    (hr : ∀ b, rest.head? = some b → isDigit b = false) :
    (positional 10 (d :: ds) ≤ 255 → ds.length ≤ 2 →
      packedChar ctrl (ctrl :: ((d :: ds).map (fun d => BitVec.ofNat 8 (48 + d)) ++ rest)) =
        .ok [.ofNat 8 (positional 10 (d :: ds))] [] (skipSemi rest)) ∧
    (positional 10 (d :: ds) ≤ 2147483647 → (positional 10 (d :: ds) > 255 ∨ ds.length > 2) →
      ∃ b e, packedChar ctrl (ctrl :: ((d :: ds).map (fun d => BitVec.ofNat 8 (48 + d)) ++ rest)) = .ok [b] e (skipSemi rest) ∧ 27 ∈ e) := by
  have hd0 := hd d (List.mem_cons_self ..)
  have ed : (BitVec.ofNat 8 (48 + d)).toNat = 48 + d := by rw [BitVec.toNat_ofNat]; omega
  have hdig : isDigit (BitVec.ofNat 8 (48 + d)) = true := by unfold isDigit; rw [ed]; exact decide_eq_true (by omega)
  have hl : litchar ctrl (ctrl :: ((d :: ds).map (fun d => BitVec.ofNat 8 (48 + d)) ++ rest)) =
      escape ((d :: ds).map (fun d => BitVec.ofNat 8 (48 + d)) ++ rest) := by
    rw [List.map_cons, List.cons_append]
    unfold litchar
    simp only
    rw [if_neg (by simp), if_neg (by intro h; rw [h] at hdig; rw [hdig] at h0; cases h0)]
  have he : positional 10 (d :: ds) ≤ 2147483647 → escape ((d :: ds).map (fun d => BitVec.ofNat 8 (48 + d)) ++ rest) =
      (if positional 10 (d :: ds) > 255 then .char 0 false ((if ds.length + 1 > 3 then [27] else []) ++ [27]) (skipSemi rest)
       else .char (positional 10 (d :: ds)) false (if ds.length + 1 > 3 then [27] else []) (skipSemi rest)) := by
    intro hv
    have hdec := decEscape_ok (d :: ds) 0 0 rest hd hr (by rw [Nat.zero_mul]; omega)
    rw [Nat.zero_mul, Nat.zero_add, Nat.zero_add, List.length_cons] at hdec
    have esc : ∀ (b : Byte) (l : List Byte), isDigit b = true → escape (b :: l) = match decEscape (b :: l) 0 0 with
      | none => .ub
      | some (c, n, r) =>
        let e := if n > 3 then [27] else []
        if c > 255 then .char 0 false (e ++ [27]) (skipSemi r) else .char c false e (skipSemi r) := by
      intro b l hb
      unfold escape
      split
      case h_15 => rw [show peek (b :: l) = b from rfl, hb]; rfl
      all_goals
        rename_i heq
        injection heq with heq
        subst heq
        exact absurd hb (by decide)
    rw [List.map_cons, List.cons_append] at hdec ⊢
    rw [esc _ _ hdig, hdec]
  unfold packedChar
  constructor
  · intro h1 h2
    have h3 : ¬ ds.length + 1 > 3 := by omega
    have h4 : ¬ (positional 10 (d :: ds) : Int) < 0 := by omega
    rw [hl, he (by omega), if_neg (by omega), if_neg h3]
    simp only [if_neg h4, Bool.false_eq_true, if_false]
    rfl
  · intro h1 h2
    rw [hl, he h1]
    by_cases h : positional 10 (d :: ds) > 255
    · rw [if_pos h]
      simp only
      exact ⟨_, _, rfl, by simp⟩
    · rw [if_neg h]
      simp only
      rw [if_neg (by omega)]
      refine ⟨_, _, rfl, ?_⟩
      rw [if_pos (by omega)]
      simp

theorem uniEscape_ok : ∀ (hs : List Byte) (c : Nat) (rest : List Byte), (∀ b ∈ hs, ∃ d, digitOf b = some d) →
    c * 16 ^ hs.length + positional 16 (hs.filterMap digitOf) < 4294967296 →
    uniEscape hs.length (.ofNat 32 c) (hs ++ rest) = (.ofNat 32 (c * 16 ^ hs.length + positional 16 (hs.filterMap digitOf)), [], rest)
  | [], c, rest, _, _ => by simp [uniEscape, positional]
  | b :: hs, c, rest, hb, hv => by
    obtain ⟨d, hd⟩ := hb b (List.mem_cons_self ..)
    have hlt := digitOf_lt hd
    have hlen : (hs.filterMap digitOf).length = hs.length := by
      have : ∀ l : List Byte, (∀ b ∈ l, ∃ d, digitOf b = some d) → (l.filterMap digitOf).length = l.length := by
        intro l
        induction l with
        | nil => intro _; rfl
        | cons x l ih =>
          intro h
          obtain ⟨d, hd⟩ := h x (List.mem_cons_self ..)
          rw [List.filterMap_cons_some hd, List.length_cons, List.length_cons, ih fun y hy => h y (List.mem_cons_of_mem _ hy)]
      exact this hs fun y hy => hb y (List.mem_cons_of_mem _ hy)
    rw [List.filterMap_cons_some hd] at hv ⊢
    simp only [List.length_cons, positional, Nat.pow_succ, hlen] at hv ⊢
    have e2 : c * (16 ^ hs.length * 16) + (d * 16 ^ hs.length + positional 16 (hs.filterMap digitOf)) =
        (c * 16 + d) * 16 ^ hs.length + positional 16 (hs.filterMap digitOf) := by
      rw [Nat.add_mul, ← Nat.add_assoc, Nat.mul_comm (16 ^ _) 16, ← Nat.mul_assoc]
    rw [e2] at hv ⊢
    have hp : 0 < 16 ^ hs.length := Nat.pow_pos (by omega)
    have hle : c * 16 + d ≤ (c * 16 + d) * 16 ^ hs.length := Nat.le_mul_of_pos_right _ hp
    rw [List.cons_append]
    unfold uniEscape
    rw [show peek (b :: (hs ++ rest)) = b from rfl, hd]
    simp only [List.tail_cons]
    have e3 : (BitVec.ofNat 32 c <<< 4) ||| BitVec.ofNat 32 d = BitVec.ofNat 32 (c * 16 + d) := by
      apply BitVec.eq_of_toNat_eq
      rw [BitVec.toNat_or, BitVec.toNat_shiftLeft, BitVec.toNat_ofNat, BitVec.toNat_ofNat, BitVec.toNat_ofNat, Nat.shiftLeft_eq,
        Nat.mod_eq_of_lt (by omega : c < 2 ^ 32), Nat.mod_eq_of_lt (by omega : d < 2 ^ 32), Nat.mod_eq_of_lt (by omega : c * 2 ^ 4 < 2 ^ 32),
        Nat.mod_eq_of_lt (by omega : c * 16 + d < 2 ^ 32), Nat.mul_comm,
        ← Nat.two_pow_add_eq_or_of_lt (show d < 2 ^ 4 from hlt), Nat.mul_comm]
    rw [e3]
    exact uniEscape_ok hs (c * 16 + d) rest (fun y hy => hb y (List.mem_cons_of_mem _ hy)) hv

/-- **C56: Unicode.** `\u` and four, or `\U` and eight, hexadecimal digits is the UTF-8 encoding of the scalar value they denote.
Missing: other values.  They are not reported: see `C56_unicode_throws` and `C56_unicode_dropped`. -/
theorem C56_unicode_partial (ctrl : Byte) (hs rest : List Byte) (u : Byte) (hu : (u = 117 ∧ hs.length = 4) ∨ (u = 85 ∧ hs.length = 8))
    (h0 : ctrl ≠ u) (hh : ∀ b ∈ hs, ∃ d, digitValue b = some d) (hv : Scalar (positional 16 (hs.filterMap digitValue))) :
    packedChar ctrl (ctrl :: u :: (hs ++ rest)) = .ok (utf8 (positional 16 (hs.filterMap digitValue))) [] rest := by
  rw [filter_eq] at hv ⊢
  rw [show digitValue = digitOf from funext digitOf_eq] at hh
  have hb : positional 16 (hs.filterMap digitOf) ≤ 0x10FFFF := by unfold Scalar at hv; omega
  have hue := uniEscape_ok hs 0 rest hh (by rw [Nat.zero_mul]; omega)
  rw [Nat.zero_mul, Nat.zero_add] at hue
  have hl : litchar ctrl (ctrl :: u :: (hs ++ rest)) = escape (u :: (hs ++ rest)) := by
    unfold litchar
    simp only
    rw [if_neg (by simp), if_neg (fun h => h0 h.symm)]
  have ht : (BitVec.ofNat 32 (positional 16 (hs.filterMap digitOf))).toInt = (positional 16 (hs.filterMap digitOf) : Nat) := by
    rw [BitVec.toInt_eq_toNat_of_lt] <;> rw [BitVec.toNat_ofNat, Nat.mod_eq_of_lt (by omega)]
    omega
  have he : escape (u :: (hs ++ rest)) = .char (positional 16 (hs.filterMap digitOf) : Nat) true [] rest := by
    rcases hu with ⟨rfl, hn⟩ | ⟨rfl, hn⟩
    · show (let (c, e, r) := uniEscape 4 0 (hs ++ rest); Lit.char c.toInt true e r) = _
      rw [hn] at hue
      rw [show (0 : BitVec 32) = BitVec.ofNat 32 0 from rfl, hue]
      simp only
      rw [ht]
    · show (let (c, e, r) := uniEscape 8 0 (hs ++ rest); Lit.char c.toInt true e r) = _
      rw [hn] at hue
      rw [show (0 : BitVec 32) = BitVec.ofNat 32 0 from rfl, hue]
      simp only
      rw [ht]
  unfold packedChar
  rw [hl, he]
  simp only
  rw [if_neg (by omega), if_pos trivial, Int.toNat_natCast, if_pos hv]

/-- `€` is the euro sign; its digits meet the hypotheses. -/
example : packedChar 92 [92, 117, 50, 48, 65, 67, 33] = .ok [0xE2, 0x82, 0xAC] [] [33] ∧
    (∀ b ∈ ([50, 48, 65, 67] : List Byte), ∃ d, digitValue b = some d) ∧ Scalar (positional 16 (([50, 48, 65, 67] : List Byte).filterMap digitValue)) := by
  refine ⟨by decide +kernel, ?_, by decide +kernel⟩
  intro b hb
  simp only [List.mem_cons, List.not_mem_nil, or_false] at hb
  rcases hb with rfl | rfl | rfl | rfl
  · exact ⟨2, by decide +kernel⟩
  · exact ⟨0, by decide +kernel⟩
  · exact ⟨10, by decide +kernel⟩
  · exact ⟨12, by decide +kernel⟩

/-- `\255` is the byte 255 and `\x41;` the letter A. -/
example : packedChar 92 [92, 50, 53, 53, 33] = .ok [255] [] [33] ∧ packedChar 92 [92, 120, 52, 49, 59, 33] = .ok [65] [] [33] := by decide +kernel

/-- **`\uD800` and `\U00110000` make the compiler throw.** -/
theorem C56_unicode_throws : packedChar 92 [92, 117, 68, 56, 48, 48] = .throws ∧
    packedChar 92 [92, 85, 48, 48, 49, 49, 48, 48, 48, 48] = .throws := by decide +kernel

/-- **`\U80000000` disappears without a report.** (`c <<= 4` makes the cell negative; packedstring_char then adds nothing.) -/
theorem C56_unicode_dropped : packedChar 92 [92, 85, 56, 48, 48, 48, 48, 48, 48, 48, 33] = .ok [] [] [33] := by decide +kernel

/-- **`\9999999999` overflows a signed integer** (compiler/lexer.cpp:2424). -/
theorem C56_decimal_overflow : packedChar 92 [92, 57, 57, 57, 57, 57, 57, 57, 57, 57, 57] = .ub := by decide +kernel

end Verif.Text

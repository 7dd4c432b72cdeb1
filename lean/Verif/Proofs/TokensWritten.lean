import Verif.Proofs.TokensMain
namespace Verif.Tokens
open Verif.Text (Byte isSpace isNewline isDigit NumTok Body prefixOf tokenOf Follows lexNumber)

theorem alpha_range {c : Byte} (h : isAlpha c = true) :
    (64 ≤ c.toNat ∧ c.toNat ≤ 122) ∧ c ≠ ch '\\' ∧ isDigit c = false ∧ c ∉ opHeads ∧ c ≠ ch '"' ∧ c ≠ ch '\'' := by
  have hr : 64 ≤ c.toNat ∧ c.toNat ≤ 122 := by
    simp only [isAlpha, isLetter, Bool.or_eq_true, decide_eq_true_eq, beq_iff_eq] at h
    rcases h with (h | h) | h
    · omega
    · rw [h]; decide
    · rw [h]; decide
  refine ⟨hr, ?_, ?_, ?_, ?_, ?_⟩
  · rintro rfl; exact absurd h (by decide)
  · simp only [isDigit, decide_eq_false_iff_not]; omega
  · intro hm
    have : ∀ k ∈ opHeads, isAlpha k = false := by decide
    rw [this c hm] at h; cases h
  · rintro rfl; exact absurd h (by decide)
  · rintro rfl; exact absurd h (by decide)

theorem word_split {r rest : List Byte} (hr : ∀ b ∈ r, isWord b = true) (hf : ∀ b, rest.head? = some b → isWord b = false) :
    (r ++ rest).takeWhile isWord = r ∧ (r ++ rest).dropWhile isWord = rest := by
  rw [List.takeWhile_append_of_pos hr, List.dropWhile_append_of_pos hr]
  cases rest with
  | nil => simp
  | cons b rest =>
    have := hf b rfl
    rw [List.takeWhile_cons_of_neg (by simp [this]), List.dropWhile_cons_of_neg (by simp [this])]
    simp

theorem lexInto_word {m : Mode} {c : Byte} {r : List Byte} (h : isAlpha c = true) : lexInto m c r = lexWord m c r := by
  obtain ⟨_, _, h1, h2, h3, h4⟩ := alpha_range h
  unfold lexInto
  rw [if_neg (by simp [h1]), lexOp_none h2]
  simp only
  rw [if_neg (by simp [h3, h4]), if_pos h]

theorem starts_alpha {c : Byte} {r : List Byte} (h : isAlpha c = true) : Starts c r := by
  obtain ⟨h1, h2, _, h4, _, _⟩ := alpha_range h
  refine ⟨by omega, ⟨?_, h2⟩, ?_⟩
  · rintro rfl; exact absurd h (by decide)
  · rintro rfl; exact absurd h (by decide)

theorem colonNext_none {rest : List Byte} (hc : ∀ r, rest = ch ':' :: r → r.head? = some (ch ':')) : colonNext rest = none := by
  unfold colonNext
  cases h : mc (ch ':') rest with
  | none => rfl
  | some r =>
    have hr := hc r (mc_some h)
    cases r with
    | nil => cases hr
    | cons d r =>
      simp only [List.head?_cons, Option.some.injEq] at hr
      subst hr
      simp [mc]

def keywordOk (w : List Byte) : Bool :=
  match w with
  | [] => false
  | c :: r => isAlpha c && r.all isWord && c != ch '@' && r.all (fun b => !isDigit b) && w != str "defined" &&
      w != str "__LINE__" && w != [ch '@'] && !unimplemented.contains w && keywords.contains w

theorem keyword_all : ∀ w ∈ reservedWords, keywordOk w = true := by decide +kernel

theorem lexWord_keyword {m : Mode} {c : Byte} {r rest : List Byte} (hk : keywordOk (c :: r) = true)
    (hf : ∀ b, rest.head? = some b → isWord b = false ∧ b ≠ ch ':') :
    lexWord m c (r ++ rest) = some (.keyword (c :: r), rest) := by
  simp only [keywordOk, Bool.and_eq_true, bne_iff_ne, ne_eq, Bool.not_eq_true', List.all_eq_true,
    List.contains_iff_mem] at hk
  obtain ⟨⟨⟨⟨⟨⟨⟨⟨h1, h2⟩, h3⟩, h4⟩, h5⟩, h6⟩, h7⟩, h8⟩, h9⟩ := hk
  have h8' : (c :: r) ∉ unimplemented := by
    intro h; rw [← List.contains_iff_mem] at h; rw [h] at h8; cases h8
  obtain ⟨s1, s2⟩ := word_split h2 (fun b hb => (hf b hb).1)
  have hall : r.all (fun b => !isDigit b) = true := by
    rw [List.all_eq_true]
    intro b hb
    rw [h4 b hb]; rfl
  unfold lexWord
  simp only [s1, s2]
  rw [if_neg h7, if_neg (by rintro (h | h); exact h5 h; exact h6 h), if_neg (by rintro ⟨_, h⟩; exact h8' h),
    if_pos ⟨⟨h3, hall⟩, h9⟩, mc_head (fun x hx => (hf x hx).2)]
  split <;> rfl

theorem lexWord_symbol {m : Mode} {c : Byte} {r rest : List Byte} (hw : IsName (c :: r))
    (hr : ∀ b ∈ r, isWord b = true)
    (hf : ∀ b, rest.head? = some b → isWord b = false)
    (hc : ∀ r, rest = ch ':' :: r → r.head? = some (ch ':')) :
    lexWord m c (r ++ rest) = some (.symbol (c :: r), rest) := by
  obtain ⟨s1, s2⟩ := word_split hr hf
  have hu : (c :: r) ∉ unimplemented := by
    intro h
    have : ∀ w ∈ unimplemented, w ∈ forbiddenWords := by decide +kernel
    exact hw.free.2 (this _ h)
  have hk : (c :: r) ∉ keywords := by
    intro h
    have : ∀ w ∈ keywords, w ∈ reservedWords := by decide +kernel
    exact hw.free.1 (this _ h)
  have e1 : str "@" = [ch '@'] := by decide +kernel
  have e2 : str "_" = [ch '_'] := by decide +kernel
  have hd1 : str "defined" ∈ forbiddenWords := by decide +kernel
  have hd2 : str "__LINE__" ∈ forbiddenWords := by decide +kernel
  have hna := hw.notAlone
  rw [e1, e2] at hna
  unfold lexWord
  simp only [s1, s2]
  rw [if_neg hna.2, if_neg (by
      rintro (h | h)
      · exact hw.free.2 (h ▸ hd1)
      · exact hw.free.2 (h ▸ hd2)), if_neg (by rintro ⟨_, h⟩; exact hu h), if_neg (by rintro ⟨_, h⟩; exact hk h)]
  unfold lexSymbol
  rw [colonNext_none hc]
  simp only
  rw [if_neg hna.1]

theorem tokenOf_cases (base v : Nat) :
    (∃ x, tokenOf base v = .number x) ∨ (∃ x, tokenOf base v = .number64 x) := by
  unfold tokenOf
  repeat' split
  all_goals first | exact Or.inl ⟨_, rfl⟩ | exact Or.inr ⟨_, rfl⟩

theorem lexInto_number {m : Mode} {c : Byte} {r rest : List Byte} {base v : Nat} (hd : isDigit c = true)
    (h : lexNumber (c :: r) = ⟨some (tokenOf base v), [], rest⟩) : lexInto m c r = some (.number (tokenOf base v), rest) := by
  unfold lexInto
  rw [if_pos hd, h]
  rcases tokenOf_cases base v with ⟨x, hx⟩ | ⟨x, hx⟩ <;> rw [hx]

theorem starts_digit {c : Byte} {r : List Byte} (h : isDigit c = true) : Starts c r := by
  have hr : 48 ≤ c.toNat ∧ c.toNat ≤ 57 := by simpa [isDigit] using h
  refine ⟨by omega, ⟨?_, ?_⟩, ?_⟩ <;> (rintro rfl; exact absurd h (by decide))

theorem longest_unique {t rest t' rest' : List Byte} (ht : t ∈ operators)
    (hf : ∀ u ∈ operators, u <+: t ++ rest → u.length ≤ t.length) (h : Longest (t ++ rest) (t', rest')) :
    t' = t ∧ rest' = rest := by
  obtain ⟨h1, h2, h3⟩ := h
  have l1 : t'.length ≤ t.length := hf t' h2 ⟨rest', h1.symm⟩
  have l2 : t.length ≤ t'.length := h3 t ht ⟨rest, rfl⟩
  have hlen : t.length = t'.length := Nat.le_antisymm l2 l1
  obtain ⟨e1, e2⟩ := List.append_inj h1 hlen
  exact ⟨e1.symm, e2.symm⟩

/-- A written token starts with a byte that `FindNextToken` stops at, and is read in full. -/
theorem written_lex {t : Tok} {x rest : List Byte} (h : Written t x rest) :
    ∃ c r, x ++ rest = c :: r ∧ Starts c r ∧ ∀ m, lexInto m c r = some (t, rest) := by
  cases h with
  | number base body rest hbase hb hd hv hf =>
    have hn := Verif.Text.C43_fits base hbase body rest hb hf hd hv
    have : ∃ c r, prefixOf base ++ body ++ rest = c :: r ∧ isDigit c = true := by
      rcases hbase with rfl | rfl | rfl | rfl
      · exact ⟨48, _, rfl, by decide⟩
      · exact ⟨48, _, rfl, by decide⟩
      · obtain ⟨d, r, rfl, hdd⟩ := hd rfl
        exact ⟨d, r ++ rest, rfl, hdd⟩
      · exact ⟨48, _, rfl, by decide⟩
    obtain ⟨c, r, he, hc⟩ := this
    refine ⟨c, r, he, starts_digit hc, fun m => lexInto_number hc ?_⟩
    rw [← he]
    exact hn
  | keyword w rest hw hf =>
    have hk := keyword_all x hw
    cases x with
    | nil => cases hk
    | cons c r =>
      have ha : isAlpha c = true := by
        simp only [keywordOk, Bool.and_eq_true] at hk
        exact hk.1.1.1.1.1.1.1.1
      refine ⟨c, r ++ rest, rfl, starts_alpha ha, fun m => ?_⟩
      rw [lexInto_word ha]
      exact lexWord_keyword hk fun b hb => ⟨(not_inName_iff b).mp (hf b hb).1, (hf b hb).2⟩
  | symbol w rest hw hf hc =>
    obtain ⟨c, r, rfl, ha, hr⟩ := hw.head
    replace ha := (startsName_iff c).mp ha
    refine ⟨c, r ++ rest, rfl, starts_alpha ha, fun m => ?_⟩
    rw [lexInto_word ha]
    exact lexWord_symbol hw (fun b hb => (inName_iff b).mp (hr b hb)) (fun b hb => (not_inName_iff b).mp (hf b hb)) hc
  | operator t rest ht hf hc =>
    have hhead : ∀ u ∈ operators, ∃ c ∈ opHeads, u.head? = some c := by decide +kernel
    obtain ⟨c, hc1, hc2⟩ := hhead x ht
    cases x with
    | nil => cases hc2
    | cons d r =>
      simp only [List.head?_cons, Option.some.injEq] at hc2
      subst hc2
      refine ⟨d, r ++ rest, rfl, ?_, ?_⟩
      · have hd : ∀ k ∈ opHeads, (33 ≤ k.toNat ∧ k.toNat < 127) ∧ k ≠ ch '#' ∧ k ≠ ch '\\' := by decide
        refine ⟨(hd d hc1).1, (hd d hc1).2, ?_⟩
        rintro rfl b hb
        have hs : ∀ u ∈ operators, u.head? = some (ch '/') → u = str "/" ∨ u = [ch '/', ch '='] := by decide +kernel
        have e : str "/" = [ch '/'] := by decide +kernel
        rcases hs _ ht rfl with h | h
        · rw [e] at h
          cases h
          exact hc e.symm b hb
        · cases h
          simp only [List.cons_append, List.head?_cons, Option.some.injEq] at hb
          subst hb
          decide
      · intro m
        have hdig : ∀ k ∈ opHeads, isDigit k = false := by decide
        obtain ⟨⟨t', rest'⟩, hp, hl⟩ := lexOp_some hc1 (r ++ rest)
        obtain ⟨e1, e2⟩ := longest_unique ht hf hl
        unfold lexInto
        rw [if_neg (by simp [hdig d hc1]), hp, e1, e2]
  | sign b rest hb =>
    have hall : ∀ k ∈ str "$(),;?[]`{}~", (33 ≤ k.toNat ∧ k.toNat < 127) ∧ k ≠ ch '#' ∧ k ≠ ch '\\' ∧ k ≠ ch '/' ∧
        isDigit k = false ∧ k ∉ opHeads ∧ k ≠ ch '"' ∧ k ≠ ch '\'' ∧ isAlpha k = false := by decide +kernel
    obtain ⟨h1, h2, h3, h4, h5, h6, h7, h8, h9⟩ := hall b hb
    refine ⟨b, rest, rfl, ⟨h1, ⟨h2, h3⟩, fun h => absurd h h4⟩, fun m => ?_⟩
    unfold lexInto
    rw [if_neg (by simp [h5]), lexOp_none h6]
    simp only
    rw [if_neg (by simp [h7, h8]), if_neg (by simp [h9])]

theorem written_pos {t : Tok} {x rest : List Byte} (h : Written t x rest) : 0 < x.length := by
  cases h with
  | number base body rest hbase hb hd hv hf =>
    rcases hb.digit with ⟨b, hb, _⟩
    rw [List.length_append]
    exact Nat.lt_of_lt_of_le (List.length_pos_of_mem hb) (Nat.le_add_left _ _)
  | keyword w rest hw hf =>
    have hk := keyword_all x hw
    cases x with
    | nil => cases hk
    | cons c r => simp
  | symbol w rest hw hf hc => obtain ⟨c, r, rfl, _, _⟩ := hw.head; simp
  | operator t rest ht hf hc =>
    have : ∀ u ∈ operators, 0 < u.length := by decide +kernel
    exact this x ht
  | sign b rest hb => simp

theorem next_source {m : Mode} {bol : Bool} {g x rest : List Byte} {t : Tok} (hg : Gap g) (hx : Written t x rest) :
    next m bol (g ++ x ++ rest) = .token t rest := by
  obtain ⟨c, r, he, hs, hl⟩ := written_lex hx
  have hsol : Solid (x ++ rest) := by rw [he]; exact hs.solid
  obtain ⟨n', bol', hn', hf⟩ := gap_skip g.length g (Nat.le_refl _) hg (x ++ rest) hsol ((g ++ (x ++ rest)).length + 1) bol
    (Nat.lt_succ_self _)
  unfold next
  rw [List.append_assoc, hf, he]
  cases n' with
  | zero => exact absurd hn' (Nat.not_lt_zero _)
  | succ n' =>
    rw [findNext_token hs]
    simp only
    rw [hl m]

theorem next_gap {m : Mode} {bol : Bool} {g : List Byte} (hg : Gap g) : next m bol g = .eof := by
  obtain ⟨n', bol', hn', hf⟩ := gap_skip g.length g (Nat.le_refl _) hg [] (by intro b hb; cases hb) ((g ++ []).length + 1) bol
    (Nat.lt_succ_self _)
  rw [List.append_nil] at hf
  unfold next
  rw [hf]
  cases n' with
  | zero => exact absurd hn' (Nat.not_lt_zero _)
  | succ n' => rw [findNext_nil]

theorem lexAll_source {m : Mode} {ts : List Tok} {s : List Byte} (h : Source ts s) :
    ∀ (n : Nat) (bol : Bool), s.length < n → lexAll m n bol s = some ts := by
  induction h with
  | nil g hg =>
    intro n bol hn
    cases n with
    | zero => exact absurd hn (Nat.not_lt_zero _)
    | succ n => simp only [lexAll, next_gap hg]
  | cons g x rest t ts hg hx hr ih =>
    intro n bol hn
    cases n with
    | zero => exact absurd hn (Nat.not_lt_zero _)
    | succ n =>
      have := written_pos hx
      simp only [lexAll, next_source hg hx]
      rw [ih n false (by simp only [List.length_append] at hn; omega)]
      rfl

end Verif.Tokens

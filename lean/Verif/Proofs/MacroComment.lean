import Verif.Proofs.MacroText

/-! Comments in definitions, and wrong numbers of arguments (C77). -/
namespace Verif.Macro

theorem written_append (ps qs : List Piece) : written (ps ++ qs) = written ps ++ written qs := by simp [written]

theorem offsets_append : ∀ (ps qs : List Piece) (k : Nat), offsets k (ps ++ qs) = offsets k ps ++ offsets (k + (written ps).length) qs
  | [], qs, k => by simp [offsets, written]
  | p :: ps, qs, k => by
    have e : k + (written (p :: ps)).length = k + p.text.length + (written ps).length := by rw [written_cons, List.length_append]; omega
    rw [e]
    cases p <;> simp [offsets, offsets_append ps qs, Piece.text]

/-- The text before a comment. -/
theorem skimLoop_before {args : Bool} {z : List Char} : ∀ {ps : List Piece}, Line (ps ++ [.lit '/']) →
    ∀ (n : Nat) (text run : List Char) (pos : List Nat), (written ps ++ '/' :: z).length ≤ n →
    ∃ n' text' run', skimLoop args n text (some run) pos (written ps ++ '/' :: z) =
      skimLoop args n' text' (some run') (pos ++ if args then offsets (text ++ run).length ps else []) ('/' :: z) ∧
      text' ++ run' = text ++ run ++ written ps ∧ ('/' :: z).length ≤ n'
  | [], _, n, text, run, pos, hn => ⟨n, text, run, by cases args <;> simp [written, offsets], by simp [written], hn⟩
  | .lit c :: ps, h, n, text, run, pos, hn => by
    obtain ⟨h1, h2, h3, h4, h5, h6, _, h8⟩ := h
    have e : written (.lit c :: ps) = c :: written ps := rfl
    rw [e] at hn ⊢
    obtain ⟨n, rfl⟩ : ∃ k, n = k + 1 := ⟨n - 1, by simp at hn; omega⟩
    have hh : (written (ps ++ [Piece.lit '/'])).head? = (written ps ++ '/' :: z).head? := by
      rw [written_append]; cases written ps <;> rfl
    rw [show List.append ps [Piece.lit '/'] = ps ++ [.lit '/'] from rfl, hh] at h5 h6
    obtain ⟨n', t', r', e1, e2, e3⟩ := skimLoop_before (args := args) (z := z) h8 n text (run ++ [c]) pos (by simp at hn ⊢; omega)
    refine ⟨n', t', r', ?_, ?_, e3⟩
    · rw [List.cons_append, skimLoop_char h1 h2 h3 h4 h5 (fun _ => h6), e1]
      simp [offsets, Piece.text, Nat.add_assoc]
    · rw [e2]; simp
  | .quoted q s :: ps, h, n, text, run, pos, hn => by
    obtain ⟨h1, h2, h3⟩ := h
    have e : written (.quoted q s :: ps) = q :: (s ++ q :: written ps) := by simp [written_cons, Piece.text]
    rw [e] at hn ⊢
    obtain ⟨n, rfl⟩ : ∃ k, n = k + 1 := ⟨n - 1, by simp at hn; omega⟩
    obtain ⟨n', t', r', e1, e2, e3⟩ := skimLoop_before (args := args) (z := z) h3 n text (run ++ q :: (s ++ [q])) pos (by simp at hn ⊢; omega)
    refine ⟨n', t', r', ?_, ?_, e3⟩
    · have : q :: (s ++ q :: written ps) ++ '/' :: z = q :: (s ++ q :: (written ps ++ '/' :: z)) := by simp
      rw [this, skimLoop_quoted h1 h2, e1]
      simp [offsets, Piece.text, Nat.add_assoc]
    · rw [e2]; simp
  | .arg k :: ps, h, n, text, run, pos, hn => by
    have h3 : Line (ps ++ [.lit '/']) := h
    have e : written (.arg k :: ps) = '%' :: digit k :: written ps := rfl
    obtain ⟨d1, d2, d3, d4, d5, d6⟩ := digit_plain k
    rw [e] at hn ⊢
    obtain ⟨n, rfl⟩ : ∃ m, n = m + 1 := ⟨n - 1, by simp at hn; omega⟩
    cases args with
    | true =>
      obtain ⟨n', t', r', e1, e2, e3⟩ := skimLoop_before (args := true) (z := z) h3 n (text ++ run ++ ['%', digit k]) []
        (pos ++ [(text ++ run).length]) (by simp at hn ⊢; omega)
      refine ⟨n', t', r', ?_, ?_, e3⟩
      · rw [List.cons_append, List.cons_append, skimLoop_arg (isDigit_digit k), e1]
        simp [offsets, Nat.add_assoc]
      · rw [e2]; simp
    | false =>
      obtain ⟨n, rfl⟩ : ∃ m, n = m + 1 := ⟨n - 1, by simp at hn; omega⟩
      obtain ⟨n', t', r', e1, e2, e3⟩ := skimLoop_before (args := false) (z := z) h3 n text (run ++ ['%'] ++ [digit k]) pos
        (by simp at hn ⊢; omega)
      refine ⟨n', t', r', ?_, ?_, e3⟩
      · rw [List.cons_append, List.cons_append,
          skimLoop_char (by decide) (by decide) (by decide) (by decide) (fun x => absurd x (by decide)) (fun x => absurd x (by decide)),
          skimLoop_char d2 d3 d4 d1 (fun x => absurd x d5) (fun x => absurd x (by decide)), e1]
        simp
      · rw [e2]; simp
  | .str k :: ps, h, n, text, run, pos, hn => by
    have h3 : Line (ps ++ [.lit '/']) := h
    have e : written (.str k :: ps) = '#' :: '%' :: digit k :: written ps := rfl
    obtain ⟨d1, d2, d3, d4, d5, d6⟩ := digit_plain k
    rw [e] at hn ⊢
    obtain ⟨n, rfl⟩ : ∃ m, n = m + 1 := ⟨n - 1, by simp at hn; omega⟩
    obtain ⟨n, rfl⟩ : ∃ m, n = m + 1 := ⟨n - 1, by simp at hn; omega⟩
    rw [List.cons_append, List.cons_append, List.cons_append,
      skimLoop_char (by decide) (by decide) (by decide) (by decide) (fun x => absurd x (by decide)) (fun _ x => absurd x (by decide))]
    cases args with
    | true =>
      obtain ⟨n', t', r', e1, e2, e3⟩ := skimLoop_before (args := true) (z := z) h3 n (text ++ (run ++ ['#']) ++ ['%', digit k]) []
        (pos ++ [(text ++ (run ++ ['#'])).length]) (by simp at hn ⊢; omega)
      refine ⟨n', t', r', ?_, ?_, e3⟩
      · rw [skimLoop_arg (isDigit_digit k), e1]
        simp [offsets, Nat.add_assoc]
      · rw [e2]; simp
    | false =>
      obtain ⟨n, rfl⟩ : ∃ m, n = m + 1 := ⟨n - 1, by simp at hn; omega⟩
      obtain ⟨n', t', r', e1, e2, e3⟩ := skimLoop_before (args := false) (z := z) h3 n text (run ++ ['#'] ++ ['%'] ++ [digit k]) pos
        (by simp at hn ⊢; omega)
      refine ⟨n', t', r', ?_, ?_, e3⟩
      · rw [skimLoop_char (by decide) (by decide) (by decide) (by decide) (fun x => absurd x (by decide)) (fun x => absurd x (by decide)),
          skimLoop_char d2 d3 d4 d1 (fun x => absurd x d5) (fun x => absurd x (by decide)), e1]
        simp
      · rw [e2]; simp

theorem head_before {ps : List Piece} (ht : ∀ c, (written ps).head? = some c → isSpace c = false) (z : List Char) :
    ∀ c, (written ps ++ '/' :: z).head? = some c → isSpace c = false := by
  intro c hc
  cases h : written ps with
  | nil => rw [h] at hc; simp at hc; subst hc; decide
  | cons a l => rw [h] at hc ht; exact ht c hc

theorem trimEnd_spaces {s sp : List Char} (h : ∀ c, s.getLast? = some c → isSpace c = false) (hs : ∀ c ∈ sp, isSpace c = true) :
    trimEnd (s ++ sp) = s := by
  have : trimEnd (s ++ sp) = trimEnd s := by
    unfold trimEnd
    rw [List.reverse_append]
    have key : ∀ l : List Char, (∀ c ∈ l, isSpace c = true) → ∀ r : List Char, (l ++ r).dropWhile isSpace = r.dropWhile isSpace := by
      intro l hl r
      induction l with
      | nil => rfl
      | cons a l ih => rw [List.cons_append, List.dropWhile_cons, if_pos (hl a (by simp)), ih (fun c hc => hl c (by simp [hc]))]
    rw [key _ (by simpa using hs)]
  rw [this, trimEnd_eq h]

theorem offsets_lits (sp : List Char) : ∀ k, offsets k (sp.map Piece.lit) = [] := by
  induction sp with
  | nil => intro k; rfl
  | cons c sp ih => intro k; simp [offsets, ih]

theorem written_lits (sp : List Char) : written (sp.map Piece.lit) = sp := by
  induction sp with
  | nil => rfl
  | cons c sp ih => rw [List.map_cons, written_cons, ih]; rfl

theorem skimLine_lineComment {args : Bool} {ps : List Piece} {sp z : List Char} (hl : Line (ps ++ sp.map .lit ++ [.lit '/']))
    (ht : Tight (written ps)) (h0 : written ps ≠ []) (hs : ∀ c ∈ sp, isSpace c = true) :
    skimLine args (written ps ++ sp ++ '/' :: '/' :: z) = (written ps, if args then offsets 0 ps else []) := by
  have hh : ∀ c, (written (ps ++ sp.map .lit)).head? = some c → isSpace c = false := by
    intro c hc
    rw [written_append] at hc
    cases h : written ps with
    | nil => exact absurd h h0
    | cons a l => rw [h] at hc; exact ht.1 c (by rw [h]; exact hc)
  have ew : written ps ++ sp = written (ps ++ sp.map .lit) := by rw [written_append, written_lits]
  unfold skimLine
  rw [ew]
  rw [skimLoop_start (head_before hh _)]
  obtain ⟨n', t', r', e1, e2, e3⟩ := skimLoop_before (args := args) (z := '/' :: z) hl _ [] [] [] (Nat.le_refl _)
  rw [e1]
  obtain ⟨n', rfl⟩ : ∃ k, n' = k + 1 := ⟨n' - 1, by simp at e3; omega⟩
  rw [skimLoop]
  have a : isNewline '/' = false := by decide
  simp only [a, Bool.false_eq_true, if_false, List.head?_cons, and_self, if_true, addText, e2]
  rw [← ew, offsets_append, offsets_lits]
  simp only [List.nil_append, List.append_nil]
  rw [trimEnd_spaces ht.2 hs]
  rfl

theorem blockComment_end : ∀ {c : List Char}, ¬ ['*', '/'] <:+: c → ∀ w, blockComment (c ++ '*' :: '/' :: w) = w
  | [], _, w => rfl
  | a :: c, h, w => by
    have h' : ¬ ['*', '/'] <:+: c := fun hc => h (hc.trans (List.suffix_cons a c).isInfix)
    have ih := blockComment_end h' w
    rw [List.cons_append]
    have hne : ∀ s, a :: (c ++ '*' :: '/' :: w) = '*' :: '/' :: s → False := by
      intro s hs
      cases c with
      | nil => simp at hs
      | cons b c =>
        simp at hs
        obtain ⟨rfl, rfl, _⟩ := hs
        exact h ⟨[], c, rfl⟩
    rw [blockComment]
    · exact ih
    · intro s hs h2; exact hne s (by rw [hs, h2])

theorem line_head {qs : List Piece} (h : Line qs) {c : Char} {s : List Char} (e : written qs = c :: s) :
    isNewline c = false ∧ c ≠ '\\' ∧ ¬ (c = '/' ∧ s.head? = some '/') ∧ ¬ (c = '/' ∧ s.head? = some '*') := by
  cases qs with
  | nil => simp [written] at e
  | cons p qs =>
    cases p with
    | lit d =>
      obtain ⟨h1, h2, h3, h4, h5, h6, _, h8⟩ := h
      have e' : d :: written qs = c :: s := e
      cases e'
      exact ⟨h4, h3, fun x => (h5 x.1).1 x.2, fun x => (h5 x.1).2 x.2⟩
    | quoted q l =>
      obtain ⟨h1, _, _⟩ := h
      have e' : q :: (l ++ [q] ++ written qs) = c :: s := e
      simp only [List.cons.injEq] at e'
      obtain ⟨rfl, _⟩ := e'
      rcases h1 with rfl | rfl <;> exact ⟨by decide, by decide, fun x => absurd x.1 (by decide), fun x => absurd x.1 (by decide)⟩
    | arg n =>
      have e' : '%' :: (digit n :: written qs) = c :: s := e
      simp only [List.cons.injEq] at e'
      obtain ⟨rfl, _⟩ := e'
      exact ⟨by decide, by decide, fun x => absurd x.1 (by decide), fun x => absurd x.1 (by decide)⟩
    | str n =>
      have e' : '#' :: ('%' :: digit n :: written qs) = c :: s := e
      simp only [List.cons.injEq] at e'
      obtain ⟨rfl, _⟩ := e'
      exact ⟨by decide, by decide, fun x => absurd x.1 (by decide), fun x => absurd x.1 (by decide)⟩

theorem skimLoop_start' {args : Bool} {qs : List Piece} (hq : Line qs) (h : ∀ c, (written qs).head? = some c → isSpace c = false) (n : Nat)
    (pos : List Nat) (text : List Char) :
    skimLoop args n text none pos (written qs) = skimLoop args n text (some []) pos (written qs) := by
  cases n with
  | zero => simp [skimLoop, addText]
  | succ n =>
    cases e : written qs with
    | nil => simp [skimLoop, addText]
    | cons c s =>
      have hsp := h c (by rw [e]; rfl)
      obtain ⟨a1, a2, a3, a4⟩ := line_head hq e
      rw [skimLoop, skimLoop]
      simp only [hsp, a1, a2, a3, a4, Bool.false_eq_true, if_false, List.nil_append]

theorem skimLine_blockComment {args : Bool} {ps qs : List Piece} {c : List Char} (hp : Line (ps ++ [.lit '/'])) (hq : Line qs)
    (hc : ¬ ['*', '/'] <:+: c) (tp : Tight (written ps)) (tq : Tight (written qs)) (np : written ps ≠ []) (nq : written qs ≠ []) :
    skimLine args (written ps ++ '/' :: '*' :: c ++ '*' :: '/' :: written qs) =
      (written (ps ++ .lit ' ' :: qs), if args then offsets 0 (ps ++ .lit ' ' :: qs) else []) := by
  have el : written ps ++ '/' :: '*' :: c ++ '*' :: '/' :: written qs = written ps ++ '/' :: ('*' :: (c ++ '*' :: '/' :: written qs)) := by simp
  unfold skimLine
  rw [el, skimLoop_start (head_before tp.1 _)]
  obtain ⟨n', t', r', e1, e2, e3⟩ := skimLoop_before (args := args) (z := '*' :: (c ++ '*' :: '/' :: written qs)) hp _ [] [] [] (Nat.le_refl _)
  rw [e1]
  obtain ⟨n', rfl⟩ : ∃ k, n' = k + 1 := ⟨n' - 1, by simp at e3; omega⟩
  rw [skimLoop]
  have a : isNewline '/' = false := by decide
  have b : ¬ (some '*' = some '/') := by decide
  have hlast : (written ps).getLast? ≠ some ' ' := fun hx => absurd (tp.2 ' ' hx) (by decide)
  have hadd : addText t' (some r') (some ' ') = written ps ++ [' '] := by
    simp only [addText, e2, List.nil_append]
    have : (!(written ps).isEmpty && (written ps).getLast? != some ' ') = true := by
      cases h : written ps with
      | nil => exact absurd h np
      | cons x l => rw [h] at hlast; simpa using hlast
    rw [if_pos this]
  simp only [a, b, Bool.false_eq_true, if_false, List.head?_cons, and_false, and_self, if_true, List.drop_one, List.tail_cons]
  rw [blockComment_end hc, hadd, skimLoop_start' hq tq.1, skimLoop_written hq _ _ _ _ (by simp at e3 ⊢; omega)]
  have ew : written (ps ++ .lit ' ' :: qs) = written ps ++ [' '] ++ written qs := by
    rw [written_append, written_cons]; simp [Piece.text]
  have et : trimEnd (written ps ++ [' '] ++ written qs) = written ps ++ [' '] ++ written qs := by
    refine trimEnd_eq fun d hd => tq.2 d ?_
    rw [List.getLast?_append] at hd
    cases h : (written qs).getLast? with
    | none => exact absurd (List.getLast?_eq_none_iff.mp h) nq
    | some x => rw [h] at hd; exact hd
  simp only [List.append_nil, ew, et]
  cases args with
  | false => simp
  | true => simp [offsets_append, offsets, Piece.text]

/-- Another number of arguments than of parameters. -/
theorem skimArgs_none : ∀ {as : List (List Char)} {a : List Char} {ns : List Nat} {r : List Char}, (∀ x ∈ a :: as, Whole 0 x) →
    (a :: as).length ≠ ns.length → skimArgs ns ([','].intercalate (a :: as) ++ ')' :: r) = none
  | _, _, [], _, _, _ => rfl
  | [], a, [n], r, hw, hl => absurd rfl hl
  | b :: as, a, [n], r, hw, hl => by
    have e : [','].intercalate (a :: b :: as) ++ ')' :: r = a ++ ',' :: ([','].intercalate (b :: as) ++ ')' :: r) := by
      rw [intercalate_cons]; simp
    have := skimArg_start (hw a (by simp)) (a ++ ',' :: ([','].intercalate (b :: as) ++ ')' :: r)).length _ ',' (.inl rfl) rfl (Nat.le_refl _)
    rw [e, skimArgs, this]
    rfl
  | [], a, n :: m :: ns, r, hw, hl => by
    have e : [','].intercalate [a] = a := by simp [List.intercalate]
    have := skimArg_start (hw a (by simp)) (a ++ ')' :: r).length r ')' (.inr rfl) rfl (Nat.le_refl _)
    rw [e, skimArgs]
    · rw [this]
      rfl
    · intro h; cases h
  | b :: as, a, n :: m :: ns, r, hw, hl => by
    have ih := skimArgs_none (as := as) (a := b) (ns := m :: ns) (r := r) (fun x hx => hw x (List.mem_cons_of_mem _ hx)) (by simpa using hl)
    have e : [','].intercalate (a :: b :: as) ++ ')' :: r = a ++ ',' :: ([','].intercalate (b :: as) ++ ')' :: r) := by
      rw [intercalate_cons]; simp
    have := skimArg_start (hw a (by simp)) (a ++ ',' :: ([','].intercalate (b :: as) ++ ')' :: r)).length _ ',' (.inl rfl) rfl (Nat.le_refl _)
    rw [e, skimArgs]
    · rw [this]
      simp only [ih, Option.map_none]
    · intro h; cases h

end Verif.Macro

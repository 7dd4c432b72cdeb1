import Verif.Spec.Macro

/-! Lemmas about the text of macros and their arguments. -/
namespace Verif.Macro

theorem skimQuoted_eq {q : Char} {s r : List Char} (h : ∀ c ∈ s, c ≠ q ∧ c ≠ '\\' ∧ isNewline c = false) (hq : q ≠ '\\') :
    ∀ n, s.length + 1 ≤ n → skimQuoted q n (s ++ q :: r) = (s ++ [q], r) := by
  induction s with
  | nil =>
    intro n hn
    obtain ⟨n, rfl⟩ : ∃ k, n = k + 1 := ⟨n - 1, by simp at hn; omega⟩
    simp only [List.nil_append, skimQuoted, hq, false_and, if_false]
    simp
  | cons c s ih =>
    intro n hn
    obtain ⟨n, rfl⟩ : ∃ k, n = k + 1 := ⟨n - 1, by simp at hn; omega⟩
    obtain ⟨h1, h2, h3⟩ := h c (List.mem_cons_self ..)
    have hi := ih (fun c hc => h c (List.mem_cons_of_mem _ hc)) n (by simp at hn; omega)
    simp only [List.cons_append, skimQuoted, h2, false_and, if_false, h1, h3, hi]
    simp

theorem continuation_none (s : List Char) (c : Char) (h : c ≠ '\\') : (if c = '\\' then continuation? (c :: s) else none) = none := by
  rw [if_neg h]

/-- Where the parameters are in the text. -/
def offsets : Nat → List Piece → List Nat
  | _, [] => []
  | k, .arg _ :: ps => k :: offsets (k + 2) ps
  | k, .str _ :: ps => (k + 1) :: offsets (k + 3) ps
  | k, p :: ps => offsets (k + p.text.length) ps

theorem isDigit_digit (n : Fin 10) : isDigit (digit n) = true := by revert n; decide +kernel

theorem digit_plain (n : Fin 10) : isNewline (digit n) = false ∧ digit n ≠ '"' ∧ digit n ≠ '\'' ∧ digit n ≠ '\\' ∧ digit n ≠ '/' ∧
    digit n ≠ '%' := by revert n; decide +kernel

theorem written_cons (p : Piece) (ps : List Piece) : written (p :: ps) = p.text ++ written ps := rfl

theorem skimLoop_char {args : Bool} {c : Char} {s : List Char} (h1 : c ≠ '"') (h2 : c ≠ '\'') (h3 : c ≠ '\\') (h4 : isNewline c = false)
    (h5 : c = '/' → s.head? ≠ some '/' ∧ s.head? ≠ some '*') (h6 : args = true → c = '%' → (s.head?.map isDigit).getD false = false)
    (n : Nat) (text run : List Char) (pos : List Nat) :
    skimLoop args (n + 1) text (some run) pos (c :: s) = skimLoop args n text (some (run ++ [c])) pos s := by
  have a1 : ¬ (c = '/' ∧ s.head? = some '/') := fun h => (h5 h.1).1 h.2
  have a2 : ¬ (c = '/' ∧ s.head? = some '*') := fun h => (h5 h.1).2 h.2
  have a3 : ¬ (c = '"' ∨ c = '\'') := fun h => h.elim h1 h2
  have e : skimLoop args (n + 1) text (some run) pos (c :: s) = match s with
      | d :: s' =>
        if c = '%' ∧ args = true ∧ isDigit d = true then
          skimLoop args n (text ++ (run ++ [c] ++ [d])) (some []) (pos ++ [(text ++ (run ++ [c] ++ [d])).length - 2]) s'
        else skimLoop args n text (some (run ++ [c])) pos (d :: s')
      | [] => skimLoop args n text (some (run ++ [c])) pos [] := by
    rw [skimLoop.eq_def]
    simp only [h4, a1, a2, a3, h3, if_false, Bool.false_eq_true, addText, Option.map_some]
    cases s <;> rfl
  rw [e]
  cases s with
  | nil => rfl
  | cons d s' =>
    refine if_neg ?_
    rintro ⟨g1, g2, g3⟩
    have := h6 g2 g1
    simp [g3] at this

theorem skimLoop_arg {d : Char} {s : List Char} (hd : isDigit d = true) (n : Nat) (text run : List Char) (pos : List Nat) :
    skimLoop true (n + 1) text (some run) pos ('%' :: d :: s) =
      skimLoop true n (text ++ run ++ ['%', d]) (some []) (pos ++ [(text ++ run).length]) s := by
  rw [skimLoop]
  have a : ¬ (('%' : Char) = '/' ∧ (d :: s).head? = some '/') := fun h => absurd h.1 (by decide)
  have b : ¬ (('%' : Char) = '/' ∧ (d :: s).head? = some '*') := fun h => absurd h.1 (by decide)
  have c : isNewline '%' = false := by decide
  have e : ¬ (('%' : Char) = '"' ∨ ('%' : Char) = '\'') := by decide
  have f : ¬ ('%' : Char) = '\\' := by decide
  simp only [a, b, c, e, f, if_false, Bool.false_eq_true]
  have g : (('%' : Char) = '%' ∧ True ∧ isDigit d = true) := ⟨rfl, trivial, hd⟩
  simp only [hd, and_self, if_true, addText, Option.map_some, List.append_assoc, List.cons_append, List.nil_append, List.length_append,
    List.length_cons, List.length_nil]
  congr 2

theorem skimLoop_quoted {args : Bool} {q : Char} {s r : List Char} (hq : q = '"' ∨ q = '\'')
    (h : ∀ c ∈ s, c ≠ q ∧ c ≠ '\\' ∧ isNewline c = false) (n : Nat) (text run : List Char) (pos : List Nat) :
    skimLoop args (n + 1) text (some run) pos (q :: (s ++ q :: r)) = skimLoop args n text (some (run ++ q :: (s ++ [q]))) pos r := by
  have h3 : q ≠ '\\' := by rcases hq with rfl | rfl <;> decide
  have h4 : isNewline q = false := by rcases hq with rfl | rfl <;> decide
  have h5 : q ≠ '/' := by rcases hq with rfl | rfl <;> decide
  rw [skimLoop]
  simp only [h4, h5, h3, hq, false_and, if_false, if_true, Bool.false_eq_true]
  rw [skimQuoted_eq h h3 _ (by simp)]
  simp only [Option.map_some, List.append_assoc, List.cons_append, List.nil_append]

theorem skimLoop_written {args : Bool} : ∀ {ps : List Piece}, Line ps → ∀ (n : Nat) (text run : List Char) (pos : List Nat),
    (written ps).length ≤ n → skimLoop args n text (some run) pos (written ps) =
      (text ++ run ++ written ps, pos ++ if args then offsets (text ++ run).length ps else [])
  | [], _, n, text, run, pos, _ => by
    have : written [] = [] := rfl
    rw [this]
    cases n <;> simp [skimLoop, addText, offsets]
  | .lit c :: ps, h, n, text, run, pos, hn => by
    obtain ⟨h1, h2, h3, h4, h5, h6, _, h8⟩ := h
    have e : written (.lit c :: ps) = c :: written ps := rfl
    rw [e] at hn ⊢
    obtain ⟨n, rfl⟩ : ∃ k, n = k + 1 := ⟨n - 1, by simp at hn; omega⟩
    rw [skimLoop_char h1 h2 h3 h4 h5 (fun _ => h6), skimLoop_written h8 n text _ pos (by simp at hn; omega)]
    simp [offsets, Piece.text, Nat.add_assoc]
  | .quoted q s :: ps, h, n, text, run, pos, hn => by
    obtain ⟨h1, h2, h3⟩ := h
    have e : written (.quoted q s :: ps) = q :: (s ++ q :: written ps) := by simp [written_cons, Piece.text]
    rw [e] at hn ⊢
    obtain ⟨n, rfl⟩ : ∃ k, n = k + 1 := ⟨n - 1, by simp at hn; omega⟩
    rw [skimLoop_quoted h1 h2, skimLoop_written h3 n text _ pos (by simp at hn; omega)]
    simp [offsets, Piece.text, Nat.add_assoc]
  | .arg k :: ps, h, n, text, run, pos, hn => by
    have h3 : Line ps := h
    have e : written (.arg k :: ps) = '%' :: digit k :: written ps := rfl
    obtain ⟨d1, d2, d3, d4, d5, d6⟩ := digit_plain k
    rw [e] at hn ⊢
    obtain ⟨n, rfl⟩ : ∃ m, n = m + 1 := ⟨n - 1, by simp at hn; omega⟩
    cases args with
    | true =>
      rw [skimLoop_arg (isDigit_digit k), skimLoop_written h3 n _ _ _ (by simp at hn; omega)]
      simp [offsets, Nat.add_assoc]
    | false =>
      obtain ⟨n, rfl⟩ : ∃ m, n = m + 1 := ⟨n - 1, by simp at hn; omega⟩
      rw [skimLoop_char (by decide) (by decide) (by decide) (by decide) (fun x => absurd x (by decide)) (fun x => absurd x (by decide)),
        skimLoop_char d2 d3 d4 d1 (fun x => absurd x d5) (fun x => absurd x (by decide)), skimLoop_written h3 n _ _ _ (by simp at hn; omega)]
      simp
  | .str k :: ps, h, n, text, run, pos, hn => by
    have h3 : Line ps := h
    have e : written (.str k :: ps) = '#' :: '%' :: digit k :: written ps := rfl
    obtain ⟨d1, d2, d3, d4, d5, d6⟩ := digit_plain k
    rw [e] at hn ⊢
    obtain ⟨n, rfl⟩ : ∃ m, n = m + 1 := ⟨n - 1, by simp at hn; omega⟩
    rw [skimLoop_char (by decide) (by decide) (by decide) (by decide) (fun x => absurd x (by decide)) (fun _ x => absurd x (by decide))]
    obtain ⟨n, rfl⟩ : ∃ m, n = m + 1 := ⟨n - 1, by simp at hn; omega⟩
    cases args with
    | true =>
      rw [skimLoop_arg (isDigit_digit k), skimLoop_written h3 n _ _ _ (by simp at hn; omega)]
      simp [offsets, Nat.add_assoc]
    | false =>
      obtain ⟨n, rfl⟩ : ∃ m, n = m + 1 := ⟨n - 1, by simp at hn; omega⟩
      rw [skimLoop_char (by decide) (by decide) (by decide) (by decide) (fun x => absurd x (by decide)) (fun x => absurd x (by decide)),
        skimLoop_char d2 d3 d4 d1 (fun x => absurd x d5) (fun x => absurd x (by decide)), skimLoop_written h3 n _ _ _ (by simp at hn; omega)]
      simp

theorem skimLoop_start {args : Bool} {s : List Char} (h : ∀ c, s.head? = some c → isSpace c = false) (n : Nat) (pos : List Nat) :
    skimLoop args n [] none pos s = skimLoop args n [] (some []) pos s := by
  cases n with
  | zero => rfl
  | succ n =>
    cases s with
    | nil => rfl
    | cons c s =>
      have := h c rfl
      rw [skimLoop, skimLoop]
      simp only [this, Bool.false_eq_true, if_false, List.nil_append]
      rfl

theorem trimEnd_eq {s : List Char} (h : ∀ c, s.getLast? = some c → isSpace c = false) : trimEnd s = s := by
  unfold trimEnd
  rcases List.eq_nil_or_concat s with rfl | ⟨a, c, rfl⟩
  · rfl
  · have := h c (by simp)
    simp [this]

/-- The text and the positions of a definition. -/
theorem skimLine_written {args : Bool} {ps : List Piece} (h : Line ps) (ht : Tight (written ps)) :
    skimLine args (written ps) = (written ps, if args then offsets 0 ps else []) := by
  unfold skimLine
  rw [skimLoop_start ht.1, skimLoop_written h _ _ _ _ (Nat.le_refl _)]
  simp [trimEnd_eq ht.2]

/-! ### Substitution -/

theorem digit_toNat (n : Fin 10) : (digit n).toNat - '0'.toNat = n.val := by revert n; decide +kernel

theorem digit_hash (n : Fin 10) : digit n ≠ '#' := by revert n; decide +kernel

theorem perform_arg {args : List (Nat × List Char)} {pre lit rest : List Char} {n : Fin 10} {ps : List Nat}
    (hl : ∀ c, (pre ++ lit).getLast? = some c → c ≠ '#') :
    perform (pre ++ lit ++ '%' :: digit n :: rest) args pre.length ((pre ++ lit).length :: ps) =
      lit ++ (Piece.arg n).value args ++ perform (pre ++ lit ++ '%' :: digit n :: rest) args (pre ++ lit ++ ['%', digit n]).length ps := by
  rw [perform]
  have e1 : (pre ++ lit ++ '%' :: digit n :: rest)[(pre ++ lit).length + 1]? = some (digit n) := by
    rw [List.getElem?_append_right (by omega)]
    have : (pre ++ lit).length + 1 - (pre ++ lit).length = 1 := by omega
    rw [this]
    rfl
  have e2 : (pre ++ lit ++ '%' :: digit n :: rest)[(pre ++ lit).length]? = some '%' := by
    rw [List.getElem?_append_right (by omega), Nat.sub_self]
    rfl
  have e3 : (decide (0 < (pre ++ lit).length) && (pre ++ lit ++ '%' :: digit n :: rest)[(pre ++ lit).length - 1]? == some '#') = false := by
    by_cases h0 : 0 < (pre ++ lit).length
    · rw [List.getElem?_append_left (by omega), ← List.getLast?_eq_getElem?]
      cases hg : (pre ++ lit).getLast? with
      | none => simp
      | some c =>
        have := hl c hg
        simp [this]
    · simp only [h0, decide_false, Bool.false_and]
  have e4 : List.take ((pre ++ lit).length - pre.length) (List.drop pre.length (pre ++ lit ++ '%' :: digit n :: rest)) = lit := by
    rw [List.append_assoc, List.drop_left]
    have : (pre ++ lit).length - pre.length = lit.length := by simp
    rw [this, List.take_left]
  simp only [e1, e2, e3, Option.getD_some, Bool.false_eq_true, if_false, e4, digit_toNat]
  simp only [Piece.value]
  have e5 : (pre ++ lit ++ ['%', digit n]).length = (pre ++ lit).length + 2 := by simp [Nat.add_assoc]
  rw [e5]
  cases args.lookup n.val <;> rfl

theorem perform_str {args : List (Nat × List Char)} {pre lit rest : List Char} {n : Fin 10} {ps : List Nat} :
    perform (pre ++ lit ++ '#' :: '%' :: digit n :: rest) args pre.length (((pre ++ lit).length + 1) :: ps) =
      lit ++ (Piece.str n).value args ++
        perform (pre ++ lit ++ '#' :: '%' :: digit n :: rest) args (pre ++ lit ++ ['#', '%', digit n]).length ps := by
  rw [perform]
  have e0 (k : Nat) : (pre ++ lit ++ '#' :: '%' :: digit n :: rest)[(pre ++ lit).length + k]? = ('#' :: '%' :: digit n :: rest)[k]? := by
    rw [List.getElem?_append_right (by omega)]
    have : (pre ++ lit).length + k - (pre ++ lit).length = k := by omega
    rw [this]
  have e1 : (pre ++ lit ++ '#' :: '%' :: digit n :: rest)[(pre ++ lit).length + 1 + 1]? = some (digit n) := e0 2
  have e2 : (pre ++ lit ++ '#' :: '%' :: digit n :: rest)[(pre ++ lit).length + 1]? = some '%' := e0 1
  have e3 : (decide (0 < (pre ++ lit).length + 1) && (pre ++ lit ++ '#' :: '%' :: digit n :: rest)[(pre ++ lit).length + 1 - 1]? == some '#')
      = true := by
    rw [Nat.add_sub_cancel]
    have := e0 0
    rw [Nat.add_zero] at this
    rw [this]
    simp
  have e4 : List.take ((pre ++ lit).length + 1 - 1 - pre.length) (List.drop pre.length (pre ++ lit ++ '#' :: '%' :: digit n :: rest)) = lit := by
    rw [List.append_assoc, List.drop_left]
    have : (pre ++ lit).length + 1 - 1 - pre.length = lit.length := by simp
    rw [this, List.take_left]
  simp only [e1, e2, e3, Option.getD_some, if_true, e4, digit_toNat]
  simp only [Piece.value]
  have e5 : (pre ++ lit ++ ['#', '%', digit n]).length = (pre ++ lit).length + 1 + 2 := by simp [Nat.add_assoc]
  rw [e5]
  cases args.lookup n.val <;> rfl

theorem perform_written {args : List (Nat × List Char)} : ∀ {ps : List Piece}, Line ps → ∀ (pre lit : List Char),
    (∀ n, ps.head? = some (.arg n) → ∀ c, (pre ++ lit).getLast? = some c → c ≠ '#') →
    perform (pre ++ lit ++ written ps) args pre.length (offsets (pre ++ lit).length ps) = lit ++ value ps args
  | [], _, pre, lit, _ => by
    have : written [] = [] := rfl
    simp [offsets, perform, this, value]
  | .lit c :: ps, h, pre, lit, _ => by
    obtain ⟨_, _, _, _, _, _, h7, h8⟩ := h
    have := perform_written (args := args) h8 pre (lit ++ [c]) (by
      intro n hn d hd
      simp only [← List.append_assoc, List.getLast?_append, List.getLast?_singleton, Option.some_or, Option.some.injEq] at hd
      subst hd
      intro hc
      exact h7 hc n hn)
    simp only [written_cons, Piece.text, offsets, value, List.flatMap_cons, Piece.value, List.length_append, List.length_cons, List.length_nil,
      List.append_assoc, List.cons_append, List.nil_append, Nat.add_assoc] at this ⊢
    exact this
  | .quoted q s :: ps, h, pre, lit, _ => by
    obtain ⟨h1, _, h3⟩ := h
    have := perform_written (args := args) h3 pre (lit ++ (q :: s ++ [q])) (by
      intro n hn d hd
      simp only [← List.append_assoc, List.getLast?_append, List.getLast?_singleton, Option.some_or, Option.some.injEq] at hd
      subst hd
      rcases h1 with rfl | rfl <;> decide)
    simp only [written_cons, Piece.text, offsets, value, List.flatMap_cons, Piece.value, List.length_append, List.length_cons, List.length_nil,
      List.append_assoc, List.cons_append, List.nil_append, Nat.add_assoc] at this ⊢
    exact this
  | .arg k :: ps, h, pre, lit, hl => by
    have h3 : Line ps := h
    have e : written (.arg k :: ps) = '%' :: digit k :: written ps := rfl
    have := perform_written (args := args) h3 (pre ++ lit ++ ['%', digit k]) [] (by
      intro n hn d hd
      simp only [List.append_nil, List.getLast?_append, List.getLast?_cons_cons, List.getLast?_singleton, Option.some_or, Option.some.injEq] at hd
      subst hd
      exact (digit_hash k))
    rw [e, offsets, perform_arg (hl k rfl)]
    have e2 : pre ++ lit ++ '%' :: digit k :: written ps = pre ++ lit ++ ['%', digit k] ++ [] ++ written ps := by simp
    have e3 : (pre ++ lit).length + 2 = (pre ++ lit ++ ['%', digit k] ++ []).length := by simp [Nat.add_assoc]
    rw [e2, e3, this]
    simp [value]
  | .str k :: ps, h, pre, lit, hl => by
    have h3 : Line ps := h
    have e : written (.str k :: ps) = '#' :: '%' :: digit k :: written ps := rfl
    have := perform_written (args := args) h3 (pre ++ lit ++ ['#', '%', digit k]) [] (by
      intro n hn d hd
      simp only [List.append_nil, List.getLast?_append, List.getLast?_cons_cons, List.getLast?_singleton, Option.some_or, Option.some.injEq] at hd
      subst hd
      exact (digit_hash k))
    rw [e, offsets, perform_str]
    have e2 : pre ++ lit ++ '#' :: '%' :: digit k :: written ps = pre ++ lit ++ ['#', '%', digit k] ++ [] ++ written ps := by simp
    have e3 : (pre ++ lit).length + 3 = (pre ++ lit ++ ['#', '%', digit k] ++ []).length := by simp [Nat.add_assoc]
    rw [e2, e3, this]
    simp [value]

/-- What the text of a definition becomes. -/
theorem define_perform {d : Def} (h : d.Valid) (hp : d.params ≠ none) (args : List (Nat × List Char)) :
    perform (define d.name d.params (written d.pieces)).substitute args 0 (define d.name d.params (written d.pieces)).positions =
      value d.pieces args := by
  have e : d.params.isSome = true := by cases hd : d.params with
    | none => exact absurd hd hp
    | some _ => rfl
  unfold define
  rw [e, skimLine_written h.1 h.2]
  have := perform_written (args := args) h.1 [] [] (by intro n _ c hc; simp at hc)
  simpa using this

theorem define_text {d : Def} (h : d.Valid) : (define d.name d.params (written d.pieces)).substitute = written d.pieces := by
  unfold define
  rw [skimLine_written h.1 h.2]

/-! ### Arguments -/

theorem addText_none (text run : List Char) : addText text (some run) none = text ++ run := rfl

theorem newline_none {c : Char} {s : List Char} (h1 : c ≠ '\r') (h2 : c ≠ '\n') : newline? (c :: s) = none := by
  unfold newline?
  split <;> simp_all

/-- One character of an argument. -/
theorem skimArg_char {n k : Nat} {c : Char} {s : List Char} {st : Option (List Char)} (h1 : c ≠ '/') (h2 : c ≠ '\\') (h3 : c ≠ '\r') (h4 : c ≠ '\n')
    (h5 : ¬ ((c = ')' ∨ c = ',') ∧ k = 0)) :
    skimArg (n + 1) k false [] st (c :: s) =
      skimArg n (if c = '(' then k + 1 else if c = ')' then k - 1 else k) (c == '"') []
        (match st with | some run => some (run ++ [c]) | none => if isSpace c then none else some [c]) s := by
  rw [skimArg.eq_def]
  simp only [h1, h2, h5, false_and, if_false, newline_none h3 h4, Bool.false_eq_true]
  cases st <;> rfl

theorem skimArg_string {q : List Char} (h : '"' ∉ q) : ∀ (n k : Nat) (s run : List Char), q.length + 1 ≤ n →
    ∃ m, n = m + (q.length + 1) ∧ skimArg n k true [] (some run) (q ++ '"' :: s) = skimArg m k false [] (some (run ++ q ++ ['"'])) s := by
  induction q with
  | nil =>
    intro n k s run hn
    obtain ⟨n, rfl⟩ : ∃ m, n = m + 1 := ⟨n - 1, by simp at hn; omega⟩
    refine ⟨n, rfl, ?_⟩
    simp [skimArg]
  | cons c q ih =>
    intro n k s run hn
    obtain ⟨n, rfl⟩ : ∃ m, n = m + 1 := ⟨n - 1, by simp at hn; omega⟩
    have hc : c ≠ '"' := fun e => h (e ▸ List.mem_cons_self ..)
    obtain ⟨m, hm, e⟩ := ih (fun hq => h (List.mem_cons_of_mem _ hq)) n k s (run ++ [c]) (by simp at hn; omega)
    refine ⟨m, by simp; omega, ?_⟩
    have : (c != '"') = true := by simp [hc]
    rw [List.cons_append, skimArg, if_pos rfl, this, Option.map_some, e]
    simp

theorem skimArg_whole {k : Nat} {a : List Char} (h : Whole k a) : ∀ (n : Nat) (run r : List Char) (sep : Char), sep = ',' ∨ sep = ')' →
    (a ++ sep :: r).length ≤ n → skimArg n k false [] (some run) (a ++ sep :: r) = (run ++ a, sep :: r) := by
  induction h with
  | nil =>
    intro n run r sep hs hn
    obtain ⟨n, rfl⟩ : ∃ m, n = m + 1 := ⟨n - 1, by simp at hn; omega⟩
    have h1 : sep ≠ '/' := by rcases hs with rfl | rfl <;> decide
    have h2 : sep ≠ '\\' := by rcases hs with rfl | rfl <;> decide
    have h3 : sep ≠ '\r' := by rcases hs with rfl | rfl <;> decide
    have h4 : sep ≠ '\n' := by rcases hs with rfl | rfl <;> decide
    rw [List.nil_append, skimArg]
    simp only [h1, h2, hs.symm, false_and, if_false, newline_none h3 h4, Bool.false_eq_true, true_and, if_true, addText]
    simp
  | @char k c s hc hw ih =>
    intro n run r sep hs hn
    obtain ⟨n, rfl⟩ : ∃ m, n = m + 1 := ⟨n - 1, by simp at hn; omega⟩
    simp only [List.mem_cons, List.not_mem_nil, or_false, not_or] at hc
    obtain ⟨c1, c2, c3, c4, c5, c6, c7, c8⟩ := hc
    have e : (c == '"') = false := by simp [c4]
    rw [List.cons_append, skimArg_char c5 c6 c7 c8 (fun h => h.1.elim c2 c3), if_neg c1, if_neg c2, e, ih n _ r sep hs (by simp at hn; simp; omega)]
    simp
  | @comma k s hw ih =>
    intro n run r sep hs hn
    obtain ⟨n, rfl⟩ : ∃ m, n = m + 1 := ⟨n - 1, by simp at hn; omega⟩
    have e : ((',' : Char) == '"') = false := by decide
    rw [List.cons_append, skimArg_char (by decide) (by decide) (by decide) (by decide) (by omega), if_neg (by decide), if_neg (by decide), e,
      ih n _ r sep hs (by simp at hn; simp; omega)]
    simp
  | @opening k s hw ih =>
    intro n run r sep hs hn
    obtain ⟨n, rfl⟩ : ∃ m, n = m + 1 := ⟨n - 1, by simp at hn; omega⟩
    have e : (('(' : Char) == '"') = false := by decide
    rw [List.cons_append, skimArg_char (by decide) (by decide) (by decide) (by decide) (fun h => absurd h.1 (by decide)), if_pos rfl, e,
      ih n _ r sep hs (by simp at hn; simp; omega)]
    simp
  | @closing k s hw ih =>
    intro n run r sep hs hn
    obtain ⟨n, rfl⟩ : ∃ m, n = m + 1 := ⟨n - 1, by simp at hn; omega⟩
    have e : ((')' : Char) == '"') = false := by decide
    rw [List.cons_append, skimArg_char (by decide) (by decide) (by decide) (by decide) (by omega), if_neg (by decide), if_pos rfl, e, Nat.add_sub_cancel,
      ih n _ r sep hs (by simp at hn; simp; omega)]
    simp
  | @string k q s hq hw ih =>
    intro n run r sep hs hn
    obtain ⟨n, rfl⟩ : ∃ m, n = m + 1 := ⟨n - 1, by simp at hn; omega⟩
    have e : (('"' : Char) == '"') = true := by decide
    rw [List.cons_append, List.cons_append, skimArg_char (by decide) (by decide) (by decide) (by decide) (fun h => absurd h.1 (by decide)), if_neg (by decide),
      if_neg (by decide), e]
    have e2 : q ++ '"' :: s ++ sep :: r = q ++ '"' :: (s ++ sep :: r) := by simp
    obtain ⟨m, hm, e3⟩ := skimArg_string hq n k (s ++ sep :: r) (run ++ ['"']) (by simp at hn; omega)
    dsimp only
    rw [e2, e3, ih m _ r sep hs (by simp at hn; simp; omega)]
    simp

theorem skimArg_start {a : List Char} : ∀ {k : Nat}, Whole k a → ∀ (n : Nat) (r : List Char) (sep : Char), sep = ',' ∨ sep = ')' → k = 0 →
    (a ++ sep :: r).length ≤ n → skimArg n 0 false [] none (a ++ sep :: r) = (trimStart a, sep :: r) := by
  intro k h
  induction h with
  | nil =>
    intro n r sep hs _ hn
    have := skimArg_whole .nil n [] r sep hs hn
    obtain ⟨n, rfl⟩ : ∃ m, n = m + 1 := ⟨n - 1, by simp at hn; omega⟩
    have h1 : sep ≠ '/' := by rcases hs with rfl | rfl <;> decide
    have h2 : sep ≠ '\\' := by rcases hs with rfl | rfl <;> decide
    have h3 : sep ≠ '\r' := by rcases hs with rfl | rfl <;> decide
    have h4 : sep ≠ '\n' := by rcases hs with rfl | rfl <;> decide
    rw [List.nil_append, skimArg]
    simp only [h1, h2, hs.symm, false_and, if_false, newline_none h3 h4, Bool.false_eq_true, true_and, if_true, addText]
    rfl
  | @char k c s hc hw ih =>
    intro n r sep hs hk hn
    subst hk
    by_cases hsp : isSpace c = true
    · obtain ⟨n, rfl⟩ : ∃ m, n = m + 1 := ⟨n - 1, by simp at hn; omega⟩
      simp only [List.mem_cons, List.not_mem_nil, or_false, not_or] at hc
      obtain ⟨c1, c2, c3, c4, c5, c6, c7, c8⟩ := hc
      have e : (c == '"') = false := by simp [c4]
      rw [List.cons_append, skimArg_char c5 c6 c7 c8 (fun h => h.1.elim c2 c3), if_neg c1, if_neg c2, e]
      dsimp only
      rw [if_pos hsp, ih n r sep hs rfl (by simp at hn; simp; omega)]
      have hsw : white c = true := hsp
      simp [trimStart, hsw]
    · have hsp' : isSpace c = false := by simpa using hsp
      have hsw : white c = false := hsp'
      have e1 : trimStart (c :: s) = c :: s := by simp [trimStart, hsw]
      have e2 : skimArg n 0 false [] none (c :: s ++ sep :: r) = skimArg n 0 false [] (some []) (c :: s ++ sep :: r) := by
        obtain ⟨n, rfl⟩ : ∃ m, n = m + 1 := ⟨n - 1, by simp at hn; omega⟩
        simp only [List.mem_cons, List.not_mem_nil, or_false, not_or] at hc
        obtain ⟨c1, c2, c3, c4, c5, c6, c7, c8⟩ := hc
        rw [List.cons_append, skimArg_char c5 c6 c7 c8 (fun h => h.1.elim c2 c3), skimArg_char c5 c6 c7 c8 (fun h => h.1.elim c2 c3)]
        simp [hsp']
      rw [e1, e2, skimArg_whole (.char hc hw) n [] r sep hs hn]
      simp
  | comma => intro n r sep hs hk; exact absurd hk (by omega)
  | @opening k s hw ih =>
    intro n r sep hs hk hn
    subst hk
    have e2 : skimArg n 0 false [] none ('(' :: s ++ sep :: r) = skimArg n 0 false [] (some []) ('(' :: s ++ sep :: r) := by
      obtain ⟨n, rfl⟩ : ∃ m, n = m + 1 := ⟨n - 1, by simp at hn; omega⟩
      rw [List.cons_append, skimArg_char (by decide) (by decide) (by decide) (by decide) (by decide),
        skimArg_char (by decide) (by decide) (by decide) (by decide) (by decide)]
      rfl
    rw [e2, skimArg_whole (.opening hw) n [] r sep hs hn]
    rfl
  | closing => intro n r sep hs hk; exact absurd hk (by omega)
  | @string k q s hq hw ih =>
    intro n r sep hs hk hn
    subst hk
    have e2 : skimArg n 0 false [] none ('"' :: q ++ '"' :: s ++ sep :: r) = skimArg n 0 false [] (some []) ('"' :: q ++ '"' :: s ++ sep :: r) := by
      obtain ⟨n, rfl⟩ : ∃ m, n = m + 1 := ⟨n - 1, by simp at hn; omega⟩
      rw [List.cons_append, List.cons_append, skimArg_char (by decide) (by decide) (by decide) (by decide) (by decide),
        skimArg_char (by decide) (by decide) (by decide) (by decide) (by decide)]
      rfl
    rw [e2, skimArg_whole (.string hq hw) n [] r sep hs hn]
    rfl

theorem intercalate_cons (a b : List Char) (as : List (List Char)) :
    [','].intercalate (a :: b :: as) = a ++ ',' :: [','].intercalate (b :: as) := by
  simp [List.intercalate, List.intersperse]

/-- The arguments of a use of a macro. -/
theorem skimArgs_eq : ∀ {as : List (List Char)} {a : List Char} {ns : List Nat} {r : List Char}, (∀ x ∈ a :: as, Whole 0 x) →
    (a :: as).length = ns.length →
    skimArgs ns ([','].intercalate (a :: as) ++ ')' :: r) = some (ns.zip ((a :: as).map trimStart), r)
  | [], a, [n], r, hw, _ => by
    have e : [','].intercalate [a] = a := by simp [List.intercalate]
    have := skimArg_start (hw a (by simp)) (a ++ ')' :: r).length r ')' (.inr rfl) rfl (Nat.le_refl _)
    rw [e, skimArgs, this]
    rfl
  | b :: as, a, n :: m :: ns, r, hw, hl => by
    have ih := skimArgs_eq (as := as) (a := b) (ns := m :: ns) (r := r) (fun x hx => hw x (List.mem_cons_of_mem _ hx)) (by simpa using hl)
    have e : [','].intercalate (a :: b :: as) ++ ')' :: r = a ++ ',' :: ([','].intercalate (b :: as) ++ ')' :: r) := by
      rw [intercalate_cons]; simp
    have := skimArg_start (hw a (by simp)) (a ++ ',' :: ([','].intercalate (b :: as) ++ ')' :: r)).length _ ',' (.inl rfl) rfl (Nat.le_refl _)
    rw [e, skimArgs]
    · rw [this]
      simp only [ih, Option.map_some]
      rfl
    · intro h; cases h
  | [], _, [], _, _, hl => by simp at hl
  | [], _, _ :: _ :: _, _, _, hl => by simp at hl
  | _ :: _, _, [], _, _, hl => by simp at hl
  | _ :: _, _, [_], _, _, hl => by simp at hl

theorem arguments_eq {L : Lexis} {s r : List Char} {as : List (List Char)} {ns : List Nat} (h : Arguments L s as r)
    (hl : as.length = ns.length) : arguments L ns s = some (ns.zip (as.map trimStart), r) := by
  cases as with
  | nil =>
    have : ns = [] := List.length_eq_zero_iff.mp hl.symm
    subst this
    have h : L.rest s = ')' :: r := h
    simp [arguments, h]
  | cons a as =>
    obtain ⟨hw, rfl⟩ := h
    have : ns ≠ [] := by rintro rfl; simp at hl
    rw [arguments, if_neg this, skimArgs_eq hw hl]

end Verif.Macro

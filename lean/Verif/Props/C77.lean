import Verif.Proofs.MacroEnds
import Verif.Proofs.MacroComment

/-! C77: macros stand for their text. -/
namespace Verif.Macro

/-- **C77, definitions.** The text of a macro, with arguments, is what its definition says with the arguments in place of the parameters. -/
theorem C77_substitution {d : Def} (h : d.Valid) {ns : List Nat} (hp : d.params = some ns) (args : List (Nat × List Char)) :
    perform (define d.name d.params (written d.pieces)).substitute args 0 (define d.name d.params (written d.pieces)).positions =
      value d.pieces args :=
  define_perform h (by rw [hp]; simp) args

/-- **C77, arguments.** The arguments of a macro are the texts between the parentheses and the commas that belong to it. -/
theorem C77_arguments {as : List (List Char)} {ns : List Nat} {r : List Char} (h0 : as ≠ []) (h : ∀ a ∈ as, Whole 0 a)
    (hl : as.length = ns.length) :
    skimArgs ns ([','].intercalate as ++ ')' :: r) = some (ns.zip (as.map trimStart), r) := by
  cases as with
  | nil => exact absurd rfl h0
  | cons a as => exact skimArgs_eq h hl

/-- **C77, number of arguments.** With another number of arguments than parameters the use of a macro is refused. -/
theorem C77_argument_count {as : List (List Char)} {ns : List Nat} {r : List Char} (h0 : as ≠ []) (h : ∀ a ∈ as, Whole 0 a)
    (hl : as.length ≠ ns.length) : skimArgs ns ([','].intercalate as ++ ')' :: r) = none := by
  cases as with
  | nil => exact absurd rfl h0
  | cons a as => exact skimArgs_none h hl

/-- **C77, line comments.** A comment at the end of a definition, with the white space before it, is not part of the macro. -/
theorem C77_line_comment {d : Def} (h : d.Valid) (h0 : written d.pieces ≠ []) {sp : List Char} (hs : ∀ c ∈ sp, white c = true)
    (hl : Line (d.pieces ++ sp.map .lit ++ [.lit '/'])) (z : List Char) :
    define d.name d.params (written d.pieces ++ sp ++ '/' :: '/' :: z) = define d.name d.params (written d.pieces) := by
  unfold define
  rw [skimLine_lineComment hl h.2 h0 hs, skimLine_written h.1 h.2]

/-- **C77, block comments.** A comment within a definition stands for a space. -/
theorem C77_block_comment {ps qs : List Piece} (hp : Line (ps ++ [.lit '/'])) (hq : Line qs) (hm : Line (ps ++ .lit ' ' :: qs))
    (tp : Tight (written ps)) (tq : Tight (written qs)) (np : written ps ≠ []) (nq : written qs ≠ []) {c : List Char}
    (hc : ¬ ['*', '/'] <:+: c) (name : List Char) (params : Option (List Nat)) :
    define name params (written ps ++ '/' :: '*' :: c ++ '*' :: '/' :: written qs) = define name params (written (ps ++ .lit ' ' :: qs)) := by
  have ht : Tight (written (ps ++ .lit ' ' :: qs)) := by
    have ew : written (ps ++ .lit ' ' :: qs) = written ps ++ (' ' :: written qs) := by
      rw [written_append, written_cons]; simp [Piece.text]
    rw [ew]
    refine ⟨fun x hx => tp.1 x ?_, fun x hx => tq.2 x ?_⟩
    · cases h : written ps with
      | nil => exact absurd h np
      | cons a l => rw [h] at hx; exact hx
    · rw [List.getLast?_append, List.getLast?_cons] at hx
      cases h : (written qs).getLast? with
      | none => exact absurd (List.getLast?_eq_none_iff.mp h) nq
      | some y => rw [h] at hx; exact hx
  unfold define
  rw [skimLine_blockComment hp hq hc tp tq np nq, skimLine_written hm ht]

/-- **C77, expansion.** The parser gets the tokens that the text stands for.  (Not for every text: see `Expand.bare`, `Line` and `Whole`.) -/
theorem C77_expansion_partial (L : Lexis) {ds : List Def} (hd : ∀ d ∈ ds, d.Valid) {text : List Char} {out : List Tok}
    (h : Expand L ds [] text out) : ∃ n, ∀ m, n ≤ m → run false L (table ds) m (start text) = some (.tokens out) := by
  have : run false L (table ds) 2 (St.leave (start text) ⟨text, none⟩ []) = some (.tokens []) := rfl
  obtain ⟨n, hn⟩ := run_expand (strict := false) hd h none [] [] (fun _ => Iff.rfl) 2 [] this
  exact ⟨n, fun m hm => by rw [List.append_nil] at hn; exact run_le hn hm⟩

/-- A text stands for one list of tokens only. -/
theorem C77_meaning_unique (L : Lexis) {ds : List Def} (hd : ∀ d ∈ ds, d.Valid) {text : List Char} {out out' : List Tok}
    (h : Expand L ds [] text out) (h' : Expand L ds [] text out') : out = out' := by
  obtain ⟨n, hn⟩ := C77_expansion_partial L hd h
  obtain ⟨m, hm⟩ := C77_expansion_partial L hd h'
  have := hm (max n m) (Nat.le_max_right ..)
  rw [hn (max n m) (Nat.le_max_left ..)] at this
  simpa using this

/-- **C77, end.** Reading a text comes to an end, whatever the macros are, unless a macro is entered that is in use. -/
theorem C77_ends_partial (L : Lexis) (ms : List Macro) (text : List Char) :
    (∃ n r, run false L ms n (start text) = some r) ∨ ∃ n, run true L ms n (start text) = some .again := by
  obtain ⟨n, r, h⟩ := run_ends (L := L) _ _ (start text) rfl rfl (good_start (ms := ms) text)
  by_cases hr : r = .again
  · exact .inr ⟨n, hr ▸ h⟩
  · exact .inl ⟨n, r, run_code h hr⟩

theorem lexNew_objects {L : Lexis} {ms : List Macro} (hm : ∀ m ∈ ms, m.params = none) : ∀ (n : Nat) (eof : Bool) (st : St),
    lexNew true L ms n eof st ≠ some .again := by
  intro n
  induction n with
  | zero => intro eof st h; simp [lexNew] at h
  | succ n ih =>
    intro eof st h
    rw [lexNew] at h
    split at h
    · cases h
    · split at h
      · split at h
        · exact ih _ _ h
        · cases h
      · split at h
        · simp only [] at h
          split at h
          · cases h
          · rename_i m hf
            have hmem : m ∈ ms := by
              split at hf
              · cases hf
              · exact List.mem_of_find?_eq_some hf
            rw [hm m hmem] at h
            exact ih _ _ h
        · cases h

theorem run_objects {L : Lexis} {ms : List Macro} (hm : ∀ m ∈ ms, m.params = none) : ∀ (n : Nat) (st : St),
    run true L ms n st ≠ some .again := by
  intro n
  induction n with
  | zero => intro st h; simp [run] at h
  | succ n ih =>
    intro st h
    have key : lex true L ms n st ≠ some .again := by
      unfold lex
      split
      · simp
      · exact lexNew_objects hm _ _ _
    have kt : ∀ (t : Tok) (o : Out), Out.cons t o = .again → o = .again := by
      intro t o ho
      cases o <;> first | rfl | (cases ho; done)
    rw [run] at h
    split at h
    · cases h
    · cases h
    · rename_i hi; exact key hi
    · simp only [Option.map_eq_some_iff] at h
      obtain ⟨a, h1, h2⟩ := h
      exact ih _ (kt _ _ h2 ▸ h1)
    · split at h
      · cases h
      · simp only [Option.map_eq_some_iff] at h
        obtain ⟨a, h1, h2⟩ := h
        exact ih _ (kt _ _ h2 ▸ h1)

/-- **C77, end, without parameters.** If no macro has parameters, then reading a text comes to an end, however they refer to each other. -/
theorem C77_ends_objects (L : Lexis) (ms : List Macro) (hm : ∀ m ∈ ms, m.params = none) (text : List Char) :
    ∃ n r, run false L ms n (start text) = some r := by
  rcases C77_ends_partial L ms text with h | ⟨n, h⟩
  · exact h
  · exact absurd h (run_objects hm n _)

/-! ### What the code does otherwise -/

/-- The length of a string literal after its opening quote. -/
def stringLen : List Char → Nat
  | [] => 0
  | '\\' :: _ :: s => 2 + stringLen s
  | '"' :: _ => 1
  | _ :: s => 1 + stringLen s

/-- White space, numbers, strings, and single characters. -/
def plain : Lexis where
  space s := (s.takeWhile isSpace).length
  other s := match s with
    | [] => 0
    | c :: s => if c = '"' then 1 + stringLen s else if isDigit c then ((c :: s).takeWhile isDigit).length else 1

/-- `#define F(%0) (%0)` -/
def exF : Macro := define ['F'] (some [0]) "(%0)".toList
/-- `#define G F` -/
def exG : Macro := define ['G'] none "F".toList
/-- `#define W(%0) (%0) W W (1)` -/
def exW : Macro := define ['W'] (some [0]) "(%0) W W (1)".toList

/-- The text that is left of `W` when its first argument has been read. -/
def restW : List Char := " W W (1)".toList

theorem endless_lex (n : Nat) (o : Option (List Char)) (fs : List Frame) :
    lexNew false plain [exW] n true ⟨⟨restW, o⟩ :: fs, [], []⟩ = none ∨
    lexNew false plain [exW] n true ⟨⟨restW, o⟩ :: fs, [], []⟩ =
      some (.tok (.other ['(']) ⟨⟨"1) W W (1)".toList, some ['W']⟩ :: ⟨restW, some ['W']⟩ :: ⟨[], o⟩ :: fs, [['W']], []⟩) := by
  match n with
  | 0 => exact .inl rfl
  | 1 => exact .inl rfl
  | 2 => exact .inl rfl
  | n + 3 => exact .inr rfl

theorem endless_run : ∀ (n : Nat) (o : Option (List Char)) (fs : List Frame),
    run false plain [exW] n ⟨⟨restW, o⟩ :: fs, [], []⟩ = none ∧
    run false plain [exW] n ⟨⟨[], some ['W']⟩ :: ⟨restW, o⟩ :: fs, [['W']], []⟩ = none := by
  intro n
  induction n using Nat.strongRecOn with
  | ind n ih =>
    intro o fs
    have tail : ∀ k, k < n → run false plain [exW] k
        ⟨⟨"1) W W (1)".toList, some ['W']⟩ :: ⟨restW, some ['W']⟩ :: ⟨[], o⟩ :: fs, [['W']], []⟩ = none := by
      intro k hk
      match k with
      | 0 => rfl
      | 1 => rfl
      | 2 => rfl
      | 3 => rfl
      | 4 => rfl
      | 5 => rfl
      | 6 => rfl
      | 7 => rfl
      | k + 8 =>
        have h := (ih (k + 1) (by omega) (some ['W']) (⟨[], o⟩ :: fs)).2
        have e : run false plain [exW] (k + 8)
            ⟨⟨"1) W W (1)".toList, some ['W']⟩ :: ⟨restW, some ['W']⟩ :: ⟨[], o⟩ :: fs, [['W']], []⟩ =
          (((((((run false plain [exW] (k + 1) ⟨⟨[], some ['W']⟩ :: ⟨restW, some ['W']⟩ :: ⟨[], o⟩ :: fs, [['W']], []⟩).map
            (Out.cons (.other [')']))).map (Out.cons (.other ['1']))).map (Out.cons (.other ['(']))).map (Out.cons (.word ['W']))).map
            (Out.cons (.word ['W']))).map (Out.cons (.other [')']))).map (Out.cons (.other ['1'])) := rfl
        rw [e, h]
        rfl
    cases n with
    | zero => exact ⟨rfl, rfl⟩
    | succ n =>
      constructor
      · rw [run]
        simp only [lex]
        rcases endless_lex n o fs with h | h
        · rw [h]
        · rw [h]
          simp only [tail n (by omega), Option.map_none]
      · rw [run]
        simp only [lex]
        cases n with
        | zero => rfl
        | succ n =>
          have e : lexNew false plain [exW] (n + 1) true ⟨⟨[], some ['W']⟩ :: ⟨restW, o⟩ :: fs, [['W']], []⟩ =
              lexNew false plain [exW] n true ⟨⟨restW, o⟩ :: fs, [], []⟩ := rfl
          rw [e]
          rcases endless_lex n o fs with h | h
          · rw [h]
          · rw [h]
            simp only [tail (n + 1) (by omega), Option.map_none]

/-- **C77 is violated: the compiler may read for ever.**  After `#define W(%0) (%0) W W (1)`, the text ` W W (1)` has no end. -/
theorem C77_endless : ∀ n, run false plain [exW] n (start restW) = none :=
  fun n => (endless_run n none []).1

/-- **C77 is violated: a name is lost.**  After `#define F(%0) (%0)` and `#define G F`, a use of `G` is not the name `F` but the token that means the
end of the file, in the middle of the file. -/
theorem C77_lost_name : run false plain [exF, exG] 9 (start "x = G ;".toList) =
    some (.tokens [.word ['x'], .other ['='], .zero, .other [';']]) := by decide +kernel

/-- **C77 is violated: strings and character literals in arguments.**  `F("a\",b")` and `F(',')` are errors, although each has one argument. -/
theorem C77_split_literal :
    run false plain [exF] 9 (start "F(\"a\\\",b\")".toList) = some .error ∧ run false plain [exF] 9 (start "F(',')".toList) = some .error := by
  decide +kernel

/-- **C77 is violated: a backslash at the end of a string.**  After `#define P(%0) f("\\", %0)`, the parameter is not replaced. -/
theorem C77_backslash : run false plain [define ['P'] (some [0]) "f(\"\\\\\", %0)".toList] 19 (start "P(1)".toList) =
    some (.tokens [.word ['f'], .other ['('], .other "\"\\\\\"".toList, .other [','], .other ['%'], .other ['0'], .other [')']]) := by
  decide +kernel

/-! ### Examples -/

/-- `#define F(%0) (%0#%0"%0")` and `#define A F( F)` -/
def exDefs : List Def :=
  [ { name := ['F'], params := some [0], pieces := [.lit '(', .arg 0, .str 0, .quoted '"' ['%', '0'], .lit ')'] },
    { name := ['A'], params := none, pieces := [.lit 'F', .lit '(', .lit ' ', .lit 'F', .lit ')'] } ]

theorem exDefs_valid : ∀ d ∈ exDefs, d.Valid := by
  intro d hd
  simp only [exDefs, List.mem_cons, List.not_mem_nil, or_false] at hd
  rcases hd with rfl | rfl
  · refine ⟨?_, ?_⟩
    · simp [Line, isNewline]
    · unfold Tight; constructor <;> intro c h <;> simp [written, Piece.text] at h <;> subst h <;> decide
  · refine ⟨?_, ?_⟩
    · simp [Line, isNewline]
    · unfold Tight; constructor <;> intro c h <;> simp [written, Piece.text] at h <;> subst h <;> decide

/-- `A;` stands for `(F"F""%0");`: the macro `F` is in use where its argument is read. -/
example : Expand plain exDefs [] "A;".toList
    [.other ['('], .word ['F'], .other "\"F\"".toList, .other "\"%0\"".toList, .other [')'], .other [';']] := by
  refine .object (a := [.other ['('], .word ['F'], .other "\"F\"".toList, .other "\"%0\"".toList, .other [')']]) (b := [.other [';']])
    (w := ['A']) (r := [';']) ⟨_, _, rfl, rfl, rfl, rfl⟩ rfl rfl ?_ ?_
  · refine .call (a := [.other ['('], .word ['F'], .other "\"F\"".toList, .other "\"%0\"".toList, .other [')']]) (b := [])
      (w := ['F']) (r := "( F)".toList) (t := " F)".toList) (as := [[' ', 'F']]) (r' := []) ⟨_, _, rfl, rfl, rfl, rfl⟩ rfl rfl
      ⟨_, _, rfl, rfl, rfl, rfl⟩ ?_ rfl ?_ (.done rfl)
    · refine ⟨?_, rfl⟩
      intro x hx
      simp only [List.mem_cons, List.not_mem_nil, or_false] at hx
      subst hx
      exact .char (by decide) (.char (by decide) .nil)
    · refine .other (t := ['(']) (r := "F\"F\"\"%0\")".toList) ⟨_, _, rfl, rfl, rfl, rfl⟩ ?_
      refine .word (w := ['F']) (r := "\"F\"\"%0\")".toList) ⟨_, _, rfl, rfl, rfl, rfl⟩ rfl ?_
      refine .other (r := "\"%0\")".toList) ⟨_, _, rfl, rfl, rfl, rfl⟩ ?_
      refine .other (r := [')']) ⟨_, _, rfl, rfl, rfl, rfl⟩ ?_
      exact .other (r := []) ⟨_, _, rfl, rfl, rfl, rfl⟩ (.done rfl)
  · exact .other (r := []) ⟨_, _, rfl, rfl, rfl, rfl⟩ (.done rfl)

example : define "MAX".toList (some [0, 1]) "(%0>%1?#%1:\"%0\")".toList =
    define "MAX".toList (some [0, 1]) (written [.lit '(', .arg 0, .lit '>', .arg 1, .lit '?', .str 1, .lit ':', .quoted '"' "%0".toList, .lit ')']) := by
  decide +kernel

/-- A call with nested parentheses and a comma in a string. -/
example : skimArgs [0, 1] " f(a, b), \"x,)\") + 1".toList = some ([(0, "f(a, b)".toList), (1, "\"x,)\"".toList)], " + 1".toList) := by
  decide +kernel

/-- Macros that refer to each other. -/
example : run false plain [define ['A'] none ['B'], define ['B'] none ['A', '+', 'B']] 20 (start "A B".toList) =
    some (.tokens [.word ['A'], .other ['+'], .word ['B'], .word ['B'], .other ['+'], .word ['B']]) := by decide +kernel

/-! `#define M(%0) (%0) // twice` and `#define M(%0) %0/* a *b */%0` meet the hypotheses. -/
example : Def.Valid ⟨['M'], some [0], [.lit '(', .arg 0, .lit ')']⟩ ∧ Line ([.lit '(', .arg 0, .lit ')'] ++ [' '].map .lit ++ [.lit '/']) := by
  refine ⟨⟨?_, ?_, ?_⟩, ?_⟩ <;> simp [Line, written, Piece.text, isNewline, white, digit]
example : Line ([.arg 0] ++ [.lit '/']) ∧ Line ([.arg 0] ++ .lit ' ' :: [.arg 0]) ∧ Tight (written [.arg 0]) ∧ ¬ ['*', '/'] <:+: " a *b ".toList := by
  refine ⟨?_, ?_, ⟨?_, ?_⟩, by decide +kernel⟩ <;> simp [Line, written, Piece.text, isNewline, white, digit]
example : (define ['M'] (some [0]) "%0/* a *b */%0 // c".toList).substitute = "%0 %0".toList := by decide +kernel
example : skimArgs [0, 1] "a, (b, c), d)".toList = none := by decide +kernel

end Verif.Macro

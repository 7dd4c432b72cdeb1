import Verif.Proofs.StmtMain
/-! C87: statements are read as the grammar of statements says. -/
namespace Verif.Parse

/-- C87 (missing: `exit`, which the code reads wrongly, see below).  A statement is read from a sequence of tokens exactly if the
sequence starts with a way of writing it.  An `else` that follows is never left behind by a statement that could take it. -/
theorem C87_read_partial (allow inl : Bool) (ts rest : List Tok) (s : St) (hx : Kw.kExit.tok ∉ ts) :
    parseStmt allow inl ts = .ok s rest ↔ ∃ pre, ts = pre ++ rest ∧ SWrites (.stmt allow inl s) pre ∧
      (s.open = true → rest.head? ≠ some Kw.kElse.tok) := by
  constructor
  · exact (ssound _).stmt _ _ _ _ _ hx
  · rintro ⟨pre, rfl, h1, h2⟩
    exact scomp h1 (NoExit.left hx) rest _ h2 (by simp only [List.length_append]; omega)

/-- C87 for the body of a function: the statements up to the closing brace that belongs to it. -/
theorem C87_body_partial (ts rest : List Tok) (ss : List St) (hx : Kw.kExit.tok ∉ ts) :
    parseBody ts = .ok ss rest ↔ ∃ pre, ts = pre ++ rest ∧ SWrites (.block false ss) pre := by
  constructor
  · exact (ssound _).block _ _ _ _ hx
  · rintro ⟨pre, rfl, h1⟩
    exact scomp h1 (NoExit.left hx) rest _ (by simp only [List.length_append]; omega)

/-- Reading ends, whatever the tokens are. -/
theorem C87_terminates (allow inl : Bool) (ts : List Tok) : parseStmt allow inl ts ≠ .fuel ∧ parseBody ts ≠ .fuel :=
  ⟨(sterm _).stmt _ _ _ (by omega), (sterm _).block _ _ (by omega)⟩

/-- No sequence of tokens is a way of writing two statements. -/
theorem C87_unambiguous_partial (allow inl : Bool) (ts : List Tok) (s s' : St) (hx : Kw.kExit.tok ∉ ts)
    (h : SWrites (.stmt allow inl s) ts) (h' : SWrites (.stmt allow inl s') ts) : s = s' := by
  have h1 := (C87_read_partial allow inl ts [] s hx).2 ⟨ts, by simp, h, fun _ => by simp⟩
  have h2 := (C87_read_partial allow inl ts [] s' hx).2 ⟨ts, by simp, h', fun _ => by simp⟩
  rw [h1] at h2
  cases h2
  rfl

/-- `if (c) if (d) t else e`: the `else` belongs to the inner `if`. -/
theorem C87_else_partial (allow inl : Bool) (c d : Ex) (t e : St) (lc ld lt le rest : List Tok) (hc : WritesExpr true true c lc)
    (hd : WritesExpr true true d ld) (ht : SWrites (.stmt false inl t) lt) (he : SWrites (.stmt false inl e) le)
    (hto : t.open = false) (hr : rest.head? ≠ some Kw.kElse.tok) (hx : Kw.kExit.tok ∉ lc ++ ld ++ lt ++ le ++ rest) :
    parseStmt allow inl (Kw.kIf.tok :: .lpar :: lc ++ .rpar :: Kw.kIf.tok :: .lpar :: ld ++ .rpar :: lt ++ Kw.kElse.tok :: le ++ rest) =
      .ok (.ifs c (.ifElse d t e)) rest := by
  have w : SWrites (.stmt allow inl (.ifs c (.ifElse d t e))) (Kw.kIf.tok :: .lpar :: lc ++ .rpar ::
      (Kw.kIf.tok :: .lpar :: ld ++ .rpar :: lt ++ Kw.kElse.tok :: le)) := .ifs hc (.ifElse hd ht hto he)
  obtain ⟨n1, n2, n3, n4⟩ : Kw.kExit.tok ≠ Kw.kIf.tok ∧ Kw.kExit.tok ≠ Kw.kElse.tok ∧ Kw.kExit.tok ≠ .lpar ∧ Kw.kExit.tok ≠ .rpar := by
    decide
  simp only [List.mem_append, not_or] at hx
  obtain ⟨⟨⟨⟨x1, x2⟩, x3⟩, x4⟩, x5⟩ := hx
  refine (C87_read_partial allow inl _ rest _ ?_).2 ⟨_, ?_, w, fun _ => hr⟩
  · simp [n1, n2, n3, n4, x1, x2, x3, x4, x5]
  · simp

/-- A declaration is not a branch or the body of a loop: it stands in a block or at the start of a `for`. -/
theorem C87_no_declaration (inl : Bool) (d : DeclS) (l rest : List Tok) (h : WDecl d l) : parseStmt false inl (l ++ rest) = .reject :=
  step_nodecl _ _ (newDecl_start h rest)

/-- `break` and `continue` are read in loops only. -/
theorem C87_break (allow inl : Bool) (rest : List Tok) :
    parseStmt allow inl (Kw.kBreak.tok :: .term :: rest) = (if inl then .ok .brk rest else .reject) ∧
    parseStmt allow inl (Kw.kContinue.tok :: .term :: rest) = (if inl then .ok .cont rest else .reject) :=
  ⟨(step_brk _ _ _ _).trans rfl, (step_cont _ _ _ _).trans rfl⟩

/-! ### Where the code does not follow the grammar -/

/-- `exit; e;` is read as `exit e;`: the code takes an expression after the semicolon, and the expression statement that follows
becomes the value. -/
theorem C87_exit_takes_next (allow inl : Bool) (e : Ex) (l rest : List Tok) (h : WritesExpr true true e l) :
    parseStmt allow inl (Kw.kExit.tok :: .term :: l ++ .term :: rest) = .ok (.exit (some e)) rest := by
  unfold parseStmt
  simp only [List.cons_append]
  rw [step_exit]
  simp only [List.head?_cons, List.tail_cons, if_true]
  rw [expr_ok h (ends_cons rfl)]
  rfl

/-- `exit e;` is read as `exit` without a value or a semicolon, and `e;` is left as the next statement. -/
theorem C87_exit_value_lost (allow inl : Bool) (e : Ex) (l rest : List Tok) (h : WritesExpr true true e l) :
    parseStmt allow inl (Kw.kExit.tok :: l ++ .term :: rest) = .ok (.exit none) (l ++ .term :: rest) := by
  unfold parseStmt
  simp only [List.cons_append]
  rw [step_exit, if_neg]
  obtain ⟨t, r, rfl, ht⟩ := expr_head h
  intro h
  cases h
  cases ht

/-- `exit;` at the end of a block is an error. -/
theorem C87_exit_last (rest : List Tok) : parseBody (Kw.kExit.tok :: .term :: Kw.rbrace.tok :: rest) = .reject := by
  have h : expr (Kw.rbrace.tok :: rest) = .reject := by
    cases h : expr (Kw.rbrace.tok :: rest) with
    | reject => rfl
    | fuel => exact absurd h (expr_fuel _)
    | ok e r =>
      obtain ⟨l, h1, w⟩ := expr_read h
      obtain ⟨t, q, rfl, ht⟩ := expr_head w
      cases h1
      cases ht
  have hh : (Kw.kExit.tok :: .term :: Kw.rbrace.tok :: rest).head? ≠ some Kw.rbrace.tok := by
    intro h
    exact absurd (Kw.tok_inj (Option.some.inj h)) (by decide)
  unfold parseBody
  rw [block_next _ _ hh, show 2 * (Kw.kExit.tok :: .term :: Kw.rbrace.tok :: rest).length + 1 =
    (2 * (Kw.kExit.tok :: .term :: Kw.rbrace.tok :: rest).length) + 1 from rfl, step_exit]
  simp only [List.head?_cons, List.tail_cons, if_true]
  rw [h]
  rfl

/-- The grammar has both forms, so C87 is false with `exit`. -/
theorem C87_exit_counterexample : ∃ (ts rest : List Tok) (s : St), SWrites (.stmt true false s) ts ∧ s.open = false ∧
    ¬ ∃ s', parseStmt true false (ts ++ rest) = .ok s' rest :=
  ⟨[Kw.kExit.tok, .term], [.lit 1, .term], .exit none, .exit .none, rfl, by
    rintro ⟨s', h⟩
    have := C87_exit_takes_next true false (.lit 1) [.lit 1] [] (.inl (writes_up' (.lit 1) 14 (by decide) (by decide)))
    simp only [List.cons_append, List.nil_append] at h this
    rw [this] at h
    cases h⟩

/-- `int x, [2];`: a name that is left out after a comma is not reported here, and the name before is taken. -/
theorem C87_name_left_out (inl : Bool) (x : Nat) (rest : List Tok) :
    parseStmt true inl (Kw.int.tok :: .sym x false :: .comma :: .lbr :: .lit 2 :: .rbr :: .term :: rest) =
      .ok (.decl ⟨Kw.int.tok, 0, [⟨x, [], none⟩, ⟨x, [some (.lit 2)], none⟩]⟩) rest := by
  have h : SWrites (.stmt true inl (.decl ⟨Kw.int.tok, 0, [⟨x, [], none⟩, ⟨x, [some (.lit 2)], none⟩]⟩))
      ([Kw.int.tok, .sym x false, .comma, .lbr, .lit 2, .rbr] ++ [.term]) := by
    refine .decl ⟨x, [.comma, .lbr, .lit 2, .rbr], .inl (.inl rfl), ?_, rfl⟩
    refine .again (v := ⟨x, [], none⟩) (l := []) (r := [.lbr, .lit 2, .rbr]) ⟨[], [], .nil, .none, rfl, fun _ => rfl⟩ (.last (v := ⟨x, [some (.lit 2)], none⟩) ?_)
    exact ⟨[.lbr, .lit 2, .rbr], [], .sized (l := [.lit 2]) (writes_up' (.lit 2) 14 (by decide) (by decide)) .nil, .none, rfl,
      fun h => absurd (show 0 < 0 from h) (by decide)⟩
  refine scomp h ?_ rest _ nofun (by simp only [List.length_append, List.length_cons, List.length_nil]; omega)
  show ¬ _
  simp [Kw.tok, Kw.code, Kw.all]
  decide

/-! ### Examples -/

/-- Read and shown by evaluation: what was read and how many tokens are left. -/
def shape : Out St → Option (St × Nat)
  | .ok s r => some (s, r.length)
  | _ => none

/-- `if (1) if (2) 3; else 4; 5;` -/
example : shape (parseStmt true false
    [Kw.kIf.tok, .lpar, .lit 1, .rpar, Kw.kIf.tok, .lpar, .lit 2, .rpar, .lit 3, .term, Kw.kElse.tok, .lit 4, .term, .lit 5, .term]) =
    some (.ifs (.lit 1) (.ifElse (.lit 2) (.expr (.lit 3)) (.expr (.lit 4))), 2) := by rfl

/-- `for (int i = 0; i < 3; i++) { if (i) continue; break; }` -/
example : shape (parseStmt true false
    [Kw.kFor.tok, .lpar, Kw.int.tok, .sym 0 false, .asg .plain, .lit 0, .term, .sym 0 false, .op .lt, .lit 3, .term, .sym 0 false,
     .inc false false, .rpar, Kw.lbrace.tok, Kw.kIf.tok, .lpar, .sym 0 false, .rpar, Kw.kContinue.tok, .term, Kw.kBreak.tok, .term,
     Kw.rbrace.tok]) =
    some (.fors (.decl ⟨Kw.int.tok, 0, [⟨0, [], some (.lit 0)⟩]⟩) (some (.bin .lt (.sym 0) (.lit 3))) (some (.post false (.sym 0)))
      (.block [.ifs (.sym 0) .cont, .brk]), 0) := by rfl

/-- `switch (x) { case 1, y: return; default: { Foo[] a = b; } }`; the name before the colon is a value. -/
example : shape (parseStmt true false
    [Kw.kSwitch.tok, .lpar, .sym 0 false, .rpar, Kw.lbrace.tok, Kw.kCase.tok, .lit 1, .comma, .sym 1 true, .colon, Kw.kReturn.tok, .term,
     Kw.kDefault.tok, .colon, Kw.lbrace.tok, .sym 2 false, .lbr, .rbr, .sym 3 false, .asg .plain, .sym 4 false, .term,
     Kw.rbrace.tok, Kw.rbrace.tok]) =
    some (.switch (.sym 0) [([.lit 1, .sym 1], .ret none)]
      (some (.block [.decl ⟨.sym 2 false, 1, [⟨3, [], some (.sym 4)⟩]⟩])), 0) := by rfl

/-- `do x; while (1);` and `x[1];` is not a declaration. -/
example : shape (parseStmt true false
    [Kw.kDo.tok, .sym 0 false, .lbr, .lit 1, .rbr, .term, Kw.kWhile.tok, .lpar, .lit 1, .rpar, .term]) =
    some (.doWhile (.expr (.index (.sym 0) (.lit 1))) (.lit 1), 0) := by rfl

/-- `default` is last. -/
example : parseStmt true false [Kw.kSwitch.tok, .lpar, .lit 1, .rpar, Kw.lbrace.tok, Kw.kDefault.tok, .colon, .lit 1, .term,
    Kw.kCase.tok, .lit 1, .colon, .lit 2, .term, Kw.rbrace.tok] = .reject := by rfl

end Verif.Parse

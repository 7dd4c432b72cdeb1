import Verif.Proofs.ExprGrammar

/-! C59: expressions are read according to the grammar. -/
namespace Verif.Parse

theorem ends_noCont {semi : Bool} {k : Nat} {r : List Tok} (h : Ends semi r) : NoCont semi k r := by
  intro t r' hr
  have := h t r' hr
  cases t <;> simp_all [Tok.continues, cont]

theorem ends_comma {semi : Bool} {r : List Tok} (h : Ends semi r) : ∀ r', r ≠ .comma :: r' := by
  intro r' hr
  have := h _ _ hr
  simp [Tok.continues] at this

theorem exprs_le {semi tg : Bool} {ts : List Tok} {f : Nat} : ∀ d, Le (exprs semi f tg ts) (exprs semi (f + d) tg ts)
  | 0 => Le.refl _
  | d + 1 => (exprs_le d).trans ((mono semi (f + d)).exprs tg ts)

theorem parse_ev {semi tg : Bool} {ts rest : List Tok} {es : List Ex} (h : Ev (fun f => exprs semi f tg ts) es rest) :
    parseExpr semi tg ts = .ok (mkComma es) rest := by
  obtain ⟨n, h⟩ := h
  have h1 := h (20 * ts.length + 20 + n) (by omega)
  have h2 := exprs_le (semi := semi) (tg := tg) (ts := ts) (f := 20 * ts.length + 20) n ((term semi _).exprs _ _ (by omega))
  simp only at h1
  rw [h1] at h2
  unfold parseExpr
  rw [← h2]
  rfl

/-- **C59**: reading an expression gives the tree `e` and leaves `rest`, which does not continue an expression, exactly if the
tokens before `rest` are a way of writing `e`. -/
theorem C59_parse (semi tg : Bool) (ts rest : List Tok) (e : Ex) (hr : Ends semi rest) :
    parseExpr semi tg ts = .ok e rest ↔ ∃ pre, ts = pre ++ rest ∧ WritesExpr semi tg e pre := by
  constructor
  · intro h
    unfold parseExpr at h
    rw [Out.bind_ok] at h
    obtain ⟨es, r, h1, h2⟩ := h
    cases h2
    obtain ⟨pre, rfl, hw⟩ := (sound semi _).exprs _ _ _ _ h1
    refine ⟨pre, rfl, ?_⟩
    rcases list_one hw with ⟨e, rfl, h⟩ | h
    · exact Or.inl h
    · exact Or.inr ⟨es, h, mkComma_two h, hw⟩
  · rintro ⟨pre, rfl, hw⟩
    rcases hw with hw | ⟨es, h2, rfl, hw⟩
    · exact parse_ev (ev_exprs_one ((comp hw).ex14 (ends_noCont hr)) (ends_comma hr))
    · rw [← mkComma_two h2]
      exact parse_ev (comp hw rest (ends_noCont hr) (ends_comma hr))

/-- Whatever is read was written according to the grammar, whatever follows. -/
theorem C59_read_is_written (semi tg : Bool) (ts rest : List Tok) (e : Ex) (h : parseExpr semi tg ts = .ok e rest) :
    ∃ pre, ts = pre ++ rest ∧ WritesExpr semi tg e pre := by
  unfold parseExpr at h
  rw [Out.bind_ok] at h
  obtain ⟨es, r, h1, h2⟩ := h
  cases h2
  obtain ⟨pre, rfl, hw⟩ := (sound semi _).exprs _ _ _ _ h1
  refine ⟨pre, rfl, ?_⟩
  rcases list_one hw with ⟨e, rfl, h⟩ | h
  · exact Or.inl h
  · exact Or.inr ⟨es, h, mkComma_two h, hw⟩

/-- Reading an expression ends, with a tree or with an error, whatever the tokens. -/
theorem C59_terminates (semi tg : Bool) (ts : List Tok) : parseExpr semi tg ts ≠ .fuel :=
  Out.bind_fuel ((term semi _).exprs _ _ (by omega)) fun _ _ _ => by nofun

/-- No sequence of tokens is a way of writing two expressions. -/
theorem C59_unambiguous (semi tg : Bool) (ts : List Tok) (e e' : Ex) (h : WritesExpr semi tg e ts) (h' : WritesExpr semi tg e' ts) :
    e = e' := by
  have hr : Ends semi [] := by intro t r h; cases h
  have h1 := (C59_parse semi tg ts [] e hr).2 ⟨ts, by simp, h⟩
  have h2 := (C59_parse semi tg ts [] e' hr).2 ⟨ts, by simp, h'⟩
  rw [h1] at h2
  cases h2
  rfl

theorem writes_up {semi tg : Bool} {e : Ex} {ts : List Tok} {k : Nat} (h : Writes semi tg (.ex k e) ts) :
    ∀ d, k + d ≤ 14 → Writes semi tg (.ex (k + d) e) ts
  | 0, _ => h
  | d + 1, hd => .up (k := k + d) (by omega) (writes_up h d (by omega))

theorem writes_up' {semi tg : Bool} {e : Ex} {ts : List Tok} {k : Nat} (h : Writes semi tg (.ex k e) ts) (j : Nat) (hk : k ≤ j)
    (hj : j ≤ 14) : Writes semi tg (.ex j e) ts := by
  have := writes_up h (j - k) (by omega)
  rwa [show k + (j - k) = j by omega] at this

theorem prec_range (o : BinOp) : 3 ≤ prec o ∧ prec o ≤ 12 := by cases o <;> decide

/-- Any binary operator, from operands that bind tighter. -/
theorem writes_bin {semi tg : Bool} {a b : Ex} {l r : List Tok} (o : BinOp) (ha : Writes semi tg (.ex (prec o - 1) a) l)
    (hb : Writes semi tg (.ex (prec o - 1) b) r) : Writes semi tg (.ex (prec o) (.bin o a b)) (l ++ .op o :: r) := by
  obtain ⟨k, hk⟩ : ∃ k, prec o = k + 1 := ⟨prec o - 1, by have := prec_range o; omega⟩
  rw [hk] at ha hb ⊢
  by_cases h9 : k = 8
  · subst h9
    exact .rel o ha (.cmp1 o hk hb)
  · exact .bin o hk h9 (.up (by have := prec_range o; omega) ha) hb

/-- **Precedence**: of two operators the one that binds tighter takes the operand between them, on the left or on the right;
operators of the same level other than comparisons group to the left.  The operands are any that bind tighter than all binary
operators. -/
theorem C59_precedence (semi tg : Bool) (x y z : List Tok) (a b c : Ex) (o1 o2 : BinOp) (rest : List Tok) (hr : Ends semi rest)
    (ha : Writes semi tg (.ex 2 a) x) (hb : Writes semi tg (.ex 2 b) y) (hc : Writes semi tg (.ex 2 c) z) :
    (prec o1 < prec o2 ∨ prec o1 = prec o2 ∧ prec o1 ≠ 9 →
      parseExpr semi tg (x ++ .op o1 :: y ++ .op o2 :: z ++ rest) = .ok (.bin o2 (.bin o1 a b) c) rest) ∧
    (prec o2 < prec o1 →
      parseExpr semi tg (x ++ .op o1 :: y ++ .op o2 :: z ++ rest) = .ok (.bin o1 a (.bin o2 b c)) rest) := by
  have p1 := prec_range o1
  have p2 := prec_range o2
  constructor
  · intro h
    refine (C59_parse semi tg _ rest _ hr).2 ⟨_, rfl, Or.inl ?_⟩
    have h1 := writes_bin o1 (writes_up' ha (prec o1 - 1) (by omega) (by omega)) (writes_up' hb (prec o1 - 1) (by omega) (by omega))
    have hc' := writes_up' hc (prec o2 - 1) (by omega) (by omega)
    refine writes_up' (k := prec o2) ?_ 14 (by omega) (by omega)
    rcases h with h | ⟨h, h9⟩
    · exact writes_bin o2 (writes_up' h1 _ (by omega) (by omega)) hc'
    · obtain ⟨k, hk⟩ : ∃ k, prec o2 = k + 1 := ⟨prec o2 - 1, by omega⟩
      rw [h] at h1
      rw [hk] at h1 hc' ⊢
      exact .bin o2 hk (by omega) h1 hc'
  · intro h
    refine (C59_parse semi tg _ rest _ hr).2 ⟨_, rfl, Or.inl ?_⟩
    have h2 := writes_bin o2 (writes_up' hb (prec o2 - 1) (by omega) (by omega)) (writes_up' hc (prec o2 - 1) (by omega) (by omega))
    have := writes_bin o1 (writes_up' ha (prec o1 - 1) (by omega) (by omega)) (writes_up' h2 (prec o1 - 1) (by omega) (by omega))
    have := writes_up' this 14 (by omega) (by omega)
    simpa using this

/-- The hypotheses are met: `-x * y[1] == z;` -/
example : Ends false [.term] ∧ Writes false false (.ex 2 (.un .neg (.sym 0))) [.op .sub, .sym 0 false] ∧
    Writes false false (.ex 2 (.index (.sym 1) (.lit 1))) [.sym 1 false, .lbr, .lit 1, .rbr] ∧ prec .mul < prec .eq := by
  refine ⟨?_, .un .neg (writes_up' (.sym 0 (Or.inl rfl)) 2 (by decide) (by decide)),
    .up (by decide) (.index (.up (by decide) (.sym 1 (Or.inl rfl))) (writes_up' (.lit 1) 14 (by decide) (by decide))), by decide⟩
  intro t r h
  cases h
  rfl

/-- `x = y = x & 1 == y ? x : -y++;` -/
example : parseExpr true true [.sym 0 false, .asg .plain, .sym 1 false, .asg .plain, .sym 0 false, .op .and, .lit 1, .op .eq,
      .sym 1 false, .quest, .sym 0 true, .colon, .op .sub, .sym 1 false, .inc false false, .term] =
    .ok (.asg .plain (.sym 0) (.asg .plain (.sym 1) (.tern (.bin .eq (.bin .and (.sym 0) (.lit 1)) (.sym 1)) (.sym 0)
      (.un .neg (.post false (.sym 1)))))) [.term] := by rfl

/-- `f(x, .p = 1) < y <= 2, T:z.q` -/
example : parseExpr true true [.sym 0 false, .lpar, .sym 1 false, .comma, .dot false, .sym 2 false, .asg .plain, .lit 1, .rpar,
      .op .lt, .sym 3 false, .op .le, .lit 2, .comma, .sym 4 true, .colon, .sym 5 false, .dot false, .sym 6 false] =
    .ok (.comma [.chain (.call (.sym 0) [.pos (.sym 1), .named 2 (.lit 1)]) [(.lt, .sym 3), (.le, .lit 2)],
      .tag 4 (.field false (.sym 5) 6)]) [] := by rfl

/-- A positional argument after a named one is rejected, and so are a missing operand and an unclosed parenthesis. -/
example : parseExpr true true [.sym 0 false, .lpar, .dot false, .sym 2 false, .asg .plain, .lit 1, .comma, .lit 2, .rpar] = .reject ∧
    parseExpr true true [.sym 0 false, .op .add, .term] = .reject ∧
    parseExpr true true [.lpar, .sym 0 false, .term] = .reject := ⟨rfl, rfl, rfl⟩

/-- **`.name = _` loses the name**: two calls that ask for the defaults of different parameters give the same tree, the one of
a call with `_` in first position. -/
theorem C59_named_default (semi tg : Bool) (f s : Nat) :
    parseExpr semi tg [.sym f false, .lpar, .dot false, .sym s false, .asg .plain, .under, .rpar] = .ok (.call (.sym f) [.dflt]) [] := by
  cases tg <;> rfl

end Verif.Parse

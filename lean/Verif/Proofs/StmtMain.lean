import Verif.Proofs.StmtGrammar
/-! The statement parser reads exactly what the grammar of statements says: the mutual functions. -/
namespace Verif.Parse

/-! ### Steps -/

section
variable (f : Nat) (a i : Bool) (r : List Tok)

theorem step_if : stmt (f + 1) a i (Kw.kIf.tok :: r) = (parenExpr r).bind fun c r => (stmt f false i r).bind fun t r =>
    if r.head? = some Kw.kElse.tok then (stmt f false i r.tail).bind fun e r => .ok (.ifElse c t e) r else .ok (.ifs c t) r := by
  rw [stmt.eq_def]; rfl
theorem step_while : stmt (f + 1) a i (Kw.kWhile.tok :: r) = (parenExpr r).bind fun c r => (stmt f false true r).bind fun b r =>
    .ok (.whiles c b) r := by rw [stmt.eq_def]; rfl
theorem step_do : stmt (f + 1) a i (Kw.kDo.tok :: r) = (stmt f false true r).bind fun b r => (need Kw.kWhile.tok b r).bind fun b r =>
    (parenExpr r).bind fun c r => need .term (.doWhile b c) r := by rw [stmt.eq_def]; rfl
theorem step_for : stmt (f + 1) a i (Kw.kFor.tok :: r) = (need .lpar () r).bind fun _ r => (forInit r).bind fun ini r =>
    (optExpr .term r).bind fun c r => (optExpr .rpar r).bind fun s r => (stmt f false true r).bind fun b r =>
    .ok (.fors ini c s b) r := by rw [stmt.eq_def]; rfl
theorem step_switch : stmt (f + 1) a i (Kw.kSwitch.tok :: r) = (parenExpr r).bind fun e r => (need Kw.lbrace.tok e r).bind fun e r =>
    (cases f i r).bind fun cd r => .ok (.switch e cd.1 cd.2) r := by rw [stmt.eq_def]; rfl
theorem step_block : stmt (f + 1) a i (Kw.lbrace.tok :: r) = (block f i r).bind fun ss r => .ok (.block ss) r := by
  rw [stmt.eq_def]; rfl
theorem step_ret : stmt (f + 1) a i (Kw.kReturn.tok :: r) = (optExpr .term r).bind fun e r => .ok (.ret e) r := by
  rw [stmt.eq_def]; rfl
theorem step_brk : stmt (f + 1) a i (Kw.kBreak.tok :: r) = (need .term () r).bind fun _ r => if i then .ok .brk r else .reject := by
  rw [stmt.eq_def]; rfl
theorem step_cont : stmt (f + 1) a i (Kw.kContinue.tok :: r) = (need .term () r).bind fun _ r =>
    if i then .ok .cont r else .reject := by rw [stmt.eq_def]; rfl
theorem step_assert : stmt (f + 1) a i (Kw.kAssert.tok :: r) = (parenExpr r).bind fun e r => need .term (.assert e) r := by
  rw [stmt.eq_def]; rfl
theorem step_delete : stmt (f + 1) a i (Kw.kDelete.tok :: r) = (expr r).bind fun e r => need .term (.delete e) r := by
  rw [stmt.eq_def]; rfl
theorem step_exit : stmt (f + 1) a i (Kw.kExit.tok :: r) =
    if r.head? = some .term then (expr r.tail).bind fun e r => need .term (.exit (some e)) r else .ok (.exit none) r := by
  rw [stmt.eq_def]; rfl

end

theorem step_decl (f : Nat) (i : Bool) {ts : List Tok} (h : declStart ts = true) :
    stmt (f + 1) true i ts = (newDecl ts).bind fun d r => need .term (.decl d) r := by
  rw [stmt.eq_def]
  simp only
  rw [if_pos h]
  simp only [if_true]

theorem step_nodecl (f : Nat) (i : Bool) {ts : List Tok} (h : declStart ts = true) : stmt (f + 1) false i ts = .reject := by
  rw [stmt.eq_def]
  simp only
  rw [if_pos h, if_neg (by simp)]

theorem step_expr (f : Nat) (a i : Bool) {ts : List Tok} (h : declStart ts = false) (ho : ∀ n r, ts ≠ .other n :: r) :
    stmt (f + 1) a i ts = (expr ts).bind fun e r => need .term (.expr e) r := by
  rw [stmt.eq_def]
  simp only
  rw [if_neg (by simp [h])]

/-- Other keywords start no statement. -/
theorem step_other (f : Nat) (a i : Bool) (n : Nat) (r : List Tok) (s : St) (q : List Tok)
    (h : stmt (f + 1) a i (.other n :: r) = .ok s q) : ∃ k, n = Kw.code k ∧ (k.isType = true ∨
      k ∈ [Kw.kIf, .kWhile, .kDo, .kFor, .kSwitch, .lbrace, .kReturn, .kBreak, .kContinue, .kAssert, .kDelete, .kExit]) := by
  cases hk : Kw.of n with
  | none =>
    rw [stmt.eq_def] at h
    simp only [declStart, hk] at h
    rw [if_neg (by simp)] at h
    cases h
  | some k =>
    refine ⟨k, Kw.of_some hk, ?_⟩
    rw [stmt.eq_def] at h
    simp only [declStart, hk] at h
    cases k <;> first | exact .inl rfl | exact .inr (by decide) | cases h

theorem block_done (f : Nat) (i : Bool) (r : List Tok) : block (f + 1) i (Kw.rbrace.tok :: r) = .ok [] r := by
  rw [block.eq_def]; rfl

theorem block_next (f : Nat) (i : Bool) {ts : List Tok} (h : ts.head? ≠ some Kw.rbrace.tok) :
    block (f + 1) i ts = (stmt f true i ts).bind fun s r => (block f i r).bind fun ss r => .ok (s :: ss) r := by
  rw [block.eq_def]
  simp only
  rw [if_neg h]

theorem cases_done (f : Nat) (i : Bool) (r : List Tok) : cases (f + 1) i (Kw.rbrace.tok :: r) = .ok ([], none) r := by
  rw [cases.eq_def]; rfl

theorem cases_case (f : Nat) (i : Bool) (r : List Tok) : cases (f + 1) i (Kw.kCase.tok :: r) =
    (caseExprs r).bind fun es r => (need .colon es r).bind fun es r =>
      (stmt f false i r).bind fun s r => (cases f i r).bind fun cd r => .ok ((es, s) :: cd.1, cd.2) r := by
  rw [cases.eq_def]; rfl

theorem cases_dflt (f : Nat) (i : Bool) (r : List Tok) : cases (f + 1) i (Kw.kDefault.tok :: r) =
    (need .colon () r).bind fun _ r => (stmt f false i r).bind fun s r => need Kw.rbrace.tok ([], some s) r := by
  rw [cases.eq_def]; rfl

/-! ### How statements start -/

/-- The first token of a statement. -/
def stmtHead (t : Tok) : Prop := t ≠ Kw.kElse.tok ∧ t ≠ Kw.rbrace.tok

theorem starts_stmtHead {t : Tok} (h : starts 14 true t = true) : stmtHead t := by
  constructor <;> (rintro rfl; cases h)

theorem kw_stmtHead {k : Kw} (h1 : k ≠ .kElse) (h2 : k ≠ .rbrace) : stmtHead k.tok :=
  ⟨fun h => h1 (Kw.tok_inj h), fun h => h2 (Kw.tok_inj h)⟩

theorem stmt_head {a i : Bool} {s : St} {l : List Tok} (h : SWrites (.stmt a i s) l) : ∃ t r, l = t :: r ∧ stmtHead t := by
  cases h with
  | expr h =>
    obtain ⟨t, r, rfl, h'⟩ := expr_head h
    exact ⟨_, _, rfl, starts_stmtHead h'⟩
  | decl h =>
    obtain ⟨n, r, h1, _, rfl⟩ := h
    refine ⟨_, _, rfl, ?_⟩
    rcases h1 with h1 | ⟨s, h2⟩
    · obtain ⟨k, h1, h2⟩ := isType_tok.mpr h1
      rw [h2]; exact kw_stmtHead (by rintro rfl; cases h1) (by rintro rfl; cases h1)
    · rw [h2]; exact ⟨nofun, nofun⟩
  | _ => exact ⟨_, _, rfl, kw_stmtHead (by decide) (by decide)⟩

/-! ### Everything written is read -/

/-- What it is to be read. -/
def SComp : SPhrase → List Tok → Prop
  | .stmt a i s, l => ∀ rest f, (s.open = true → rest.head? ≠ some Kw.kElse.tok) → 2 * l.length ≤ f →
      stmt f a i (l ++ rest) = .ok s rest
  | .block i ss, l => ∀ rest f, 2 * l.length + 1 ≤ f → block f i (l ++ rest) = .ok ss rest
  | .cases i cs d, l => ∀ rest f, 2 * l.length + 1 ≤ f → cases f i (l ++ rest) = .ok (cs, d) rest

/-- The grammar without `exit`. -/
def NoExit (ts : List Tok) : Prop := Kw.kExit.tok ∉ ts

theorem NoExit.left {a b : List Tok} (h : NoExit (a ++ b)) : NoExit a := fun h' => h (List.mem_append_left _ h')
theorem NoExit.right {a b : List Tok} (h : NoExit (a ++ b)) : NoExit b := fun h' => h (List.mem_append_right _ h')
theorem NoExit.tail {a : Tok} {b : List Tok} (h : NoExit (a :: b)) : NoExit b := fun h' => h (List.mem_cons_of_mem _ h')

theorem scomp {p : SPhrase} {l : List Tok} (h : SWrites p l) (hx : NoExit l) : SComp p l := by
  induction h with
  | @expr a i e l h =>
    intro rest f _ hf
    obtain ⟨f, rfl⟩ : ∃ g, f = g + 1 := ⟨f - 1, by simp at hf; omega⟩
    simp only [List.append_assoc, List.cons_append, List.nil_append]
    rw [step_expr f a i (expr_term_not_decl h), expr_ok h (ends_cons rfl)]
    · rfl
    · obtain ⟨t, r, rfl, ht⟩ := expr_head h
      intro n r h; cases h; cases ht
  | @decl i d l h =>
    intro rest f _ hf
    obtain ⟨f, rfl⟩ : ∃ g, f = g + 1 := ⟨f - 1, by simp at hf; omega⟩
    simp only [List.append_assoc, List.cons_append, List.nil_append]
    rw [step_decl f i (newDecl_start h _), newDecl_ok h]
    rfl
  | @ifs a i c t l m h _ ih =>
    intro rest f ho hf
    obtain ⟨f, rfl⟩ : ∃ g, f = g + 1 := ⟨f - 1, by simp at hf; omega⟩
    simp only [List.append_assoc, List.cons_append, List.length_append, List.length_cons] at hf ⊢
    have h1 := parenExpr_ok (rest := m ++ rest) h
    simp only [List.cons_append] at h1
    rw [step_if, h1]
    simp only [Out.bind]
    rw [ih hx.tail.tail.right.tail rest f (fun _ => ho rfl) (by omega)]
    simp only
    rw [if_neg (ho rfl)]
  | @ifElse a i c t e l m n h _ hopen _ ih1 ih2 =>
    intro rest f ho hf
    obtain ⟨f, rfl⟩ : ∃ g, f = g + 1 := ⟨f - 1, by simp at hf; omega⟩
    simp only [List.append_assoc, List.cons_append, List.length_append, List.length_cons] at hf hx ⊢
    have h1 := parenExpr_ok (rest := m ++ Kw.kElse.tok :: (n ++ rest)) h
    simp only [List.cons_append] at h1
    rw [step_if, h1]
    simp only [Out.bind]
    rw [ih1 hx.tail.tail.right.tail.left (Kw.kElse.tok :: (n ++ rest)) f (fun h => by rw [hopen] at h; cases h) (by omega)]
    simp only [List.head?_cons, List.tail_cons, if_true]
    rw [ih2 hx.tail.tail.right.tail.right.tail rest f ho (by omega)]
  | @whiles a i c b l m h _ ih =>
    intro rest f ho hf
    obtain ⟨f, rfl⟩ : ∃ g, f = g + 1 := ⟨f - 1, by simp at hf; omega⟩
    simp only [List.append_assoc, List.cons_append, List.length_append, List.length_cons] at hf ⊢
    have h1 := parenExpr_ok (rest := m ++ rest) h
    simp only [List.cons_append] at h1
    rw [step_while, h1]
    simp only [Out.bind]
    rw [ih hx.tail.tail.right.tail rest f ho (by omega)]
  | @doWhile a i c b l m _ h ih =>
    intro rest f ho hf
    obtain ⟨f, rfl⟩ : ∃ g, f = g + 1 := ⟨f - 1, by simp at hf; omega⟩
    simp only [List.append_assoc, List.cons_append, List.nil_append, List.length_append, List.length_cons] at hf hx ⊢
    have h1 := parenExpr_ok (rest := .term :: rest) h
    simp only [List.cons_append] at h1
    rw [step_do, ih hx.tail.left (Kw.kWhile.tok :: .lpar :: (l ++ .rpar :: .term :: rest)) f
      (fun _ h => by cases h) (by omega)]
    simp only [Out.bind, need, if_true]
    rw [h1]
    rfl
  | @fors a i ini c s b l1 l2 l3 m h1 h2 h3 _ ih =>
    intro rest f ho hf
    obtain ⟨f, rfl⟩ : ∃ g, f = g + 1 := ⟨f - 1, by simp at hf; omega⟩
    simp only [List.append_assoc, List.cons_append, List.length_append, List.length_cons] at hf hx ⊢
    rw [step_for]
    simp only [Out.bind, need, if_true]
    rw [forInit_ok h1]
    simp only
    rw [optExpr_ok h2 rfl rfl]
    simp only
    rw [optExpr_ok h3 rfl rfl]
    simp only
    rw [ih hx.tail.tail.right.right.tail.right.tail rest f ho (by omega)]
  | @switch a i e cs d l m h _ ih =>
    intro rest f ho hf
    obtain ⟨f, rfl⟩ : ∃ g, f = g + 1 := ⟨f - 1, by simp at hf; omega⟩
    simp only [List.append_assoc, List.cons_append, List.length_append, List.length_cons] at hf hx ⊢
    have h1 := parenExpr_ok (rest := Kw.lbrace.tok :: (m ++ rest)) h
    simp only [List.cons_append] at h1
    rw [step_switch, h1]
    simp only [Out.bind, need, if_true]
    rw [ih hx.tail.tail.right.tail.tail rest f (by omega)]
  | @block a i ss m _ ih =>
    intro rest f ho hf
    obtain ⟨f, rfl⟩ : ∃ g, f = g + 1 := ⟨f - 1, by simp at hf; omega⟩
    simp only [List.cons_append, List.length_cons] at hf ⊢
    rw [step_block, ih hx.tail rest f (by omega)]
    rfl
  | @ret a i e l h =>
    intro rest f ho hf
    obtain ⟨f, rfl⟩ : ∃ g, f = g + 1 := ⟨f - 1, by simp at hf; omega⟩
    simp only [List.append_assoc, List.cons_append, List.nil_append]
    rw [step_ret, optExpr_ok h rfl rfl]
    rfl
  | brk =>
    intro rest f ho hf
    obtain ⟨f, rfl⟩ : ∃ g, f = g + 1 := ⟨f - 1, by simp at hf; omega⟩
    simp only [List.cons_append, List.nil_append]
    rw [step_brk]
    rfl
  | cont =>
    intro rest f ho hf
    obtain ⟨f, rfl⟩ : ∃ g, f = g + 1 := ⟨f - 1, by simp at hf; omega⟩
    simp only [List.cons_append, List.nil_append]
    rw [step_cont]
    rfl
  | @assert a i e l h =>
    intro rest f ho hf
    obtain ⟨f, rfl⟩ : ∃ g, f = g + 1 := ⟨f - 1, by simp at hf; omega⟩
    simp only [List.append_assoc, List.cons_append, List.nil_append]
    have h1 := parenExpr_ok (rest := .term :: rest) h
    simp only [List.cons_append] at h1
    rw [step_assert, h1]
    rfl
  | @delete a i e l h =>
    intro rest f ho hf
    obtain ⟨f, rfl⟩ : ∃ g, f = g + 1 := ⟨f - 1, by simp at hf; omega⟩
    simp only [List.append_assoc, List.cons_append, List.nil_append]
    rw [step_delete, expr_ok h (ends_cons rfl)]
    rfl
  | exit => exact absurd (List.mem_cons_self ..) hx
  | done =>
    intro rest f hf
    obtain ⟨f, rfl⟩ : ∃ g, f = g + 1 := ⟨f - 1, by omega⟩
    exact block_done f _ rest
  | @next i s ss l m hs hm ih1 ih2 =>
    intro rest f hf
    obtain ⟨f, rfl⟩ : ∃ g, f = g + 1 := ⟨f - 1, by omega⟩
    simp only [List.append_assoc, List.length_append] at hf ⊢
    have hl : 0 < l.length := by obtain ⟨t, r, rfl, _⟩ := stmt_head hs; simp
    have hh : (l ++ (m ++ rest)).head? ≠ some Kw.rbrace.tok := by
      obtain ⟨t, r, rfl, ht⟩ := stmt_head hs
      intro h
      exact ht.2 (Option.some.inj h)
    have he : (m ++ rest).head? ≠ some Kw.kElse.tok := by
      cases hm with
      | done => intro h; exact absurd (Kw.tok_inj (Option.some.inj h)) (by decide)
      | next h _ =>
        obtain ⟨t, r, rfl, ht⟩ := stmt_head h
        intro h
        exact ht.1 (Option.some.inj h)
    rw [block_next f i hh, ih1 hx.left (m ++ rest) f (fun _ => he) (by omega)]
    simp only [Out.bind]
    rw [ih2 hx.right rest f (by omega)]
  | noCase =>
    intro rest f hf
    obtain ⟨f, rfl⟩ : ∃ g, f = g + 1 := ⟨f - 1, by omega⟩
    exact cases_done f _ rest
  | @dflt i s l hs ih =>
    intro rest f hf
    obtain ⟨f, rfl⟩ : ∃ g, f = g + 1 := ⟨f - 1, by omega⟩
    simp only [List.append_assoc, List.cons_append, List.nil_append, List.length_append, List.length_cons] at hf hx ⊢
    rw [cases_dflt]
    simp only [Out.bind, need, if_true]
    rw [ih hx.tail.tail.left (Kw.rbrace.tok :: rest) f
      (fun _ h => absurd (Kw.tok_inj (Option.some.inj h)) (by decide)) (by omega)]
    simp only [if_true]
  | @case i es s cs d l m n h _ hn ih1 ih2 =>
    intro rest f hf
    obtain ⟨f, rfl⟩ : ∃ g, f = g + 1 := ⟨f - 1, by omega⟩
    simp only [List.append_assoc, List.cons_append, List.length_append, List.length_cons] at hf hx ⊢
    have he : (n ++ rest).head? ≠ some Kw.kElse.tok := by
      cases hn <;> exact fun h => absurd (Kw.tok_inj (Option.some.inj h)) (by decide)
    rw [cases_case, caseExprs_ok h (ends_cons rfl)]
    simp only [Out.bind, need, if_true]
    rw [ih1 hx.tail.right.tail.left (n ++ rest) f (fun _ => he) (by omega)]
    simp only
    rw [ih2 hx.tail.right.tail.right rest f (by omega)]

/-! ### Everything read is written -/

/-- What it is to have been read according to the grammar. -/
structure SSound (f : Nat) : Prop where
  stmt : ∀ a i ts s rest, NoExit ts → stmt f a i ts = .ok s rest → ∃ l, ts = l ++ rest ∧ SWrites (.stmt a i s) l ∧
    (s.open = true → rest.head? ≠ some Kw.kElse.tok)
  block : ∀ i ts ss rest, NoExit ts → block f i ts = .ok ss rest → ∃ l, ts = l ++ rest ∧ SWrites (.block i ss) l
  cases : ∀ i ts cs d rest, NoExit ts → cases f i ts = .ok (cs, d) rest → ∃ l, ts = l ++ rest ∧ SWrites (.cases i cs d) l

theorem head_cons {ts : List Tok} {t : Tok} (h : ts.head? = some t) : ts = t :: ts.tail := by
  cases ts with
  | nil => cases h
  | cons a r => cases h; rfl

theorem ssound : ∀ f, SSound f
  | 0 => by
    constructor
    · intro a i ts s rest _ h; rw [stmt.eq_def] at h; cases h
    · intro i ts s rest _ h; rw [block.eq_def] at h; cases h
    · intro i ts cs d rest _ h; rw [cases.eq_def] at h; cases h
  | f+1 => by
    have S := ssound f
    constructor
    · intro a i ts s rest hx h
      cases hd : declStart ts with
      | true =>
        cases a with
        | false => rw [step_nodecl f i hd] at h; cases h
        | true =>
          rw [step_decl f i hd] at h
          simp only [Out.bind_ok, need_ok] at h
          obtain ⟨d, r, h1, rfl, rfl⟩ := h
          obtain ⟨l, rfl, w⟩ := newDecl_read h1 hd
          exact ⟨l ++ [.term], by simp, .decl w, nofun⟩
      | false =>
        by_cases ho : ∃ n r, ts = .other n :: r
        · obtain ⟨n, r, rfl⟩ := ho
          obtain ⟨k, rfl, hk⟩ := step_other f a i n r s rest h
          have h : stmt (f + 1) a i (k.tok :: r) = .ok s rest := h
          rcases hk with hk | hk
          · have : declStart (.other k.code :: r) = true := by simp only [declStart, Kw.of_code]; exact hk
            rw [hd] at this; cases this
          · simp only [List.mem_cons, List.not_mem_nil, or_false] at hk
            have hxr : NoExit r := hx.tail
            rcases hk with rfl | rfl | rfl | rfl | rfl | rfl | rfl | rfl | rfl | rfl | rfl | rfl
            · rw [step_if] at h
              simp only [Out.bind_ok] at h
              obtain ⟨c, r1, h1, t, r2, h2, h3⟩ := h
              obtain ⟨l, rfl, w1⟩ := parenExpr_read h1
              have hx1 : NoExit r1 := hxr.right.tail
              obtain ⟨m, rfl, w2, o2⟩ := S.stmt _ _ _ _ _ hx1 h2
              split at h3
              · rename_i hel
                simp only [Out.bind_ok] at h3
                obtain ⟨e, r3, h4, h5⟩ := h3
                cases h5
                have hr2 := head_cons hel
                have hx2 : NoExit r2.tail := by
                  have := hx1.right
                  rw [hr2] at this
                  exact this.tail
                obtain ⟨n, h6, w3, o3⟩ := S.stmt _ _ _ _ _ hx2 h4
                refine ⟨Kw.kIf.tok :: .lpar :: l ++ .rpar :: m ++ Kw.kElse.tok :: n, ?_, .ifElse w1 w2 ?_ w3, o3⟩
                · rw [hr2, h6]; simp [Kw.tok]
                · cases ht : t.open with
                  | false => rfl
                  | true => exact absurd hel (o2 ht)
              · rename_i hel
                cases h3
                exact ⟨Kw.kIf.tok :: .lpar :: l ++ .rpar :: m, by simp [Kw.tok], .ifs w1 w2, fun _ => hel⟩
            · rw [step_while] at h
              simp only [Out.bind_ok] at h
              obtain ⟨c, r1, h1, b, r2, h2, h3⟩ := h
              cases h3
              obtain ⟨l, rfl, w1⟩ := parenExpr_read h1
              obtain ⟨m, rfl, w2, o2⟩ := S.stmt _ _ _ _ _ hxr.right.tail h2
              exact ⟨Kw.kWhile.tok :: .lpar :: l ++ .rpar :: m, by simp [Kw.tok], .whiles w1 w2, o2⟩
            · rw [step_do] at h
              simp only [Out.bind_ok, need_ok] at h
              obtain ⟨b, r1, h1, _, r2, ⟨rfl, rfl⟩, c, r3, h3, rfl, rfl⟩ := h
              obtain ⟨m, rfl, w1, _⟩ := S.stmt _ _ _ _ _ hxr h1
              obtain ⟨l, rfl, w2⟩ := parenExpr_read h3
              exact ⟨Kw.kDo.tok :: m ++ Kw.kWhile.tok :: .lpar :: l ++ [.rpar, .term], by simp [Kw.tok], .doWhile w1 w2, nofun⟩
            · rw [step_for] at h
              simp only [Out.bind_ok, need_ok] at h
              obtain ⟨_, r1, ⟨_, rfl⟩, ini, r2, h2, c, r3, h3, s', r4, h4, b, r5, h5, h6⟩ := h
              cases h6
              obtain ⟨l1, rfl, w1⟩ := forInit_read h2
              obtain ⟨l2, rfl, w2⟩ := optExpr_read h3
              obtain ⟨l3, rfl, w3⟩ := optExpr_read h4
              obtain ⟨m, rfl, w4, o4⟩ := S.stmt _ _ _ _ _ hxr.tail.right.right.tail.right.tail h5
              exact ⟨Kw.kFor.tok :: .lpar :: l1 ++ l2 ++ .term :: l3 ++ .rpar :: m, by simp [Kw.tok], .fors w1 w2 w3 w4, o4⟩
            · rw [step_switch] at h
              simp only [Out.bind_ok, need_ok] at h
              obtain ⟨e, r1, h1, _, r2, ⟨rfl, rfl⟩, ⟨cs, d⟩, r3, h3, h4⟩ := h
              cases h4
              obtain ⟨l, rfl, w1⟩ := parenExpr_read h1
              obtain ⟨m, rfl, w2⟩ := S.cases _ _ _ _ _ hxr.right.tail.tail h3
              exact ⟨Kw.kSwitch.tok :: .lpar :: l ++ .rpar :: Kw.lbrace.tok :: m, by simp [Kw.tok], .switch w1 w2, nofun⟩
            · rw [step_block] at h
              simp only [Out.bind_ok] at h
              obtain ⟨ss, r1, h1, h2⟩ := h
              cases h2
              obtain ⟨m, rfl, w⟩ := S.block _ _ _ _ hxr h1
              exact ⟨Kw.lbrace.tok :: m, by simp [Kw.tok], .block w, nofun⟩
            · rw [step_ret] at h
              simp only [Out.bind_ok] at h
              obtain ⟨e, r1, h1, h2⟩ := h
              cases h2
              obtain ⟨l, rfl, w⟩ := optExpr_read h1
              exact ⟨Kw.kReturn.tok :: l ++ [.term], by simp [Kw.tok], .ret w, nofun⟩
            · rw [step_brk] at h
              simp only [Out.bind_ok, need_ok] at h
              obtain ⟨_, r1, ⟨_, rfl⟩, h2⟩ := h
              cases i with
              | false => cases h2
              | true => cases h2; exact ⟨[Kw.kBreak.tok, .term], rfl, .brk, nofun⟩
            · rw [step_cont] at h
              simp only [Out.bind_ok, need_ok] at h
              obtain ⟨_, r1, ⟨_, rfl⟩, h2⟩ := h
              cases i with
              | false => cases h2
              | true => cases h2; exact ⟨[Kw.kContinue.tok, .term], rfl, .cont, nofun⟩
            · rw [step_assert] at h
              simp only [Out.bind_ok, need_ok] at h
              obtain ⟨e, r1, h1, rfl, rfl⟩ := h
              obtain ⟨l, rfl, w⟩ := parenExpr_read h1
              exact ⟨Kw.kAssert.tok :: .lpar :: l ++ [.rpar, .term], by simp [Kw.tok], .assert w, nofun⟩
            · rw [step_delete] at h
              simp only [Out.bind_ok, need_ok] at h
              obtain ⟨e, r1, h1, rfl, rfl⟩ := h
              obtain ⟨l, rfl, w⟩ := expr_read h1
              exact ⟨Kw.kDelete.tok :: l ++ [.term], by simp [Kw.tok], .delete w, nofun⟩
            · exact absurd (List.mem_cons_self ..) hx
        · rw [step_expr f a i hd (fun n r h => ho ⟨n, r, h⟩)] at h
          simp only [Out.bind_ok, need_ok] at h
          obtain ⟨e, r, h1, rfl, rfl⟩ := h
          obtain ⟨l, rfl, w⟩ := expr_read h1
          exact ⟨l ++ [.term], by simp, .expr w, nofun⟩
    · intro i ts ss rest hx h
      by_cases hh : ts.head? = some Kw.rbrace.tok
      · rw [head_cons hh, block_done] at h
        cases h
        exact ⟨[Kw.rbrace.tok], head_cons hh, .done⟩
      · rw [block_next f i hh] at h
        simp only [Out.bind_ok] at h
        obtain ⟨s, r1, h1, ss', r2, h2, h3⟩ := h
        cases h3
        obtain ⟨l, rfl, w1, _⟩ := S.stmt _ _ _ _ _ hx h1
        obtain ⟨m, rfl, w2⟩ := S.block _ _ _ _ hx.right h2
        exact ⟨l ++ m, by simp, .next w1 w2⟩
    · intro i ts cs d rest hx h
      by_cases h1 : ts.head? = some Kw.rbrace.tok
      · rw [head_cons h1, cases_done] at h
        cases h
        exact ⟨[Kw.rbrace.tok], head_cons h1, .noCase⟩
      by_cases h2 : ts.head? = some Kw.kCase.tok
      · have ht := head_cons h2
        generalize ts.tail = r at ht
        subst ht
        rw [cases_case] at h
        simp only [Out.bind_ok, need_ok] at h
        obtain ⟨es, r1, h3, _, r2, ⟨rfl, rfl⟩, s, r4, h5, ⟨cs', d'⟩, r6, h7, h8⟩ := h
        cases h8
        obtain ⟨l, rfl, w1⟩ := caseExprs_read h3
        obtain ⟨m, rfl, w2, _⟩ := S.stmt _ _ _ _ _ hx.tail.right.tail h5
        obtain ⟨n, rfl, w3⟩ := S.cases _ _ _ _ _ hx.tail.right.tail.right h7
        exact ⟨Kw.kCase.tok :: l ++ .colon :: m ++ n, by simp, .case w1 w2 w3⟩
      by_cases h3 : ts.head? = some Kw.kDefault.tok
      · have ht := head_cons h3
        generalize ts.tail = r at ht
        subst ht
        rw [cases_dflt] at h
        simp only [Out.bind_ok, need_ok] at h
        obtain ⟨_, r1, ⟨_, rfl⟩, s, r2, h4, h5, rfl⟩ := h
        cases h5
        obtain ⟨l, rfl, w, _⟩ := S.stmt _ _ _ _ _ hx.tail.tail h4
        exact ⟨Kw.kDefault.tok :: .colon :: l ++ [Kw.rbrace.tok], by simp, .dflt w⟩
      · rw [cases.eq_def] at h
        simp only at h
        rw [if_neg h1, if_neg h2, if_neg h3] at h
        cases h

/-! ### Termination -/

theorem parenExpr_len {e : Ex} {ts rest : List Tok} (h : parenExpr ts = .ok e rest) : rest.length < ts.length := by
  obtain ⟨l, rfl, _⟩ := parenExpr_read h
  simp only [List.length_append, List.length_cons]; omega

theorem need_len {α : Type} {t : Tok} {a b : α} {ts rest : List Tok} (h : need t a ts = .ok b rest) : rest.length < ts.length := by
  obtain ⟨_, rfl⟩ := need_ok.1 h
  simp

theorem optExpr_len {e : Option Ex} {t : Tok} {ts rest : List Tok} (h : optExpr t ts = .ok e rest) : rest.length < ts.length := by
  obtain ⟨l, rfl, _⟩ := optExpr_read h
  simp only [List.length_append, List.length_cons]; omega

theorem forInit_len {e : Init} {ts rest : List Tok} (h : forInit ts = .ok e rest) : rest.length ≤ ts.length := by
  obtain ⟨l, rfl, _⟩ := forInit_read h
  simp

theorem expr_len {e : Ex} {ts rest : List Tok} (h : expr ts = .ok e rest) : rest.length ≤ ts.length := by
  obtain ⟨l, rfl, _⟩ := expr_read h
  simp

theorem caseExprs_len {e : List Ex} {ts rest : List Tok} (h : caseExprs ts = .ok e rest) : rest.length ≤ ts.length := by
  obtain ⟨l, rfl, _⟩ := caseExprs_read h
  simp

theorem tail_len (ts : List Tok) : ts.tail.length ≤ ts.length := by simp

/-- Something is read. -/
structure SLen (f : Nat) : Prop where
  stmt : ∀ a i ts s rest, stmt f a i ts = .ok s rest → rest.length < ts.length
  block : ∀ i ts ss rest, block f i ts = .ok ss rest → rest.length < ts.length
  cases : ∀ i ts cd rest, cases f i ts = .ok cd rest → rest.length < ts.length

theorem slen : ∀ f, SLen f
  | 0 => by
    constructor
    · intro a i ts s rest h; rw [stmt.eq_def] at h; cases h
    · intro i ts s rest h; rw [block.eq_def] at h; cases h
    · intro i ts cd rest h; rw [cases.eq_def] at h; cases h
  | f+1 => by
    have S := slen f
    constructor
    · intro a i ts s rest h
      cases hd : declStart ts with
      | true =>
        cases a with
        | false => rw [step_nodecl f i hd] at h; cases h
        | true =>
          rw [step_decl f i hd] at h
          simp only [Out.bind_ok, need_ok] at h
          obtain ⟨d, r, h1, rfl, rfl⟩ := h
          obtain ⟨l, rfl, _⟩ := newDecl_read h1 hd
          simp only [List.length_append, List.length_cons]; omega
      | false =>
        by_cases ho : ∃ n r, ts = .other n :: r
        · obtain ⟨n, r, rfl⟩ := ho
          obtain ⟨k, rfl, hk⟩ := step_other f a i n r s rest h
          have h : stmt (f + 1) a i (k.tok :: r) = .ok s rest := h
          simp only [List.length_cons]
          rcases hk with hk | hk
          · have : declStart (.other k.code :: r) = true := by simp only [declStart, Kw.of_code]; exact hk
            rw [hd] at this; cases this
          · simp only [List.mem_cons, List.not_mem_nil, or_false] at hk
            rcases hk with rfl | rfl | rfl | rfl | rfl | rfl | rfl | rfl | rfl | rfl | rfl | rfl
            · rw [step_if] at h
              simp only [Out.bind_ok] at h
              obtain ⟨c, r1, h1, t, r2, h2, h3⟩ := h
              have l1 := parenExpr_len h1
              have l2 := S.stmt _ _ _ _ _ h2
              split at h3
              · simp only [Out.bind_ok] at h3
                obtain ⟨e, r3, h4, h5⟩ := h3
                cases h5
                have l3 := S.stmt _ _ _ _ _ h4
                have := tail_len r2
                omega
              · cases h3; omega
            · rw [step_while] at h
              simp only [Out.bind_ok] at h
              obtain ⟨c, r1, h1, b, r2, h2, h3⟩ := h
              cases h3
              have l1 := parenExpr_len h1
              have l2 := S.stmt _ _ _ _ _ h2
              omega
            · rw [step_do] at h
              simp only [Out.bind_ok] at h
              obtain ⟨b, r1, h1, _, r2, h2, c, r3, h3, h4⟩ := h
              have l1 := S.stmt _ _ _ _ _ h1
              have l2 := need_len h2
              have l3 := parenExpr_len h3
              have l4 := need_len h4
              omega
            · rw [step_for] at h
              simp only [Out.bind_ok] at h
              obtain ⟨_, r1, h1, ini, r2, h2, c, r3, h3, s', r4, h4, b, r5, h5, h6⟩ := h
              cases h6
              have l1 := need_len h1
              have l2 := forInit_len h2
              have l3 := optExpr_len h3
              have l4 := optExpr_len h4
              have l5 := S.stmt _ _ _ _ _ h5
              omega
            · rw [step_switch] at h
              simp only [Out.bind_ok] at h
              obtain ⟨e, r1, h1, _, r2, h2, cd, r3, h3, h4⟩ := h
              cases h4
              have l1 := parenExpr_len h1
              have l2 := need_len h2
              have l3 := S.cases _ _ _ _ h3
              omega
            · rw [step_block] at h
              simp only [Out.bind_ok] at h
              obtain ⟨ss, r1, h1, h2⟩ := h
              cases h2
              have l1 := S.block _ _ _ _ h1
              omega
            · rw [step_ret] at h
              simp only [Out.bind_ok] at h
              obtain ⟨e, r1, h1, h2⟩ := h
              cases h2
              have l1 := optExpr_len h1
              omega
            · rw [step_brk] at h
              simp only [Out.bind_ok] at h
              obtain ⟨_, r1, h1, h2⟩ := h
              have l1 := need_len h1
              cases i <;> cases h2
              omega
            · rw [step_cont] at h
              simp only [Out.bind_ok] at h
              obtain ⟨_, r1, h1, h2⟩ := h
              have l1 := need_len h1
              cases i <;> cases h2
              omega
            · rw [step_assert] at h
              simp only [Out.bind_ok] at h
              obtain ⟨e, r1, h1, h2⟩ := h
              have l1 := parenExpr_len h1
              have l2 := need_len h2
              omega
            · rw [step_delete] at h
              simp only [Out.bind_ok] at h
              obtain ⟨e, r1, h1, h2⟩ := h
              have l1 := expr_len h1
              have l2 := need_len h2
              omega
            · rw [step_exit] at h
              split at h
              · simp only [Out.bind_ok] at h
                obtain ⟨e, r1, h1, h2⟩ := h
                have l1 := expr_len h1
                have l2 := need_len h2
                have := tail_len r
                omega
              · cases h; omega
        · rw [step_expr f a i hd (fun n r h => ho ⟨n, r, h⟩)] at h
          simp only [Out.bind_ok] at h
          obtain ⟨e, r1, h1, h2⟩ := h
          have l1 := expr_len h1
          have l2 := need_len h2
          omega
    · intro i ts ss rest h
      by_cases hh : ts.head? = some Kw.rbrace.tok
      · have ht := head_cons hh
        generalize ts.tail = r at ht
        subst ht
        rw [block_done] at h
        cases h
        simp
      · rw [block_next f i hh] at h
        simp only [Out.bind_ok] at h
        obtain ⟨s, r1, h1, ss', r2, h2, h3⟩ := h
        cases h3
        have l1 := S.stmt _ _ _ _ _ h1
        have l2 := S.block _ _ _ _ h2
        omega
    · intro i ts cd rest h
      rw [cases.eq_def] at h
      simp only at h
      have hl := tail_len ts
      split at h
      · rename_i h1
        cases h
        rw [head_cons h1]; simp
      split at h
      · simp only [Out.bind_ok] at h
        obtain ⟨es, r1, h3, _, r2, h4, s, r4, h5, cd', r6, h7, h8⟩ := h
        cases h8
        have l1 := caseExprs_len h3
        have l2 := need_len h4
        have l3 := S.stmt _ _ _ _ _ h5
        have l4 := S.cases _ _ _ _ h7
        omega
      split at h
      · simp only [Out.bind_ok] at h
        obtain ⟨_, r1, h3, s, r2, h4, h5⟩ := h
        have l1 := need_len h3
        have l2 := S.stmt _ _ _ _ _ h4
        have l3 := need_len h5
        omega
      · cases h

/-- There is enough fuel. -/
structure STerm (f : Nat) : Prop where
  stmt : ∀ a i ts, 2 * ts.length + 1 ≤ f → stmt f a i ts ≠ .fuel
  block : ∀ i ts, 2 * ts.length + 2 ≤ f → block f i ts ≠ .fuel
  cases : ∀ i ts, 2 * ts.length + 2 ≤ f → cases f i ts ≠ .fuel

theorem ok_fuel {α : Type} {a : α} {r : List Tok} : Out.ok a r ≠ .fuel := by nofun

theorem sterm : ∀ f, STerm f
  | 0 => by constructor <;> intros <;> omega
  | f+1 => by
    have T := sterm f
    have L := slen f
    constructor
    · intro a i ts hf
      rw [stmt.eq_def]
      simp only
      split
      · split
        · exact Out.bind_fuel (newDecl_fuel _) fun _ _ _ => need_fuel
        · nofun
      split
      · rename_i n r
        simp only [List.length_cons] at hf
        split
        · refine Out.bind_fuel (parenExpr_fuel _) fun c r1 h1 => ?_
          have l1 := parenExpr_len h1
          refine Out.bind_fuel (T.stmt _ _ _ (by omega)) fun t r2 h2 => ?_
          have l2 := L.stmt _ _ _ _ _ h2
          have l3 := tail_len r2
          split
          · exact Out.bind_fuel (T.stmt _ _ _ (by omega)) fun _ _ _ => ok_fuel
          · nofun
        · refine Out.bind_fuel (parenExpr_fuel _) fun c r1 h1 => ?_
          have l1 := parenExpr_len h1
          exact Out.bind_fuel (T.stmt _ _ _ (by omega)) fun _ _ _ => ok_fuel
        · exact Out.bind_fuel (T.stmt _ _ _ (by omega)) fun _ _ _ => Out.bind_fuel need_fuel fun _ _ _ =>
            Out.bind_fuel (parenExpr_fuel _) fun _ _ _ => need_fuel
        · refine Out.bind_fuel need_fuel fun _ r1 h1 => Out.bind_fuel (forInit_fuel _) fun _ r2 h2 =>
            Out.bind_fuel (optExpr_fuel _ _) fun _ r3 h3 => Out.bind_fuel (optExpr_fuel _ _) fun _ r4 h4 => ?_
          have l1 := need_len h1
          have l2 := forInit_len h2
          have l3 := optExpr_len h3
          have l4 := optExpr_len h4
          exact Out.bind_fuel (T.stmt _ _ _ (by omega)) fun _ _ _ => ok_fuel
        · refine Out.bind_fuel (parenExpr_fuel _) fun _ r1 h1 => Out.bind_fuel need_fuel fun _ r2 h2 => ?_
          have l1 := parenExpr_len h1
          have l2 := need_len h2
          exact Out.bind_fuel (T.cases _ _ (by omega)) fun _ _ _ => ok_fuel
        · exact Out.bind_fuel (T.block _ _ (by omega)) fun _ _ _ => ok_fuel
        · exact Out.bind_fuel (optExpr_fuel _ _) fun _ _ _ => ok_fuel
        · exact Out.bind_fuel need_fuel fun _ _ _ => by cases i <;> nofun
        · exact Out.bind_fuel need_fuel fun _ _ _ => by cases i <;> nofun
        · exact Out.bind_fuel (parenExpr_fuel _) fun _ _ _ => need_fuel
        · exact Out.bind_fuel (expr_fuel _) fun _ _ _ => need_fuel
        · split
          · exact Out.bind_fuel (expr_fuel _) fun _ _ _ => need_fuel
          · nofun
        · nofun
      · exact Out.bind_fuel (expr_fuel _) fun _ _ _ => need_fuel
    · intro i ts hf
      rw [block.eq_def]
      simp only
      split
      · nofun
      · refine Out.bind_fuel (T.stmt _ _ _ (by omega)) fun _ r1 h1 => ?_
        have l1 := L.stmt _ _ _ _ _ h1
        exact Out.bind_fuel (T.block _ _ (by omega)) fun _ _ _ => ok_fuel
    · intro i ts hf
      rw [cases.eq_def]
      simp only
      have l0 := tail_len ts
      split
      · nofun
      split
      · refine Out.bind_fuel (caseExprs_fuel _) fun _ r1 h1 => Out.bind_fuel need_fuel fun _ r2 h2 => ?_
        have l1 := caseExprs_len h1
        have l2 := need_len h2
        refine Out.bind_fuel (T.stmt _ _ _ (by omega)) fun _ r3 h3 => ?_
        have l3 := L.stmt _ _ _ _ _ h3
        exact Out.bind_fuel (T.cases _ _ (by omega)) fun _ _ _ => ok_fuel
      split
      · refine Out.bind_fuel need_fuel fun _ r1 h1 => ?_
        have l1 := need_len h1
        exact Out.bind_fuel (T.stmt _ _ _ (by omega)) fun _ _ _ => need_fuel
      · nofun

end Verif.Parse

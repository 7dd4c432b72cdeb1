import Verif.Spec.StmtGrammar
import Verif.Props.C59
/-! The statement parser reads what the grammar of statements says. -/
namespace Verif.Parse

/-! ### Keywords -/

theorem Kw.of_code (k : Kw) : Kw.of k.code = some k := by cases k <;> decide

theorem Kw.of_some {n : Nat} {k : Kw} (h : Kw.of n = some k) : n = k.code := by
  have hn : n < 20 := by
    unfold Kw.of at h
    exact (List.getElem?_eq_some_iff.1 h).1
  have : ∀ n < 20, ∀ k, Kw.of n = some k → n = k.code := by
    intro n hn
    have := (by decide : ∀ n < 20, (match Kw.of n with | some k => decide (n = k.code) | none => false) = true) n hn
    intro k hk
    rw [hk] at this
    simpa using this
  exact this n hn k h

theorem Kw.tok_inj {k j : Kw} (h : k.tok = j.tok) : k = j := by
  have h : k.code = j.code := by cases h' : k.tok <;> simp_all [Kw.tok]
  have := Kw.of_code k
  rw [h, Kw.of_code] at this
  cases this; rfl

/-! ### Expressions -/

theorem hier14_le {semi tg : Bool} {ts : List Tok} {f : Nat} : ∀ d, Le (hier14 semi f tg ts) (hier14 semi (f + d) tg ts)
  | 0 => Le.refl _
  | d + 1 => (hier14_le d).trans ((mono semi (f + d)).hier14 tg ts)

theorem expr_ok {e : Ex} {l rest : List Tok} (h : WritesExpr true true e l) (hr : Ends true rest) : expr (l ++ rest) = .ok e rest :=
  (C59_parse true true _ rest e hr).2 ⟨l, rfl, h⟩

theorem expr_read {e : Ex} {ts rest : List Tok} (h : expr ts = .ok e rest) : ∃ l, ts = l ++ rest ∧ WritesExpr true true e l :=
  C59_read_is_written true true ts rest e h

theorem expr_fuel (ts : List Tok) : expr ts ≠ .fuel := C59_terminates true true ts

theorem asgExpr_ok {e : Ex} {l rest : List Tok} (h : Writes true true (.ex 14 e) l) (hr : NoCont true 14 rest) :
    asgExpr (l ++ rest) = .ok e rest := by
  have h1 : Strong true true 14 e l := comp h
  obtain ⟨n, h2⟩ := h1.ex14 hr
  have h3 := h2 (20 * (l ++ rest).length + 20 + n) (by omega)
  have h4 := hier14_le (semi := true) (tg := true) (ts := l ++ rest) (f := 20 * (l ++ rest).length + 20) n
    ((term true _).hier14 _ _ (by omega))
  simp only at h3
  rw [h3] at h4
  exact h4.symm

theorem asgExpr_read {e : Ex} {ts rest : List Tok} (h : asgExpr ts = .ok e rest) :
    ∃ l, ts = l ++ rest ∧ Writes true true (.ex 14 e) l := (sound true _).hier14 _ _ _ _ h

theorem asgExpr_fuel (ts : List Tok) : asgExpr ts ≠ .fuel := (term true _).hier14 _ _ (by omega)

theorem caseExprs_ok {es : List Ex} {l rest : List Tok} (h : Writes true false (.list es) l) (hr : Ends true rest) :
    caseExprs (l ++ rest) = .ok es rest := by
  obtain ⟨n, h2⟩ := comp h rest (ends_noCont hr) (ends_comma hr)
  have h3 := h2 (20 * (l ++ rest).length + 20 + n) (by omega)
  have h4 := exprs_le (semi := true) (tg := false) (ts := l ++ rest) (f := 20 * (l ++ rest).length + 20) n
    ((term true _).exprs _ _ (by omega))
  simp only at h3
  rw [h3] at h4
  exact h4.symm

theorem caseExprs_read {es : List Ex} {ts rest : List Tok} (h : caseExprs ts = .ok es rest) :
    ∃ l, ts = l ++ rest ∧ Writes true false (.list es) l := (sound true _).exprs _ _ _ _ h

theorem caseExprs_fuel (ts : List Tok) : caseExprs ts ≠ .fuel := (term true _).exprs _ _ (by omega)

theorem ends_cons {t : Tok} {r : List Tok} (h : t.continues true = false) : Ends true (t :: r) := by
  intro t' r' h'; cases h'; exact h

theorem expr_head {e : Ex} {l : List Tok} (h : WritesExpr true true e l) : ∃ t r, l = t :: r ∧ starts 14 true t = true := by
  rcases h with h | ⟨es, _, _, h⟩
  · exact head h
  · cases h with
    | one h => exact head h
    | more h _ => obtain ⟨t, r, rfl, h'⟩ := head h; exact ⟨_, _, rfl, h'⟩

theorem asg_head {e : Ex} {l : List Tok} (h : Writes true true (.ex 14 e) l) : ∃ t r, l = t :: r ∧ starts 14 true t = true := head h

theorem exprs_empty_index (m s : Nat) (r : List Tok) : exprs true (m + 60) true (.sym s false :: .lbr :: .rbr :: r) = .reject := by rfl

/-- No expression starts as a declaration does. -/
theorem expr_not_decl {e : Ex} {l rest : List Tok} (h : WritesExpr true true e l)
    (hr : ∀ t r, rest = t :: r → t ≠ .lbr ∧ ∀ s c, t ≠ .sym s c) : declStart (l ++ rest) = false := by
  obtain ⟨t, r, rfl, ht⟩ := expr_head h
  cases t with
  | other n => cases ht
  | sym s c =>
    cases c with
    | true => cases r <;> rfl
    | false =>
      cases r with
      | nil =>
        cases rest with
        | nil => rfl
        | cons t' r' =>
          obtain ⟨h1, h2⟩ := hr _ _ rfl
          cases t' <;> first | rfl | exact absurd rfl h1 | exact absurd rfl (h2 _ _)
      | cons t' r' =>
        cases t' with
        | sym s' c' =>
          cases c' with
          | true => cases r' <;> rfl
          | false =>
            exfalso
            have h1 := expr_ok (rest := []) h (fun _ _ h => nomatch h)
            have h2 : expr ([.sym s false] ++ .sym s' false :: r') = .ok (.sym s) (.sym s' false :: r') :=
              expr_ok (.inl (writes_up' (.sym s (.inr rfl)) 14 (by decide) (by decide))) (ends_cons rfl)
            simp only [List.append_nil, List.cons_append, List.nil_append] at h1 h2
            rw [h1] at h2
            cases h2
        | lbr =>
          cases r' with
          | nil =>
            cases rest with
            | nil => rfl
            | cons t2 r2 =>
              cases t2 with
              | rbr =>
                exfalso
                have h1 := expr_ok (rest := []) h (fun _ _ h => nomatch h)
                have h2 : expr ([.sym s false, .lbr] ++ []) = .reject := rfl
                rw [h2] at h1
                cases h1
              | _ => rfl
          | cons t2 r2 =>
            cases t2 with
            | rbr =>
              exfalso
              have h1 := expr_ok (rest := []) h (fun _ _ h => nomatch h)
              unfold expr parseExpr at h1
              rw [List.append_nil, show 20 * (Tok.sym s false :: .lbr :: .rbr :: r2).length + 20 = (20 * r2.length + 20) + 60 by
                simp only [List.length_cons]; omega, exprs_empty_index] at h1
              cases h1
            | _ => rfl
        | _ => rfl
  | _ => rfl

theorem parenExpr_ok {e : Ex} {l rest : List Tok} (h : WritesExpr true true e l) :
    parenExpr (.lpar :: l ++ .rpar :: rest) = .ok e rest := by
  unfold parenExpr
  show Out.bind (expr (l ++ .rpar :: rest)) _ = _
  rw [expr_ok h (ends_cons rfl)]
  rfl

theorem parenExpr_read {e : Ex} {ts rest : List Tok} (h : parenExpr ts = .ok e rest) :
    ∃ l, ts = .lpar :: l ++ .rpar :: rest ∧ WritesExpr true true e l := by
  unfold parenExpr at h
  simp only [Out.bind_ok, need_ok] at h
  obtain ⟨_, r1, ⟨_, rfl⟩, e', r2, h1, rfl, rfl⟩ := h
  obtain ⟨l, rfl, hw⟩ := expr_read h1
  exact ⟨l, rfl, hw⟩

theorem parenExpr_fuel (ts : List Tok) : parenExpr ts ≠ .fuel :=
  Out.bind_fuel need_fuel fun _ _ _ => Out.bind_fuel (expr_fuel _) fun _ _ _ => need_fuel

theorem optExpr_ok {e : Option Ex} {close : Tok} {l rest : List Tok} (h : WOpt e l) (hc : close.continues true = false)
    (hs : starts 14 true close = false) : optExpr close (l ++ close :: rest) = .ok e rest := by
  cases h with
  | none => simp [optExpr]
  | @some e l h =>
    obtain ⟨t, r, rfl, ht⟩ := expr_head h
    have hne : t ≠ close := by rintro rfl; rw [hs] at ht; cases ht
    have := expr_ok (rest := close :: rest) h (ends_cons hc)
    simp only [List.cons_append] at this ⊢
    simp only [optExpr]
    rw [if_neg hne, this]
    simp [Out.bind, need]

theorem optExpr_read {e : Option Ex} {close : Tok} {ts rest : List Tok} (h : optExpr close ts = .ok e rest) :
    ∃ l, ts = l ++ close :: rest ∧ WOpt e l := by
  unfold optExpr at h
  cases ts with
  | nil => cases h
  | cons t r =>
    simp only at h
    by_cases hc : t = close
    · rw [if_pos hc] at h
      cases h; subst hc
      exact ⟨[], rfl, .none⟩
    · rw [if_neg hc] at h
      simp only [Out.bind_ok, need_ok] at h
      obtain ⟨e', r', h1, rfl, rfl⟩ := h
      obtain ⟨l, h2, hw⟩ := expr_read h1
      exact ⟨l, h2, .some hw⟩

theorem optExpr_fuel (close : Tok) (ts : List Tok) : optExpr close ts ≠ .fuel := by
  unfold optExpr
  cases ts with
  | nil => nofun
  | cons t r =>
    simp only
    split
    · nofun
    · exact Out.bind_fuel (expr_fuel _) fun _ _ _ => need_fuel

/-! ### Declarations -/

theorem preDims_ok (n : Nat) {rest : List Tok} (hr : ∀ r, rest ≠ .lbr :: r) : preDims (brackets n ++ rest) = .ok n rest := by
  induction n with
  | zero =>
    simp only [brackets, List.nil_append]
    cases rest with
    | nil => rfl
    | cons t r => cases t <;> first | exact absurd rfl (hr r) | rfl
  | succ n ih =>
    simp only [brackets, List.cons_append, preDims]
    rw [ih]
    rfl

theorem preDims_read (ts : List Tok) : ∀ {n : Nat} {rest : List Tok}, preDims ts = .ok n rest →
    ts = brackets n ++ rest := by
  fun_induction preDims ts with
  | case1 r ih =>
    intro n rest h
    simp only [Out.bind_ok] at h
    obtain ⟨m, r', h1, h2⟩ := h
    cases h2
    rw [ih h1]; rfl
  | case2 => nofun
  | case3 => intro n rest h; cases h; rfl

theorem preDims_fuel (ts : List Tok) : preDims ts ≠ .fuel := by
  fun_induction preDims ts with
  | case1 r ih => exact Out.bind_fuel ih fun _ _ _ => by nofun
  | case2 => nofun
  | case3 => nofun

theorem postDims_nil (f : Nat) {ts : List Tok} (h : ∀ r, ts ≠ .lbr :: r) : postDims (f + 1) ts = .ok [] ts := by
  rw [postDims.eq_def]
  simp only

theorem postDims_unsized (f : Nat) (r : List Tok) :
    postDims (f + 1) (.lbr :: .rbr :: r) = (postDims f r).bind fun ds r => .ok (none :: ds) r := by
  rw [postDims.eq_def]

theorem postDims_sized (f : Nat) {ts : List Tok} (h : ∀ r, ts ≠ .rbr :: r) :
    postDims (f + 1) (.lbr :: ts) = (asgExpr ts).bind fun e r => (need .rbr e r).bind fun e r => (postDims f r).bind fun ds r =>
      .ok (some e :: ds) r := by
  rw [postDims.eq_def]
  simp only

theorem postDims_ok {ds : List (Option Ex)} {l : List Tok} (h : WDims ds l) : ∀ (f : Nat) (rest : List Tok), l.length + 1 ≤ f →
    (∀ r, rest ≠ .lbr :: r) → postDims f (l ++ rest) = .ok ds rest := by
  induction h with
  | nil =>
    intro f rest hf hr
    obtain ⟨f, rfl⟩ : ∃ g, f = g + 1 := ⟨f - 1, by omega⟩
    simp only [List.nil_append]
    exact postDims_nil f hr
  | unsized _ ih =>
    intro f rest hf hr
    obtain ⟨f, rfl⟩ : ∃ g, f = g + 1 := ⟨f - 1, by omega⟩
    simp only [List.cons_append, List.length_cons] at hf ⊢
    rw [postDims_unsized, ih f rest (by omega) hr]
    rfl
  | @sized e ds l ts h _ ih =>
    intro f rest hf hr
    obtain ⟨f, rfl⟩ : ∃ g, f = g + 1 := ⟨f - 1, by omega⟩
    obtain ⟨t, r, rfl, ht⟩ := asg_head h
    have h1 := asgExpr_ok (rest := .rbr :: (ts ++ rest)) h (NoCont.cons rfl)
    simp only [List.cons_append, List.append_assoc, List.length_cons, List.length_append] at hf h1 ⊢
    rw [postDims_sized f (by rintro r h; cases h; cases ht), h1]
    simp only [Out.bind, need, if_true]
    rw [ih f rest (by omega) hr]

theorem postDims_read : ∀ (f : Nat) {ts : List Tok} {ds : List (Option Ex)} {rest : List Tok}, postDims f ts = .ok ds rest →
    ∃ l, ts = l ++ rest ∧ WDims ds l
  | 0, _, _, _ => by intro h; rw [postDims.eq_def] at h; cases h
  | f+1, ts, ds, rest => by
    intro h
    unfold postDims at h
    split at h
    · split at h
      · simp only [Out.bind_ok] at h
        obtain ⟨ds', r', h1, h2⟩ := h
        cases h2
        obtain ⟨l, rfl, hw⟩ := postDims_read f h1
        exact ⟨.lbr :: .rbr :: l, rfl, .unsized hw⟩
      · simp only [Out.bind_ok, need_ok] at h
        obtain ⟨e, r1, h1, _, r2, ⟨rfl, rfl⟩, ds', r3, h3, h4⟩ := h
        cases h4
        obtain ⟨l1, rfl, hw1⟩ := asgExpr_read h1
        obtain ⟨l2, rfl, hw2⟩ := postDims_read f h3
        exact ⟨.lbr :: l1 ++ .rbr :: l2, by simp, .sized hw1 hw2⟩
    · cases h
      exact ⟨[], rfl, .nil⟩

theorem postDims_fuel : ∀ (f : Nat) (ts : List Tok), ts.length + 1 ≤ f → postDims f ts ≠ .fuel
  | 0, _ => by intro h; omega
  | f+1, ts => by
    intro hf
    unfold postDims
    split
    · split
      · exact Out.bind_fuel (postDims_fuel f _ (by simp only [List.length_cons] at hf; omega)) fun _ _ _ => by nofun
      · refine Out.bind_fuel (asgExpr_fuel _) fun e r1 h1 => Out.bind_fuel need_fuel fun e' r2 h2 => Out.bind_fuel ?_ fun _ _ _ => by nofun
        obtain ⟨l, rfl, _⟩ := asgExpr_read h1
        obtain ⟨_, rfl⟩ := need_ok.1 h2
        refine postDims_fuel f _ ?_
        simp only [List.length_cons, List.length_append] at hf
        omega
    · nofun

theorem WDims.head {ds : List (Option Ex)} {l : List Tok} (h : WDims ds l) : (ds = [] ∧ l = []) ∨ ∃ r, l = .lbr :: r := by
  cases h with
  | nil => exact .inl ⟨rfl, rfl⟩
  | unsized _ => exact .inr ⟨_, rfl⟩
  | sized _ _ => exact .inr ⟨_, rfl⟩

theorem dclDims_ok {pre : Nat} {ds : List (Option Ex)} {l rest : List Tok} (h : WDims ds l) (hp : 0 < pre → ds = [])
    (hr : ∀ r, rest ≠ .lbr :: r) : dclDims pre (l ++ rest) = .ok ds rest := by
  rcases h.head with ⟨rfl, rfl⟩ | ⟨r, rfl⟩
  · simp only [List.nil_append]
    cases rest with
    | nil => rfl
    | cons t r => cases t <;> first | exact absurd rfl (hr r) | rfl
  · have hp : pre = 0 := by
      rcases Nat.eq_zero_or_pos pre with h0 | h0
      · exact h0
      · have := hp h0; subst this; cases h
    have := postDims_ok h ((Tok.lbr :: r ++ rest).length + 1) rest (by simp) hr
    simp only [List.cons_append, dclDims] at this ⊢
    rw [if_pos hp, this]

theorem dclDims_read {pre : Nat} {ds : List (Option Ex)} {ts rest : List Tok} (h : dclDims pre ts = .ok ds rest) :
    ∃ l, ts = l ++ rest ∧ WDims ds l ∧ (0 < pre → ds = []) := by
  unfold dclDims at h
  split at h
  · split at h
    · obtain ⟨l, h1, h2⟩ := postDims_read _ h
      exact ⟨l, h1, h2, fun _ => by omega⟩
    · cases h
  · cases h
    exact ⟨[], rfl, .nil, fun _ => rfl⟩

theorem dclDims_fuel (pre : Nat) (ts : List Tok) : dclDims pre ts ≠ .fuel := by
  unfold dclDims
  split
  · split
    · exact postDims_fuel _ _ (Nat.le_refl _)
    · nofun
  · nofun

/-- What may follow a variable of a declaration: a comma, the semicolon, or nothing. -/
def AfterDcl (rest : List Tok) : Prop := ∀ t r, rest = t :: r → t = .comma ∨ t = .term

theorem dclInit_ok {i : Option Ex} {l rest : List Tok} (h : WInit i l) (hr : AfterDcl rest) : dclInit (l ++ rest) = .ok i rest := by
  cases h with
  | none =>
    simp only [List.nil_append]
    cases rest with
    | nil => rfl
    | cons t r => rcases hr t r rfl with rfl | rfl <;> rfl
  | @some e l h =>
    simp only [List.cons_append, dclInit]
    rw [asgExpr_ok h]
    · rfl
    · intro t r h
      rcases hr t r h with rfl | rfl <;> rfl

theorem dclInit_read {i : Option Ex} {ts rest : List Tok} (h : dclInit ts = .ok i rest) : ∃ l, ts = l ++ rest ∧ WInit i l := by
  unfold dclInit at h
  split at h
  · simp only [Out.bind_ok] at h
    obtain ⟨e, r, h1, h2⟩ := h
    cases h2
    obtain ⟨l, rfl, hw⟩ := asgExpr_read h1
    exact ⟨.asg .plain :: l, rfl, .some hw⟩
  · cases h
    exact ⟨[], rfl, .none⟩

theorem dclInit_fuel (ts : List Tok) : dclInit ts ≠ .fuel := by
  unfold dclInit
  split
  · exact Out.bind_fuel (asgExpr_fuel _) fun _ _ _ => by nofun
  · nofun

theorem WInit.noLbr {i : Option Ex} {l rest : List Tok} (h : WInit i l) (hr : AfterDcl rest) : ∀ r, l ++ rest ≠ .lbr :: r := by
  intro r hh
  cases h with
  | none => rcases hr _ _ hh with h | h <;> cases h
  | some _ => cases hh

/-- Reading a variable after its name. -/
theorem dcl_ok {α : Type} {pre : Nat} {v : Dcl} {l rest : List Tok} (h : WDcl pre v l) (hr : AfterDcl rest)
    (k : List (Option Ex) → Option Ex → List Tok → Out α) :
    ((dclDims pre (l ++ rest)).bind fun ds r => (dclInit r).bind fun i r => k ds i r) = k v.dims v.init rest := by
  obtain ⟨a, b, h1, h2, rfl, h3⟩ := h
  rw [List.append_assoc, dclDims_ok h1 h3 (h2.noLbr hr)]
  simp only [Out.bind]
  rw [dclInit_ok h2 hr]

theorem WDcls.head {pre n : Nat} {vs : List Dcl} {l : List Tok} (h : WDcls pre n vs l) :
    l = [] ∨ ∃ t r, l = t :: r ∧ (t = .lbr ∨ t = .asg .plain ∨ t = .comma) := by
  have hd : ∀ {v : Dcl} {l : List Tok}, WDcl pre v l → l = [] ∨ ∃ t r, l = t :: r ∧ (t = .lbr ∨ t = .asg .plain ∨ t = .comma) := by
    intro ⟨vn, vd, vi⟩ l ⟨a, b, h1, h2, h3, _⟩
    subst h3
    simp only at h1 h2
    rcases h1.head with ⟨_, rfl⟩ | ⟨r, rfl⟩
    · cases h2 with
      | none => exact .inl rfl
      | some _ => exact .inr ⟨_, _, rfl, .inr (.inl rfl)⟩
    · exact .inr ⟨_, _, rfl, .inl rfl⟩
  cases h with
  | last h => exact hd h
  | more h _ =>
    rcases hd h with rfl | ⟨t, r, rfl, h'⟩
    · exact .inr ⟨_, _, rfl, .inr (.inr rfl)⟩
    · exact .inr ⟨_, _, rfl, h'⟩
  | again h _ =>
    rcases hd h with rfl | ⟨t, r, rfl, h'⟩
    · exact .inr ⟨_, _, rfl, .inr (.inr rfl)⟩
    · exact .inr ⟨_, _, rfl, h'⟩

theorem dcls_ok {pre n : Nat} {vs : List Dcl} {l : List Tok} (h : WDcls pre n vs l) : ∀ (f : Nat) (rest : List Tok), l.length + 1 ≤ f →
    dcls f pre n (l ++ .term :: rest) = .ok vs (.term :: rest) := by
  induction h with
  | last h =>
    intro f rest hf
    obtain ⟨f, rfl⟩ : ∃ g, f = g + 1 := ⟨f - 1, by omega⟩
    simp only [dcls]
    exact dcl_ok h (fun t r h => by cases h; exact .inr rfl) _
  | @more v vs n l r h _ ih =>
    intro f rest hf
    obtain ⟨f, rfl⟩ : ∃ g, f = g + 1 := ⟨f - 1, by omega⟩
    simp only [List.length_append, List.length_cons] at hf
    simp only [dcls, List.append_assoc, List.cons_append]
    refine (dcl_ok h (fun t r h => by cases h; exact .inl rfl) _).trans ?_
    simp only [nextName]
    rw [ih f rest (by omega)]
    rfl
  | @again v vs l r h h' ih =>
    intro f rest hf
    obtain ⟨f, rfl⟩ : ∃ g, f = g + 1 := ⟨f - 1, by omega⟩
    simp only [List.length_append, List.length_cons] at hf
    simp only [dcls, List.append_assoc, List.cons_append]
    refine (dcl_ok h (fun t r h => by cases h; exact .inl rfl) _).trans ?_
    have hn : nextName v.name (r ++ .term :: rest) = (v.name, r ++ .term :: rest) := by
      rcases h'.head with rfl | ⟨t, r, rfl, rfl | rfl | rfl⟩ <;> rfl
    simp only [hn]
    rw [ih f rest (by omega)]
    rfl

theorem nextName_cases (n : Nat) (ts : List Tok) :
    (∃ s r, ts = .sym s false :: r ∧ nextName n ts = (s, r)) ∨ nextName n ts = (n, ts) := by
  unfold nextName
  split
  · exact .inl ⟨_, _, rfl, rfl⟩
  · exact .inr rfl

theorem dcls_read : ∀ (f : Nat) {pre n : Nat} {ts : List Tok} {vs : List Dcl} {rest : List Tok}, dcls f pre n ts = .ok vs rest →
    ∃ l, ts = l ++ rest ∧ WDcls pre n vs l
  | 0, _, _, _, _, _ => by simp [dcls]
  | f+1, pre, n, ts, vs, rest => by
    intro h
    simp only [dcls, Out.bind_ok] at h
    obtain ⟨ds, r1, h1, i, r2, h2, h3⟩ := h
    obtain ⟨l1, rfl, w1, hp⟩ := dclDims_read h1
    obtain ⟨l2, rfl, w2⟩ := dclInit_read h2
    have hv : WDcl pre ⟨n, ds, i⟩ (l1 ++ l2) := ⟨l1, l2, w1, w2, rfl, hp⟩
    split at h3
    · rename_i r3
      simp only [Out.bind_ok] at h3
      obtain ⟨vs', r4, h4, h5⟩ := h3
      cases h5
      rcases nextName_cases n r3 with ⟨s, r, rfl, hn⟩ | hn
      · rw [hn] at h4
        obtain ⟨l, h6, w⟩ := dcls_read f h4
        simp only at h6
        subst h6
        exact ⟨(l1 ++ l2) ++ .comma :: .sym s false :: l, by simp, .more hv w⟩
      · rw [hn] at h4
        obtain ⟨l, h6, w⟩ := dcls_read f h4
        simp only at h6
        subst h6
        exact ⟨(l1 ++ l2) ++ .comma :: l, by simp, .again hv w⟩
    · cases h3
      exact ⟨l1 ++ l2, by simp, .last hv⟩

theorem dcls_fuel : ∀ (f : Nat) (pre n : Nat) (ts : List Tok), ts.length + 1 ≤ f → dcls f pre n ts ≠ .fuel
  | 0, _, _, _ => by intro h; omega
  | f+1, pre, n, ts => by
    intro hf
    unfold dcls
    refine Out.bind_fuel (dclDims_fuel _ _) fun ds r1 h1 => Out.bind_fuel (dclInit_fuel _) fun i r2 h2 => ?_
    obtain ⟨l1, rfl, _, _⟩ := dclDims_read h1
    obtain ⟨l2, rfl, _⟩ := dclInit_read h2
    simp only [List.length_append] at hf
    split
    · rename_i r3
      refine Out.bind_fuel (dcls_fuel f _ _ _ ?_) fun _ _ _ => by nofun
      simp only [List.length_cons] at hf
      rcases nextName_cases n r3 with ⟨s, r, rfl, hn⟩ | hn
      · rw [hn]; simp only [List.length_cons] at hf ⊢; omega
      · rw [hn]; simp only; omega
    · nofun

theorem newDecl_ok {d : DeclS} {l rest : List Tok} (h : WDecl d l) : newDecl (l ++ .term :: rest) = .ok d (.term :: rest) := by
  obtain ⟨n, r, _, h1, rfl⟩ := h
  simp only [List.cons_append, List.append_assoc, newDecl]
  rw [preDims_ok _ (by intro r h; cases h)]
  simp only [Out.bind, needSymbol]
  rw [if_neg (by simp)]
  simp only
  rw [dcls_ok h1 _ rest (by simp only [List.length_append, List.length_cons]; omega)]

theorem isType_tok {t : Tok} :
    (∃ k : Kw, k.isType = true ∧ t = k.tok) ↔ (t = Kw.int.tok ∨ t = Kw.char.tok ∨ t = Kw.void.tok ∨ t = Kw.object.tok) := by
  constructor
  · rintro ⟨k, h, rfl⟩
    cases k <;> simp_all [Kw.isType]
  · rintro (h | h | h | h)
    · exact ⟨.int, rfl, h⟩
    · exact ⟨.char, rfl, h⟩
    · exact ⟨.void, rfl, h⟩
    · exact ⟨.object, rfl, h⟩

theorem newDecl_start {d : DeclS} {l : List Tok} (h : WDecl d l) (rest : List Tok) : declStart (l ++ rest) = true := by
  obtain ⟨n, r, h1, _, rfl⟩ := h
  rcases h1 with h1 | ⟨s, h2⟩
  · obtain ⟨k, h1, h2⟩ := isType_tok.mpr h1
    rw [h2]
    show declStart (.other k.code :: _) = true
    simp only [declStart, Kw.of_code]
    exact h1
  · rw [h2]
    cases d.pre <;> rfl

theorem newDecl_read {d : DeclS} {ts rest : List Tok} (h : newDecl ts = .ok d rest) (hs : declStart ts = true) :
    ∃ l, ts = l ++ rest ∧ WDecl d l := by
  unfold newDecl at h
  cases ts with
  | nil => cases h
  | cons t r =>
    simp only [Out.bind_ok, needSymbol_ok] at h
    obtain ⟨pre, r1, h1, n, r2, ⟨c, hc, rfl⟩, vs, r3, h3, h4⟩ := h
    cases h4
    rcases hc with hc | rfl
    · cases hc
    · obtain rfl := preDims_read _ h1
      obtain ⟨l, rfl, w⟩ := dcls_read _ h3
      refine ⟨t :: brackets pre ++ .sym n false :: l, by simp, n, l, ?_, w, rfl⟩
      generalize brackets pre ++ .sym n false :: (l ++ rest) = q at hs
      unfold declStart at hs
      split at hs
      · rename_i heq
        cases heq
        split at hs
        · rename_i k hk
          exact .inl (isType_tok.mp ⟨k, hs, by rw [Kw.of_some hk]; rfl⟩)
        · cases hs
      · rename_i heq; cases heq; exact .inr ⟨_, rfl⟩
      · rename_i heq; cases heq; exact .inr ⟨_, rfl⟩
      · cases hs

theorem newDecl_fuel (ts : List Tok) : newDecl ts ≠ .fuel := by
  unfold newDecl
  split
  · nofun
  · exact Out.bind_fuel (preDims_fuel _) fun _ _ _ => Out.bind_fuel needSymbol_fuel fun _ _ _ =>
      Out.bind_fuel (dcls_fuel _ _ _ _ (Nat.le_refl _)) fun _ _ _ => by nofun

theorem expr_term_not_decl {e : Ex} {l rest : List Tok} (h : WritesExpr true true e l) : declStart (l ++ .term :: rest) = false :=
  expr_not_decl h fun t r h => by cases h; exact ⟨nofun, nofun⟩

theorem forInit_ok {i : Init} {l : List Tok} (h : WFor i l) (rest : List Tok) : forInit (l ++ rest) = .ok i rest := by
  cases h with
  | none => rfl
  | @decl d l h =>
    have hs := newDecl_start h (.term :: rest)
    simp only [List.append_assoc, List.cons_append, List.nil_append]
    unfold forInit
    split
    · rename_i heq; rw [heq] at hs; cases hs
    · rw [if_pos hs, newDecl_ok h]; rfl
  | @expr e l h =>
    have hs := expr_term_not_decl (rest := rest) h
    simp only [List.append_assoc, List.cons_append, List.nil_append]
    unfold forInit
    split
    · rename_i heq
      obtain ⟨t, r, rfl, ht⟩ := expr_head h
      cases heq; cases ht
    · rw [hs, if_neg (by simp), expr_ok h (ends_cons rfl)]; rfl

theorem forInit_read {i : Init} {ts rest : List Tok} (h : forInit ts = .ok i rest) : ∃ l, ts = l ++ rest ∧ WFor i l := by
  unfold forInit at h
  split at h
  · cases h; exact ⟨[.term], rfl, .none⟩
  · split at h
    · rename_i hs
      simp only [Out.bind_ok, need_ok] at h
      obtain ⟨d, r, h1, rfl, rfl⟩ := h
      obtain ⟨l, rfl, w⟩ := newDecl_read h1 hs
      exact ⟨l ++ [.term], by simp, .decl w⟩
    · simp only [Out.bind_ok, need_ok] at h
      obtain ⟨e, r, h1, rfl, rfl⟩ := h
      obtain ⟨l, rfl, w⟩ := expr_read h1
      exact ⟨l ++ [.term], by simp, .expr w⟩

theorem forInit_fuel (ts : List Tok) : forInit ts ≠ .fuel := by
  unfold forInit
  split
  · nofun
  · split
    · exact Out.bind_fuel (newDecl_fuel _) fun _ _ _ => need_fuel
    · exact Out.bind_fuel (expr_fuel _) fun _ _ _ => need_fuel

end Verif.Parse

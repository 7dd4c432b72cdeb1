import Verif.Spec.Unused

/-! Lemmas for C92. -/
namespace Verif.Unused

/-! ### What a bound tree marks -/

def rdE : BExpr → List Nat
  | .leaf => []
  | .name d => [d]
  | .two a b => rdE a ++ rdE b
  | .assign _ e => rdE e

mutual
def marksS (m : BExpr → List Nat) (p : Bool) : BStm → List Nat
  | .expr e => m e
  | .decl _ init => match init with
    | none => []
    | some e => m e
  | .block _ ss => marksL m p ss
  | .seq ss => marksL m p ss
  | .unused ds => if p then ds.map (·.2) else []
def marksL (m : BExpr → List Nat) (p : Bool) : List BStm → List Nat
  | [] => []
  | s :: ss => marksS m p s ++ marksL m p ss
end

mutual
/-- The variables that are declared, the last one first. -/
def newS : BStm → List Entry
  | .decl d _ => [d]
  | .seq ss => newL ss
  | _ => []
def newL : List BStm → List Entry
  | [] => []
  | s :: ss => newL ss ++ newS s
end

theorem bindE_reads {sc : List (List Entry)} : ∀ (e : Expr) {r : BExpr × List Nat}, bindE sc e = some r → r.2 = rdE r.1
  | .leaf, r, h => by cases h; rfl
  | .name x, r, h => by
    simp only [bindE, Option.map_eq_some_iff] at h
    obtain ⟨e, _, rfl⟩ := h
    rfl
  | .two a b, r, h => by
    simp only [bindE, Option.bind_eq_some_iff, Option.map_eq_some_iff] at h
    obtain ⟨l, hl, q, hq, rfl⟩ := h
    simp only [rdE, bindE_reads a hl, bindE_reads b hq]
  | .assign x e, r, h => by
    simp only [bindE, Option.bind_eq_some_iff, Option.map_eq_some_iff] at h
    obtain ⟨d, _, q, hq, rfl⟩ := h
    simp only [rdE, bindE_reads e hq]

/-- The variables that are marked are those that names refer to. -/
def Matches (m : BExpr → List Nat) (u : Name → Expr → Bool) : Prop :=
  ∀ (sc : List (List Entry)) (e : Expr) (r : BExpr × List Nat), bindE sc e = some r → ∀ d, d ∈ m r.1 ↔ ∃ x en, find sc x = some en ∧ en.2 = d ∧ u x e = true

theorem match_reads : Matches rdE readE := by
  intro sc e
  induction e with
  | leaf => intro r h d; cases h; simp [rdE, readE]
  | name y =>
    intro r h d
    simp only [bindE, Option.map_eq_some_iff] at h
    obtain ⟨e, he, rfl⟩ := h
    simp only [rdE, readE, List.mem_singleton, beq_iff_eq]
    constructor
    · rintro rfl; exact ⟨y, e, he, rfl, rfl⟩
    · rintro ⟨x, en, h1, h2, rfl⟩
      rw [he] at h1; cases h1; exact h2.symm
  | two a b iha ihb =>
    intro r h d
    simp only [bindE, Option.bind_eq_some_iff, Option.map_eq_some_iff] at h
    obtain ⟨l, hl, q, hq, rfl⟩ := h
    simp only [rdE, readE, List.mem_append, iha l hl, ihb q hq, Bool.or_eq_true]
    constructor
    · rintro (⟨x, en, h1, h2, h3⟩ | ⟨x, en, h1, h2, h3⟩)
      · exact ⟨x, en, h1, h2, .inl h3⟩
      · exact ⟨x, en, h1, h2, .inr h3⟩
    · rintro ⟨x, en, h1, h2, h3 | h3⟩
      · exact .inl ⟨x, en, h1, h2, h3⟩
      · exact .inr ⟨x, en, h1, h2, h3⟩
  | assign y e ih =>
    intro r h d
    simp only [bindE, Option.bind_eq_some_iff, Option.map_eq_some_iff] at h
    obtain ⟨k, _, q, hq, rfl⟩ := h
    exact ih q hq d

theorem match_writes : Matches writesE writtenE := by
  intro sc e
  induction e with
  | leaf => intro r h d; cases h; simp [writesE, writtenE]
  | name y =>
    intro r h d
    simp only [bindE, Option.map_eq_some_iff] at h
    obtain ⟨e, he, rfl⟩ := h
    simp [writesE, writtenE]
  | two a b iha ihb =>
    intro r h d
    simp only [bindE, Option.bind_eq_some_iff, Option.map_eq_some_iff] at h
    obtain ⟨l, hl, q, hq, rfl⟩ := h
    simp only [writesE, writtenE, List.mem_append, iha l hl, ihb q hq, Bool.or_eq_true]
    constructor
    · rintro (⟨x, en, h1, h2, h3⟩ | ⟨x, en, h1, h2, h3⟩)
      · exact ⟨x, en, h1, h2, .inl h3⟩
      · exact ⟨x, en, h1, h2, .inr h3⟩
    · rintro ⟨x, en, h1, h2, h3 | h3⟩
      · exact .inl ⟨x, en, h1, h2, h3⟩
      · exact .inr ⟨x, en, h1, h2, h3⟩
  | assign y e ih =>
    intro r h d
    simp only [bindE, Option.bind_eq_some_iff, Option.map_eq_some_iff] at h
    obtain ⟨k, hk, q, hq, rfl⟩ := h
    simp only [writesE, writtenE, List.mem_append, List.mem_singleton, ih q hq, Bool.or_eq_true, beq_iff_eq]
    constructor
    · rintro (⟨x, en, h1, h2, h3⟩ | rfl)
      · exact ⟨x, en, h1, h2, .inr h3⟩
      · exact ⟨y, k, hk, rfl, .inl rfl⟩
    · rintro ⟨x, en, h1, h2, rfl | h3⟩
      · rw [hk] at h1; cases h1; exact .inr h2.symm
      · exact .inl ⟨x, en, h1, h2, h3⟩

/-! ### Scopes -/

theorem find_mem {sc : List (List Entry)} {x : Name} {e : Entry} (h : find sc x = some e) : e ∈ sc.flatten := List.mem_of_find?_eq_some h

theorem find_cons {e : Entry} {t : List Entry} {r : List (List Entry)} {x : Name} :
    find ((e :: t) :: r) x = if e.1.name = x then some e else find (t :: r) x := by
  show ((e :: t) :: r).flatten.find? _ = _
  rw [List.flatten_cons, List.cons_append, List.find?_cons]
  by_cases h : e.1.name = x
  · simp [h]
  · simp only [h, if_false, beq_eq_false_iff_ne.mpr h]
    rfl

theorem find_nil {r : List (List Entry)} {x : Name} : find ([] :: r) x = find r x := rfl

structure Shape (st st' : St) (b : List Entry) (rd : List Nat) : Prop where
  scopes : ∀ t r, st.scopes = t :: r → st'.scopes = (b ++ t) :: r
  reads : st'.reads = st.reads ++ rd
  next : st.next ≤ st'.next
  new : ∀ e ∈ b, st.next ≤ e.2 ∧ e.2 < st'.next

theorem define_ok {st st' : St} {v : Var} (h : st.define v = some st') :
    st'.reads = st.reads ∧ st'.next = st.next + 1 ∧ ∃ t r, st.scopes = t :: r ∧ st'.scopes = ((v, st.next) :: t) :: r := by
  unfold St.define at h
  split at h
  · cases h
  · next t r e =>
    split at h
    · cases h
    · cases h; exact ⟨rfl, rfl, t, r, e, rfl⟩

theorem bindI_reads {sc : List (List Entry)} {i : Option Expr} {r : Option BExpr × List Nat} (h : bindI sc i = some r) (d : Entry) (p : Bool) :
    r.2 = marksS rdE p (.decl d r.1) := by
  cases i with
  | none => cases h; rfl
  | some e =>
    simp only [bindI, Option.map_eq_some_iff] at h
    obtain ⟨q, hq, rfl⟩ := h
    exact bindE_reads e hq

mutual
theorem shapeS : ∀ (s : Stm) {st st' : St} {B : BStm}, bindS st s = some (B, st') → Shape st st' (newS B) (marksS rdE false B)
  | .expr e, st, st', B, h => by
    simp only [bindS, Option.map_eq_some_iff, Prod.mk.injEq] at h
    obtain ⟨r, hr, rfl, rfl⟩ := h
    exact ⟨fun t q e => e, by rw [bindE_reads e hr]; rfl, Nat.le_refl _, fun e h => (nomatch h)⟩
  | .decl v i, st, st', B, h => by
    simp only [bindS] at h
    split at h
    · simp only [Option.bind_eq_some_iff, Option.map_eq_some_iff, Prod.mk.injEq] at h
      obtain ⟨st1, h1, r, hr, rfl, rfl⟩ := h
      obtain ⟨a1, a2, t, q, a3, a4⟩ := define_ok h1
      refine ⟨fun t' r' e => ?_, ?_, by show st.next ≤ st1.next; omega, ?_⟩
      · rw [a3] at e; cases e; exact a4
      · show st1.reads ++ r.2 = _
        rw [a1, bindI_reads hr (v, st.next) false]
      · intro e he
        simp only [newS, List.mem_singleton] at he
        subst he
        show st.next ≤ st.next ∧ st.next < st1.next
        omega
    · simp only [Option.bind_eq_some_iff, Option.map_eq_some_iff, Prod.mk.injEq] at h
      obtain ⟨r, hr, st1, h1, rfl, rfl⟩ := h
      obtain ⟨a1, a2, t, q, a3, a4⟩ := define_ok h1
      dsimp only at a1 a2 a3 a4
      refine ⟨fun t' r' e => ?_, ?_, by omega, ?_⟩
      · rw [a3] at e; cases e; exact a4
      · rw [a1, bindI_reads hr (v, st.next) false]
      · intro e he
        simp only [newS, List.mem_singleton] at he
        subst he
        show st.next ≤ st.next ∧ st.next < st1.next
        omega
  | .block ss, st, st', B, h => by
    simp only [bindS] at h
    split at h
    · cases h
      exact ⟨fun t r e => e, (List.append_nil _).symm, Nat.le_refl _, fun e h => (nomatch h)⟩
    · simp only [Option.map_eq_some_iff, Prod.mk.injEq] at h
      obtain ⟨r, hr, rfl, rfl⟩ := h
      have ih := shapeL ss hr
      refine ⟨fun t q e => ?_, ih.reads, ih.next, fun e h => (nomatch h)⟩
      show r.2.scopes.tail = _
      rw [ih.scopes _ _ rfl, e]
      rfl
  | .seq ss, st, st', B, h => by
    simp only [bindS, Option.map_eq_some_iff, Prod.mk.injEq] at h
    obtain ⟨r, hr, rfl, rfl⟩ := h
    exact shapeL ss hr
  | .unused xs, st, st', B, h => by
    simp only [bindS, Option.map_eq_some_iff, Prod.mk.injEq] at h
    obtain ⟨r, hr, rfl, rfl⟩ := h
    exact ⟨fun t r e => e, (List.append_nil _).symm, Nat.le_refl _, fun e h => (nomatch h)⟩
theorem shapeL : ∀ (ss : List Stm) {st st' : St} {B : List BStm}, bindL st ss = some (B, st') → Shape st st' (newL B) (marksL rdE false B)
  | [], st, st', B, h => by
    cases h
    exact ⟨fun t r e => e, (List.append_nil _).symm, Nat.le_refl _, fun e h => (nomatch h)⟩
  | s :: ss, st, st', B, h => by
    simp only [bindL, Option.bind_eq_some_iff, Option.map_eq_some_iff, Prod.mk.injEq] at h
    obtain ⟨r, hr, q, hq, rfl, rfl⟩ := h
    have h1 := shapeS s hr
    have h2 := shapeL ss hq
    refine ⟨fun t r' e => ?_, ?_, Nat.le_trans h1.next h2.next, fun e he => ?_⟩
    · rw [h2.scopes _ _ (h1.scopes _ _ e), newL, List.append_assoc]
    · rw [h2.reads, h1.reads, marksL, List.append_assoc]
    · have n1 := h1.next
      have n2 := h2.next
      rcases List.mem_append.mp he with he | he
      · have := h2.new e he; omega
      · have := h1.new e he; omega
end

def Wf (st : St) : Prop := st.scopes ≠ [] ∧ ∀ e ∈ st.scopes.flatten, e.2 < st.next

theorem Shape.wf {st st' : St} {b : List Entry} {rd : List Nat} (h : Shape st st' b rd) (hw : Wf st) : Wf st' := by
  obtain ⟨h1, h2⟩ := hw
  cases hs : st.scopes with
  | nil => exact absurd hs h1
  | cons t r =>
    have e := h.scopes t r hs
    have hn := h.next
    rw [hs] at h2
    refine ⟨by rw [e]; exact List.cons_ne_nil _ _, fun x hx => ?_⟩
    rw [e, List.flatten_cons, List.append_assoc, List.mem_append] at hx
    rcases hx with hx | hx
    · exact (h.new x hx).2
    · have := h2 x (by rw [List.flatten_cons]; exact hx)
      omega

theorem wf_enter {st : St} (hw : Wf st) : Wf { st with scopes := [] :: st.scopes } := ⟨List.cons_ne_nil _ _, hw.2⟩

mutual
/-- What names mean after a statement. -/
theorem afterS : ∀ (s : Stm) {st st' : St} {B : BStm}, bindS st s = some (B, st') → Wf st → ∀ x,
    (declares x s = true → ∃ e, find st'.scopes x = some e ∧ st.next ≤ e.2) ∧ (declares x s = false → find st'.scopes x = find st.scopes x)
  | .expr e, st, st', B, h, hw, x => by
    simp only [bindS, Option.map_eq_some_iff, Prod.mk.injEq] at h
    obtain ⟨r, hr, rfl, rfl⟩ := h
    exact ⟨fun h => (nomatch h), fun _ => rfl⟩
  | .decl v i, st, st', B, h, hw, x => by
    have key : ∃ t r, st.scopes = t :: r ∧ st'.scopes = ((v, st.next) :: t) :: r := by
      simp only [bindS] at h
      split at h
      · simp only [Option.bind_eq_some_iff, Option.map_eq_some_iff, Prod.mk.injEq] at h
        obtain ⟨st1, h1, r, hr, rfl, rfl⟩ := h
        exact (define_ok h1).2.2
      · simp only [Option.bind_eq_some_iff, Option.map_eq_some_iff, Prod.mk.injEq] at h
        obtain ⟨r, hr, st1, h1, rfl, rfl⟩ := h
        exact (define_ok h1).2.2
    obtain ⟨t, r, e1, e2⟩ := key
    rw [e1, e2, find_cons]
    simp only [declares, beq_iff_eq, beq_eq_false_iff_ne]
    exact ⟨fun h => ⟨_, by rw [if_pos h], Nat.le_refl _⟩, fun h => by rw [if_neg h]⟩
  | .block ss, st, st', B, h, hw, x => by
    refine ⟨fun h => (nomatch h), fun _ => ?_⟩
    have hs := shapeS (.block ss) h
    have hB : newS B = [] := by
      simp only [bindS] at h
      split at h
      · cases h; rfl
      · simp only [Option.map_eq_some_iff, Prod.mk.injEq] at h
        obtain ⟨r, hr, rfl, rfl⟩ := h
        rfl
    cases e : st.scopes with
    | nil => exact absurd e hw.1
    | cons t r => rw [hs.scopes t r e, hB]; rfl
  | .seq ss, st, st', B, h, hw, x => by
    simp only [bindS, Option.map_eq_some_iff, Prod.mk.injEq] at h
    obtain ⟨r, hr, rfl, rfl⟩ := h
    exact afterL ss hr hw x
  | .unused xs, st, st', B, h, hw, x => by
    simp only [bindS, Option.map_eq_some_iff, Prod.mk.injEq] at h
    obtain ⟨r, hr, rfl, rfl⟩ := h
    exact ⟨fun h => (nomatch h), fun _ => rfl⟩
theorem afterL : ∀ (ss : List Stm) {st st' : St} {B : List BStm}, bindL st ss = some (B, st') → Wf st → ∀ x,
    (declaresL x ss = true → ∃ e, find st'.scopes x = some e ∧ st.next ≤ e.2) ∧ (declaresL x ss = false → find st'.scopes x = find st.scopes x)
  | [], st, st', B, h, hw, x => by
    cases h
    exact ⟨fun h => (nomatch h), fun _ => rfl⟩
  | s :: ss, st, st', B, h, hw, x => by
    simp only [bindL, Option.bind_eq_some_iff, Option.map_eq_some_iff, Prod.mk.injEq] at h
    obtain ⟨r, hr, q, hq, rfl, rfl⟩ := h
    have h1 := shapeS s hr
    obtain ⟨a1, a2⟩ := afterS s hr hw x
    obtain ⟨b1, b2⟩ := afterL ss hq (h1.wf hw) x
    have hn := h1.next
    simp only [declaresL, Bool.or_eq_true, Bool.or_eq_false_iff]
    refine ⟨fun h => ?_, fun h => by rw [b2 h.2, a2 h.1]⟩
    cases hd : declaresL x ss with
    | true =>
      obtain ⟨e, e1, e2⟩ := b1 hd
      exact ⟨e, e1, Nat.le_trans hn e2⟩
    | false =>
      rw [b2 hd]
      rw [hd] at h
      exact a1 (h.resolve_right (fun h => nomatch h))
end

theorem mapM_find {sc : List (List Entry)} : ∀ {xs : List Name} {ds : List Entry}, xs.mapM (find sc) = some ds →
    ∀ d, d ∈ ds.map (·.2) ↔ ∃ x en, find sc x = some en ∧ en.2 = d ∧ x ∈ xs
  | [], ds, h, d => by
    simp at h
    subst h
    simp
  | y :: xs, ds, h, d => by
    simp only [List.mapM_cons, Option.pure_def, Option.bind_eq_bind, Option.bind_eq_some_iff] at h
    obtain ⟨e, he, es, hes, h⟩ := h
    cases h
    simp only [List.map_cons, List.mem_cons, mapM_find hes]
    constructor
    · rintro (rfl | ⟨x, en, h1, h2, h3⟩)
      · exact ⟨y, e, he, rfl, .inl rfl⟩
      · exact ⟨x, en, h1, h2, .inr h3⟩
    · rintro ⟨x, en, h1, h2, rfl | h3⟩
      · rw [he] at h1; cases h1; exact .inl h2.symm
      · exact .inr ⟨x, en, h1, h2, h3⟩

section
variable {m : BExpr → List Nat} {u : Name → Expr → Bool} {p : Bool}

mutual
theorem markS (hm : Matches m u) : ∀ (s : Stm) {st st' : St} {B : BStm}, bindS st s = some (B, st') → Wf st →
    (∀ d ∈ marksS m p B, d < st'.next) ∧
    ∀ d, d < st.next → (d ∈ marksS m p B ↔ ∃ x en, find st.scopes x = some en ∧ en.2 = d ∧ uses u p x s = true)
  | .expr e, st, st', B, h, hw => by
    simp only [bindS, Option.map_eq_some_iff, Prod.mk.injEq] at h
    obtain ⟨r, hr, rfl, rfl⟩ := h
    have := hm _ _ _ hr
    refine ⟨fun d hd => ?_, fun d _ => this d⟩
    obtain ⟨x, en, h1, h2, _⟩ := (this d).mp hd
    rw [← h2]
    exact hw.2 en (find_mem h1)
  | .decl v i, st, st', B, h, hw => by
    have hs := shapeS (.decl v i) h
    have hn := hs.next
    simp only [bindS] at h
    split at h
    · next hc =>
      simp only [Option.bind_eq_some_iff, Option.map_eq_some_iff, Prod.mk.injEq] at h
      obtain ⟨st1, h1, r, hr, rfl, rfl⟩ := h
      have hw1 := hs.wf hw
      obtain ⟨a1, a2, t, q, a3, a4⟩ := define_ok h1
      cases i with
      | none => cases hr; exact ⟨fun d hd => (nomatch hd), fun d _ => ⟨fun hd => (nomatch hd), fun ⟨_, _, _, _, h⟩ => (nomatch h)⟩⟩
      | some e =>
        simp only [bindI, Option.map_eq_some_iff] at hr
        obtain ⟨k, hk, rfl⟩ := hr
        have := hm _ _ _ hk
        refine ⟨fun d hd => ?_, fun d hd => (this d).trans ?_⟩
        · obtain ⟨x, en, h1, h2, _⟩ := (this d).mp hd
          rw [← h2]
          exact hw1.2 en (find_mem h1)
        · simp only [uses, hc, decide_true, Bool.true_and, Bool.and_eq_true, Bool.not_eq_true', beq_eq_false_iff_ne]
          rw [a3, a4]
          constructor
          · rintro ⟨x, en, h1, h2, h3⟩
            rw [find_cons] at h1
            split at h1
            · cases h1; simp only at h2; omega
            · next hx => exact ⟨x, en, h1, h2, hx, h3⟩
          · rintro ⟨x, en, h1, h2, hx, h3⟩
            exact ⟨x, en, by rw [find_cons, if_neg hx]; exact h1, h2, h3⟩
    · next hc =>
      simp only [Option.bind_eq_some_iff, Option.map_eq_some_iff, Prod.mk.injEq] at h
      obtain ⟨r, hr, st1, h1, rfl, rfl⟩ := h
      cases i with
      | none => cases hr; exact ⟨fun d hd => (nomatch hd), fun d _ => ⟨fun hd => (nomatch hd), fun ⟨_, _, _, _, h⟩ => (nomatch h)⟩⟩
      | some e =>
        simp only [bindI, Option.map_eq_some_iff] at hr
        obtain ⟨k, hk, rfl⟩ := hr
        have := hm _ _ _ hk
        refine ⟨fun d hd => ?_, fun d hd => (this d).trans ?_⟩
        · obtain ⟨x, en, h1, h2, _⟩ := (this d).mp hd
          rw [← h2]
          exact Nat.lt_of_lt_of_le (hw.2 en (find_mem h1)) hn
        · simp only [uses, hc, decide_false, Bool.false_and, Bool.not_false, Bool.true_and]
  | .block ss, st, st', B, h, hw => by
    simp only [bindS] at h
    split at h
    · next he =>
      cases h
      rw [List.isEmpty_iff.mp he]
      exact ⟨fun d hd => (nomatch hd), fun d _ => ⟨fun hd => (nomatch hd), fun ⟨_, _, _, _, h⟩ => (nomatch h)⟩⟩
    · simp only [Option.map_eq_some_iff, Prod.mk.injEq] at h
      obtain ⟨r, hr, rfl, rfl⟩ := h
      have ih := markL hm ss hr (wf_enter hw)
      exact ih
  | .seq ss, st, st', B, h, hw => by
    simp only [bindS, Option.map_eq_some_iff, Prod.mk.injEq] at h
    obtain ⟨r, hr, rfl, rfl⟩ := h
    exact markL hm ss hr hw
  | .unused xs, st, st', B, h, hw => by
    simp only [bindS, Option.map_eq_some_iff, Prod.mk.injEq] at h
    obtain ⟨r, hr, rfl, rfl⟩ := h
    simp only [marksS, uses]
    cases p
    · exact ⟨fun d hd => (nomatch hd), fun d _ => ⟨fun hd => (nomatch hd), fun ⟨_, _, _, _, h⟩ => (nomatch h)⟩⟩
    · have := mapM_find hr
      simp only [if_true, Bool.true_and, List.contains_iff_mem]
      refine ⟨fun d hd => ?_, fun d _ => this d⟩
      obtain ⟨x, en, h1, h2, _⟩ := (this d).mp hd
      rw [← h2]
      exact hw.2 en (find_mem h1)
theorem markL (hm : Matches m u) : ∀ (ss : List Stm) {st st' : St} {B : List BStm}, bindL st ss = some (B, st') → Wf st →
    (∀ d ∈ marksL m p B, d < st'.next) ∧
    ∀ d, d < st.next → (d ∈ marksL m p B ↔ ∃ x en, find st.scopes x = some en ∧ en.2 = d ∧ usesL u p x ss = true)
  | [], st, st', B, h, hw => by
    cases h
    exact ⟨fun d hd => (nomatch hd), fun d _ => ⟨fun hd => (nomatch hd), fun ⟨_, _, _, _, h⟩ => (nomatch h)⟩⟩
  | s :: ss, st, st', B, h, hw => by
    simp only [bindL, Option.bind_eq_some_iff, Option.map_eq_some_iff, Prod.mk.injEq] at h
    obtain ⟨r, hr, q, hq, rfl, rfl⟩ := h
    have h1 := shapeS s hr
    have h2 := shapeL ss hq
    have hn := h1.next
    have hn2 := h2.next
    obtain ⟨a1, a2⟩ := markS hm s hr hw
    obtain ⟨b1, b2⟩ := markL hm ss hq (h1.wf hw)
    simp only [marksL, List.mem_append, usesL, Bool.or_eq_true, Bool.and_eq_true, Bool.not_eq_true']
    refine ⟨fun d hd => hd.elim (fun h => Nat.lt_of_lt_of_le (a1 d h) hn2) (b1 d), fun d hd => ?_⟩
    rw [a2 d hd, b2 d (Nat.lt_of_lt_of_le hd hn)]
    constructor
    · rintro (⟨x, en, h1, h2, h3⟩ | ⟨x, en, h1, h2, h3⟩)
      · exact ⟨x, en, h1, h2, .inl h3⟩
      · obtain ⟨c1, c2⟩ := afterS s hr hw x
        cases hx : declares x s with
        | true =>
          obtain ⟨e, e1, e2⟩ := c1 hx
          rw [h1] at e1
          cases e1
          omega
        | false => exact ⟨x, en, by rw [← c2 hx]; exact h1, h2, .inr ⟨hx, h3⟩⟩
    · rintro ⟨x, en, h1, h2, h3 | ⟨h3, h4⟩⟩
      · exact .inl ⟨x, en, h1, h2, h3⟩
      · exact .inr ⟨x, en, by rw [(afterS s hr hw x).2 h3]; exact h1, h2, h4⟩
end
end

end Verif.Unused

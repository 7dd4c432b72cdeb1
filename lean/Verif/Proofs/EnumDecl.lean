import Verif.Spec.EnumDecl
/-! Entering constants and enums: what is defined stays, and values follow from the declarations. -/
namespace Verif.EnumDecl

theorem find_define (s : State) (a n : Nat) (x : Sym) : (s.define a x).find n = if a = n then some x else s.find n := by
  unfold State.define State.find
  simp only [List.find?_cons]
  by_cases h : a = n
  · simp [h]
  · rw [if_neg h, show (a == n) = false by simpa using h]

theorem const_define (s : State) (a n : Nat) (x : Sym) : (s.define a x).const n =
    if a = n then (match x with | .val v => some v | _ => none) else s.const n := by
  unfold State.const
  rw [find_define]
  by_cases h : a = n
  · simp only [h, if_true]; cases x <;> rfl
  · simp only [h, if_false]

/-- Everything defined stays, a constant keeps its value, errors stay. -/
structure Grows (s t : State) : Prop where
  bad : s.bad = true → t.bad = true
  defined : ∀ n, s.find n ≠ none → t.find n ≠ none
  const : ∀ n v, s.const n = some v → t.const n = some v

theorem Grows.refl (s : State) : Grows s s := ⟨id, fun _ => id, fun _ _ => id⟩

theorem Grows.trans {a b c : State} (h : Grows a b) (h' : Grows b c) : Grows a c :=
  ⟨fun x => h'.bad (h.bad x), fun n x => h'.defined n (h.defined n x), fun n v x => h'.const n v (h.const n v x)⟩

theorem grows_report (s : State) : Grows s s.report := ⟨fun _ => rfl, fun _ => id, fun _ _ => id⟩

theorem grows_define {s : State} {a : Nat} (x : Sym) (h : s.const a = none) : Grows s (s.define a x) := by
  refine ⟨id, fun n hn => ?_, fun n v hv => ?_⟩
  · rw [find_define]; split
    · nofun
    · exact hn
  · rw [const_define, if_neg]
    · exact hv
    · rintro rfl; rw [h] at hv; cases hv

theorem const_none {s : State} {a : Nat} (h : ¬ (s.find a).isSome = true) : s.const a = none := by
  unfold State.const
  cases hf : s.find a with
  | none => rfl
  | some x => rw [hf] at h; exact absurd rfl h

section
variable {E : Type} (X : Exprs E)

/-- The state after the value of a field. -/
def fieldValue (s : State) (value : Cell) (e : Option E) : State × Cell :=
  match e with
  | none => (s, value)
  | some e => match X.eval s.const e with
    | some v => (s, v)
    | none => (s.report, value)

theorem enterFields_cons (t : Bool) (s : State) (value : Cell) (a : Nat) (e : Option E) (fs : List (Nat × Option E)) :
    enterFields X t s value ((a, e) :: fs) =
      if ((fieldValue X s value e).1.find a).isSome then enterFields X t (fieldValue X s value e).1.report (fieldValue X s value e).2 fs
      else enterFields X t ((fieldValue X s value e).1.define a (.val (fieldValue X s value e).2))
        (next t (fieldValue X s value e).2) fs := by
  rw [enterFields.eq_def]
  rfl

theorem grows_fieldValue (s : State) (value : Cell) (e : Option E) : Grows s (fieldValue X s value e).1 := by
  unfold fieldValue
  cases e with
  | none => exact .refl s
  | some e =>
    simp only
    cases X.eval s.const e with
    | none => exact grows_report s
    | some v => exact .refl s

theorem grows_fields (t : Bool) (fs : List (Nat × Option E)) : ∀ (s : State) (value : Cell),
    Grows s (enterFields X t s value fs).1 := by
  induction fs with
  | nil => intro s v; exact .refl s
  | cons f fs ih =>
    intro s value
    obtain ⟨a, e⟩ := f
    rw [enterFields_cons]
    refine (grows_fieldValue X s value e).trans ?_
    split
    · exact (grows_report _).trans (ih _ _)
    · rename_i h
      exact (grows_define _ (const_none h)).trans (ih _ _)

theorem find_const_none {s : State} {n : Nat} {v : Cell} (h : s.find n = some (.enum v)) : s.const n = none := by
  unfold State.const; rw [h]

/-- The symbol of an enum stays while its fields are entered. -/
theorem fields_keep (t : Bool) (n : Nat) (x : Sym) (fs : List (Nat × Option E)) : ∀ (s : State) (value : Cell), s.find n = some x →
    (enterFields X t s value fs).1.find n = some x := by
  induction fs with
  | nil => intro s v h; exact h
  | cons f fs ih =>
    intro s value h
    obtain ⟨a, e⟩ := f
    have h1 : (fieldValue X s value e).1.find n = some x := by
      unfold fieldValue
      cases e with
      | none => exact h
      | some e => simp only; cases X.eval s.const e <;> exact h
    rw [enterFields_cons]
    split
    · exact ih _ _ h1
    · rename_i hh
      refine ih _ _ ?_
      rw [find_define, if_neg]
      · exact h1
      · rintro rfl; rw [h1] at hh; exact hh rfl

theorem grows_enter (junk : Cell) (s : State) (i : Item E) : Grows s (enter X junk s i) := by
  cases i with
  | const a e =>
    simp only [enter, enterConst]
    split
    · exact grows_report s
    · rename_i h
      cases X.eval (s.define a (.val junk)).const e with
      | none => exact (grows_define _ (const_none h)).trans (grows_report _)
      | some v => exact grows_define _ (const_none h)
  | enum n t fs =>
    simp only [enter, enterEnum]
    cases n with
    | none => exact grows_fields X t fs s 0
    | some n =>
      simp only
      split
      · exact (grows_report s).trans (grows_fields X t fs _ 0)
      · rename_i h
        have h1 : (s.define n (.enum 0)).find n = some (.enum 0) := by rw [find_define, if_pos rfl]
        refine (grows_define (.enum 0) (const_none h)).trans ((grows_fields X t fs _ 0).trans (grows_define _ ?_))
        exact find_const_none (fields_keep X t n _ fs _ 0 h1)
  | other a =>
    simp only [enter, enterOther]
    split
    · exact grows_report s
    · rename_i h; exact grows_define _ (const_none h)

/-- A symbol stays as it is while later declarations are entered. -/
theorem enter_keep (junk : Cell) (n : Nat) (x : Sym) (s : State) (i : Item E) (h : s.find n = some x) : (enter X junk s i).find n = some x := by
  have hd : ∀ a y (s : State), s.find n = some x → ¬ (s.find a).isSome = true → (s.define a y).find n = some x := by
    intro a y s h ha
    rw [find_define, if_neg]
    · exact h
    · rintro rfl; rw [h] at ha; exact ha rfl
  cases i with
  | const a e =>
    simp only [enter, enterConst]
    split
    · exact h
    · rename_i ha
      cases X.eval (s.define a (.val junk)).const e with
      | none => exact hd _ _ _ h ha
      | some v => exact hd _ _ _ h ha
  | enum m t fs =>
    simp only [enter, enterEnum]
    cases m with
    | none => exact fields_keep X t n x fs s 0 h
    | some m =>
      simp only
      split
      · exact fields_keep X t n x fs s.report 0 h
      · rename_i ha
        rw [find_define, if_neg]
        · exact fields_keep X t n x fs _ 0 (hd _ _ _ h ha)
        · rintro rfl; rw [h] at ha; exact ha rfl
  | other a =>
    simp only [enter, enterOther]
    split
    · exact h
    · rename_i ha; exact hd _ _ _ h ha

theorem foldl_keep (junk : Cell) (n : Nat) (x : Sym) (p : List (Item E)) : ∀ s : State, s.find n = some x →
    (p.foldl (enter X junk) s).find n = some x := by
  induction p with
  | nil => intro s h; exact h
  | cons i p ih => intro s h; exact ih _ (enter_keep X junk n x s i h)

theorem grows_foldl (junk : Cell) (p : List (Item E)) : ∀ s, Grows s (p.foldl (enter X junk) s) := by
  induction p with
  | nil => exact Grows.refl
  | cons i p ih => intro s; exact (grows_enter X junk s i).trans (ih _)

/-- The state before a declaration. -/
def before (junk : Cell) (p : List (Item E)) : State := p.foldl (enter X junk) ⟨[], false⟩

theorem resolve_split (junk : Cell) (p q : List (Item E)) (i : Item E) :
    resolve X junk (p ++ i :: q) = q.foldl (enter X junk) (enter X junk (before X junk p) i) := by
  simp [resolve, before, List.foldl_append]

/-- One field, entered without an error. -/
structure FieldOk (s : State) (value : Cell) (a : Nat) (e : Option E) (v : Cell) : Prop where
  new : s.find a = none
  value : match e with
    | none => v = value
    | some e => X.eval s.const e = some v

/-- Fields that are entered without an error: the state and the value before each. -/
inductive Fields (t : Bool) : State → Cell → List (Nat × Option E) → State → Cell → Prop
  | nil (s : State) (v : Cell) : Fields t s v [] s v
  | cons {s s' : State} {value v last : Cell} {a : Nat} {e : Option E} {fs : List (Nat × Option E)} : FieldOk X s value a e v →
      Fields t (s.define a (.val v)) (next t v) fs s' last → Fields t s value ((a, e) :: fs) s' last

theorem fields_ok (t : Bool) (fs : List (Nat × Option E)) : ∀ (s : State) (value : Cell),
    (enterFields X t s value fs).1.bad = false → Fields X t s value fs (enterFields X t s value fs).1 (enterFields X t s value fs).2 := by
  induction fs with
  | nil => intro s v _; exact .nil s v
  | cons f fs ih =>
    intro s value h
    obtain ⟨a, e⟩ := f
    rw [enterFields_cons] at h ⊢
    by_cases hd : ((fieldValue X s value e).1.find a).isSome = true
    · rw [if_pos hd] at h
      have := (grows_fields X t fs (fieldValue X s value e).1.report (fieldValue X s value e).2).bad rfl
      rw [h] at this; cases this
    · rw [if_neg hd] at h ⊢
      have hw : ∃ v, fieldValue X s value e = (s, v) ∧ FieldOk X s value a e v := by
        have hn : s.find a = none → ∀ v, (match e with
            | none => v = value
            | some e => X.eval s.const e = some v) → FieldOk X s value a e v := fun h1 v h2 => ⟨h1, h2⟩
        unfold fieldValue at hd h ⊢
        cases e with
        | none =>
          refine ⟨value, rfl, hn ?_ _ rfl⟩
          simpa using hd
        | some e =>
          simp only at hd h ⊢
          cases he : X.eval s.const e with
          | none =>
            simp only [he] at h
            have hg := grows_fields X t fs (s.report.define a (.val value)) (next t value)
            have := hg.bad rfl
            rw [h] at this; cases this
          | some v =>
            simp only [he] at hd
            exact ⟨v, rfl, hn (by simpa using hd) _ he⟩
      obtain ⟨v, h1, h2⟩ := hw
      rw [h1] at h ⊢
      exact .cons h2 (ih _ _ h)

variable {X}

theorem eval_grows (hX : X.Fair) {s t : State} (h : Grows s t) {e : E} {v : Cell} (he : X.eval s.const e = some v) :
    X.eval t.const e = some v := by
  rw [← he]
  refine hX.only e _ _ fun n hn => ?_
  cases hc : s.const n with
  | none => exact absurd hc (hX.known e _ v he n hn)
  | some w => exact h.const n w hc

theorem Fields.grows {t : Bool} {s s' : State} {value last : Cell} {fs : List (Nat × Option E)} (h : Fields X t s value fs s' last) :
    Grows s s' := by
  induction h with
  | nil s v => exact .refl s
  | cons h _ ih => exact (grows_define _ (const_none (by rw [h.new]; simp))).trans ih

/-- The value of a field: what is written, or what follows from the one before. -/
theorem Fields.get (hX : X.Fair) {t : Bool} {s s' : State} {value last : Cell} {fs : List (Nat × Option E)}
    (h : Fields X t s value fs s' last) : ∀ (i : Nat) (a : Nat) (e : Option E), fs[i]? = some (a, e) →
    ∃ v, s'.const a = some v ∧ (∀ e', e = some e' → X.eval s'.const e' = some v) ∧
      (e = none → i = 0 → v = value) ∧
      (∀ j b e', e = none → i = j + 1 → fs[j]? = some (b, e') → ∃ w, s'.const b = some w ∧ v = next t w) := by
  induction h with
  | nil => intro i a e h; cases h
  | @cons s s' value v last a e fs h h' ih =>
    have hg := h'.grows
    have hc : s'.const a = some v := hg.const a v (by rw [const_define, if_pos rfl])
    have hs : Grows s s' := (grows_define _ (const_none (by rw [h.new]; simp))).trans hg
    intro i b f hi
    cases i with
    | zero =>
      cases hi
      refine ⟨v, hc, ?_, ?_, nofun⟩
      · rintro e' rfl
        exact eval_grows hX hs h.value
      · rintro rfl _
        exact h.value
    | succ i =>
      obtain ⟨w, h1, h2, h3, h4⟩ := ih i b f hi
      refine ⟨w, h1, h2, nofun, fun j c g hf hij hj => ?_⟩
      cases hij
      cases i with
      | zero =>
        cases hj
        exact ⟨v, hc, h3 hf rfl⟩
      | succ i => exact h4 i c g hf rfl hj

/-- The value after the last field. -/
theorem Fields.last {t : Bool} {s s' : State} {value last : Cell} {fs : List (Nat × Option E)}
    (h : Fields X t s value fs s' last) : (fs = [] → last = value) ∧
    ∀ a e, fs.getLast? = some (a, e) → ∃ w, s'.const a = some w ∧ last = next t w := by
  induction h with
  | nil => exact ⟨fun _ => rfl, nofun⟩
  | @cons s s' value v last a e fs h h' ih =>
    refine ⟨nofun, fun b f hl => ?_⟩
    cases fs with
    | nil =>
      cases hl
      cases h'
      exact ⟨v, by rw [const_define, if_pos rfl], rfl⟩
    | cons g fs =>
      rw [List.getLast?_cons_cons] at hl
      exact ih.2 b f hl

theorem Fields.names {t : Bool} {s s' : State} {value last : Cell} {fs : List (Nat × Option E)}
    (h : Fields X t s value fs s' last) : (fs.map (·.1)).Nodup ∧ (∀ a ∈ fs.map (·.1), s.find a = none) ∧
    ∀ n, s'.find n ≠ none ↔ s.find n ≠ none ∨ n ∈ fs.map (·.1) := by
  induction h with
  | nil => simp
  | @cons s s' value v last a e fs h h' ih =>
    obtain ⟨i1, i2, i3⟩ := ih
    have hne : ∀ b ∈ fs.map (·.1), a ≠ b := by
      rintro b hb rfl
      have := i2 a hb
      rw [find_define, if_pos rfl] at this
      cases this
    refine ⟨?_, ?_, fun n => ?_⟩
    · simp only [List.map_cons, List.nodup_cons]
      exact ⟨fun hm => hne a hm rfl, i1⟩
    · intro b hb
      simp only [List.map_cons, List.mem_cons] at hb
      rcases hb with rfl | hb
      · exact h.new
      · have := i2 b hb
        rwa [find_define, if_neg (hne b hb)] at this
    · rw [i3, find_define]
      simp only [List.map_cons, List.mem_cons]
      by_cases hn : a = n
      · simp [hn]
      · simp only [if_neg hn]
        constructor
        · rintro (h | h)
          · exact .inl h
          · exact .inr (.inr h)
        · rintro (h | h | h)
          · exact .inl h
          · exact absurd h.symm hn
          · exact .inr h

/-- What an enum that is entered without an error does. -/
theorem enum_ok {s : State} {n : Option Nat} {t : Bool} {fs : List (Nat × Option E)} (h : (enterEnum X s n t fs).bad = false) :
    ∃ s0 s1 last, Fields X t s0 0 fs s1 last ∧ Grows s s0 ∧ Grows s1 (enterEnum X s n t fs) ∧
      (∀ k, s0.const k = s.const k) ∧
      match n with
      | none => s0 = s ∧ enterEnum X s n t fs = s1
      | some a => s.find a = none ∧ s0 = s.define a (.enum 0) ∧ enterEnum X s n t fs = s1.define a (.enum last) := by
  cases n with
  | none => exact ⟨s, _, _, fields_ok X t fs s 0 h, .refl s, .refl _, fun _ => rfl, rfl, rfl⟩
  | some a =>
    simp only [enterEnum] at h ⊢
    by_cases hd : (s.find a).isSome = true
    · rw [if_pos hd] at h
      have := (grows_fields X t fs s.report 0).bad rfl
      rw [h] at this; cases this
    · rw [if_neg hd] at h ⊢
      have h1 : (s.define a (.enum 0)).find a = some (.enum 0) := by rw [find_define, if_pos rfl]
      refine ⟨_, _, _, fields_ok X t fs _ 0 h, grows_define _ (const_none hd), grows_define _ ?_, ?_, ?_, rfl, rfl⟩
      · exact find_const_none (fields_keep X t a _ fs _ 0 h1)
      · intro k
        rw [const_define]
        by_cases hk : a = k
        · subst hk; rw [if_pos rfl, const_none hd]
        · rw [if_neg hk]
      · simpa using hd

theorem resolve_bad {junk : Cell} {p q : List (Item E)} {i : Item E} (h : Accepted X junk (p ++ i :: q)) :
    (enter X junk (before X junk p) i).bad = false ∧ Grows (enter X junk (before X junk p) i) (resolve X junk (p ++ i :: q)) ∧
    (before X junk p).bad = false := by
  have hg := grows_foldl X junk q (enter X junk (before X junk p) i)
  rw [← resolve_split] at hg
  have h1 : (enter X junk (before X junk p) i).bad = false := by
    cases hb : (enter X junk (before X junk p) i).bad with
    | false => rfl
    | true => have := hg.bad hb; rw [show (resolve X junk (p ++ i :: q)).bad = false from h] at this; cases this
  refine ⟨h1, hg, ?_⟩
  cases hb : (before X junk p).bad with
  | false => rfl
  | true => have := (grows_enter X junk _ i).bad hb; rw [h1] at this; cases this

/-- One declaration, entered without an error: its names are new. -/
theorem enter_names {junk : Cell} {s : State} {i : Item E} (h : (enter X junk s i).bad = false) : i.declares.Nodup ∧
    (∀ a ∈ i.declares, s.find a = none) ∧ ∀ n, (enter X junk s i).find n ≠ none ↔ s.find n ≠ none ∨ n ∈ i.declares := by
  have one : ∀ (a : Nat) (x : Sym) (n : Nat), (s.define a x).find n ≠ none ↔ s.find n ≠ none ∨ n ∈ [a] := by
    intro a x n
    rw [find_define]
    by_cases hn : a = n
    · simp [hn]
    · rw [if_neg hn]
      simp only [List.mem_singleton]
      exact ⟨.inl, fun h => h.elim id fun h => absurd h.symm hn⟩
  cases i with
  | const a e =>
    simp only [enter, enterConst] at h ⊢
    by_cases hd : (s.find a).isSome = true
    · rw [if_pos hd] at h; cases h
    · rw [if_neg hd] at h ⊢
      cases he : X.eval (s.define a (.val junk)).const e with
      | none => rw [he] at h; cases h
      | some v =>
        simp only
        exact ⟨by simp [Item.declares], by simpa [Item.declares] using hd, one a _⟩
  | other a =>
    simp only [enter, enterOther] at h ⊢
    by_cases hd : (s.find a).isSome = true
    · rw [if_pos hd] at h; cases h
    · rw [if_neg hd] at h ⊢
      exact ⟨by simp [Item.declares], by simpa [Item.declares] using hd, one a _⟩
  | enum n t fs =>
    obtain ⟨s0, s1, last, hf, _, _, _, h4⟩ := enum_ok (X := X) h
    obtain ⟨f1, f2, f3⟩ := hf.names
    simp only [enter]
    cases n with
    | none =>
      obtain ⟨rfl, h5⟩ := h4
      rw [h5]
      exact ⟨by simpa [Item.declares] using f1, by simpa [Item.declares] using f2, by simpa [Item.declares] using f3⟩
    | some a =>
      obtain ⟨h5, rfl, h6⟩ := h4
      rw [h6]
      simp only [Item.declares, Option.toList_some, List.cons_append, List.nil_append, List.nodup_cons, List.mem_cons]
      have hne : ∀ b ∈ fs.map (·.1), a ≠ b := by
        rintro b hb rfl
        have := f2 a hb
        rw [find_define, if_pos rfl] at this
        cases this
      refine ⟨⟨fun hm => hne a hm rfl, f1⟩, ?_, fun n => ?_⟩
      · rintro b (rfl | hb)
        · exact h5
        · have := f2 b hb
          rwa [find_define, if_neg (hne b hb)] at this
      · rw [find_define]
        by_cases hn : a = n
        · simp [hn]
        · rw [if_neg hn, f3, find_define, if_neg hn]
          constructor
          · rintro (h | h)
            · exact .inl h
            · exact .inr (.inr h)
          · rintro (h | h | h)
            · exact .inl h
            · exact absurd h.symm hn
            · exact .inr h

theorem names_ok {junk : Cell} (p : List (Item E)) : (before X junk p).bad = false →
    (p.flatMap Item.declares).Nodup ∧ ∀ n, (before X junk p).find n ≠ none ↔ n ∈ p.flatMap Item.declares := by
  suffices ∀ r : List (Item E), (before X junk r.reverse).bad = false → (r.reverse.flatMap Item.declares).Nodup ∧
      ∀ n, (before X junk r.reverse).find n ≠ none ↔ n ∈ r.reverse.flatMap Item.declares by
    intro h
    have := this p.reverse
    rw [List.reverse_reverse] at this
    exact this h
  intro r
  induction r with
  | nil => intro _; simp [before, State.find]
  | cons i r ih =>
    intro h
    have hb : before X junk (i :: r).reverse = enter X junk (before X junk r.reverse) i := by
      simp [before, List.foldl_append]
    rw [hb] at h ⊢
    have h0 : (before X junk r.reverse).bad = false := by
      cases hb : (before X junk r.reverse).bad with
      | false => rfl
      | true => have := (grows_enter X junk _ i).bad hb; rw [h] at this; cases this
    obtain ⟨n1, n2⟩ := ih h0
    obtain ⟨e1, e2, e3⟩ := enter_names h
    rw [List.reverse_cons, List.flatMap_append]
    simp only [List.flatMap_cons, List.flatMap_nil, List.append_nil]
    refine ⟨List.nodup_append.2 ⟨n1, e1, ?_⟩, fun n => ?_⟩
    · rintro a ha b hb rfl
      exact absurd (e2 a hb) ((n2 a).2 ha)
    · rw [e3, n2, List.mem_append]

/-- The constants of a state come from declarations of constants. -/
theorem fields_const (t : Bool) (fs : List (Nat × Option E)) : ∀ (s : State) (value : Cell) (n : Nat),
    (enterFields X t s value fs).1.const n ≠ none → s.const n ≠ none ∨ n ∈ fs.map (·.1) := by
  induction fs with
  | nil => intro s v n h; exact .inl h
  | cons f fs ih =>
    intro s value n h
    obtain ⟨a, e⟩ := f
    have h1 : (fieldValue X s value e).1.const = s.const := by
      unfold fieldValue
      cases e with
      | none => rfl
      | some e => simp only; cases X.eval s.const e <;> rfl
    rw [enterFields_cons] at h
    simp only [List.map_cons, List.mem_cons]
    split at h
    · rcases ih _ _ n h with h | h
      · left; rw [← h1]; exact h
      · exact .inr (.inr h)
    · rcases ih _ _ n h with h | h
      · rw [const_define] at h
        by_cases hn : a = n
        · exact .inr (.inl hn.symm)
        · rw [if_neg hn, h1] at h; exact .inl h
      · exact .inr (.inr h)

theorem enter_const (junk : Cell) (s : State) (i : Item E) (n : Nat) (h : (enter X junk s i).const n ≠ none) :
    s.const n ≠ none ∨ n ∈ i.constants := by
  cases i with
  | const a e =>
    simp only [enter, enterConst, Item.constants, List.mem_singleton] at h ⊢
    by_cases hn : a = n
    · exact .inr hn.symm
    · left
      split at h
      · exact h
      · split at h
        · rwa [const_define, if_neg hn] at h
        · have h : (s.define a (.val junk)).const n ≠ none := h
          rwa [const_define, if_neg hn] at h
  | other a =>
    simp only [enter, enterOther] at h
    left
    split at h
    · exact h
    · rw [const_define] at h
      by_cases hn : a = n
      · rw [if_pos hn] at h; exact absurd rfl h
      · rwa [if_neg hn] at h
  | enum m t fs =>
    simp only [enter, enterEnum] at h
    cases m with
    | none => exact fields_const t fs s 0 n h
    | some m =>
      simp only at h
      split at h
      · exact fields_const t fs s.report 0 n h
      · rw [const_define] at h
        by_cases hn : m = n
        · rw [if_pos hn] at h; exact absurd rfl h
        · rw [if_neg hn] at h
          rcases fields_const t fs _ 0 n h with h | h
          · rw [const_define, if_neg hn] at h; exact .inl h
          · exact .inr h

theorem foldl_const (junk : Cell) (p : List (Item E)) : ∀ (s : State) (n : Nat), (p.foldl (enter X junk) s).const n ≠ none →
    s.const n ≠ none ∨ n ∈ p.flatMap Item.constants := by
  induction p with
  | nil => intro s n h; exact .inl h
  | cons i p ih =>
    intro s n h
    rw [List.flatMap_cons, List.mem_append]
    rcases ih _ n h with h | h
    · rcases enter_const junk s i n h with h | h
      · exact .inl h
      · exact .inr (.inl h)
    · exact .inr (.inr h)

theorem before_const (junk : Cell) (p : List (Item E)) (n : Nat) (h : (before X junk p).const n ≠ none) :
    n ∈ p.flatMap Item.constants := by
  rcases foldl_const junk p _ n h with h | h
  · exact absurd rfl h
  · exact h

/-- The names of a field's value are fields before it or constants of the state. -/
theorem Fields.used (hX : X.Fair) {t : Bool} {s s' : State} {value last : Cell} {fs : List (Nat × Option E)}
    (h : Fields X t s value fs s' last) : ∀ (i : Nat) (a : Nat) (e : E), fs[i]? = some (a, some e) → ∀ n ∈ X.names e,
    s.const n ≠ none ∨ n ∈ (fs.take i).map (·.1) := by
  induction h with
  | nil => intro i a e h; cases h
  | @cons s s' value v last a e fs h h' ih =>
    intro i b f hi n hn
    cases i with
    | zero =>
      cases hi
      exact .inl (hX.known f _ v h.value n hn)
    | succ i =>
      simp only [List.take_succ_cons, List.map_cons, List.mem_cons]
      rcases ih i b f hi n hn with h1 | h1
      · rw [const_define] at h1
        by_cases hab : a = n
        · exact .inr (.inl hab.symm)
        · rw [if_neg hab] at h1; exact .inl h1
      · exact .inr (.inr h1)

end
end Verif.EnumDecl

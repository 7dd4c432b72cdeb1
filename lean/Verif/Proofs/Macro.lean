import Verif.Proofs.MacroText

/-! What the lexer makes of a text is what the macros mean. -/
namespace Verif.Macro

variable {strict : Bool} {L : Lexis} {ms : List Macro}

/-- More steps do not change the result. -/
theorem lexNew_mono : ∀ {n : Nat} {eof : Bool} {st : St} {r : Res}, lexNew strict L ms n eof st = some r →
    lexNew strict L ms (n + 1) eof st = some r := by
  intro n
  induction n with
  | zero => intro eof st r h; simp [lexNew] at h
  | succ n ih =>
    intro eof st r h
    rw [lexNew] at h ⊢
    cases hf : st.frames with
    | nil => rw [hf] at h; exact h
    | cons f fs =>
      rw [hf] at h
      simp only [] at h ⊢
      cases hr : L.rest f.text with
      | nil =>
        rw [hr] at h
        simp only [] at h ⊢
        cases eof with
        | false => exact h
        | true => exact ih h
      | cons c cs =>
        rw [hr] at h
        simp only [] at h ⊢
        by_cases hw : wordStart c = true
        · rw [if_pos hw] at h ⊢
          split at h
          · exact h
          · rename_i m hm
            split at h
            · exact ih h
            · rename_i ps hp
              split at h
              · cases h
              · rename_i hi; rw [ih hi]; exact h
              · rename_i hi; rw [ih hi]; exact h
              · rename_i hi; rw [ih hi]; exact h
              · rename_i t s hi
                rw [ih hi]
                simp only [] at h ⊢
                by_cases ht : t = .other ['(']
                · rw [if_pos ht] at h ⊢
                  split at h
                  · exact h
                  · rename_i g gs _
                    split at h
                    · exact h
                    · rename_i as r' _
                      by_cases ha : strict = true ∧ (c :: cs.takeWhile wordChar) ∈ s.used
                      · rw [if_pos ha] at h ⊢; exact h
                      · rw [if_neg ha] at h ⊢; exact ih h
                · rw [if_neg ht] at h ⊢; exact h
        · rw [if_neg hw] at h ⊢; exact h

theorem lexNew_le {n m : Nat} {eof : Bool} {st : St} {r : Res} (h : lexNew strict L ms n eof st = some r) (hm : n ≤ m) :
    lexNew strict L ms m eof st = some r := by
  induction hm with
  | refl => exact h
  | step _ ih => exact lexNew_mono ih

theorem lex_mono {n : Nat} {st : St} {r : Res} (h : lex strict L ms n st = some r) : lex strict L ms (n + 1) st = some r := by
  unfold lex at h ⊢
  split at h
  · exact h
  · exact lexNew_mono h

theorem run_mono : ∀ {n : Nat} {st : St} {r : Out}, run strict L ms n st = some r → run strict L ms (n + 1) st = some r := by
  intro n
  induction n with
  | zero => intro st r h; simp [run] at h
  | succ n ih =>
    intro st r h
    rw [run] at h ⊢
    split at h
    · cases h
    · rename_i hi; rw [lex_mono hi]; exact h
    · rename_i hi; rw [lex_mono hi]; exact h
    · rename_i t s hi
      rw [lex_mono hi]
      simp only [Option.map_eq_some_iff] at h ⊢
      obtain ⟨a, h1, h2⟩ := h
      exact ⟨a, ih h1, h2⟩
    · rename_i s hi
      rw [lex_mono hi]
      simp only [] at h ⊢
      by_cases hs : s.frames = []
      · rw [if_pos hs] at h ⊢; exact h
      · rw [if_neg hs] at h ⊢
        simp only [Option.map_eq_some_iff] at h ⊢
        obtain ⟨a, h1, h2⟩ := h
        exact ⟨a, ih h1, h2⟩

theorem run_le {n m : Nat} {st : St} {r : Out} (h : run strict L ms n st = some r) (hm : n ≤ m) : run strict L ms m st = some r := by
  induction hm with
  | refl => exact h
  | step _ ih => exact run_mono ih

/-- The result does not depend on the number of steps. -/
theorem run_unique {n m : Nat} {st : St} {a b : Out} (h : run strict L ms n st = some a) (g : run strict L ms m st = some b) : a = b := by
  have h1 := run_le h (Nat.le_max_left n m)
  have h2 := run_le g (Nat.le_max_right n m)
  rw [h1] at h2
  exact Option.some.inj h2

/-- Two states of which one lexes as the other does, one step later. -/
theorem run_silent {st st' : St} (hp : st.pushed = []) (hp' : st'.pushed = [])
    (h : ∀ n r, lexNew strict L ms n true st' = some r → ∃ m, lexNew strict L ms m true st = some r) {n : Nat} {r : Out}
    (hr : run strict L ms n st' = some r) : ∃ m, run strict L ms m st = some r := by
  cases n with
  | zero => simp [run] at hr
  | succ n =>
    have e (k : Nat) : lex strict L ms k st = lexNew strict L ms k true st := by simp [lex, hp]
    have e' (k : Nat) : lex strict L ms k st' = lexNew strict L ms k true st' := by simp [lex, hp']
    rw [run, e'] at hr
    cases hl : lexNew strict L ms n true st' with
    | none => rw [hl] at hr; cases hr
    | some x =>
      obtain ⟨m, hm⟩ := h n x hl
      refine ⟨max n m + 1, ?_⟩
      rw [run, e, lexNew_le hm (Nat.le_max_right n m)]
      rw [hl] at hr
      cases x with
      | bad => exact hr
      | again => exact hr
      | tok t s =>
        simp only [Option.map_eq_some_iff] at hr ⊢
        obtain ⟨a, h1, h2⟩ := hr
        exact ⟨a, run_le h1 (Nat.le_max_left n m), h2⟩
      | zero s =>
        simp only [] at hr ⊢
        by_cases hs : s.frames = []
        · rw [if_pos hs] at hr ⊢; exact hr
        · rw [if_neg hs] at hr ⊢
          simp only [Option.map_eq_some_iff] at hr ⊢
          obtain ⟨a, h1, h2⟩ := hr
          exact ⟨a, run_le h1 (Nat.le_max_left n m), h2⟩

/-- A token that comes next. -/
theorem run_tok {st s : St} {t : Tok} {k : Nat} (hp : st.pushed = []) (h : lexNew strict L ms k true st = some (.tok t s)) {n : Nat} {r : List Tok}
    (hr : run strict L ms n s = some (.tokens r)) : ∃ m, run strict L ms m st = some (.tokens (t :: r)) := by
  refine ⟨max n k + 1, ?_⟩
  have e : lex strict L ms (max n k) st = some (.tok t s) := by
    simp only [lex, hp]
    exact lexNew_le h (Nat.le_max_right n k)
  rw [run, e]
  simp only [run_le hr (Nat.le_max_left n k)]
  rfl

/-! ### Single steps -/

theorem word_def {s w r : List Char} (h : Word L s w r) :
    ∃ c cs, L.rest s = c :: cs ∧ wordStart c = true ∧ w = c :: cs.takeWhile wordChar ∧ r = cs.dropWhile wordChar := h

theorem other_def {s t r : List Char} (h : Other L s t r) :
    ∃ c cs, L.rest s = c :: cs ∧ wordStart c = false ∧ t = (c :: cs).take (L.len (c :: cs)) ∧ r = (c :: cs).drop (L.len (c :: cs)) := h

theorem lexNew_done {st : St} {f : Frame} {fs : List Frame} (hf : st.frames = f :: fs) (h : L.rest f.text = []) (n : Nat) :
    lexNew strict L ms (n + 1) true st = lexNew strict L ms n true (st.leave f fs) := by
  rw [lexNew, hf]
  simp only [h]
  rfl

theorem lexNew_other {st : St} {f : Frame} {fs : List Frame} {t r : List Char} (hf : st.frames = f :: fs) (h : Other L f.text t r) (n : Nat)
    (eof : Bool) : lexNew strict L ms (n + 1) eof st = some (.tok (.other t) { st with frames := { f with text := r } :: fs }) := by
  obtain ⟨c, cs, h1, h2, rfl, rfl⟩ := other_def h
  rw [lexNew, hf]
  simp only [h1, h2, Bool.false_eq_true, if_false]

theorem lexNew_word {st : St} {f : Frame} {fs : List Frame} {w r : List Char} (hf : st.frames = f :: fs) (h : Word L f.text w r)
    (hw : (if reserved w = true ∨ w ∈ st.used then none else find ms w) = none) (n : Nat) (eof : Bool) :
    lexNew strict L ms (n + 1) eof st = some (.tok (.word w) { st with frames := { f with text := r } :: fs }) := by
  obtain ⟨c, cs, h1, h2, rfl, rfl⟩ := word_def h
  rw [lexNew, hf]
  simp only [h1, h2, if_true, hw]

theorem lexNew_object {st : St} {f : Frame} {fs : List Frame} {w r : List Char} {m : Macro} (hf : st.frames = f :: fs) (h : Word L f.text w r)
    (hw : (if reserved w = true ∨ w ∈ st.used then none else find ms w) = some m) (hp : m.params = none) (n : Nat) (eof : Bool) :
    lexNew strict L ms (n + 1) eof st =
      lexNew strict L ms n eof (({ st with frames := { f with text := r } :: fs } : St).enter w m.substitute) := by
  obtain ⟨c, cs, h1, h2, rfl, rfl⟩ := word_def h
  rw [lexNew, hf]
  simp only [h1, h2, if_true, hw, hp]

theorem lexNew_params {st : St} {f : Frame} {fs : List Frame} {w r : List Char} {m : Macro} {ps : List Nat} (hf : st.frames = f :: fs)
    (h : Word L f.text w r) (hw : (if reserved w = true ∨ w ∈ st.used then none else find ms w) = some m) (hp : m.params = some ps) (n : Nat)
    (eof : Bool) :
    lexNew strict L ms (n + 1) eof st =
      match lexNew strict L ms n false { st with frames := { f with text := r } :: fs } with
      | none => none
      | some .bad => some .bad
      | some .again => some .again
      | some (.zero s) => some (.zero s)
      | some (.tok t s) =>
        if t = .other ['('] then
          match s.frames with
          | [] => some .bad
          | g :: gs =>
            match arguments L ps g.text with
            | none => some .bad
            | some (as, r) =>
              if strict = true ∧ w ∈ s.used then some .again
              else lexNew strict L ms n eof
                (({ s with frames := { g with text := r } :: gs } : St).enter w (perform m.substitute as 0 m.positions))
        else some (.tok (.word w) { s with pushed := t :: s.pushed }) := by
  obtain ⟨c, cs, h1, h2, rfl, rfl⟩ := word_def h
  rw [lexNew, hf]
  simp only [h1, h2, if_true, hw, hp]
  rfl

/-! ### Tables -/

theorem find_table (ds : List Def) (w : List Char) :
    find (table ds) w = (lookup ds w).map fun d => define d.name d.params (written d.pieces) := by
  unfold find table lookup
  rw [List.find?_map]
  rfl

theorem find_active {ds : List Def} {u used : List (List Char)} (hu : ∀ w, w ∈ u ↔ w ∈ used) (w : List Char) :
    (if reserved w = true ∨ w ∈ used then none else find (table ds) w) =
      (active ds u w).map fun d => define d.name d.params (written d.pieces) := by
  unfold active
  by_cases h : reserved w = true ∨ w ∈ used
  · rw [if_pos h, if_pos (by rw [hu]; exact h)]; rfl
  · rw [if_neg h, if_neg (by rw [hu]; exact h), find_table]

theorem active_mem {ds : List Def} {u : List (List Char)} {w : List Char} {d : Def} (h : active ds u w = some d) : d ∈ ds ∧ w ∉ u := by
  unfold active at h
  by_cases hc : (w == "defined".toList || w == "__LINE__".toList) = true ∨ w ∈ u
  · rw [if_pos hc] at h; cases h
  · rw [if_neg hc] at h
    exact ⟨List.mem_of_find?_eq_some h, fun hu => hc (.inr hu)⟩

theorem define_params (name : List Char) (p : Option (List Nat)) (l : List Char) : (define name p l).params = p := rfl

theorem leave_enter {st : St} {w text : List Char} (h : w ∉ st.used) :
    (st.enter w text).leave { text := text, owner := some w } st.frames = st := by
  simp [St.enter, St.leave, h]

/-- The lexer gives the tokens that a text stands for, and then goes on with the text around it. -/
theorem run_expand {ds : List Def} (hd : ∀ d ∈ ds, d.Valid) {u : List (List Char)} {s : List Char} {out : List Tok} (h : Expand L ds u s out) :
    ∀ (o : Option (List Char)) (fs : List Frame) (used : List (List Char)), (∀ w, w ∈ u ↔ w ∈ used) → ∀ (n : Nat) (x : List Tok),
      run strict L (table ds) n (St.leave ⟨⟨s, o⟩ :: fs, used, []⟩ ⟨s, o⟩ fs) = some (.tokens x) →
      ∃ m, run strict L (table ds) m ⟨⟨s, o⟩ :: fs, used, []⟩ = some (.tokens (out ++ x)) := by
  induction h with
  | @done u s h =>
    intro o fs used hu n x hx
    exact run_silent rfl rfl (fun k r hk => ⟨k + 1, by rw [lexNew_done rfl h]; exact hk⟩) hx
  | @other u s t r out h _ ih =>
    intro o fs used hu n x hx
    obtain ⟨m, hm⟩ := ih o fs used hu n x hx
    exact run_tok rfl (lexNew_other (n := 0) rfl h true) hm
  | @word u s w r out h ha _ ih =>
    intro o fs used hu n x hx
    obtain ⟨m, hm⟩ := ih o fs used hu n x hx
    exact run_tok rfl (lexNew_word (n := 0) rfl h (by rw [find_active hu, ha]; rfl) true) hm
  | @object u s w r d a b h ha hp _ _ ih1 ih2 =>
    intro o fs used hu n x hx
    obtain ⟨hm, hn⟩ := active_mem ha
    obtain ⟨m2, hm2⟩ := ih2 o fs used hu n x hx
    have hn' : w ∉ used := fun hw => hn ((hu w).mpr hw)
    have hu' : ∀ v, v ∈ w :: u ↔ v ∈ w :: used := by intro v; simp [hu v]
    obtain ⟨m1, hm1⟩ := ih1 (some w) (⟨r, o⟩ :: fs) (w :: used) hu' m2 (b ++ x) (by
      simpa [St.leave] using hm2)
    rw [List.append_assoc]
    refine run_silent rfl rfl (fun k y hk => ⟨k + 1, ?_⟩) hm1
    rw [lexNew_object rfl h (by rw [find_active hu, ha]; rfl) (by rw [define_params]; exact hp), define_text (hd d hm)]
    simpa [St.enter, hn'] using hk
  | @call u s w r d ns t as r' a b h ha hp ho harg hl _ _ ih1 ih2 =>
    intro o fs used hu n x hx
    obtain ⟨hm, hn⟩ := active_mem ha
    obtain ⟨m2, hm2⟩ := ih2 o fs used hu n x hx
    have hn' : w ∉ used := fun hw => hn ((hu w).mpr hw)
    have hu' : ∀ v, v ∈ w :: u ↔ v ∈ w :: used := by intro v; simp [hu v]
    obtain ⟨m1, hm1⟩ := ih1 (some w) (⟨r', o⟩ :: fs) (w :: used) hu' m2 (b ++ x) (by
      simpa [St.leave] using hm2)
    rw [List.append_assoc]
    refine run_silent rfl rfl (fun k y hk => ⟨k + 2, ?_⟩) hm1
    rw [lexNew_params rfl h (by rw [find_active hu, ha]; rfl) (by rw [define_params]; exact hp), lexNew_other (n := k) rfl ho false]
    simp only [if_true, arguments_eq harg hl, hn', and_false, if_false]
    rw [define_perform (hd d hm) (by rw [hp]; simp)]
    exact lexNew_mono (by simpa [St.enter, hn'] using hk)
  | @bare u s w r d ns out h ha hp hb _ ih =>
    intro o fs used hu n x hx
    obtain ⟨m, hm⟩ := ih o fs used hu n x hx
    have key : ∃ t s', t ≠ .other ['('] ∧ s'.pushed = [] ∧
        (∀ k eof, lexNew strict L (table ds) (k + 1) eof ⟨⟨r, o⟩ :: fs, used, []⟩ = some (.tok t s')) := by
      rcases hb with ⟨t, r', ho, ht⟩ | ⟨w', r', hw', ha'⟩
      · exact ⟨.other t, _, by simpa using ht, rfl, fun k eof => lexNew_other rfl ho k eof⟩
      · exact ⟨.word w', _, by simp, rfl, fun k eof => lexNew_word rfl hw' (by rw [find_active hu, ha']; rfl) k eof⟩
    obtain ⟨t, s', h1, h2, h3⟩ := key
    have h4 : lexNew strict L (table ds) 2 true ⟨⟨s, o⟩ :: fs, used, []⟩ = some (.tok (.word w) { s' with pushed := [t] }) := by
      rw [lexNew_params rfl h (by rw [find_active hu, ha]; rfl) (by rw [define_params]; exact hp), h3]
      simp only [h1, if_false, h2]
    cases m with
    | zero => simp [run] at hm
    | succ m =>
      have hm' := run_mono hm
      rw [run] at hm'
      have e : lex strict L (table ds) (m + 1) ⟨⟨r, o⟩ :: fs, used, []⟩ = some (.tok t s') := h3 m true
      rw [e] at hm'
      simp only [Option.map_eq_some_iff] at hm'
      obtain ⟨y, hy1, hy2⟩ := hm'
      cases y with
      | error => cases hy2
      | again => cases hy2
      | tokens ys =>
        simp only [Out.cons, Out.tokens.injEq] at hy2
        have : run strict L (table ds) (m + 2) { s' with pushed := [t] } = some (.tokens (t :: ys)) := by
          rw [run]
          simp only [lex]
          have e2 : ({ s' with pushed := [] } : St) = s' := by rw [← h2]
          rw [e2, hy1]
          rfl
        rw [List.cons_append, ← hy2]
        exact run_tok rfl h4 this

end Verif.Macro

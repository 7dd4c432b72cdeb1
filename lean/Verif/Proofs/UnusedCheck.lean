import Verif.Proofs.Unused

/-! Lemmas for C92: checking. -/
namespace Verif.Unused

abbrev none' : BExpr → List Nat := fun _ => []

mutual
/-- The variables that are given a value where they are declared. -/
def gvS : BStm → List Nat
  | .decl d init => match init with
    | none => []
    | some _ => if d.1.scalar && d.1.kind != .const then [d.2] else []
  | .block _ ss => gvL ss
  | .seq ss => gvL ss
  | _ => []
def gvL : List BStm → List Nat
  | [] => []
  | s :: ss => gvS s ++ gvL ss
end

mutual
def SingleB : BStm → Prop
  | .unused ds => ds.length ≤ 1
  | .block _ ss => SingleBL ss
  | .seq ss => SingleBL ss
  | _ => True
def SingleBL : List BStm → Prop
  | [] => True
  | s :: ss => SingleB s ∧ SingleBL ss
end

theorem mapM_length {α β} {g : α → Option β} : ∀ {xs : List α} {ds : List β}, xs.mapM g = some ds → ds.length = xs.length
  | [], ds, h => by simp at h; subst h; rfl
  | y :: xs, ds, h => by
    simp only [List.mapM_cons, Option.pure_def, Option.bind_eq_bind, Option.bind_eq_some_iff] at h
    obtain ⟨e, he, es, hes, h⟩ := h
    cases h
    simp [mapM_length hes]

mutual
theorem singleS : ∀ (s : Stm) {st st' : St} {B : BStm}, bindS st s = some (B, st') → Single s → SingleB B
  | .expr e, st, st', B, h, hs => by
    simp only [bindS, Option.map_eq_some_iff, Prod.mk.injEq] at h
    obtain ⟨r, hr, rfl, rfl⟩ := h
    trivial
  | .decl v i, st, st', B, h, hs => by
    simp only [bindS] at h
    split at h
    · simp only [Option.bind_eq_some_iff, Option.map_eq_some_iff, Prod.mk.injEq] at h
      obtain ⟨st1, h1, r, hr, rfl, rfl⟩ := h
      trivial
    · simp only [Option.bind_eq_some_iff, Option.map_eq_some_iff, Prod.mk.injEq] at h
      obtain ⟨r, hr, st1, h1, rfl, rfl⟩ := h
      trivial
  | .block ss, st, st', B, h, hs => by
    simp only [bindS] at h
    split at h
    · cases h; trivial
    · simp only [Option.map_eq_some_iff, Prod.mk.injEq] at h
      obtain ⟨r, hr, rfl, rfl⟩ := h
      exact singleL ss hr hs
  | .seq ss, st, st', B, h, hs => by
    simp only [bindS, Option.map_eq_some_iff, Prod.mk.injEq] at h
    obtain ⟨r, hr, rfl, rfl⟩ := h
    exact singleL ss hr hs
  | .unused xs, st, st', B, h, hs => by
    simp only [bindS, Option.map_eq_some_iff, Prod.mk.injEq] at h
    obtain ⟨r, hr, rfl, rfl⟩ := h
    show r.length ≤ 1
    rw [mapM_length hr]
    exact hs
theorem singleL : ∀ (ss : List Stm) {st st' : St} {B : List BStm}, bindL st ss = some (B, st') → SingleL ss → SingleBL B
  | [], st, st', B, h, hs => by cases h; trivial
  | s :: ss, st, st', B, h, hs => by
    simp only [bindL, Option.bind_eq_some_iff, Option.map_eq_some_iff, Prod.mk.injEq] at h
    obtain ⟨r, hr, q, hq, rfl, rfl⟩ := h
    exact ⟨singleS s hr hs.1, singleL ss hq hs.2⟩
end

mutual
theorem gvS_range : ∀ (s : Stm) {st st' : St} {B : BStm}, bindS st s = some (B, st') → ∀ d ∈ gvS B, st.next ≤ d ∧ d < st'.next
  | .expr e, st, st', B, h => by
    simp only [bindS, Option.map_eq_some_iff, Prod.mk.injEq] at h
    obtain ⟨r, hr, rfl, rfl⟩ := h
    exact fun d h => (nomatch h)
  | .decl v i, st, st', B, h => by
    have hs := shapeS (.decl v i) h
    have key : ∃ r, B = .decl (v, st.next) r := by
      simp only [bindS] at h
      split at h
      · simp only [Option.bind_eq_some_iff, Option.map_eq_some_iff, Prod.mk.injEq] at h
        obtain ⟨st1, h1, r, hr, rfl, rfl⟩ := h
        exact ⟨_, rfl⟩
      · simp only [Option.bind_eq_some_iff, Option.map_eq_some_iff, Prod.mk.injEq] at h
        obtain ⟨r, hr, st1, h1, rfl, rfl⟩ := h
        exact ⟨_, rfl⟩
    obtain ⟨r, rfl⟩ := key
    intro d hd
    cases r with
    | none => exact nomatch hd
    | some e =>
      simp only [gvS] at hd
      split at hd
      · simp only [List.mem_singleton] at hd
        subst hd
        exact hs.new (v, st.next) (List.mem_singleton.mpr rfl)
      · exact nomatch hd
  | .block ss, st, st', B, h => by
    simp only [bindS] at h
    split at h
    · cases h; exact fun d h => (nomatch h)
    · simp only [Option.map_eq_some_iff, Prod.mk.injEq] at h
      obtain ⟨r, hr, rfl, rfl⟩ := h
      have ih := gvL_range ss hr
      exact ih
  | .seq ss, st, st', B, h => by
    simp only [bindS, Option.map_eq_some_iff, Prod.mk.injEq] at h
    obtain ⟨r, hr, rfl, rfl⟩ := h
    have ih := gvL_range ss hr
    exact ih
  | .unused xs, st, st', B, h => by
    simp only [bindS, Option.map_eq_some_iff, Prod.mk.injEq] at h
    obtain ⟨r, hr, rfl, rfl⟩ := h
    exact fun d h => (nomatch h)
theorem gvL_range : ∀ (ss : List Stm) {st st' : St} {B : List BStm}, bindL st ss = some (B, st') → ∀ d ∈ gvL B, st.next ≤ d ∧ d < st'.next
  | [], st, st', B, h => by cases h; exact fun d h => (nomatch h)
  | s :: ss, st, st', B, h => by
    simp only [bindL, Option.bind_eq_some_iff, Option.map_eq_some_iff, Prod.mk.injEq] at h
    obtain ⟨r, hr, q, hq, rfl, rfl⟩ := h
    have n1 := (shapeS s hr).next
    have n2 := (shapeL ss hq).next
    intro d hd
    simp only [gvL, List.mem_append] at hd
    rcases hd with hd | hd
    · have := gvS_range s hr d hd; omega
    · have := gvL_range ss hq d hd; omega
end

mutual
theorem marks_splitS (m : BExpr → List Nat) (d : Nat) : ∀ B : BStm, d ∈ marksS m true B ↔ d ∈ marksS m false B ∨ d ∈ marksS none' true B
  | .expr e => by simp [marksS]
  | .decl _ none => by simp [marksS]
  | .decl _ (some e) => by simp [marksS]
  | .block _ ss => marks_splitL m d ss
  | .seq ss => marks_splitL m d ss
  | .unused ds => by simp [marksS]
theorem marks_splitL (m : BExpr → List Nat) (d : Nat) : ∀ B : List BStm, d ∈ marksL m true B ↔ d ∈ marksL m false B ∨ d ∈ marksL none' true B
  | [] => by simp [marksL]
  | s :: ss => by
    simp only [marksL, List.mem_append, marks_splitS m d s, marks_splitL m d ss]
    grind
end

structure Step (f f' : Flags) (pr wr gv : List Nat) : Prop where
  reads : ∀ d, d ∈ f'.reads ↔ d ∈ f.reads ∨ d ∈ pr
  writes : ∀ d, d ∉ pr → (d ∈ f'.writes ↔ d ∈ f.writes ∨ d ∈ wr ∨ d ∈ gv)

mutual
theorem stepS : ∀ (B : BStm) (f : Flags), SingleB B → Step f (checkS f B) (marksS none' true B) (marksS writesE false B) (gvS B)
  | .expr e, f, hs => ⟨by simp [checkS, marksS], by simp [checkS, marksS, gvS]⟩
  | .decl d none, f, hs => ⟨by simp [checkS, marksS], by simp [checkS, marksS, gvS]⟩
  | .decl d (some e), f, hs => ⟨by simp [checkS, marksS], by simp only [checkS, marksS, gvS, List.mem_append]; grind⟩
  | .block _ ss, f, hs => ⟨(stepL ss f hs).reads, (stepL ss f hs).writes⟩
  | .seq ss, f, hs => stepL ss f hs
  | .unused [], f, hs => ⟨by simp [checkS, marksS, markUnused], by simp [checkS, marksS, gvS, markUnused]⟩
  | .unused [e], f, hs => by
    refine ⟨?_, ?_⟩
    · simp only [checkS, marksS, markUnused]
      split <;> simp
    · intro d hd
      have hd' : d ≠ e.2 := by simpa [marksS] using hd
      by_cases hk : e.1.kind = .arg <;> simp [checkS, marksS, markUnused, gvS, hk, hd']
  | .unused (e :: e' :: es), f, hs => absurd hs (by simp [SingleB])
theorem stepL : ∀ (B : List BStm) (f : Flags), SingleBL B → Step f (checkL f B) (marksL none' true B) (marksL writesE false B) (gvL B)
  | [], f, hs => ⟨by simp [checkL, marksL], by simp [checkL, marksL, gvL]⟩
  | s :: ss, f, hs => by
    have h1 := stepS s f hs.1
    have h2 := stepL ss (checkS f s) hs.2
    refine ⟨fun d => ?_, fun d hd => ?_⟩
    · simp only [checkL, marksL, List.mem_append, h2.reads, h1.reads, or_assoc]
    · simp only [marksL, List.mem_append, not_or] at hd
      simp only [checkL, marksL, gvL, List.mem_append, h2.writes d hd.2, h1.writes d hd.1]
      grind
end

/-! ### The two kinds of warnings -/

mutual
def own (k : List Stm) : Stm → List (Nat × Nat)
  | .decl v init => verdict v (self v init || usesL readE true v.name k) (given v init || usesL writtenE false v.name k)
  | .seq ss => ownL k ss
  | _ => []
def ownL (k : List Stm) : List Stm → List (Nat × Nat)
  | [] => []
  | s :: ss => own (ss ++ k) s ++ ownL k ss
end

mutual
def nest : Stm → List (Nat × Nat)
  | .block ss => expectedL [] ss
  | .seq ss => nestL ss
  | _ => []
def nestL : List Stm → List (Nat × Nat)
  | [] => []
  | s :: ss => nest s ++ nestL ss
end

mutual
theorem expected_split (w : Nat × Nat) : ∀ (s : Stm) (k : List Stm), w ∈ expected k s ↔ w ∈ own k s ∨ w ∈ nest s
  | .expr e, k => by simp [expected, own, nest]
  | .decl v i, k => by simp [expected, own, nest]
  | .block ss, k => by simp [expected, own, nest]
  | .seq ss, k => expectedL_split w ss k
  | .unused xs, k => by simp [expected, own, nest]
theorem expectedL_split (w : Nat × Nat) : ∀ (ss : List Stm) (k : List Stm), w ∈ expectedL k ss ↔ w ∈ ownL k ss ∨ w ∈ nestL ss
  | [], k => by simp [expectedL, ownL, nestL]
  | s :: ss, k => by
    simp only [expectedL, ownL, nestL, List.mem_append, expected_split w s, expectedL_split w ss]
    grind
end

theorem bindL_append {k : List Stm} : ∀ {ss : List Stm} {st st1 st2 : St} {B K : List BStm}, bindL st ss = some (B, st1) → bindL st1 k = some (K, st2) →
    bindL st (ss ++ k) = some (B ++ K, st2)
  | [], st, st1, st2, B, K, h, hk => by cases h; exact hk
  | s :: ss, st, st1, st2, B, K, h, hk => by
    simp only [bindL, Option.bind_eq_some_iff, Option.map_eq_some_iff, Prod.mk.injEq] at h
    obtain ⟨r, hr, q, hq, rfl, rfl⟩ := h
    simp only [List.cons_append, bindL, hr, Option.bind_some, bindL_append hq hk, Option.map_some]

theorem marksL_append {m : BExpr → List Nat} {p : Bool} {K : List BStm} : ∀ B : List BStm, marksL m p (B ++ K) = marksL m p B ++ marksL m p K
  | [] => rfl
  | s :: ss => by simp only [List.cons_append, marksL, marksL_append ss, List.append_assoc]

theorem gvL_append {K : List BStm} : ∀ B : List BStm, gvL (B ++ K) = gvL B ++ gvL K
  | [] => rfl
  | s :: ss => by simp only [List.cons_append, gvL, gvL_append ss, List.append_assoc]

theorem test_verdict (F : Flags) (e : Entry) (w : Nat × Nat) {rd wr : Bool} (hr : e.2 ∈ F.reads ↔ rd = true)
    (hw : e.2 ∉ F.reads → e.1.kind ≠ .const → (e.2 ∈ F.writes ↔ wr = true)) : test true F e = some w ↔ w ∈ verdict e.1 rd wr := by
  have hc : F.reads.contains e.2 = rd := by rw [Bool.eq_iff_iff, List.contains_iff_mem, hr]
  unfold test verdict
  rw [hc]
  cases rd with
  | true => cases e.1.kind <;> simp
  | false =>
    have hn : e.2 ∉ F.reads := by rw [hr]; exact Bool.false_ne_true
    cases hk : e.1.kind with
    | const => simp [eq_comm]
    | var =>
      have hw' : F.writes.contains e.2 = wr := by
        rw [Bool.eq_iff_iff, List.contains_iff_mem]
        exact hw hn (by rw [hk]; exact nofun)
      simp only [hw']
      cases wr <;> simp [eq_comm]
    | arg =>
      have hw' : F.writes.contains e.2 = wr := by
        rw [Bool.eq_iff_iff, List.contains_iff_mem]
        exact hw hn (by rw [hk]; exact nofun)
      simp only [hw']
      cases wr <;> simp [eq_comm]

theorem fresh_iff {t : List Entry} {r : List (List Entry)} {v : Var} {n : Nat} (hw : ∀ e ∈ (t :: r).flatten, e.2 < n) (P : Name → Prop) :
    (∃ x en, find (((v, n) :: t) :: r) x = some en ∧ en.2 = n ∧ P x) ↔ P v.name := by
  constructor
  · rintro ⟨x, en, h1, h2, h3⟩
    rw [find_cons] at h1
    split at h1
    · next hx => simp only at hx; rw [hx]; exact h3
    · have := hw en (find_mem h1); omega
  · intro h
    exact ⟨v.name, (v, n), by rw [find_cons, if_pos rfl], rfl, h⟩

theorem stale {sc : List (List Entry)} {n : Nat} (hw : ∀ e ∈ sc.flatten, e.2 < n) {P : Name → Prop} : ¬ ∃ x en, find sc x = some en ∧ en.2 = n ∧ P x := by
  rintro ⟨x, en, h1, h2, _⟩
  have := hw en (find_mem h1)
  omega

/-- A declaration. -/
theorem bind_decl {st st' : St} {v : Var} {i : Option Expr} {B : BStm} (h : bindS st (.decl v i) = some (B, st')) (hw : Wf st) :
    ∃ (b : Option BExpr) (t : List Entry) (r : List (List Entry)), B = .decl (v, st.next) b ∧ b.isSome = i.isSome ∧ st'.next = st.next + 1 ∧ st.scopes = t :: r ∧
      st'.scopes = ((v, st.next) :: t) :: r ∧ (st.next ∈ marksS rdE true B ↔ self v i = true) ∧ (v.kind ≠ .const → st.next ∉ marksS writesE false B) := by
  simp only [bindS] at h
  split at h
  · next hc =>
    simp only [Option.bind_eq_some_iff, Option.map_eq_some_iff, Prod.mk.injEq] at h
    obtain ⟨st1, h1, r, hr, rfl, rfl⟩ := h
    obtain ⟨a1, a2, t, q, a3, a4⟩ := define_ok h1
    have hw2 := hw.2
    rw [a3] at hw2
    cases i with
    | none =>
      cases hr
      exact ⟨none, t, q, rfl, rfl, a2, a3, a4, by simp [marksS, self], fun h => absurd hc h⟩
    | some e =>
      simp only [bindI, Option.map_eq_some_iff] at hr
      obtain ⟨k, hk, rfl⟩ := hr
      refine ⟨some k.1, t, q, rfl, rfl, a2, a3, a4, ?_, fun h => absurd hc h⟩
      rw [a4] at hk
      refine (match_reads _ _ _ hk st.next).trans ?_
      rw [fresh_iff hw2 (fun x => readE x e = true)]
      simp [self, hc]
  · next hc =>
    simp only [Option.bind_eq_some_iff, Option.map_eq_some_iff, Prod.mk.injEq] at h
    obtain ⟨r, hr, st1, h1, rfl, rfl⟩ := h
    obtain ⟨a1, a2, t, q, a3, a4⟩ := define_ok h1
    cases i with
    | none =>
      cases hr
      exact ⟨none, t, q, rfl, rfl, a2, a3, a4, by simp [marksS, self], by simp [marksS]⟩
    | some e =>
      simp only [bindI, Option.map_eq_some_iff] at hr
      obtain ⟨k, hk, rfl⟩ := hr
      refine ⟨some k.1, t, q, rfl, rfl, a2, a3, a4, ?_, fun _ h => ?_⟩
      · refine (match_reads _ _ _ hk st.next).trans ?_
        simp only [self, hc, decide_false, Bool.false_and, Bool.false_eq_true, iff_false]
        exact stale hw.2
      · exact stale hw.2 ((match_writes _ _ _ hk st.next).mp h)

mutual
/-- The variables that a statement declares. -/
theorem own_ok : ∀ (s : Stm) {k : List Stm} {st st1 st2 : St} {B : BStm} {K : List BStm}, bindS st s = some (B, st1) → Wf st → bindL st1 k = some (K, st2) →
    ∀ F : Flags, (∀ d, st.next ≤ d → d < st1.next → (d ∈ F.reads ↔ d ∈ marksS rdE true B ∨ d ∈ marksL rdE true K)) →
    (∀ d, st.next ≤ d → d < st1.next → d ∉ F.reads →
      (d ∈ F.writes ↔ d ∈ marksS writesE false B ∨ d ∈ gvS B ∨ d ∈ marksL writesE false K ∨ d ∈ gvL K)) →
    ∀ w, (∃ e ∈ newS B, test true F e = some w) ↔ w ∈ own k s
  | .expr e, k, st, st1, st2, B, K, h, hw, hk, F, hR, hW, w => by
    simp only [bindS, Option.map_eq_some_iff, Prod.mk.injEq] at h
    obtain ⟨r, hr, rfl, rfl⟩ := h
    simp [newS, own]
  | .decl v i, k, st, st1, st2, B, K, h, hw, hk, F, hR, hW, w => by
    have hw1 := (shapeS _ h).wf hw
    obtain ⟨b, t, r, rfl, hb, hn, hs, hs1, hself, hnw⟩ := bind_decl h hw
    have hR := hR st.next (Nat.le_refl _) (by omega)
    have hW := hW st.next (Nat.le_refl _) (by omega)
    have hw2 := hw.2
    rw [hs] at hw2
    have r1 : st.next ∈ marksL rdE true K ↔ usesL readE true v.name k = true := by
      rw [(markL match_reads k hk hw1).2 st.next (by omega), hs1]
      exact fresh_iff hw2 (fun x => usesL readE true x k = true)
    have r2 : st.next ∈ marksL writesE false K ↔ usesL writtenE false v.name k = true := by
      rw [(markL match_writes k hk hw1).2 st.next (by omega), hs1]
      exact fresh_iff hw2 (fun x => usesL writtenE false x k = true)
    have r3 : st.next ∉ gvL K := fun h => by have := gvL_range k hk _ h; omega
    simp only [newS, List.mem_singleton, exists_eq_left, own]
    refine test_verdict F (v, st.next) w (by rw [hR, hself, r1, Bool.or_eq_true]) (fun hnr hc => ?_)
    rw [hW hnr, r2]
    simp only [hnw hc, r3, false_or, or_false, Bool.or_eq_true]
    refine or_congr ?_ Iff.rfl
    cases b with
    | none =>
      cases i with
      | none => simp [gvS, given]
      | some _ => cases hb
    | some b =>
      cases i with
      | none => cases hb
      | some _ =>
        have hc' : (v.kind != .const) = true := by simpa using hc
        simp only [gvS, given, Option.isSome_some, Bool.true_and, hc', Bool.and_true]
        split <;> simp_all
  | .block ss, k, st, st1, st2, B, K, h, hw, hk, F, hR, hW, w => by
    have hB : newS B = [] := by
      simp only [bindS] at h
      split at h
      · cases h; rfl
      · simp only [Option.map_eq_some_iff, Prod.mk.injEq] at h
        obtain ⟨r, hr, rfl, rfl⟩ := h
        rfl
    simp [hB, own]
  | .seq ss, k, st, st1, st2, B, K, h, hw, hk, F, hR, hW, w => by
    simp only [bindS, Option.map_eq_some_iff, Prod.mk.injEq] at h
    obtain ⟨r, hr, rfl, rfl⟩ := h
    exact ownL_ok ss hr hw hk F hR hW w
  | .unused xs, k, st, st1, st2, B, K, h, hw, hk, F, hR, hW, w => by
    simp only [bindS, Option.map_eq_some_iff, Prod.mk.injEq] at h
    obtain ⟨r, hr, rfl, rfl⟩ := h
    simp [newS, own]
theorem ownL_ok : ∀ (ss : List Stm) {k : List Stm} {st st1 st2 : St} {B K : List BStm}, bindL st ss = some (B, st1) → Wf st → bindL st1 k = some (K, st2) →
    ∀ F : Flags, (∀ d, st.next ≤ d → d < st1.next → (d ∈ F.reads ↔ d ∈ marksL rdE true B ∨ d ∈ marksL rdE true K)) →
    (∀ d, st.next ≤ d → d < st1.next → d ∉ F.reads →
      (d ∈ F.writes ↔ d ∈ marksL writesE false B ∨ d ∈ gvL B ∨ d ∈ marksL writesE false K ∨ d ∈ gvL K)) →
    ∀ w, (∃ e ∈ newL B, test true F e = some w) ↔ w ∈ ownL k ss
  | [], k, st, st1, st2, B, K, h, hw, hk, F, hR, hW, w => by
    cases h
    simp [newL, ownL]
  | s :: ss, k, st, st1, st2, B, K, h, hw, hk, F, hR, hW, w => by
    simp only [bindL, Option.bind_eq_some_iff, Option.map_eq_some_iff, Prod.mk.injEq] at h
    obtain ⟨r, hr, q, hq, rfl, rfl⟩ := h
    have hs1 := shapeS s hr
    have hw1 := hs1.wf hw
    have n1 := hs1.next
    have n2 := (shapeL ss hq).next
    have b1 := (markS (p := true) match_reads s hr hw).1
    have b2 := (markS (p := false) match_writes s hr hw).1
    have i1 := own_ok s hr hw (bindL_append hq hk) F
      (fun d h1 h2 => by
        rw [hR d h1 (by omega)]
        simp only [marksL, marksL_append, List.mem_append, or_assoc])
      (fun d h1 h2 h3 => by
        rw [hW d h1 (by omega) h3]
        simp only [marksL, gvL, marksL_append, gvL_append, List.mem_append]
        grind) w
    have i2 := ownL_ok ss hq hw1 hk F
      (fun d h1 h2 => by
        rw [hR d (by omega) h2]
        have : d ∉ marksS rdE true r.1 := fun h => by have := b1 d h; omega
        simp only [marksL, List.mem_append, this, false_or])
      (fun d h1 h2 h3 => by
        rw [hW d (by omega) h2 h3]
        have t1 : d ∉ marksS writesE false r.1 := fun h => by have := b2 d h; omega
        have t2 : d ∉ gvS r.1 := fun h => by have := gvS_range s hr d h; omega
        simp only [marksL, gvL, List.mem_append, t1, t2, false_or]) w
    simp only [newL, ownL, List.mem_append, ← i1, ← i2]
    constructor
    · rintro ⟨e, h | h, ht⟩
      · exact .inr ⟨e, h, ht⟩
      · exact .inl ⟨e, h, ht⟩
    · rintro (⟨e, h, ht⟩ | ⟨e, h, ht⟩)
      · exact ⟨e, .inr h, ht⟩
      · exact ⟨e, .inl h, ht⟩
end

theorem mem_new {new : List Entry} {F : Flags} {w : Nat × Nat} : w ∈ new.filterMap (test true F) ↔ ∃ e ∈ new, test true F e = some w := List.mem_filterMap

mutual
/-- The warnings that are given while a statement is checked. -/
theorem nest_ok : ∀ (s : Stm) {k : List Stm} {st st1 st2 : St} {B : BStm} {K : List BStm}, bindS st s = some (B, st1) → Wf st → Single s → bindL st1 k = some (K, st2) →
    ∀ f : Flags, (∀ d, st.next ≤ d → d < st1.next → (d ∈ f.reads ↔ d ∈ marksS rdE false B ∨ d ∈ marksL rdE false K)) →
    (∀ d, st.next ≤ d → d < st1.next → d ∉ f.writes) →
    ∀ w, w ∈ (checkS f B).warns ↔ w ∈ f.warns ∨ w ∈ nest s
  | .expr e, k, st, st1, st2, B, K, h, hw, hS, hk, f, hR, hW, w => by
    simp only [bindS, Option.map_eq_some_iff, Prod.mk.injEq] at h
    obtain ⟨r, hr, rfl, rfl⟩ := h
    simp [checkS, nest]
  | .decl v i, k, st, st1, st2, B, K, h, hw, hS, hk, f, hR, hW, w => by
    obtain ⟨b, t, r, rfl, _⟩ := bind_decl h hw
    cases b <;> simp [checkS, nest]
  | .block ss, k, st, st1, st2, B, K, h, hw, hS, hk, f, hR, hW, w => by
    have hw1 := (shapeS _ h).wf hw
    have hK : ∀ d, st.next ≤ d → d < st1.next → d ∉ marksL rdE false K := by
      intro d h1 h2 hd
      obtain ⟨x, en, e1, e2, _⟩ := ((markL match_reads k hk hw1).2 d h2).mp hd
      rw [(afterS _ h hw x).2 rfl] at e1
      have := hw.2 en (find_mem e1)
      omega
    simp only [bindS] at h
    split at h
    · next he =>
      cases h
      rw [List.isEmpty_iff.mp he]
      simp [checkS, checkL, nest, expectedL]
    · simp only [Option.map_eq_some_iff, Prod.mk.injEq] at h
      obtain ⟨r, hr, rfl, rfl⟩ := h
      have hSB := singleL ss hr hS
      have hR' : ∀ d, st.next ≤ d → d < r.2.next → (d ∈ f.reads ↔ d ∈ marksL rdE false r.1) := fun d h1 h2 => by
        rw [hR d h1 h2]
        simp only [marksS, hK d h1 h2, or_false]
      have hst := stepL r.1 f hSB
      have i1 := nestL_ok ss hr (wf_enter hw) hS (k := []) rfl f (fun d h1 h2 => by rw [hR' d h1 h2]; simp [marksL]) hW w
      have i2 := ownL_ok ss hr (wf_enter hw) (k := []) rfl (checkL f r.1)
        (fun d h1 h2 => by
          rw [hst.reads, hR' d h1 h2, marks_splitL rdE]
          simp [marksL])
        (fun d h1 h2 h3 => by
          rw [hst.reads] at h3
          rw [hst.writes d (fun h => h3 (.inr h))]
          simp only [hW d h1 h2, false_or]
          simp [marksL, gvL]) w
      have hsc : r.2.scopes.headD [] = newL r.1 := by
        rw [(shapeL ss hr).scopes _ _ rfl, List.append_nil]; rfl
      simp only [checkS, List.mem_append, i1, hsc, mem_new, i2, nest, expectedL_split w ss]
      grind
  | .seq ss, k, st, st1, st2, B, K, h, hw, hS, hk, f, hR, hW, w => by
    simp only [bindS, Option.map_eq_some_iff, Prod.mk.injEq] at h
    obtain ⟨r, hr, rfl, rfl⟩ := h
    exact nestL_ok ss hr hw hS hk f hR hW w
  | .unused xs, k, st, st1, st2, B, K, h, hw, hS, hk, f, hR, hW, w => by
    simp only [bindS, Option.map_eq_some_iff, Prod.mk.injEq] at h
    obtain ⟨r, hr, rfl, rfl⟩ := h
    have : ∀ (ds : List Entry) (g : Flags), (markUnused g ds).warns = g.warns := by
      intro ds
      induction ds with
      | nil => intro g; rfl
      | cons e es ih =>
        intro g
        simp only [markUnused]
        split
        · rw [ih]
        · rfl
    simp [checkS, nest, this]
theorem nestL_ok : ∀ (ss : List Stm) {k : List Stm} {st st1 st2 : St} {B K : List BStm}, bindL st ss = some (B, st1) → Wf st → SingleL ss → bindL st1 k = some (K, st2) →
    ∀ f : Flags, (∀ d, st.next ≤ d → d < st1.next → (d ∈ f.reads ↔ d ∈ marksL rdE false B ∨ d ∈ marksL rdE false K)) →
    (∀ d, st.next ≤ d → d < st1.next → d ∉ f.writes) →
    ∀ w, w ∈ (checkL f B).warns ↔ w ∈ f.warns ∨ w ∈ nestL ss
  | [], k, st, st1, st2, B, K, h, hw, hS, hk, f, hR, hW, w => by
    cases h
    simp [checkL, nestL]
  | s :: ss, k, st, st1, st2, B, K, h, hw, hS, hk, f, hR, hW, w => by
    simp only [bindL, Option.bind_eq_some_iff, Option.map_eq_some_iff, Prod.mk.injEq] at h
    obtain ⟨r, hr, q, hq, rfl, rfl⟩ := h
    have hs1 := shapeS s hr
    have hw1 := hs1.wf hw
    have n1 := hs1.next
    have n2 := (shapeL ss hq).next
    have b1 := (markS (p := true) match_reads s hr hw).1
    have b2 := (markS (p := false) match_writes s hr hw).1
    have hst := stepS r.1 f (singleS s hr hS.1)
    have i1 := nest_ok s hr hw hS.1 (bindL_append hq hk) f
      (fun d h1 h2 => by
        rw [hR d h1 (by omega)]
        simp only [marksL, marksL_append, List.mem_append, or_assoc])
      (fun d h1 h2 => hW d h1 (by omega)) w
    have no : ∀ d, r.2.next ≤ d → d ∉ marksS none' true r.1 := fun d h1 h => by
      have := b1 d ((marks_splitS rdE d r.1).mpr (.inr h)); omega
    have i2 := nestL_ok ss hq hw1 hS.2 hk (checkS f r.1)
      (fun d h1 h2 => by
        rw [hst.reads, hR d (by omega) h2]
        have : d ∉ marksS rdE false r.1 := fun h => by have := b1 d ((marks_splitS rdE d r.1).mpr (.inl h)); omega
        simp only [marksL, List.mem_append, this, no d h1, false_or, or_false])
      (fun d h1 h2 => by
        rw [hst.writes d (no d h1)]
        have t1 : d ∉ marksS writesE false r.1 := fun h => by have := b2 d h; omega
        have t2 : d ∉ gvS r.1 := fun h => by have := gvS_range s hr d h; omega
        simp [t1, t2, hW d (by omega) h2]) w
    simp only [checkL, nestL, List.mem_append, i2, i1, or_assoc]
end

end Verif.Unused

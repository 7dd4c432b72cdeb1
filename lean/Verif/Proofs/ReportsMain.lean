import Verif.Proofs.Reports
namespace Verif.Reports

/-- The phases before the first messages are printed. -/
def Program.front (p : Program) : List Phase := [p.setup, p.parse, p.enter, p.bind, p.analyze]

def raised (ps : List Phase) : List Msg := ps.flatMap (fun p => kept p.work)

/-- The manager when the first messages are printed. -/
def atDump (o : Opts) (p : Program) : Mgr :=
  let r := frontEnd o p {}
  if r.1 = false ∧ numErrors r.2 = 0 then perform o (.report ⟨423, 0, 0⟩) r.2 else r.2

theorem fatal423 (o : Opts) : Fatal o ⟨423, 0, 0⟩ := Or.inl (Or.inr (by decide))

theorem atDump_ok (o : Opts) (p : Program) :
    (atDump o p).defers = [] ∧ Good 0 (atDump o p) ∧
    (numErrors (atDump o p) = 0 ↔ ∀ q ∈ p.front, q.Clean o) ∧
    ((∀ q ∈ p.front, q.Clean o) → (atDump o p).flag = false ∧ (atDump o p).listed = (raised p.front).map (rep o)) ∧
    (∀ r ∈ (atDump o p).listed, r ∈ (raised p.front).map (rep o) ∨ r = rep o ⟨423, 0, 0⟩) := by
  have h0 : Good 0 ({} : Mgr) := Or.inl ⟨rfl, rfl, by intro r h; cases h⟩
  have hs := perform_step o p.setup.work {} rfl
  have hg := hs.good 0 h0
  -- the result before the safety net
  have key : (frontEnd o p {}).2.defers = [] ∧ Good 0 (frontEnd o p {}).2 ∧
      ((frontEnd o p {}).1 = true ∧ numErrors (frontEnd o p {}).2 = 0 ↔ ∀ q ∈ p.front, q.Clean o) ∧
      ((∀ q ∈ p.front, q.Clean o) → (frontEnd o p {}).2.flag = false ∧
        (frontEnd o p {}).2.listed = (raised p.front).map (rep o)) ∧
      (∀ r ∈ (frontEnd o p {}).2.listed, r ∈ (raised p.front).map (rep o)) := by
    have hr : raised p.front = kept p.setup.work ++ raised [p.parse, p.enter, p.bind, p.analyze] := by
      simp [raised, Program.front]
    by_cases hok : p.setup.ok = false
    · have he : frontEnd o p {} = (false, perform o p.setup.work {}) := by simp [frontEnd, hok]
      have hnc : ¬ ∀ q ∈ p.front, q.Clean o := by
        intro h
        have := (h p.setup (by simp [Program.front])).1
        rw [hok] at this; cases this
      rw [he]
      refine ⟨hs.top, hg, ⟨fun h => (by cases h.1), fun h => absurd h hnc⟩, fun h => absurd h hnc, ?_⟩
      intro r h
      rcases hs.from_ r h with h | h
      · cases h
      · rw [hr, List.map_append]; exact List.mem_append_left _ h
    · have he : frontEnd o p {} = phases o [p.parse, p.enter, p.bind, p.analyze] (perform o p.setup.work {}) := by
        simp [frontEnd, hok]
      obtain ⟨i1, i2, i3, i4, i5⟩ := phases_ok o [p.parse, p.enter, p.bind, p.analyze] _ hs.top
      rw [he]
      refine ⟨i1, i2 0 hg, ?_, ?_, ?_⟩
      · constructor
        · rintro ⟨h1, h2⟩
          have hrest := i3.mp h1
          intro q hq
          rcases List.mem_cons.mp hq with rfl | hq
          · refine ⟨by simpa using hok, ?_⟩
            apply Classical.byContradiction
            intro hn
            have hex : ∃ m ∈ kept p.setup.work, Fatal o m := by
              apply Classical.byContradiction
              intro hne
              exact hn (fun m hm hf => hne ⟨m, hm, hf⟩)
            have hl := hs.loud ((fatal_map o _).mpr hex)
            have hl' : (perform o p.setup.work {}).total > 0 := hl
            rcases hg with ⟨g, _, _⟩ | ⟨_, r, hr, hk⟩
            · omega
            · -- an error is listed, and stays listed
              have hG := i2 0 (Or.inr ⟨hl', r, hr, hk⟩)
              rw [numErrors_zero] at h2
              rcases hG with ⟨g, _, _⟩ | ⟨_, r', hr', hk'⟩
              · have hm : ∀ (ps : List Phase) (m : Mgr), m.defers = [] → m.total ≤ (phases o ps m).2.total := by
                  intro ps
                  induction ps with
                  | nil => intro m _; exact Nat.le_refl _
                  | cons q qs ih =>
                    intro m hd
                    have hq := perform_step o q.work m hd
                    simp only [phases]
                    split
                    · exact hq.mono
                    · exact Nat.le_trans hq.mono (ih _ hq.top)
                have := hm [p.parse, p.enter, p.bind, p.analyze] _ hs.top
                omega
              · exact h2 r' hr' hk'
          · exact hrest q hq
        · intro h
          have hrest : ∀ q ∈ [p.parse, p.enter, p.bind, p.analyze], q.Clean o :=
            fun q hq => h q (List.mem_cons_of_mem _ hq)
          have hset := h p.setup (by simp [Program.front])
          obtain ⟨f1, f2⟩ := (hs.quiet ((calm_map o _).mpr hset.2)).2 rfl
          refine ⟨i3.mpr hrest, ?_⟩
          rw [numErrors_zero, (i4 hrest f1).2, f2]
          intro r hr
          rw [List.nil_append, ← List.map_append] at hr
          refine (calm_map o _).mpr ?_ r hr
          intro m hm
          rcases List.mem_append.mp hm with hm | hm
          · exact hset.2 m hm
          · obtain ⟨q, hq, hmq⟩ := List.mem_flatMap.mp hm
            exact (hrest q hq).2 m hmq
      · intro h
        have hrest : ∀ q ∈ [p.parse, p.enter, p.bind, p.analyze], q.Clean o :=
          fun q hq => h q (List.mem_cons_of_mem _ hq)
        have hset := h p.setup (by simp [Program.front])
        obtain ⟨f1, f2⟩ := (hs.quiet ((calm_map o _).mpr hset.2)).2 rfl
        obtain ⟨g1, g2⟩ := i4 hrest f1
        refine ⟨g1, ?_⟩
        rw [g2, f2, hr, List.map_append]
        rfl
      · intro r h
        rw [hr, List.map_append]
        rcases i5 r h with h | h
        · rcases hs.from_ r h with h | h
          · cases h
          · exact List.mem_append_left _ h
        · exact List.mem_append_right _ h
  obtain ⟨k1, k2, k3, k4, k5⟩ := key
  by_cases hn : (frontEnd o p {}).1 = false ∧ numErrors (frontEnd o p {}).2 = 0
  · have he : atDump o p = reportError (frontEnd o p {}).2 (rep o ⟨423, 0, 0⟩) := by
      simp only [atDump]; rw [if_pos hn]; rfl
    have hs' := report_step (frontEnd o p {}).2 (rep o ⟨423, 0, 0⟩) k1
    have hnc : ¬ ∀ q ∈ p.front, q.Clean o := by
      intro h
      have := (k3.mpr h).1
      rw [hn.1] at this; cases this
    have hG := hs'.good 0 k2
    have hloud := hs'.loud ⟨_, by simp, (kind_fatal o _).mpr (fatal423 o)⟩
    rw [he]
    refine ⟨hs'.top, hG, ⟨fun h => ?_, fun h => absurd h hnc⟩, fun h => absurd h hnc, ?_⟩
    · rw [numErrors_zero] at h
      rcases hG with ⟨g, _, _⟩ | ⟨_, r, hr, hk⟩
      · omega
      · exact absurd hk (h r hr)
    · intro r h
      rcases hs'.from_ r h with h | h
      · exact Or.inl (k5 r h)
      · exact Or.inr (by simpa using h)
  · have he : atDump o p = (frontEnd o p {}).2 := by
      simp only [atDump]; rw [if_neg hn]
    rw [he]
    refine ⟨k1, k2, ?_, k4, fun r h => Or.inl (k5 r h)⟩
    rw [← k3]
    constructor
    · intro h
      refine ⟨?_, h⟩
      cases hb : (frontEnd o p {}).1 with
      | true => rfl
      | false => exact absurd ⟨hb, h⟩ hn
    · intro h; exact h.2

/-- What a run does, when the phases before the generator are clean and when they are not. -/
theorem compile_bad (o : Opts) (p : Program) (h : numErrors (atDump o p) ≠ 0) :
    compile o p = { written := false, exit := 1, first := dump (atDump o p), second := [] } := by
  have hb : (numErrors (atDump o p) == 0) = false := by simpa using h
  unfold compile
  simp only [atDump] at hb ⊢
  rw [hb]
  simp [dump, sortReports]

theorem compile_good (o : Opts) (p : Program) (h : numErrors (atDump o p) = 0) :
    let g := generate o p.generate { atDump o p with listed := [] }
    compile o p = if o.syntaxOnly = false ∧ g.1 = true then
        { written := p.write.ok, exit := if p.write.ok then 0 else 1, first := dump (atDump o p), second := dump (perform o p.write.work g.2) }
      else { written := false, exit := if g.1 then 0 else 1, first := dump (atDump o p), second := dump g.2 } := by
  intro g
  have hb : (numErrors (atDump o p) == 0) = true := by simpa using h
  have hg : g = generate o p.generate { atDump o p with listed := [] } := rfl
  clear_value g
  unfold compile
  simp only [atDump] at hb hg ⊢
  rw [hb]
  simp only [if_true]
  rw [← hg]
  split <;> rfl

/-- The generator runs from a state without errors. -/
theorem generate_ok (o : Opts) (q : Phase) (m : Mgr) (hd : m.defers = []) (hf : m.flag = false) (hl : m.listed = []) :
    ((generate o q m).1 = true ↔ q.Clean o) ∧ (generate o q m).2.defers = [] ∧
    (q.Clean o → (generate o q m).2.flag = false ∧ (generate o q m).2.listed = (kept q.work).map (rep o)) ∧
    ((∃ x ∈ kept q.work, Fatal o x) → ∃ r ∈ (generate o q m).2.listed, r.kind = .error) ∧
    (∀ r ∈ (generate o q m).2.listed, r ∈ (kept q.work).map (rep o)) := by
  have hs := perform_step o q.work m hd
  have h0 : Good m.total m := Or.inl ⟨rfl, hf, by rw [hl]; intro r h; cases h⟩
  have hG := hs.good _ h0
  refine ⟨?_, hs.top, ?_, ?_, ?_⟩
  · simp only [generate, Bool.and_eq_true, beq_iff_eq]
    constructor
    · rintro ⟨h1, h2⟩
      refine ⟨h1, fun x hx hfx => ?_⟩
      have := hs.loud ((fatal_map o _).mpr ⟨x, hx, hfx⟩)
      omega
    · intro h
      exact ⟨h.1, (hs.quiet ((calm_map o _).mpr h.2)).1⟩
  · intro h
    obtain ⟨f1, f2⟩ := (hs.quiet ((calm_map o _).mpr h.2)).2 hf
    exact ⟨f1, by simpa [hl, generate] using f2⟩
  · intro h
    have := hs.loud ((fatal_map o _).mpr h)
    rcases hG with ⟨g, _⟩ | ⟨_, g⟩
    · omega
    · exact g
  · intro r hr
    rcases hs.from_ r hr with h | h
    · rw [hl] at h; cases h
    · exact h

end Verif.Reports

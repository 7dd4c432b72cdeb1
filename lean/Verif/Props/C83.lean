import Verif.Proofs.ReportsMain
/-
C83: a program with an error is not compiled and the user is told so; a program without errors is
compiled, and the user sees its warnings.

The theorems hold for every run of the compiler: whatever the phases raise, in whatever order, inside
however many deferrals.  `Program` is any such run.  The hypotheses about `write` and `generate` say
what their code does: `splat_to_binary` (`compiler/assembler.cpp`:90-108) raises error 419 exactly when
it fails, and `ComputeStackUsage` (`compiler/code-generator.cpp`:2254-2306) raises error 431 whenever it
fails.
-/
namespace Verif.Reports

/-- The exit code is 0 exactly when every phase succeeds and no phase raises an error. -/
theorem C83_exit (o : Opts) (p : Program) (hw : p.write.Clean o ↔ p.write.ok = true) :
    (compile o p).exit = 0 ↔
      (∀ q ∈ p.checks, q.Clean o) ∧ (o.syntaxOnly = false → p.write.Clean o) := by
  obtain ⟨a1, a2, a3, a4, _⟩ := atDump_ok o p
  have hfront : (∀ q ∈ p.checks, q.Clean o) ↔ (∀ q ∈ p.front, q.Clean o) ∧ p.generate.Clean o := by
    simp [Program.checks, Program.front]
    constructor
    · rintro ⟨h1, h2, h3, h4, h5, h6⟩; exact ⟨⟨h1, h2, h3, h4, h5⟩, h6⟩
    · rintro ⟨⟨h1, h2, h3, h4, h5⟩, h6⟩; exact ⟨h1, h2, h3, h4, h5, h6⟩
  by_cases hn : numErrors (atDump o p) = 0
  · have hc := a3.mp hn
    have hflag := (a4 hc).1
    obtain ⟨g1, _⟩ := generate_ok o p.generate { atDump o p with listed := [] } a1 hflag rfl
    rw [compile_good o p hn, hfront, hw]
    split
    · rename_i h
      have := g1.mp h.2
      cases hwo : p.write.ok <;> simp [h.1, this, hc]
      exact fun q hq => hc q hq
    · rename_i h
      cases hg : (generate o p.generate { atDump o p with listed := [] }).1 with
      | true =>
        have hso : o.syntaxOnly = true := by
          cases hso : o.syntaxOnly with
          | true => rfl
          | false => exact absurd ⟨hso, hg⟩ h
        simp [hso, g1.mp hg]
        exact fun q hq => hc q hq
      | false =>
        have hng : ¬ p.generate.Clean o := by
          intro hcl
          have := g1.mpr hcl
          rw [hg] at this; cases this
        simp [hng]
  · rw [compile_bad o p hn, hfront]
    have : ¬ ∀ q ∈ p.front, q.Clean o := fun h => hn (a3.mpr h)
    simp [this]

/-- The exit code is 0 or 1. -/
theorem C83_exit_codes (o : Opts) (p : Program) : (compile o p).exit = 0 ∨ (compile o p).exit = 1 := by
  by_cases hn : numErrors (atDump o p) = 0
  · rw [compile_good o p hn]
    split
    · cases p.write.ok <;> simp
    · cases (generate o p.generate { atDump o p with listed := [] }).1 <;> simp
  · rw [compile_bad o p hn]; exact Or.inr rfl

/-- The file is written exactly when the exit code is 0 and the user wanted a file. -/
theorem C83_written (o : Opts) (p : Program) :
    (compile o p).written = true ↔ (compile o p).exit = 0 ∧ o.syntaxOnly = false := by
  by_cases hn : numErrors (atDump o p) = 0
  · rw [compile_good o p hn]
    split
    · rename_i h
      cases p.write.ok <;> simp [h.1]
    · rename_i h
      cases hg : (generate o p.generate { atDump o p with listed := [] }).1 with
      | true => simp only [hg, and_true] at h; simp [h]
      | false => simp
  · rw [compile_bad o p hn]; simp

/-- An error is never silent: whenever the exit code is 1, an error has been printed. -/
theorem C83_told (o : Opts) (p : Program) (hg : p.generate.Explains o) (hw : p.write.Explains o)
    (h : (compile o p).exit = 1) : ∃ r ∈ (compile o p).printed, r.kind = .error := by
  obtain ⟨a1, a2, a3, a4, _⟩ := atDump_ok o p
  by_cases hn : numErrors (atDump o p) = 0
  · have hc := a3.mp hn
    have hflag := (a4 hc).1
    obtain ⟨g1, g2, g3, g4, _⟩ := generate_ok o p.generate { atDump o p with listed := [] } a1 hflag rfl
    rw [compile_good o p hn] at h ⊢
    split at h
    · rename_i hcond
      rw [if_pos hcond]
      have hwo : p.write.ok = false := by
        cases hwo : p.write.ok with
        | false => rfl
        | true => rw [hwo] at h; simp at h
      have hgc := g1.mp hcond.2
      obtain ⟨gf, gl⟩ := g3 hgc
      have hs := perform_step o p.write.work _ g2
      have h0 : Good (generate o p.generate { atDump o p with listed := [] }).2.total (generate o p.generate { atDump o p with listed := [] }).2 :=
        Or.inl ⟨rfl, gf, by rw [gl]; exact (calm_map o _).mpr hgc.2⟩
      have hl := hs.loud ((fatal_map o _).mpr (hw hwo))
      rcases hs.good _ h0 with ⟨e, _⟩ | ⟨_, r, hr, hk⟩
      · omega
      · refine ⟨r, List.mem_append_right _ ((mem_dump _ r).mpr ⟨hr, by rw [hk]; decide⟩), hk⟩
    · rename_i hcond
      rw [if_neg hcond]
      have hgo : (generate o p.generate { atDump o p with listed := [] }).1 = false := by
        cases hgo : (generate o p.generate { atDump o p with listed := [] }).1 with
        | false => rfl
        | true => rw [hgo] at h; simp at h
      have hex : ∃ x ∈ kept p.generate.work, Fatal o x := by
        apply Classical.byContradiction
        intro hne
        have hok : p.generate.ok = true := by
          cases hok : p.generate.ok with
          | true => rfl
          | false => exact absurd (hg hok) hne
        have := g1.mpr ⟨hok, fun x hx hf => hne ⟨x, hx, hf⟩⟩
        rw [hgo] at this; cases this
      obtain ⟨r, hr, hk⟩ := g4 hex
      exact ⟨r, List.mem_append_right _ ((mem_dump _ r).mpr ⟨hr, by rw [hk]; decide⟩), hk⟩
  · rw [compile_bad o p hn]
    have : ∃ r ∈ (atDump o p).listed, r.kind = .error := by
      apply Classical.byContradiction
      intro hne
      exact hn ((numErrors_zero _).mpr (fun r hr hk => hne ⟨r, hr, hk⟩))
    obtain ⟨r, hr, hk⟩ := this
    exact ⟨r, List.mem_append_left _ ((mem_dump _ r).mpr ⟨hr, by rw [hk]; decide⟩), hk⟩

/-- Nothing is made up: what is printed was raised by some phase and should be shown, or is message
423, which says that the compiler failed without saying why. -/
theorem C83_true (o : Opts) (p : Program) :
    ∀ r ∈ (compile o p).printed, Shown o r.msg ∧ (r.kind = .error ↔ Fatal o r.msg) ∧
      ((∃ q ∈ p.checks ++ [p.write], r.msg ∈ kept q.work) ∨ r.msg.number = 423) := by
  obtain ⟨a1, a2, a3, a4, a5⟩ := atDump_ok o p
  have hrep : ∀ m : Msg, (rep o m).kind ≠ .suppressed → Shown o (rep o m).msg ∧ ((rep o m).kind = .error ↔ Fatal o (rep o m).msg) :=
    fun m h => ⟨(kind_shown o m).mp h, kind_fatal o m⟩
  have hfirst : ∀ r ∈ dump (atDump o p), Shown o r.msg ∧ (r.kind = .error ↔ Fatal o r.msg) ∧
      ((∃ q ∈ p.checks ++ [p.write], r.msg ∈ kept q.work) ∨ r.msg.number = 423) := by
    intro r hr
    obtain ⟨hr, hk⟩ := (mem_dump _ r).mp hr
    rcases a5 r hr with h | rfl
    · obtain ⟨m, hm, rfl⟩ := List.mem_map.mp h
      obtain ⟨h1, h2⟩ := hrep m hk
      refine ⟨h1, h2, Or.inl ?_⟩
      obtain ⟨q, hq, hmq⟩ := List.mem_flatMap.mp hm
      refine ⟨q, ?_, hmq⟩
      simp only [Program.front, Program.checks] at hq ⊢
      simp only [List.mem_cons, List.not_mem_nil, or_false] at hq
      simp only [List.cons_append, List.nil_append, List.mem_cons, List.not_mem_nil, or_false]
      rcases hq with h | h | h | h | h <;> simp [h]
    · obtain ⟨h1, h2⟩ := hrep _ hk
      exact ⟨h1, h2, Or.inr rfl⟩
  by_cases hn : numErrors (atDump o p) = 0
  · have hc := a3.mp hn
    obtain ⟨g1, g2, g3, g4, g5⟩ := generate_ok o p.generate { atDump o p with listed := [] } a1 (a4 hc).1 rfl
    have hgen : ∀ m ∈ kept p.generate.work, ∃ q ∈ p.checks ++ [p.write], m ∈ kept q.work :=
      fun m hm => ⟨p.generate, by simp [Program.checks], hm⟩
    rw [compile_good o p hn]
    split
    · intro r hr
      rcases List.mem_append.mp hr with hr | hr
      · exact hfirst r hr
      · obtain ⟨hr, hk⟩ := (mem_dump _ r).mp hr
        have hs := perform_step o p.write.work _ g2
        rcases hs.from_ r hr with h | h
        · obtain ⟨m, hm, rfl⟩ := List.mem_map.mp (g5 r h)
          obtain ⟨h1, h2⟩ := hrep m hk
          exact ⟨h1, h2, Or.inl (hgen m hm)⟩
        · obtain ⟨m, hm, rfl⟩ := List.mem_map.mp h
          obtain ⟨h1, h2⟩ := hrep m hk
          exact ⟨h1, h2, Or.inl ⟨p.write, by simp, hm⟩⟩
    · intro r hr
      rcases List.mem_append.mp hr with hr | hr
      · exact hfirst r hr
      · obtain ⟨hr, hk⟩ := (mem_dump _ r).mp hr
        obtain ⟨m, hm, rfl⟩ := List.mem_map.mp (g5 r hr)
        obtain ⟨h1, h2⟩ := hrep m hk
        exact ⟨h1, h2, Or.inl (hgen m hm)⟩
  · rw [compile_bad o p hn]
    intro r hr
    rcases List.mem_append.mp hr with hr | hr
    · exact hfirst r hr
    · cases hr

/-- No warning is lost: when the exit code is 0, the messages printed are, up to their order, the
messages that the phases raised and that the user should see, each as often as it was raised. -/
theorem C83_warnings (o : Opts) (p : Program) (hw : p.write.Clean o ↔ p.write.ok = true)
    (h : (compile o p).exit = 0) (shown : Msg → Bool) (hs : ∀ m, shown m = true ↔ Shown o m) :
    ((compile o p).printed.map (·.msg)).Perm
      (((p.checks ++ if o.syntaxOnly then [] else [p.write]).flatMap (fun q => kept q.work)).filter shown) := by
  have hall := (C83_exit o p hw).mp h
  obtain ⟨a1, a2, a3, a4, a5⟩ := atDump_ok o p
  have hc : ∀ q ∈ p.front, q.Clean o := by
    intro q hq
    refine hall.1 q ?_
    simp only [Program.front, Program.checks, List.mem_cons, List.not_mem_nil, or_false] at hq ⊢
    rcases hq with h | h | h | h | h <;> simp [h]
  have hgc : p.generate.Clean o := hall.1 _ (by simp [Program.checks])
  have hn := a3.mpr hc
  obtain ⟨_, al⟩ := a4 hc
  obtain ⟨g1, g2, g3, g4, g5⟩ := generate_ok o p.generate { atDump o p with listed := [] } a1 (a4 hc).1 rfl
  obtain ⟨gf, gl⟩ := g3 hgc
  have hdump : ∀ (m : Mgr) (ms : List Msg), m.listed = ms.map (rep o) → ((dump m).map (·.msg)).Perm (ms.filter shown) := by
    intro m ms hm
    refine ((dump_perm m).map _).trans ?_
    rw [hm, List.filter_map, List.map_map]
    have : (fun x : Report => x.msg) ∘ rep o = id := rfl
    rw [this, List.map_id]
    have hfun : (fun x : Report => x.kind != Kind.suppressed) ∘ rep o = shown := by
      funext x
      rw [Bool.eq_iff_iff, hs x, ← kind_shown]
      simp
    rw [hfun]
  have hsplit : p.checks.flatMap (fun q => kept q.work) = raised p.front ++ kept p.generate.work := by
    simp [Program.checks, Program.front, raised]
  rw [compile_good o p hn]
  rw [List.flatMap_append, hsplit, List.filter_append, List.filter_append]
  split
  · rename_i hcond
    have hws := perform_step o p.write.work _ g2
    have hwc := hall.2 hcond.1
    have hwl := ((hws.quiet ((calm_map o _).mpr hwc.2)).2 gf).2
    rw [gl, ← List.map_append] at hwl
    simp only [Outcome.printed, List.map_append, hcond.1, Bool.false_eq_true, if_false]
    rw [List.append_assoc]
    refine List.Perm.append (hdump _ _ al) ?_
    have := hdump _ _ hwl
    rw [List.filter_append] at this
    simpa using this
  · rename_i hcond
    have hso : o.syntaxOnly = true := by
      cases hso : o.syntaxOnly with
      | true => rfl
      | false => exact absurd ⟨hso, g1.mpr hgc⟩ hcond
    simp only [Outcome.printed, List.map_append, hso, if_true]
    simp only [List.flatMap_nil, List.filter_nil, List.append_nil]
    exact List.Perm.append (hdump _ _ al) (hdump _ _ gl)

/-- The messages of the phases before the generator are printed file by file, the file that was
opened last first, and within each file in the order of their lines. -/
theorem C83_sorted (o : Opts) (p : Program) :
    (compile o p).first.Pairwise (fun a b => b.msg.file < a.msg.file ∨
      (a.msg.file = b.msg.file ∧ a.msg.line ≤ b.msg.line)) := by
  have hd : (compile o p).first = dump (atDump o p) := by
    by_cases hn : numErrors (atDump o p) = 0
    · rw [compile_good o p hn]; split <;> rfl
    · rw [compile_bad o p hn]
  rw [hd]
  unfold dump
  apply List.Pairwise.filter
  refine (sort_sorted (atDump o p).listed).imp ?_
  intro a b h
  simp only [before] at h
  grind

/-- A warning that the user has disabled is not printed, as long as warnings are not errors. -/
theorem C83_disabled_partial (o : Opts) (p : Program) (hw : o.warningsAreErrors = false) (n : Nat)
    (hn : ¬ IsErrorNumber n) (hd : n ∈ o.disabled) : ∀ r ∈ (compile o p).printed, r.msg.number ≠ n := by
  intro r hr he
  obtain ⟨h, _, _⟩ := C83_true o p r hr
  rcases h with (h | h) | h
  · exact hn (he ▸ h)
  · rw [hw] at h; cases h.1
  · exact h (he ▸ hd)

/-- What is missing: when warnings are errors, disabling a warning has no effect on it.  The program
is not compiled. -/
theorem C83_disabled_is_error :
    ∃ (o : Opts) (p : Program), 203 ∈ o.disabled ∧ (∀ q ∈ p.checks, q.ok = true ∧ ∀ m ∈ kept q.work, m.number = 203) ∧
      (compile o p).exit = 1 ∧ (compile o p).written = false ∧ (compile o p).printed ≠ [] := by
  refine ⟨⟨true, [203], false⟩, ⟨⟨.nothing, true⟩, ⟨.nothing, true⟩, ⟨.nothing, true⟩, ⟨.nothing, true⟩,
    ⟨.report ⟨203, 0, 7⟩, true⟩, ⟨.nothing, true⟩, ⟨.nothing, true⟩⟩, by decide, ?_, ?_⟩
  · intro q hq
    simp only [Program.checks, List.mem_cons, List.not_mem_nil, or_false] at hq
    rcases hq with rfl | rfl | rfl | rfl | rfl | rfl <;> simp [kept]
  · decide +kernel

/-- Which warnings are disabled after the options of the command line: an option speaks only about
its own number, `-w n-` disables it, `-w n+` enables it, and `-w n` turns it over. -/
theorem C83_options (ws : List (Nat × Enable)) (n : Nat) :
    (disabledBy ws).contains n = (ws.filter (·.1 == n)).foldl
      (fun off w => match w.2 with | .disable => true | .enable => false | .toggle => !off) false := by
  have gen : ∀ (ws : List (Nat × Enable)) (s : List Nat) (b : Bool), s.contains n = b →
      (ws.foldl (fun off w => enableWarning off w.1 w.2) s).contains n = (ws.filter (·.1 == n)).foldl
        (fun off w => match w.2 with | .disable => true | .enable => false | .toggle => !off) b := by
    intro ws
    induction ws with
    | nil => intro s b h; exact h
    | cons w ws ih =>
      intro s b h
      obtain ⟨k, e⟩ := w
      simp only [List.foldl_cons]
      by_cases hk : k = n
      · subst hk
        have hf : ((k, e) :: ws).filter (·.1 == k) = (k, e) :: ws.filter (·.1 == k) := by simp
        rw [hf, List.foldl_cons]
        apply ih
        cases e with
        | disable => simp only [enableWarning]; split <;> simp_all
        | enable => simp [enableWarning]
        | toggle =>
          simp only [enableWarning]
          split
          · rename_i hc; rw [← h, hc]; simp
          · rename_i hc
            have hb : b = false := by rw [← h]; simpa using hc
            subst hb
            simp
      · have hf : ((k, e) :: ws).filter (·.1 == n) = ws.filter (·.1 == n) := by
          simp [hk]
        rw [hf]
        apply ih
        rw [← h]
        cases e with
        | disable =>
          simp only [enableWarning]
          split
          · rfl
          · simp [Ne.symm hk]
        | enable =>
          rw [Bool.eq_iff_iff]
          simp [enableWarning, Ne.symm hk]
        | toggle =>
          simp only [enableWarning]
          split
          · rw [Bool.eq_iff_iff]; simp [Ne.symm hk]
          · simp [Ne.symm hk]
  exact gen ws [] false rfl

/-! A run with two warnings, one of them disabled, and an attempt that failed with an error and was
given up. -/

def demoOpts : Opts := ⟨false, [204], false⟩

def demo : Program where
  setup := ⟨.nothing, true⟩
  parse := ⟨.seq (.onePerStatement true) (.seq (.deferred (.report ⟨17, 0, 9⟩) false) (.onePerStatement false)), true⟩
  enter := ⟨.nothing, true⟩
  bind := ⟨.deferred (.report ⟨203, 0, 4⟩) true, true⟩
  analyze := ⟨.seq (.report ⟨204, 0, 3⟩) (.report ⟨213, 0, 2⟩), true⟩
  generate := ⟨.nothing, true⟩
  write := ⟨.nothing, true⟩

example : (compile demoOpts demo).exit = 0 ∧ (compile demoOpts demo).written = true ∧
    (compile demoOpts demo).printed.map (·.msg.number) = [213, 203] := by decide +kernel

example : demo.write.Clean demoOpts ↔ demo.write.ok = true :=
  ⟨fun h => h.1, fun h => ⟨h, by intro m hm; cases hm⟩⟩

/-- With an error in the parser: of the three errors in one statement the first is printed, and the
later phases are not run. -/
def broken : Program :=
  { demo with parse := ⟨.seq (.onePerStatement true) (.seq (.report ⟨1, 0, 5⟩) (.seq (.report ⟨17, 0, 5⟩) (.report ⟨29, 0, 6⟩))), true⟩ }

example : (compile demoOpts broken).exit = 1 ∧ (compile demoOpts broken).written = false ∧
    (compile demoOpts broken).printed.map (·.msg.number) = [1] := by decide +kernel

example : broken.generate.Explains demoOpts ∧ broken.write.Explains demoOpts :=
  ⟨fun h => (by cases h), fun h => (by cases h)⟩

/-- A phase that fails without a message. -/
example : (compile demoOpts { demo with bind := ⟨.nothing, false⟩ }).printed.map (·.msg.number) = [423] := by
  decide +kernel

example : disabledBy [(203, .disable), (204, .toggle), (203, .enable), (205, .toggle), (205, .toggle)] = [204] := by
  decide +kernel

end Verif.Reports

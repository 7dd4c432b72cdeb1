import Verif.Spec.Reports
namespace Verif.Reports

def rep (o : Opts) (m : Msg) : Report := ⟨m, kindOf o m.number⟩

theorem kind_fatal (o : Opts) (m : Msg) : (rep o m).kind = .error ↔ Fatal o m := by
  simp only [rep, kindOf, Fatal, IsErrorNumber]
  constructor
  · intro h
    split at h
    · rename_i hc
      rcases hc with hc | ⟨hc, hw⟩ | hc
      · exact Or.inl (Or.inl hc)
      · exact Or.inr ⟨hw, hc⟩
      · exact Or.inl (Or.inr hc)
    · split at h <;> cases h
  · intro h
    rw [if_pos]
    rcases h with (h | h) | ⟨hw, h⟩
    · exact Or.inl h
    · exact Or.inr (Or.inr h)
    · exact Or.inr (Or.inl ⟨h, hw⟩)

theorem kind_shown (o : Opts) (m : Msg) : (rep o m).kind ≠ .suppressed ↔ Shown o m := by
  have hf := kind_fatal o m
  unfold Shown
  rw [← hf]
  simp only [rep, kindOf]
  split
  · simp
  · split
    · rename_i h; simp only [List.contains_iff_mem] at h; simp [h]
    · rename_i h; simp only [List.contains_iff_mem] at h; simp [h]

/-- What the manager has seen since the count was `t`. -/
def Good (t : Nat) (m : Mgr) : Prop :=
  (m.total = t ∧ m.flag = false ∧ ∀ r ∈ m.listed, r.kind ≠ .error) ∨
  (m.total > t ∧ ∃ r ∈ m.listed, r.kind = .error)

structure Step (m : Mgr) (rs : List Report) (m' : Mgr) : Prop where
  top : m'.defers = []
  quiet : (∀ r ∈ rs, r.kind ≠ .error) → m'.total = m.total ∧ (m.flag = false → m'.flag = false ∧ m'.listed = m.listed ++ rs)
  good : ∀ t, Good t m → Good t m'
  loud : (∃ r ∈ rs, r.kind = .error) → m'.total > m.total
  mono : m.total ≤ m'.total
  from_ : ∀ r ∈ m'.listed, r ∈ m.listed ∨ r ∈ rs

theorem Step.trans {a b c : Mgr} {rs ss : List Report} (h1 : Step a rs b) (h2 : Step b ss c) :
    Step a (rs ++ ss) c where
  top := h2.top
  quiet := by
    intro h
    obtain ⟨h1t, h1q⟩ := h1.quiet (fun r hr => h r (List.mem_append_left _ hr))
    obtain ⟨h2t, h2q⟩ := h2.quiet (fun r hr => h r (List.mem_append_right _ hr))
    refine ⟨h2t.trans h1t, fun hf => ?_⟩
    obtain ⟨hf1, hl1⟩ := h1q hf
    obtain ⟨hf2, hl2⟩ := h2q hf1
    exact ⟨hf2, by rw [hl2, hl1, List.append_assoc]⟩
  good := fun t h => h2.good t (h1.good t h)
  loud := by
    rintro ⟨r, hr, hk⟩
    have := h1.mono
    have := h2.mono
    rcases List.mem_append.mp hr with hr | hr
    · have := h1.loud ⟨r, hr, hk⟩; omega
    · have := h2.loud ⟨r, hr, hk⟩; omega
  mono := Nat.le_trans h1.mono h2.mono
  from_ := by
    intro r hr
    rcases h2.from_ r hr with h | h
    · rcases h1.from_ r h with h | h
      · exact Or.inl h
      · exact Or.inr (List.mem_append_left _ h)
    · exact Or.inr (List.mem_append_right _ h)

theorem limits_same (m : Mgr) (r : Report) :
    (limits m r).total = m.total ∧ (limits m r).flag = m.flag ∧ (limits m r).listed = m.listed ∧
    (limits m r).defers = m.defers := by
  simp only [limits]
  repeat' split
  all_goals simp_all

theorem report_step (m : Mgr) (r : Report) (hd : m.defers = []) : Step m [r] (reportError m r) := by
  have hs : ∀ x, ∀ h : x ∈ [r], x = r := by intro x h; simpa using h
  cases hk : r.kind with
  | suppressed =>
    by_cases hf : m.flag = true ∧ m.single = true
    · have he : reportError m r = m := by simp [reportError, hd, hk, hf]
      rw [he]
      refine ⟨hd, fun _ => ⟨rfl, fun h => ?_⟩, fun _ h => h, ?_, Nat.le_refl _, fun _ h => Or.inl h⟩
      · rw [h] at hf; simp at hf
      · rintro ⟨x, hx, hxk⟩; rw [hs x hx, hk] at hxk; cases hxk
    · have he : reportError m r = { m with listed := m.listed ++ [r] } := by
        simp [reportError, hd, hk, hf]
      rw [he]
      refine ⟨hd, fun _ => ⟨rfl, fun h => ⟨h, rfl⟩⟩, ?_, ?_, Nat.le_refl _, fun x h => by simpa using h⟩
      · intro t h
        rcases h with ⟨h1, h2, h3⟩ | ⟨h1, x, hx, hxk⟩
        · refine Or.inl ⟨h1, h2, fun x hx => ?_⟩
          rcases List.mem_append.mp hx with hx | hx
          · exact h3 x hx
          · rw [hs x hx, hk]; decide
        · exact Or.inr ⟨h1, x, List.mem_append_left _ hx, hxk⟩
      · rintro ⟨x, hx, hxk⟩; rw [hs x hx, hk] at hxk; cases hxk
  | warning =>
    by_cases hf : m.flag = true ∧ m.single = true
    · have he : reportError m r = m := by simp [reportError, hd, hk, hf]
      rw [he]
      refine ⟨hd, fun _ => ⟨rfl, fun h => ?_⟩, fun _ h => h, ?_, Nat.le_refl _, fun _ h => Or.inl h⟩
      · rw [h] at hf; simp at hf
      · rintro ⟨x, hx, hxk⟩; rw [hs x hx, hk] at hxk; cases hxk
    · have he : reportError m r = limits { m with listed := m.listed ++ [r] } r := by
        simp [reportError, hd, hk, hf]
      rw [he]
      obtain ⟨l1, l2, l3, l4⟩ := limits_same { m with listed := m.listed ++ [r] } r
      refine ⟨l4.trans hd, fun _ => ⟨l1, fun h => ⟨l2.trans h, l3⟩⟩, ?_, ?_, by rw [l1]; exact Nat.le_refl _,
        fun x h => by rw [l3] at h; simpa using h⟩
      · intro t h
        unfold Good
        rw [l1, l2, l3]
        rcases h with ⟨h1, h2, h3⟩ | ⟨h1, x, hx, hxk⟩
        · refine Or.inl ⟨h1, h2, fun x hx => ?_⟩
          rcases List.mem_append.mp hx with hx | hx
          · exact h3 x hx
          · rw [hs x hx, hk]; decide
        · exact Or.inr ⟨h1, x, List.mem_append_left _ hx, hxk⟩
      · rintro ⟨x, hx, hxk⟩; rw [hs x hx, hk] at hxk; cases hxk
  | error =>
    by_cases hf : m.flag = true ∧ m.single = true
    · have he : reportError m r = { m with total := m.total + 1 } := by simp [reportError, hd, hk, hf]
      rw [he]
      refine ⟨hd, fun h => absurd hk (h r (by simp)), ?_, fun _ => Nat.lt_succ_self _, Nat.le_succ _,
        fun _ h => Or.inl h⟩
      intro t h
      rcases h with ⟨_, h2, _⟩ | ⟨h1, h⟩
      · rw [h2] at hf; simp at hf
      · exact Or.inr ⟨Nat.lt_succ_of_lt h1, h⟩
    · have he : reportError m r = limits { m with total := m.total + 1 + 1, listed := m.listed ++ [r], reported := m.reported + 1, flag := m.flag || m.single } r := by
        simp [reportError, hd, hk, hf]
      rw [he]
      obtain ⟨l1, l2, l3, l4⟩ := limits_same { m with total := m.total + 1 + 1, listed := m.listed ++ [r], reported := m.reported + 1, flag := m.flag || m.single } r
      have l1' : (limits { m with total := m.total + 1 + 1, listed := m.listed ++ [r], reported := m.reported + 1, flag := m.flag || m.single } r).total = m.total + 1 + 1 := l1
      refine ⟨l4.trans hd, fun h => absurd hk (h r (by simp)), ?_, fun _ => by rw [l1']; omega,
        by rw [l1']; omega, fun x h => by rw [l3] at h; simpa using h⟩
      intro t h
      refine Or.inr ⟨?_, r, by rw [l3]; simp, hk⟩
      rw [l1']
      rcases h with ⟨h, _⟩ | ⟨h, _⟩ <;> omega

theorem fold_step : ∀ (rs : List Report) (m : Mgr), m.defers = [] → Step m rs (rs.foldl reportError m)
  | [], m, hd => ⟨hd, fun _ => ⟨rfl, fun h => ⟨h, by simp⟩⟩, fun _ h => h, (by rintro ⟨x, hx, _⟩; cases hx),
      Nat.le_refl _, fun _ h => Or.inl h⟩
  | r :: rs, m, hd => by
    have h1 := report_step m r hd
    exact Step.trans h1 (fold_step rs _ h1.top)

theorem fold_deferred : ∀ (rs : List Report) (m : Mgr) (d : List Report) (ds : List (List Report)),
    m.defers = d :: ds → rs.foldl reportError m = { m with defers := (d ++ rs) :: ds }
  | [], m, d, ds, hd => by cases m; simp_all
  | r :: rs, m, d, ds, hd => by
    have h1 : reportError m r = { m with defers := (d ++ [r]) :: ds } := by simp [reportError, hd]
    rw [List.foldl_cons, h1, fold_deferred rs _ (d ++ [r]) ds rfl, List.append_assoc]
    rfl

/-- Inside a deferral nothing is listed or counted. -/
theorem perform_deferred (o : Opts) : ∀ (w : Work) (m : Mgr) (d : List Report) (ds : List (List Report)),
    m.defers = d :: ds →
    (perform o w m).defers = (d ++ (kept w).map (rep o)) :: ds ∧ (perform o w m).listed = m.listed ∧
    (perform o w m).total = m.total ∧ ((perform o w m).flag = true → m.flag = true) := by
  intro w
  induction w with
  | nothing => intro m d ds hd; simp [perform, kept, hd]
  | report msg => intro m d ds hd; simp [perform, kept, hd, reportError, rep]
  | nextStatement => intro m d ds hd; simp [perform, kept, hd]
  | onePerStatement on => intro m d ds hd; simp [perform, kept, hd]
  | seq a b iha ihb =>
    intro m d ds hd
    obtain ⟨a1, a2, a3, a4⟩ := iha m d ds hd
    obtain ⟨b1, b2, b3, b4⟩ := ihb _ _ _ a1
    simp only [perform, kept]
    exact ⟨by rw [b1]; simp, b2.trans a2, b3.trans a3, fun h => a4 (b4 h)⟩
  | deferred body released ih =>
    intro m d ds hd
    obtain ⟨b1, b2, b3, b4⟩ := ih { m with defers := [] :: m.defers } [] (d :: ds) (by simp [hd])
    simp only [perform, kept]
    rw [b1]
    simp only [List.nil_append]
    cases released with
    | false => simp only [Bool.false_eq_true, if_false]; exact ⟨by simp, b2, b3, b4⟩
    | true =>
      simp only [if_true]
      rw [fold_deferred _ _ d ds rfl]
      exact ⟨by simp, b2, b3, b4⟩

theorem good_flag {t : Nat} {m m' : Mgr} (hl : m'.listed = m.listed) (ht : m'.total = m.total)
    (hf : m'.flag = true → m.flag = true) (h : Good t m) : Good t m' := by
  rcases h with ⟨h1, h2, h3⟩ | ⟨h1, h2⟩
  · refine Or.inl ⟨ht.trans h1, ?_, by rw [hl]; exact h3⟩
    cases hm : m'.flag with
    | false => rfl
    | true => rw [hf hm] at h2; cases h2
  · exact Or.inr ⟨by rw [ht]; exact h1, by rw [hl]; exact h2⟩

theorem quiet_step {m m' : Mgr} (hd : m'.defers = []) (hl : m'.listed = m.listed)
    (ht : m'.total = m.total) (hf : m'.flag = true → m.flag = true) : Step m [] m' := by
  refine ⟨hd, fun _ => ⟨ht, fun h => ⟨?_, by rw [hl]; simp⟩⟩, fun t h => good_flag hl ht hf h,
    (by rintro ⟨x, hx, _⟩; cases hx), by rw [ht]; exact Nat.le_refl _, fun _ h => Or.inl (by rw [← hl]; exact h)⟩
  cases hm : m'.flag with
  | false => rfl
  | true => rw [hf hm] at h; cases h

theorem perform_step (o : Opts) : ∀ (w : Work) (m : Mgr), m.defers = [] →
    Step m ((kept w).map (rep o)) (perform o w m) := by
  intro w
  induction w with
  | nothing => intro m hd; exact fold_step [] m hd
  | report msg => intro m hd; exact report_step m _ hd
  | nextStatement => intro m hd; exact quiet_step hd rfl rfl (fun h => by cases h)
  | onePerStatement on => intro m hd; exact quiet_step hd rfl rfl id
  | seq a b iha ihb =>
    intro m hd
    have h1 := iha m hd
    simp only [perform, kept, List.map_append]
    exact h1.trans (ihb _ h1.top)
  | deferred body released ih =>
    intro m hd
    obtain ⟨b1, b2, b3, b4⟩ := perform_deferred o body { m with defers := [] :: m.defers } [] []
      (by simp [hd])
    simp only [perform, kept]
    rw [b1]
    simp only [List.nil_append]
    have hq : Step m [] { perform o body { m with defers := [] :: m.defers } with defers := [] } :=
      quiet_step rfl b2 b3 b4
    cases released with
    | false => simp only [Bool.false_eq_true, if_false]; exact hq
    | true =>
      simp only [if_true]
      exact hq.trans (fold_step _ _ hq.top)

theorem fatal_map (o : Opts) (ms : List Msg) :
    (∃ r ∈ ms.map (rep o), r.kind = .error) ↔ ∃ m ∈ ms, Fatal o m := by
  constructor
  · rintro ⟨r, hr, hk⟩
    obtain ⟨m, hm, rfl⟩ := List.mem_map.mp hr
    exact ⟨m, hm, (kind_fatal o m).mp hk⟩
  · rintro ⟨m, hm, hk⟩
    exact ⟨rep o m, List.mem_map_of_mem hm, (kind_fatal o m).mpr hk⟩

theorem calm_map (o : Opts) (ms : List Msg) :
    (∀ r ∈ ms.map (rep o), r.kind ≠ .error) ↔ ∀ m ∈ ms, ¬ Fatal o m := by
  constructor
  · intro h m hm hf
    exact h _ (List.mem_map_of_mem hm) ((kind_fatal o m).mpr hf)
  · intro h r hr hk
    obtain ⟨m, hm, rfl⟩ := List.mem_map.mp hr
    exact h m hm ((kind_fatal o m).mp hk)

/-- A sequence of clean phases succeeds and lists what they raise; any other sequence fails or has
raised an error. -/
theorem phases_ok (o : Opts) : ∀ (ps : List Phase) (m : Mgr), m.defers = [] →
    (phases o ps m).2.defers = [] ∧
    (∀ t, Good t m → Good t (phases o ps m).2) ∧
    ((phases o ps m).1 = true ↔ ∀ p ∈ ps, p.Clean o) ∧
    ((∀ p ∈ ps, p.Clean o) → m.flag = false → (phases o ps m).2.flag = false ∧
      (phases o ps m).2.listed = m.listed ++ (ps.flatMap (fun p => kept p.work)).map (rep o)) ∧
    (∀ r ∈ (phases o ps m).2.listed, r ∈ m.listed ∨ r ∈ (ps.flatMap (fun p => kept p.work)).map (rep o)) := by
  intro ps
  induction ps with
  | nil => intro m hd; simp [phases, hd]
  | cons p ps ih =>
    intro m hd
    have hs := perform_step o p.work m hd
    by_cases hc : p.Clean o
    · obtain ⟨hok, hcalm⟩ := hc
      have hq := hs.quiet ((calm_map o _).mpr hcalm)
      have he : phases o (p :: ps) m = phases o ps (perform o p.work m) := by
        simp [phases, hok, hq.1]
      rw [he]
      obtain ⟨i1, i2, i3, i4, i5⟩ := ih (perform o p.work m) hs.top
      refine ⟨i1, fun t h => i2 t (hs.good t h), ?_, ?_, ?_⟩
      · rw [i3]
        constructor
        · intro h q hq
          rcases List.mem_cons.mp hq with rfl | hq
          · exact ⟨hok, hcalm⟩
          · exact h q hq
        · intro h q hq; exact h q (List.mem_cons_of_mem _ hq)
      · intro h hf
        obtain ⟨f1, f2⟩ := hq.2 hf
        obtain ⟨g1, g2⟩ := i4 (fun q hq => h q (List.mem_cons_of_mem _ hq)) f1
        refine ⟨g1, ?_⟩
        rw [g2, f2]; simp
      · intro r hr
        rcases i5 r hr with h | h
        · rcases hs.from_ r h with h | h
          · exact Or.inl h
          · refine Or.inr ?_
            simp only [List.flatMap_cons, List.map_append]
            exact List.mem_append_left _ h
        · refine Or.inr ?_
          simp only [List.flatMap_cons, List.map_append]
          exact List.mem_append_right _ h
    · have he : phases o (p :: ps) m = (false, perform o p.work m) := by
        simp only [phases]
        rw [if_pos]
        by_cases hok : p.ok = false
        · exact Or.inl hok
        · refine Or.inr ?_
          have hex : ∃ x ∈ kept p.work, Fatal o x := by
            apply Classical.byContradiction
            intro hn
            exact hc ⟨by simpa using hok, fun x hx hf => hn ⟨x, hx, hf⟩⟩
          have := hs.loud ((fatal_map o _).mpr hex)
          omega
      rw [he]
      refine ⟨hs.top, hs.good, ?_, ?_, ?_⟩
      · constructor
        · intro h; cases h
        · intro h; exact absurd (h p (by simp)) hc
      · intro h; exact absurd (h p (by simp)) hc
      · intro r hr
        rcases hs.from_ r hr with h | h
        · exact Or.inl h
        · refine Or.inr ?_
          simp only [List.flatMap_cons, List.map_append]
          exact List.mem_append_left _ h

theorem numErrors_zero (m : Mgr) : numErrors m = 0 ↔ ∀ r ∈ m.listed, r.kind ≠ .error := by
  simp [numErrors, List.filter_eq_nil_iff]

theorem insert_perm (r : Report) : ∀ xs, (insertReport r xs).Perm (r :: xs)
  | [] => List.Perm.refl _
  | x :: xs => by
    simp only [insertReport]
    split
    · exact List.Perm.refl _
    · exact ((insert_perm r xs).cons x).trans (List.Perm.swap r x xs)

theorem sort_perm : ∀ xs, (sortReports xs).Perm xs
  | [] => List.Perm.refl _
  | r :: rs => (insert_perm r _).trans ((sort_perm rs).cons r)

theorem insert_sorted (r : Report) : ∀ xs, xs.Pairwise (fun a b => before a b = true) →
    (insertReport r xs).Pairwise (fun a b => before a b = true)
  | [], _ => by simp [insertReport]
  | x :: xs, h => by
    obtain ⟨h1, h2⟩ := List.pairwise_cons.mp h
    simp only [insertReport]
    split
    · rename_i hb
      refine List.pairwise_cons.mpr ⟨fun y hy => ?_, h⟩
      rcases List.mem_cons.mp hy with rfl | hy
      · exact hb
      · have := h1 y hy
        simp only [before] at *
        grind
    · rename_i hb
      refine List.pairwise_cons.mpr ⟨fun y hy => ?_, insert_sorted r xs h2⟩
      rcases List.mem_cons.mp ((insert_perm r xs).mem_iff.mp hy) with rfl | hy
      · simp only [before] at *
        grind
      · exact h1 y hy

theorem sort_sorted : ∀ xs, (sortReports xs).Pairwise (fun a b => before a b = true)
  | [] => List.Pairwise.nil
  | r :: rs => insert_sorted r _ (sort_sorted rs)

theorem mem_dump (m : Mgr) (r : Report) : r ∈ dump m ↔ r ∈ m.listed ∧ r.kind ≠ .suppressed := by
  simp [dump, (sort_perm m.listed).mem_iff]

theorem dump_perm (m : Mgr) : (dump m).Perm (m.listed.filter (·.kind != .suppressed)) := by
  unfold dump
  exact (sort_perm _).filter _

end Verif.Reports

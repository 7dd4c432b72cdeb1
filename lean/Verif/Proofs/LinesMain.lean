import Verif.Proofs.Lines
namespace Verif.Lines

theorem stream_append (p : Place) (a b : List Event) : stream p (a ++ b) = stream p a ++ stream (a.foldl Place.step p) b := by
  induction a generalizing p with
  | nil => rfl
  | cons e a ih =>
    cases e <;> simp only [List.cons_append, stream, List.foldl_cons, ih, Place.step]

theorem stream_none {p : Place} {mid : List Event} (h : ids mid = []) : stream p mid = [] := by
  induction mid generalizing p with
  | nil => rfl
  | cons e a ih =>
    cases e with
    | token i => simp only [ids] at h; cases h
    | _ => simp only [ids] at h; simp only [stream]; exact ih h

theorem stream_ids (p : Place) (es : List Event) : (stream p es).map (fun q => q.1.id) = ids es := by
  induction es generalizing p with
  | nil => rfl
  | cons e a ih =>
    cases e <;> simp only [stream, ids, List.map_cons, ih]

theorem ids_append (a b : List Event) : ids (a ++ b) = ids a ++ ids b := by
  induction a with
  | nil => rfl
  | cons e a ih => cases e <;> simp only [List.cons_append, ids, ih]

theorem entered_append (a b : List Event) : entered (a ++ b) = entered a ++ entered b := by
  induction a with
  | nil => rfl
  | cons e a ih => cases e <;> simp only [List.cons_append, entered, ih]

structure Ok (p : Place) (seen : List Nat) : Prop where
  counts : ∀ c ∈ p.cur :: p.stack, c.tokline ≤ c.fline ∧ c.file ∈ seen
  nodup : ((p.cur :: p.stack).map (·.file)).Nodup

theorem Ok.step {p : Place} {seen : List Nat} (h : Ok p seen) (e : Event) (hf : ∀ f, e = .enter f → f ∉ seen) :
    Ok (p.step e) (entered [e] ++ seen) := by
  have hc := h.counts
  have hn := h.nodup
  cases e with
  | token i => exact h
  | newline c =>
    refine ⟨?_, hn⟩
    intro x hx
    simp only [Place.step, List.mem_cons] at hx
    rcases hx with rfl | hx
    · obtain ⟨h1, h2⟩ := hc p.cur (List.mem_cons_self ..)
      refine ⟨?_, h2⟩
      show (if c = true then _ else _) ≤ _
      split <;> (show _ ≤ p.cur.fline + 1; omega)
    · exact hc x (List.mem_cons_of_mem _ hx)
  | enter f =>
    have hf := hf f rfl
    refine ⟨?_, ?_⟩
    · intro x hx
      simp only [Place.step] at hx
      rcases List.mem_cons.mp hx with rfl | hx
      · exact ⟨Nat.le_refl _, List.mem_cons_self ..⟩
      · exact ⟨(hc x hx).1, List.mem_cons_of_mem _ (hc x hx).2⟩
    · show (f :: (p.cur :: p.stack).map (·.file)).Nodup
      refine List.nodup_cons.mpr ⟨?_, hn⟩
      intro hm
      obtain ⟨x, hx, rfl⟩ := List.mem_map.mp hm
      exact hf (hc x hx).2
  | leave =>
    unfold Place.step
    cases hs : p.stack with
    | nil => simpa only [hs, entered, List.nil_append] using h
    | cons c cs =>
      rw [hs] at hc hn
      refine ⟨fun x hx => hc x (List.mem_cons_of_mem _ hx), ?_⟩
      exact (List.nodup_cons.mp hn).2

theorem Ok.fold {p : Place} {seen : List Nat} (h : Ok p seen) (es : List Event) (hn : (entered es ++ seen).Nodup) :
    ∃ seen', Ok (es.foldl Place.step p) seen' ∧ ∀ f, f ∈ seen' ↔ f ∈ entered es ∨ f ∈ seen := by
  induction es generalizing p seen with
  | nil => exact ⟨seen, h, fun f => by simp [entered]⟩
  | cons e es ih =>
    have hs := h.step e (by
      rintro f rfl hf
      simp only [entered, List.cons_append, List.nodup_cons, List.mem_append] at hn
      exact hn.1 (Or.inr hf))
    have hn' : (entered es ++ (entered [e] ++ seen)).Nodup := by
      cases e with
      | enter f =>
        simp only [entered, List.cons_append, List.nil_append] at hn ⊢
        exact (List.perm_middle.nodup_iff).mpr hn
      | _ => exact hn
    obtain ⟨seen', h1, h2⟩ := ih hs hn'
    refine ⟨seen', h1, fun f => ?_⟩
    rw [h2]
    cases e with
    | enter g =>
      simp only [entered, List.mem_append, List.mem_cons, List.not_mem_nil, or_false]
      constructor
      · rintro (h | h | h)
        · exact Or.inl (Or.inr h)
        · exact Or.inl (Or.inl h)
        · exact Or.inr h
      · rintro ((h | h) | h)
        · exact Or.inr (Or.inl h)
        · exact Or.inl h
        · exact Or.inr (Or.inr h)
    | _ => exact Iff.rfl

theorem wf_append (a es : List Event) : ∀ (bol : Bool) (p : Place), wellFormed bol p.stack.length (a ++ es) = true →
    ∃ bol', wellFormed bol' (a.foldl Place.step p).stack.length es = true := by
  induction a with
  | nil => intro bol p h; exact ⟨bol, h⟩
  | cons e a ih =>
    intro bol p h
    cases e with
    | token i => exact ih false p h
    | newline c => exact ih _ (p.step (.newline c)) h
    | enter f =>
      simp only [List.cons_append, wellFormed, Bool.and_eq_true] at h
      exact ih true (p.step (.enter f)) h.2
    | leave =>
      simp only [List.cons_append, wellFormed, Bool.and_eq_true, decide_eq_true_eq] at h
      obtain ⟨h1, h2⟩ := h
      refine ih false (p.step .leave) ?_
      unfold Place.step
      cases hs : p.stack with
      | nil => rw [hs] at h1; exact absurd h1 (Nat.not_lt_zero _)
      | cons c cs =>
        rw [hs] at h2
        exact h2

/-- The file `F` is past line `l`, or is closed. -/
def Past (F l : Nat) (p : Place) : Prop := ∀ c ∈ p.cur :: p.stack, c.file = F → l < c.tokline

theorem Past.step {F l : Nat} {p : Place} (h : Past F l p) (e : Event) (he : e ≠ .enter F) : Past F l (p.step e) := by
  intro c hc hf
  cases e with
  | token i => exact h c hc hf
  | newline b =>
    simp only [Place.step, List.mem_cons] at hc
    rcases hc with rfl | hc
    · have := h p.cur (List.mem_cons_self ..) hf
      show l < if b = true then _ else _
      split <;> omega
    · exact h c (List.mem_cons_of_mem _ hc) hf
  | enter f =>
    simp only [Place.step] at hc
    rcases List.mem_cons.mp hc with rfl | hc
    · exact absurd (congrArg Event.enter hf) he
    · exact h c hc hf
  | leave =>
    unfold Place.step at hc
    cases hs : p.stack with
    | nil => rw [hs] at hc; exact h c hc hf
    | cons d cs =>
      rw [hs] at hc
      exact h c (by rw [hs]; exact List.mem_cons_of_mem _ hc) hf

theorem Past.fold {F l : Nat} (es : List Event) : ∀ {p : Place}, Past F l p → F ∉ entered es → Past F l (es.foldl Place.step p) := by
  induction es with
  | nil => intro p h _; exact h
  | cons e es ih =>
    intro p h hf
    refine ih (h.step e ?_) ?_
    · rintro rfl; exact hf (List.mem_cons_self ..)
    · cases e with
      | enter g => exact fun h => hf (List.mem_cons_of_mem _ h)
      | _ => exact hf

theorem sameLine_fold {mid : List Event} (h : SameLine mid) (p : Place) :
    (mid.foldl Place.step p).cur.file = p.cur.file ∧ (mid.foldl Place.step p).cur.tokline = p.cur.tokline := by
  induction mid generalizing p with
  | nil => exact ⟨rfl, rfl⟩
  | cons e mid ih =>
    have he := h e (List.mem_cons_self ..)
    subst he
    exact ih (fun e' h' => h e' (List.mem_cons_of_mem _ h')) (p.step (.newline true))

theorem notSameLine_past {mid rest : List Event} (hnot : ¬ SameLine mid) (hids : ids mid = []) :
    ∀ {p : Place} {seen : List Nat}, Ok p seen → wellFormed false p.stack.length (mid ++ rest) = true →
      p.cur.file ∉ entered mid → Past p.cur.file p.cur.tokline (mid.foldl Place.step p) := by
  induction mid with
  | nil => exact absurd (fun e he => absurd he (by simp)) hnot
  | cons e mid ih =>
    intro p seen hok hwf hent
    cases e with
    | token i => simp only [ids] at hids; cases hids
    | newline b =>
      cases b with
      | true =>
        have hnot' : ¬ SameLine mid := by
          intro h
          apply hnot
          intro e he
          rcases List.mem_cons.mp he with rfl | he
          · rfl
          · exact h e he
        have hs := hok.step (.newline true) (fun f h => nomatch h)
        exact ih hnot' hids hs hwf hent
      | false =>
        refine Past.fold mid ?_ hent
        intro c hc hf
        have hn := (List.nodup_cons.mp hok.nodup).1
        simp only [Place.step, List.mem_cons] at hc
        rcases hc with rfl | hc
        · exact Nat.lt_succ_self _
        · exact absurd (List.mem_map.mpr ⟨c, hc, hf⟩) hn
    | enter f => simp only [List.cons_append, wellFormed, Bool.false_and] at hwf; cases hwf
    | leave =>
      refine Past.fold mid ?_ hent
      intro c hc hf
      have hn := (List.nodup_cons.mp hok.nodup).1
      simp only [List.cons_append, wellFormed, Bool.and_eq_true, decide_eq_true_eq] at hwf
      unfold Place.step at hc
      cases hs : p.stack with
      | nil => rw [hs] at hwf; exact absurd hwf.1 (Nat.not_lt_zero _)
      | cons d cs =>
        rw [hs] at hc
        exact absurd (List.mem_map.mpr ⟨c, by rw [hs]; exact hc, hf⟩) hn

theorem program_ids {es : List Event} (h : Program es) :
    ∀ p ∈ stream { cur := { file := 0 } } es, p.1.id ≠ 0 ∧ p.1.id ≠ tEOL := by
  intro p hp
  have : p.1.id ∈ ids es := by
    rw [← stream_ids { cur := { file := 0 } } es]
    exact List.mem_map.mpr ⟨p, hp, rfl⟩
  exact ⟨(h.proper _ this).1, (h.proper _ this).2.1⟩

theorem ok_start : Ok { cur := { file := 0 } } [0] :=
  ⟨by intro c hc; simp only [List.mem_cons, List.not_mem_nil, or_false] at hc; subst hc; exact ⟨Nat.le_refl _, by simp⟩, by simp⟩

/-- Two tokens that follow each other, as the lexer sees them. -/
theorem adjacent {pre mid post : List Event} {a b : Nat} (h : Program (pre ++ .token a :: mid ++ .token b :: post))
    (hmid : ids mid = []) : ∃ p q : Tok × Nat,
      (stream { cur := { file := 0 } } (pre ++ .token a :: mid ++ .token b :: post))[(ids pre).length]? = some p ∧
      (stream { cur := { file := 0 } } (pre ++ .token a :: mid ++ .token b :: post))[(ids pre).length + 1]? = some q ∧
      p.1.id = a ∧ q.1.id = b ∧
      (SameLine mid → p.1.file = q.1.file ∧ q.1.line = p.1.line) ∧
      (¬ SameLine mid → p.1.file = q.1.file → p.1.line < q.1.line ∧ p.1.line < q.2) := by
  have hone := h.once
  rw [entered_append, entered_append] at hone
  simp only [entered] at hone
  have hwf := h.wf
  rw [List.append_assoc] at hwf
  let P0 : Place := { cur := { file := 0 } }
  let P := pre.foldl Place.step P0
  have hn0 : (entered pre ++ [0]).Nodup := by
    rw [List.nodup_cons, List.nodup_append] at hone
    rw [List.nodup_append]
    refine ⟨?_, by simp, ?_⟩
    · exact ((List.nodup_append.mp hone.2.1).1)
    · intro x hx y hy hxy
      simp only [List.mem_cons, List.not_mem_nil, or_false] at hy
      subst hy
      subst hxy
      exact hone.1 (List.mem_append_left _ (List.mem_append_left _ hx))
  obtain ⟨seen, hok, hseen⟩ := ok_start.fold pre hn0
  have hfresh : P.cur.file ∉ entered mid := by
    intro hf
    rcases (hseen _).mp (hok.counts P.cur (List.mem_cons_self ..)).2 with h1 | h1
    · rw [List.nodup_cons, List.nodup_append, List.nodup_append] at hone
      exact hone.2.1.2.2 _ h1 _ hf rfl
    · simp only [List.mem_cons, List.not_mem_nil, or_false] at h1
      rw [h1] at hf
      exact (List.nodup_cons.mp hone).1 (List.mem_append_left _ (List.mem_append_right _ hf))
  obtain ⟨bol, hw⟩ := wf_append pre (.token a :: (mid ++ .token b :: post)) true P0 hwf
  have hw : wellFormed false P.stack.length (mid ++ .token b :: post) = true := hw
  let Q := mid.foldl Place.step P
  have hstream : stream P0 (pre ++ .token a :: mid ++ .token b :: post) =
      stream P0 pre ++ (⟨a, P.cur.file, P.cur.tokline⟩, P.cur.fline) :: (⟨b, Q.cur.file, Q.cur.tokline⟩, Q.cur.fline) :: stream Q post := by
    rw [List.append_assoc, stream_append]
    congr 1
    show _ :: stream P (mid ++ .token b :: post) = _
    rw [stream_append, stream_none hmid]
    rfl
  have hlen : (stream P0 pre).length = (ids pre).length := by
    rw [← stream_ids P0 pre, List.length_map]
  refine ⟨(⟨a, P.cur.file, P.cur.tokline⟩, P.cur.fline), (⟨b, Q.cur.file, Q.cur.tokline⟩, Q.cur.fline), ?_, ?_, rfl, rfl, ?_, ?_⟩
  · rw [hstream, ← hlen, List.getElem?_append_right (Nat.le_refl _), Nat.sub_self]; rfl
  · rw [hstream, ← hlen, List.getElem?_append_right (Nat.le_add_right _ 1), Nat.add_sub_cancel_left]; rfl
  · intro hs
    obtain ⟨h1, h2⟩ := sameLine_fold hs P
    exact ⟨h1.symm, h2⟩
  · intro hs hf
    have hf : P.cur.file = Q.cur.file := hf
    have hpast := notSameLine_past hs hmid hok hw hfresh
    have h1 : P.cur.tokline < Q.cur.tokline := hpast Q.cur (List.mem_cons_self ..) hf.symm
    have h2 : Q.cur.tokline ≤ Q.cur.fline := by
      have hn3 : (entered (pre ++ mid) ++ [0]).Nodup := by
        rw [entered_append]
        rw [List.nodup_cons, List.nodup_append] at hone
        rw [List.nodup_append]
        refine ⟨hone.2.1, by simp, ?_⟩
        intro x hx y hy hxy
        simp only [List.mem_cons, List.not_mem_nil, or_false] at hy
        subst hy
        subst hxy
        exact hone.1 (List.mem_append_left _ hx)
      obtain ⟨seen2, hok2, _⟩ := ok_start.fold (pre ++ mid) hn3
      rw [List.foldl_append] at hok2
      exact (hok2.counts Q.cur (List.mem_cons_self ..)).1
    exact ⟨h1, Nat.lt_of_lt_of_le h1 h2⟩

end Verif.Lines

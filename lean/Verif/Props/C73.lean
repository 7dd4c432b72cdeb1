import Verif.Model.Liveness

/-!
# C73: exactly the functions that are needed get code

`live`, `maybeUsed`, `emitted` and `reportedUnused` are what the compiler does (Verif/Model/Liveness.lean).
-/
namespace Verif.Liveness

/-! ## Specification -/

/-- `f` can be reached from the functions that satisfy `root`: it is one of them, or it is mentioned in the body of a function that
can be reached. -/
inductive Reach (p : Prog) (root : Fn → Prop) : Nat → Prop
  | root {f fn} : p[f]? = some fn → root fn → Reach p root f
  | step {f g fn} : Reach p root f → p[f]? = some fn → g ∈ fn.uses → Reach p root g

/-- The bodies mention functions of the program only. -/
def Closed (p : Prog) : Prop := ∀ fn ∈ p, ∀ g ∈ fn.uses, g < p.length

/-! ## Proofs -/

theorem mem_addRefs (us : List Nat) : ∀ (refs : List Nat) (g : Nat), g ∈ us.foldl addRef refs ↔ g ∈ refs ∨ g ∈ us := by
  induction us with
  | nil => intro refs g; simp
  | cons u us ih =>
    intro refs g
    rw [List.foldl_cons, ih]
    unfold addRef
    split
    · rename_i hu
      constructor
      · rintro (h | h)
        · exact .inl h
        · exact .inr (List.mem_cons_of_mem _ h)
      · rintro (h | h)
        · exact .inl h
        · rcases List.mem_cons.1 h with rfl | h
          · exact .inl hu
          · exact .inr h
    · simp only [List.mem_cons]
      constructor
      · rintro ((h | h) | h)
        · exact .inr (.inl h)
        · exact .inl h
        · exact .inr (.inr h)
      · rintro (h | h | h)
        · exact .inl (.inr h)
        · exact .inl (.inl h)
        · exact .inr h

theorem mem_refersTo (f : Fn) (g : Nat) : g ∈ f.refersTo ↔ g ∈ f.uses := by
  unfold Fn.refersTo
  rw [mem_addRefs]
  simp

theorem mem_numbers {p : Prog} {q : Fn → Bool} {i : Nat} : i ∈ numbers p q ↔ ∃ fn, p[i]? = some fn ∧ q fn = true := by
  unfold numbers
  rw [List.mem_filter, List.mem_range]
  constructor
  · rintro ⟨h, hq⟩
    rw [List.getElem?_eq_getElem h] at hq ⊢
    exact ⟨_, rfl, hq⟩
  · rintro ⟨fn, h, hq⟩
    refine ⟨(List.getElem?_eq_some_iff.1 h).1, ?_⟩
    rw [h]
    exact hq

/-- What the loop keeps.  `R` are the functions that can be reached from the roots. -/
structure Inv (p : Prog) (R : Nat → Prop) (roots : List Nat) (w : Walk) : Prop where
  reach : ∀ f ∈ w.marked, R f
  same : ∀ f, f ∈ w.marked ↔ f ∈ w.seen
  roots : ∀ f ∈ roots, f ∈ w.seen
  work : ∀ f ∈ w.work, f ∈ w.seen
  /-- what is mentioned in a function that is done is seen -/
  done : ∀ f ∈ w.seen, f ∉ w.work → ∀ fn, p[f]? = some fn → ∀ g ∈ fn.uses, g ∈ w.seen

/-- How many functions of the program have not been seen. -/
def unseen (p : Prog) (w : Walk) : Nat := ((List.range p.length).filter fun i => decide (i ∉ w.seen)).length

theorem filter_cons_lt (n : Nat) {s : List Nat} {f : Nat} (hf : f < n) (hs : f ∉ s) :
    ((List.range n).filter fun i => decide (i ∉ f :: s)).length < ((List.range n).filter fun i => decide (i ∉ s)).length := by
  have key : ∀ l : List Nat, ((l.filter fun i => decide (i ∉ f :: s)).length ≤ (l.filter fun i => decide (i ∉ s)).length) ∧
      (f ∈ l → (l.filter fun i => decide (i ∉ f :: s)).length < (l.filter fun i => decide (i ∉ s)).length) := by
    intro l
    induction l with
    | nil => exact ⟨Nat.le_refl _, fun h => nomatch h⟩
    | cons a l ih =>
      by_cases ha : a = f
      · subst ha
        have h1 : decide (a ∉ a :: s) = false := by simp
        have h2 : decide (a ∉ s) = true := by simpa using hs
        rw [List.filter_cons_of_neg (by simp [h1]), List.filter_cons_of_pos (by simp [h2])]
        simp only [List.length_cons]
        exact ⟨by omega, fun _ => by omega⟩
      · by_cases hm : a ∈ s
        · rw [List.filter_cons_of_neg (by simp [hm]), List.filter_cons_of_neg (by simp [hm])]
          exact ⟨ih.1, fun h => ih.2 ((List.mem_cons.1 h).resolve_left (fun e => ha e.symm))⟩
        · rw [List.filter_cons_of_pos (by simp [hm, ha]), List.filter_cons_of_pos (by simp [hm])]
          simp only [List.length_cons]
          exact ⟨by omega, fun h => by have := ih.2 ((List.mem_cons.1 h).resolve_left (fun e => ha e.symm)); omega⟩
  exact (key _).2 (List.mem_range.2 hf)

/-- One more function of a body: what is seen stays seen, it is seen, and what is pushed is new. -/
theorem visit_facts (p : Prog) {w : Walk} {f : Nat} (hf : f < p.length) :
    (∀ x, x ∈ (visit w f).seen ↔ x = f ∨ x ∈ w.seen) ∧ (∀ x, x ∈ (visit w f).marked ↔ x = f ∨ x ∈ w.marked) ∧
    (∀ x ∈ w.work, x ∈ (visit w f).work) ∧ (∀ x ∈ (visit w f).work, x ∈ w.work ∨ x = f) ∧
    (f ∉ w.seen → f ∈ (visit w f).work) ∧ (visit w f).work.length + unseen p (visit w f) ≤ w.work.length + unseen p w := by
  unfold visit
  by_cases hs : f ∈ w.seen
  · simp only [hs, if_true, List.mem_cons]
    refine ⟨fun x => ⟨.inr, fun h => h.elim (fun e => e ▸ hs) id⟩, fun _ => trivial, fun _ h => h, fun _ h => .inl h, fun h => absurd trivial h, ?_⟩
    exact Nat.le_refl _
  · simp only [hs, if_false, List.mem_cons]
    refine ⟨fun _ => trivial, fun _ => trivial, fun _ h => .inr h, fun _ h => h.elim .inr .inl, fun _ => .inl trivial, ?_⟩
    have := filter_cons_lt p.length hf hs
    show (f :: w.work).length + _ ≤ _
    simp only [List.length_cons, unseen]
    omega

theorem visits_facts (p : Prog) (us : List Nat) : ∀ (w : Walk), (∀ u ∈ us, u < p.length) →
    (∀ x, x ∈ (us.foldl visit w).seen ↔ x ∈ us ∨ x ∈ w.seen) ∧ (∀ x, x ∈ (us.foldl visit w).marked ↔ x ∈ us ∨ x ∈ w.marked) ∧
    (∀ x ∈ w.work, x ∈ (us.foldl visit w).work) ∧ (∀ x ∈ (us.foldl visit w).work, x ∈ w.work ∨ x ∈ us) ∧
    (∀ x ∈ us, x ∉ w.seen → x ∈ (us.foldl visit w).work) ∧ (us.foldl visit w).work.length + unseen p (us.foldl visit w) ≤ w.work.length + unseen p w := by
  induction us with
  | nil => intro w _; simp
  | cons u us ih =>
    intro w hu
    obtain ⟨a1, a2, a3, a4, a5, a6⟩ := visit_facts p (w := w) (hu u List.mem_cons_self)
    obtain ⟨b1, b2, b3, b4, b5, b6⟩ := ih (visit w u) (fun x hx => hu x (List.mem_cons_of_mem _ hx))
    rw [List.foldl_cons]
    refine ⟨fun x => ?_, fun x => ?_, fun x h => b3 x (a3 x h), fun x h => ?_, fun x hx hs => ?_, by omega⟩
    · rw [b1, a1, List.mem_cons]
      constructor
      · rintro (h | h | h)
        · exact .inl (.inr h)
        · exact .inl (.inl h)
        · exact .inr h
      · rintro ((h | h) | h)
        · exact .inr (.inl h)
        · exact .inl h
        · exact .inr (.inr h)
    · rw [b2, a2, List.mem_cons]
      constructor
      · rintro (h | h | h)
        · exact .inl (.inr h)
        · exact .inl (.inl h)
        · exact .inr h
      · rintro ((h | h) | h)
        · exact .inr (.inl h)
        · exact .inl h
        · exact .inr (.inr h)
    · rcases b4 x h with h | h
      · rcases a4 x h with h | h
        · exact .inl h
        · exact .inr (h ▸ List.mem_cons_self)
      · exact .inr (List.mem_cons_of_mem _ h)
    · by_cases hxu : x = u
      · subst hxu
        exact b3 x (a5 hs)
      · have hx' := (List.mem_cons.1 hx).resolve_left hxu
        by_cases h2 : x ∈ (visit w u).seen
        · rcases (a1 x).1 h2 with h | h
          · exact absurd h hxu
          · exact absurd h hs
        · exact b5 x hx' h2

theorem walk_ok {p : Prog} (hp : Closed p) {R : Nat → Prop} (hR : ∀ f fn g, R f → p[f]? = some fn → g ∈ fn.uses → R g) {roots : List Nat} :
    ∀ (fuel : Nat) (w : Walk), Inv p R roots w → w.work.length + unseen p w ≤ fuel → ∃ w', walk p fuel w = some w' ∧ Inv p R roots w' ∧ w'.work = [] := by
  intro fuel
  induction fuel with
  | zero =>
    intro w hi hm
    have : w.work = [] := List.eq_nil_of_length_eq_zero (by omega)
    exact ⟨w, by unfold walk; rw [if_pos this], hi, this⟩
  | succ fuel ih =>
    intro w hi hm
    unfold walk
    cases hw : w.work with
    | nil => exact ⟨w, rfl, hi, hw⟩
    | cons f rest =>
      simp only
      have hrefs : ∀ u ∈ ((p[f]?.map Fn.refersTo).getD []), ∃ fn, p[f]? = some fn ∧ u ∈ fn.uses := by
        intro u hu
        cases hf : p[f]? with
        | none => rw [hf] at hu; cases hu
        | some fn => rw [hf] at hu; exact ⟨fn, rfl, (mem_refersTo fn u).1 hu⟩
      have hlt : ∀ u ∈ ((p[f]?.map Fn.refersTo).getD []), u < p.length := by
        intro u hu
        obtain ⟨fn, h1, h2⟩ := hrefs u hu
        exact hp fn (List.mem_of_getElem? h1) u h2
      obtain ⟨b1, b2, b3, b4, b5, b6⟩ := visits_facts p ((p[f]?.map Fn.refersTo).getD []) { w with work := rest } hlt
      have hfs : f ∈ w.seen := hi.work f (hw ▸ List.mem_cons_self)
      refine ih _ ⟨fun x hx => ?_, fun x => ?_, fun x hx => (b1 x).2 (.inr (hi.roots x hx)), fun x hx => ?_, fun x hx hnw fn hfn g hg => ?_⟩ ?_
      · rcases (b2 x).1 hx with h | h
        · obtain ⟨fn, h1, h2⟩ := hrefs x h
          exact hR f fn x (hi.reach f ((hi.same f).2 hfs)) h1 h2
        · exact hi.reach x h
      · rw [b1, b2]
        exact or_congr Iff.rfl (hi.same x)
      · rcases b4 x hx with h | h
        · exact (b1 x).2 (.inr (hi.work x (hw ▸ List.mem_cons_of_mem _ h)))
        · exact (b1 x).2 (.inl h)
      · by_cases hxf : x = f
        · subst hxf
          exact (b1 g).2 (.inl (by rw [hfn]; exact (mem_refersTo fn g).2 hg))
        · rcases (b1 x).1 hx with h | h
          · by_cases hxs : x ∈ w.seen
            · refine (b1 g).2 (.inr (hi.done x hxs (fun hm => ?_) fn hfn g hg))
              rw [hw] at hm
              exact hnw (b3 x ((List.mem_cons.1 hm).resolve_left hxf))
            · exact absurd (b5 x h hxs) hnw
          · refine (b1 g).2 (.inr (hi.done x h (fun hm => ?_) fn hfn g hg))
            rw [hw] at hm
            exact hnw (b3 x ((List.mem_cons.1 hm).resolve_left hxf))
      · rw [hw] at hm
        simp only [List.length_cons] at hm
        have : unseen p { w with work := rest } = unseen p w := rfl
        rw [this] at b6
        have : ({ w with work := rest } : Walk).work.length = rest.length := rfl
        omega

theorem unseen_le (p : Prog) (w : Walk) : unseen p w ≤ p.length := by
  unfold unseen
  have := List.length_filter_le (fun i => decide (i ∉ w.seen)) (List.range p.length)
  rwa [List.length_range] at this

/-- The loop ends, and marks exactly what can be reached. -/
theorem traverse_ok {p : Prog} (hp : Closed p) {root : Fn → Prop} {roots : List Nat} (hr : ∀ f, f ∈ roots ↔ ∃ fn, p[f]? = some fn ∧ root fn) :
    ∃ l, traverse p roots = some l ∧ ∀ f, f ∈ l ↔ Reach p root f := by
  have h0 : Inv p (Reach p root) roots (rooted roots) := by
    refine ⟨fun f hf => ?_, fun _ => Iff.rfl, fun _ h => h, fun _ h => h, fun f h hn => absurd h hn⟩
    obtain ⟨fn, h1, h2⟩ := (hr f).1 hf
    exact .root h1 h2
  obtain ⟨w, hw, hi, he⟩ := walk_ok hp (fun f fn g h1 h2 h3 => Reach.step h1 h2 h3) (roots.length + p.length) (rooted roots) h0 (by
    have := unseen_le p (rooted roots)
    show roots.length + _ ≤ _
    omega)
  refine ⟨w.marked, by unfold traverse; rw [hw]; rfl, fun f => ⟨hi.reach f, fun h => ?_⟩⟩
  induction h with
  | root h1 h2 => exact (hi.same _).2 (hi.roots _ ((hr _).2 ⟨_, h1, h2⟩))
  | step _ h2 h3 ih => exact (hi.same _).2 (hi.done _ ((hi.same _).1 ih) (by rw [he]; exact fun h => nomatch h) _ h2 _ h3)

theorem live_ok {p : Prog} (hp : Closed p) : ∃ l, live p = some l ∧ ∀ f, f ∈ l ↔ Reach p (fun fn => fn.isPublic = true ∧ fn.hasBody = true) f :=
  traverse_ok hp fun f => by unfold publics; rw [mem_numbers]; simp only [Bool.and_eq_true]

theorem maybeUsed_ok {p : Prog} (hp : Closed p) : ∃ l, maybeUsed p = some l ∧
    ∀ f, f ∈ l ↔ Reach p (fun fn => (fn.isMember = true ∨ fn.isStock = true) ∧ fn.hasBody = true) f :=
  traverse_ok hp fun f => by
    unfold maybeRoots
    rw [List.mem_append, mem_numbers, mem_numbers]
    simp only [Bool.and_eq_true]
    constructor
    · rintro (⟨fn, h1, h2, h3⟩ | ⟨fn, h1, h2, h3⟩)
      · exact ⟨fn, h1, .inl h2, h3⟩
      · exact ⟨fn, h1, .inr h2, h3⟩
    · rintro ⟨fn, h1, h2 | h2, h3⟩
      · exact .inl ⟨fn, h1, h2, h3⟩
      · exact .inr ⟨fn, h1, h2, h3⟩

/-! ## The property -/

/-- **C73**: code is emitted for a function exactly if it has a body and can be reached from a public function. -/
theorem C73_emitted {p : Prog} (hp : Closed p) {f : Nat} {fn : Fn} (hf : p[f]? = some fn) :
    emitted p f = true ↔ fn.hasBody = true ∧ Reach p (fun fn => fn.isPublic = true ∧ fn.hasBody = true) f := by
  obtain ⟨l, hl, h⟩ := live_ok hp
  unfold emitted
  rw [hl, hf]
  simp only [Bool.and_eq_true, decide_eq_true_eq]
  rw [h]
  exact and_comm

/-- **C73**: what the code of an emitted function mentions is there: it is emitted, too, or it has no body (a native). -/
theorem C73_nothing_missing {p : Prog} (hp : Closed p) {f g : Nat} {fn gn : Fn} (hf : p[f]? = some fn) (he : emitted p f = true) (hg : g ∈ fn.uses)
    (hgn : p[g]? = some gn) (hb : gn.hasBody = true) : emitted p g = true :=
  (C73_emitted hp hgn).2 ⟨hb, .step ((C73_emitted hp hf).1 he).2 hf hg⟩

/-- **C73**: the functions that are reported as unused are those with a body that are not public, stock or native, and that can be
reached neither from a public function nor from a stock function or a method.  They get no code. -/
theorem C73_unused_reports {p : Prog} (hp : Closed p) {f : Nat} {fn : Fn} (hf : p[f]? = some fn) :
    reportedUnused p f = true ↔ fn.hasBody = true ∧ fn.isNative = false ∧ fn.isStock = false ∧ fn.isPublic = false ∧
      ¬ Reach p (fun fn => fn.isPublic = true ∧ fn.hasBody = true) f ∧
      ¬ Reach p (fun fn => (fn.isMember = true ∨ fn.isStock = true) ∧ fn.hasBody = true) f := by
  obtain ⟨l, hl, h⟩ := live_ok hp
  obtain ⟨m, hm, h'⟩ := maybeUsed_ok hp
  unfold reportedUnused
  rw [hl, hm, hf]
  simp only [Bool.and_eq_true, Bool.not_eq_true', Bool.or_eq_false_iff, decide_eq_false_iff_not]
  rw [h, h']
  constructor
  · rintro ⟨⟨⟨h1, h2⟩, ⟨h3, h4⟩, h5⟩, h6⟩
    exact ⟨h6, h3, h4, h5, h2, h1⟩
  · rintro ⟨h6, h3, h4, h5, h2, h1⟩
    exact ⟨⟨⟨h1, h2⟩, ⟨h3, h4⟩, h5⟩, h6⟩

/-! ## An example

`main` (0) calls 1, which calls 0 and the native 2.  The stock function 3 calls 4.  5 and 6 call each other. -/

def exampleProg : Prog :=
  [⟨true, false, false, false, true, [1]⟩, ⟨false, false, false, false, true, [2, 0, 2]⟩, ⟨false, false, false, true, false, []⟩,
   ⟨false, true, false, false, true, [4]⟩, ⟨false, false, false, false, true, []⟩,
   ⟨false, false, false, false, true, [6]⟩, ⟨false, false, false, false, true, [5]⟩]

/-- 0 and 1 get code; 5 and 6 are reported. -/
theorem example_liveness : Closed exampleProg ∧ (List.range 7).filter (emitted exampleProg) = [0, 1] ∧
    (List.range 7).filter (reportedUnused exampleProg) = [5, 6] := by
  refine ⟨?_, by decide +kernel, by decide +kernel⟩
  unfold Closed
  decide +kernel

end Verif.Liveness

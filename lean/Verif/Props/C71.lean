import Verif.Model.FunDecl

/-!
# C71: a function has one definition

The declarations of one name are entered one after the other (`enterAll`, Verif/Model/FunDecl.lean).  The rule of the
language: a function is declared once, or it is a public function and there is one forward of it.
-/
namespace Verif.FunDecl

/-- A function with a body that may implement a forward. -/
def Form.implements : Form → Bool
  | .plain _ s k b => b && !s && !k
  | _ => false
def Form.isPublic : Form → Bool
  | .plain p _ _ _ => p
  | _ => false
def Form.hasBody : Form → Bool
  | .plain _ _ _ b => b
  | _ => false
/-- A declaration without a body; `void f();` is one, too. -/
def Form.isForward : Form → Bool
  | .forward => true
  | .plain _ _ _ b => !b
  | .native => false

/-- The rule. -/
def Allowed : List Form → Prop
  | [] => True
  | [_] => True
  | [f, g] => (f.isForward ∧ g.implements) ∨ (f.hasBody ∧ f.isPublic ∧ g.isForward)
  | _ => False

/-- What the compiler accepts after a first declaration. -/
def acceptsAfter (f : Form) (rest : List Form) : Prop :=
  if f.isForward then
    match rest with
    | [] => True
    | g :: gs => g.implements ∧ ∀ h ∈ gs, h.implements ∧ h.isPublic = false
  else if f.hasBody then ∀ g ∈ rest, g = .native ∨ (g.isForward ∧ f.isPublic)
  else rest = []

/-! ## Proofs -/

theorem enter_reports (s : Decls) (f : Fun) : ∃ r, (enter s f).reports = s.reports ++ r := by
  unfold enter
  split
  · exact ⟨[], (List.append_nil _).symm⟩
  · split
    · exact ⟨[], (List.append_nil _).symm⟩
    · dsimp only
      split <;> exact ⟨_, rfl⟩

theorem list_reports (fs : List Form) : ∀ s : Decls, ∃ r, (enterList s fs).reports = s.reports ++ r := by
  induction fs with
  | nil => intro s; exact ⟨[], (List.append_nil _).symm⟩
  | cons f fs ih =>
    intro s
    obtain ⟨r, hr⟩ := ih (enter s f.fn)
    obtain ⟨q, hq⟩ := enter_reports s f.fn
    exact ⟨q ++ r, by rw [enterList, hr, hq, List.append_assoc]⟩

/-- After an error, nothing is accepted. -/
theorem not_accepted {s : Decls} (h : s.accepted = false) (fs : List Form) : (enterList s fs).accepted = false := by
  obtain ⟨r, hr⟩ := list_reports fs s
  unfold Decls.accepted at h ⊢
  rw [hr, List.all_append, h, Bool.false_and]

/-- One more declaration, if the first one has the name. -/
theorem enter_some {s : Decls} {fn : Fun} {rest : List Fun} (hf : s.funs = fn :: rest) (hs : s.sym = some 0) (f : Fun) :
    enter s f = if (canRedefine fn 0 f).2 then
        { s with funs := ({ fn with link := some s.funs.length } :: rest) ++ [{ f with link := some 0, isPublic := f.isPublic || (canRedefine fn 0 f).1 == some 245 }],
                 reports := s.reports ++ (canRedefine fn 0 f).1.toList, broken := s.broken || fn.link.isSome }
      else { s with funs := s.funs ++ [f], reports := s.reports ++ (canRedefine fn 0 f).1.toList } := by
  unfold enter
  rw [hs]
  simp only [hf, List.getElem?_cons_zero, List.set_cons_zero]

/-- A function with a body came first. -/
theorem after_body (fs : List Form) : ∀ (s : Decls) (fn : Fun) (rest : List Fun), s.funs = fn :: rest → s.sym = some 0 → fn.body = true →
    fn.isForward = false → s.accepted = true → ((enterList s fs).accepted = true ↔ ∀ g ∈ fs, g = .native ∨ (g.isForward ∧ fn.isPublic)) := by
  induction fs with
  | nil => intro s fn rest _ _ _ _ ha; simp [enterList, ha]
  | cons g fs ih =>
    intro s fn rest hf hs hb hnf ha
    have he := enter_some hf hs g.fn
    have hcr : canRedefine fn 0 g.fn =
        if g.fn.isForward ∧ ¬ fn.isPublic then (some 412, false) else if g.fn.body then (some 21, false) else (none, true) := by
      unfold canRedefine
      simp [hnf, hb]
    rw [enterList]
    by_cases hg : g = .native ∨ (g.isForward ∧ fn.isPublic)
    · have h2 : canRedefine fn 0 g.fn = (none, true) := by
        rw [hcr]
        rcases hg with rfl | ⟨h1, h2⟩
        · rfl
        · rw [if_neg (by simp [h2])]
          cases g with
          | native => rfl
          | forward => rfl
          | plain p st k b => simp only [Form.isForward] at h1; simp only [Form.fn]; cases b <;> simp_all
      rw [h2] at he
      simp only [if_true] at he
      have := ih (enter s g.fn) { fn with link := some s.funs.length } (rest ++ [{ g.fn with link := some 0, isPublic := g.fn.isPublic || none == some 245 }])
        (by rw [he]; rfl) (by rw [he]; exact hs) hb hnf (by rw [he]; simpa [Decls.accepted] using ha)
      rw [this]
      simp [hg]
    · have h2 : (canRedefine fn 0 g.fn).2 = false ∧ ((canRedefine fn 0 g.fn).1 = some 412 ∨ (canRedefine fn 0 g.fn).1 = some 21) := by
        rw [hcr]
        cases g with
        | native => simp at hg
        | forward => simp only [Form.isForward, true_and, not_or] at hg; simp [Form.fn, hg.2]
        | plain p st k b => cases b <;> simp_all [Form.fn, Form.isForward]
      have hna : (enter s g.fn).accepted = false := by
        rw [he, h2.1]
        rcases h2.2 with e | e <;> simp [Decls.accepted, e, isError]
      rw [not_accepted hna]
      simp [hg]

/-- A forward came first, and an implementation. -/
theorem after_pair (fs : List Form) : ∀ (s : Decls) (fn : Fun) (rest : List Fun), s.funs = fn :: rest → s.sym = some 0 → fn.body = false →
    fn.isForward = true → fn.link.isSome = true → s.accepted = true → ((enterList s fs).accepted = true ↔ ∀ g ∈ fs, g.implements ∧ g.isPublic = false) := by
  induction fs with
  | nil => intro s fn rest _ _ _ _ _ ha; simp [enterList, ha]
  | cons g fs ih =>
    intro s fn rest hf hs hb hnf hl ha
    have he := enter_some hf hs g.fn
    rw [enterList]
    by_cases hg : g.implements ∧ g.isPublic = false
    · have h2 : canRedefine fn 0 g.fn = (some 245, true) := by
        unfold canRedefine
        cases g with
        | native => simp [Form.implements] at hg
        | forward => simp [Form.implements] at hg
        | plain p st k b => simp only [Form.implements, Form.isPublic] at hg; simp only [Form.fn]; simp_all
      rw [h2] at he
      simp only [if_true] at he
      have := ih (enter s g.fn) { fn with link := some s.funs.length } (rest ++ [{ g.fn with link := some 0, isPublic := g.fn.isPublic || some 245 == some 245 }])
        (by rw [he]; rfl) (by rw [he]; exact hs) hb hnf rfl (by
          rw [he]
          simp only [Decls.accepted, List.all_append, Bool.and_eq_true]
          exact ⟨ha, rfl⟩)
      rw [this]
      simp [hg]
    · have h2 : canRedefine fn 0 g.fn = (some 21, false) := by
        unfold canRedefine
        cases g with
        | native => simp [Form.fn, hb]
        | forward => simp [Form.fn, hb]
        | plain p st k b =>
          simp only [Form.implements, Form.isPublic] at hg
          simp only [Form.fn, Fun.impl, hb, hnf, hl]
          cases b <;> cases p <;> cases st <;> cases k <;> simp_all
      have hna : (enter s g.fn).accepted = false := by
        rw [he, h2]
        simp [Decls.accepted, isError]
      rw [not_accepted hna]
      simp [hg]

/-- What `CanRedefine` says about two declarations, case by case. -/
theorem cr_impl (f g : Form) (hf : f.isForward = true) (hg : g.implements = true) :
    (canRedefine f.fn 0 g.fn).2 = true ∧ ((canRedefine f.fn 0 g.fn).1 = none ∨ (canRedefine f.fn 0 g.fn).1 = some 245) := by
  cases f with
  | native => cases hf
  | forward =>
    cases g with
    | native => cases hg
    | forward => cases hg
    | plain p s k b =>
      exact (by decide : ∀ p s k b : Bool, (Form.plain p s k b).implements = true → (canRedefine Form.forward.fn 0 (Form.plain p s k b).fn).2 = true ∧
        ((canRedefine Form.forward.fn 0 (Form.plain p s k b).fn).1 = none ∨ (canRedefine Form.forward.fn 0 (Form.plain p s k b).fn).1 = some 245)) p s k b hg
  | plain p' s' k' b' =>
    cases g with
    | native => cases hg
    | forward => cases hg
    | plain p s k b =>
      exact (by decide +kernel : ∀ p' s' k' b' p s k b : Bool, (Form.plain p' s' k' b').isForward = true → (Form.plain p s k b).implements = true →
        (canRedefine (Form.plain p' s' k' b').fn 0 (Form.plain p s k b).fn).2 = true ∧
        ((canRedefine (Form.plain p' s' k' b').fn 0 (Form.plain p s k b).fn).1 = none ∨
          (canRedefine (Form.plain p' s' k' b').fn 0 (Form.plain p s k b).fn).1 = some 245)) p' s' k' b' p s k b hf hg

theorem cr_not (f g : Form) (hf : f.isForward = true) (hg : ¬ g.implements = true) : canRedefine f.fn 0 g.fn = (some 21, false) := by
  cases f with
  | native => cases hf
  | forward =>
    cases g with
    | native => rfl
    | forward => rfl
    | plain p s k b =>
      exact (by decide : ∀ p s k b : Bool, ¬ (Form.plain p s k b).implements = true → canRedefine Form.forward.fn 0 (Form.plain p s k b).fn = (some 21, false)) p s k b hg
  | plain p' s' k' b' =>
    have hb : b' = false := by simpa [Form.isForward] using hf
    subst hb
    cases g with
    | native => simp [canRedefine, Form.fn]
    | forward => simp [canRedefine, Form.fn]
    | plain p s k b =>
      exact (by decide +kernel : ∀ p' s' k' p s k b : Bool, ¬ (Form.plain p s k b).implements = true →
        canRedefine (Form.plain p' s' k' false).fn 0 (Form.plain p s k b).fn = (some 21, false)) p' s' k' p s k b hg

/-- What is accepted, in full. -/
theorem accepted_iff (f : Form) (rest : List Form) : (enterAll (f :: rest)).accepted = true ↔ acceptsAfter f rest := by
  have e0 : enterAll (f :: rest) = enterList ⟨[f.fn], some 0, [], false⟩ rest := rfl
  rw [e0]
  unfold acceptsAfter
  cases hf : f.isForward with
  | true =>
    simp only [if_true]
    have h1 : f.fn.isForward = true := by cases f <;> simp_all [Form.isForward, Form.fn]
    have h2 : f.fn.body = false := by cases f <;> simp_all [Form.isForward, Form.fn]
    have h3 : f.fn.link = none := by cases f <;> rfl
    cases rest with
    | nil => simp [enterList, Decls.accepted]
    | cons g gs =>
      have he := enter_some (s := ⟨[f.fn], some 0, [], false⟩) rfl rfl g.fn
      rw [enterList]
      by_cases hg : g.implements = true
      · have hc := cr_impl f g hf hg
        rw [hc.1] at he
        simp only [if_true] at he
        have := after_pair gs (enter ⟨[f.fn], some 0, [], false⟩ g.fn) { f.fn with link := some 1 } [{ g.fn with link := some 0, isPublic := g.fn.isPublic || (canRedefine f.fn 0 g.fn).1 == some 245 }]
          (by rw [he]; rfl) (by rw [he]) h2 h1 rfl (by
            rw [he]
            rcases hc.2 with e | e <;> rw [e] <;> rfl)
        rw [this]
        simp [hg]
      · have hc := cr_not f g hf hg
        have hna : (enter ⟨[f.fn], some 0, [], false⟩ g.fn).accepted = false := by
          rw [he, hc]; rfl
        rw [not_accepted hna]
        simp [hg]
  | false =>
    simp only [Bool.false_eq_true, if_false]
    cases hb : f.hasBody with
    | true =>
      simp only [if_true]
      have h1 : f.fn.isForward = false := by cases f <;> simp_all [Form.isForward, Form.fn]
      have h2 : f.fn.body = true := by cases f <;> simp_all [Form.hasBody, Form.fn]
      have h3 : f.fn.isPublic = f.isPublic := by cases f <;> rfl
      rw [after_body rest _ f.fn [] rfl rfl h2 h1 rfl, h3]
    | false =>
      simp only [Bool.false_eq_true, if_false]
      have hn : f = .native := by cases f <;> simp_all [Form.isForward, Form.hasBody]
      subst hn
      cases rest with
      | nil => simp [enterList, Decls.accepted]
      | cons g gs =>
        have he := enter_some (s := ⟨[Form.native.fn], some 0, [], false⟩) rfl rfl g.fn
        have hc : canRedefine Form.native.fn 0 g.fn = (some 21, false) := by
          unfold canRedefine
          simp [Form.fn]
        rw [hc] at he
        have hna : (enter ⟨[Form.native.fn], some 0, [], false⟩ g.fn).accepted = false := by rw [he]; rfl
        rw [enterList, not_accepted hna]
        simp

/-! ## The property -/

/-- **C71**: of up to two declarations of a name, none of them a native after a function with a body, the compiler accepts
those that the rule allows and no others; no assertion fails; and the name then refers to the one with the body, if there
is one.  Missing: three declarations and natives after a body, where the compiler does not keep to the rule (below). -/
theorem C71_one_definition_partial (fs : List Form) (two : fs.length ≤ 2) (hn : ∀ f, f.hasBody = true → fs ≠ [f, .native]) :
    ((enterAll fs).accepted = true ↔ Allowed fs) ∧ (enterAll fs).broken = false ∧
    (Allowed fs → ∀ i f, fs[i]? = some f → f.hasBody = true → (enterAll fs).use = some i) := by
  match fs, two with
  | [], _ => exact ⟨by simp [Allowed, enterAll, enterList, Decls.accepted], rfl, fun _ i f h => by simp at h⟩
  | [f], _ =>
    refine ⟨by simp [Allowed, enterAll, enterList, enter, Decls.accepted], rfl, fun _ i g h hb => ?_⟩
    cases i with
    | succ i => simp at h
    | zero =>
      simp only [List.getElem?_cons_zero, Option.some.injEq] at h
      subst h
      cases f with
      | plain p s k b => cases hb; rfl
      | native => cases hb
      | forward => cases hb
  | [f, g], _ =>
    refine ⟨?_, ?_, fun ha i h hi hb => ?_⟩
    · rw [accepted_iff]
      unfold acceptsAfter Allowed
      have := hn f
      cases f with
      | native => simp [Form.isForward, Form.hasBody]
      | forward => simp [Form.isForward, Form.hasBody]
      | plain p s k b =>
        cases b with
        | false => simp [Form.isForward, Form.hasBody]
        | true =>
          have := this rfl
          simp only [Form.isForward, Form.hasBody, Form.isPublic]
          have hg : g ≠ .native := fun e => this (by rw [e])
          simp [hg, and_comm]
    · show (enterList ⟨[f.fn], some 0, [], false⟩ [g]).broken = false
      rw [enterList, enter_some rfl rfl]
      have : f.fn.link = none := by cases f <;> rfl
      split
      · simp [enterList, this]
      · rfl
    · have hu : (enterAll [f, g]) = enter ⟨[f.fn], some 0, [], false⟩ g.fn := rfl
      rw [hu, enter_some rfl rfl]
      rcases ha with ⟨h1, h2⟩ | ⟨h1, h2, h3⟩
      · -- the second one implements the first
        have hfb : f.hasBody = false := by cases f <;> simp_all [Form.isForward, Form.hasBody]
        have hc := (cr_impl f g h1 h2).1
        match i, hi with
        | 0, hi => simp only [List.getElem?_cons_zero, Option.some.injEq] at hi; subst hi; rw [hfb] at hb; cases hb
        | 1, hi =>
          rw [hc]
          have hb : f.fn.body = false := by cases f <;> simp_all [Form.hasBody, Form.fn]
          simp [Decls.use, Fun.canonical, hb]
        | i + 2, hi => simp at hi
      · have hgb : g.hasBody = false := by cases g <;> simp_all [Form.isForward, Form.hasBody]
        have hb : f.fn.body = true := by cases f <;> simp_all [Form.hasBody, Form.fn]
        match i, hi with
        | 0, hi =>
          split <;> simp [Decls.use, Fun.canonical, hb]
        | 1, hi => simp only [List.getElem?_cons_succ, List.getElem?_cons_zero, Option.some.injEq] at hi; subst hi; rw [hgb] at hb; simp_all
        | i + 2, hi => simp at hi

/-- The hypotheses are met by a forward and its implementation, which is the second one. -/
example : Allowed [.forward, .plain true false false true] ∧ (enterAll [.forward, .plain true false false true]).use = some 1 ∧
    ∀ f : Form, f.hasBody = true → [Form.forward, .plain true false false true] ≠ [f, .native] :=
  ⟨.inl ⟨rfl, rfl⟩, rfl, fun f _ h => by simp at h⟩

/-- **C71**, for any number of declarations: what the compiler accepts.  With `Allowed`, this shows the only exceptions: after
a forward and its implementation, functions that are not public; after a function with a body, natives, and, if it is
public, any number of forwards. -/
theorem C71_accepted (f : Form) (rest : List Form) : (enterAll (f :: rest)).accepted = true ↔ acceptsAfter f rest := accepted_iff f rest

/-- `forward void f(); public void f() {} void f() {}`: the second body is accepted with a warning, and calls go there.  (With
assertions, the compiler stops.) -/
theorem C71_two_bodies : (enterAll [.forward, .plain true false false true, .plain false false false true]).reports = [245] ∧
    (enterAll [.forward, .plain true false false true, .plain false false false true]).use = some 2 ∧
    (enterAll [.forward, .plain true false false true, .plain false false false true]).broken = true ∧
    ¬ Allowed [.forward, .plain true false false true, .plain false false false true] := by
  refine ⟨by decide, by decide, by decide, fun h => h⟩

/-- `void f() {} native void f();`: the native is accepted without a report, and calls go to the function. -/
theorem C71_native_ignored : (enterAll [.plain false false false true, .native]).reports = [] ∧
    (enterAll [.plain false false false true, .native]).use = some 0 ∧ ¬ Allowed [.plain false false false true, .native] := by
  refine ⟨by decide, by decide, fun h => ?_⟩
  rcases h with ⟨h, _⟩ | ⟨_, h, _⟩ <;> cases h

/-- `public void f() {} forward void f(); forward void f();`: the second forward is accepted without a report (with
assertions, the compiler stops). -/
theorem C71_two_forwards : (enterAll [.plain true false false true, .forward, .forward]).reports = [] ∧
    (enterAll [.plain true false false true, .forward, .forward]).broken = true ∧
    ¬ Allowed [.plain true false false true, .forward, .forward] := ⟨by decide, by decide, fun h => h⟩

end Verif.FunDecl

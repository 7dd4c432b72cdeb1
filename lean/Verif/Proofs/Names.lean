import Verif.Spec.Names

/-! Lemmas for C70: lazily created scopes and a list of scopes give names the same meaning. -/
namespace Verif.Names

/-- The scopes from `i` upwards are `gs`. -/
inductive Chain (h : List Scope) : Nat → List Frame → Prop
  | top {i k sy} : h[i]? = some ⟨none, k, sy⟩ → Chain h i [⟨k, sy⟩]
  | cons {i p k sy gs} : h[i]? = some ⟨some p, k, sy⟩ → p < i → Chain h p gs → Chain h i (⟨k, sy⟩ :: gs)

theorem Chain.lt {h : List Scope} {i : Nat} {gs : List Frame} (c : Chain h i gs) : i < h.length := by
  cases c with
  | top e => exact (List.getElem?_eq_some_iff.1 e).1
  | cons e _ _ => exact (List.getElem?_eq_some_iff.1 e).1

theorem Chain.congr {h h' : List Scope} {i : Nat} {gs : List Frame} (c : Chain h i gs) (e : ∀ j ≤ i, h'[j]? = h[j]?) : Chain h' i gs := by
  induction c with
  | top e1 => exact .top ((e _ (Nat.le_refl _)).trans e1)
  | cons e1 hp _ ih => exact .cons ((e _ (Nat.le_refl _)).trans e1) hp (ih fun j hj => e j (by omega))

theorem Chain.find {h : List Scope} {i : Nat} {gs : List Frame} (c : Chain h i gs) (a : Atom) :
    ∀ fuel, i < fuel → (findFrom h a fuel i).map (·.1) = lookupIn gs a ∧ ∀ d j, findFrom h a fuel i = some (d, j) → j ≤ i := by
  induction c with
  | @top i k sy e =>
    intro fuel hf
    obtain ⟨n, rfl⟩ : ∃ n, fuel = n + 1 := ⟨fuel - 1, by omega⟩
    rw [findFrom, e]
    simp only [Scope.find, lookupIn]
    cases hl : sy.lookup a with
    | none => exact ⟨rfl, fun _ _ h => nomatch h⟩
    | some d => exact ⟨rfl, fun _ _ h => by cases h; exact Nat.le_refl _⟩
  | @cons i p k sy gs e hp _ ih =>
    intro fuel hf
    obtain ⟨n, rfl⟩ : ∃ n, fuel = n + 1 := ⟨fuel - 1, by omega⟩
    rw [findFrom, e]
    simp only [Scope.find, lookupIn]
    cases hl : sy.lookup a with
    | none =>
      obtain ⟨h1, h2⟩ := ih n (by omega)
      exact ⟨h1, fun d j h => by have := h2 d j h; omega⟩
    | some d => exact ⟨rfl, fun _ _ h => by cases h; exact Nat.le_refl _⟩

/-- From the scope `i`, names are found as in `fs`. -/
def Sees (h : List Scope) (i : Nat) (fs : List Frame) : Prop := ∃ gs, Chain h i gs ∧ ∀ a, lookupIn fs a = lookupIn gs a

theorem Sees.lt {h : List Scope} {i : Nat} {fs : List Frame} (c : Sees h i fs) : i < h.length := c.choose_spec.1.lt

theorem Sees.congr {h h' : List Scope} {i : Nat} {fs : List Frame} (c : Sees h i fs) (e : ∀ j ≤ i, h'[j]? = h[j]?) : Sees h' i fs := by
  obtain ⟨gs, c, l⟩ := c
  exact ⟨gs, c.congr e, l⟩

theorem Sees.find {h : List Scope} {i : Nat} {fs : List Frame} (c : Sees h i fs) (a : Atom) :
    (findSymbol h i a).map (·.1) = lookupIn fs a ∧ ∀ d j, findSymbol h i a = some (d, j) → j ≤ i := by
  obtain ⟨gs, c, l⟩ := c
  rw [l]
  exact c.find a _ c.lt

theorem bindExpr_ok {fs : List Frame} (e : NExpr) : ∀ s : Sema, Sees s.heap s.scope fs →
    bindExpr s e = ({ s with log := s.log ++ (useExpr fs e).1 }, (useExpr fs e).2) := by
  induction e with
  | sym a =>
    intro s c
    simp only [bindExpr, useExpr, (c.find a).1, Sema.say]
  | call t u iht ihu =>
    intro s c
    simp only [bindExpr, useExpr, iht s c]
    cases h : (useExpr fs t).2 with
    | false => simp
    | true => simp [ihu { s with log := s.log ++ (useExpr fs t).1 } c, List.append_assoc]
  | lit => intro s _; simp [bindExpr, useExpr]
  | pair l r ihl ihr =>
    intro s c
    simp only [bindExpr, useExpr, ihl s c, ihr { s with log := s.log ++ (useExpr fs l).1 } c, List.append_assoc]

theorem bindOpt_ok {fs : List Frame} {s : Sema} (e : Option NExpr) (c : Sees s.heap s.scope fs) :
    bindOpt s e = { s with log := s.log ++ useOpt fs e } := by
  cases e with
  | none => simp [bindOpt, useOpt]
  | some e => simp [bindOpt, useOpt, bindExpr_ok e s c]

/-- We are in the scope `f`, which may not have been made yet, inside `env`, which is seen from `prev`.  Scopes up to `lo` are not
touched. -/
structure Ready (s : Sema) (f : Frame) (env : List Frame) (prev lo : Nat) : Prop where
  le_lo : prev ≤ lo
  lo_lt : lo < s.heap.length
  outer : Sees s.heap prev env
  kind : f.kind = .local ∨ f.kind = .argument
  here : (s.scope = prev ∧ f.names = [] ∧ ∃ c cs, s.creators = c :: cs ∧ c.prev = prev ∧ c.kind = f.kind) ∨
    (lo < s.scope ∧ s.heap[s.scope]? = some ⟨some prev, f.kind, f.names⟩ ∧ ∀ c cs, s.creators = c :: cs → c.prev = prev)

theorem Ready.le {s : Sema} {f : Frame} {env : List Frame} {prev lo : Nat} (r : Ready s f env prev lo) : prev ≤ s.scope := by
  have := r.le_lo
  rcases r.here with ⟨h, _⟩ | ⟨h, _⟩ <;> omega

theorem Ready.sees {s : Sema} {f : Frame} {env : List Frame} {prev lo : Nat} (r : Ready s f env prev lo) : Sees s.heap s.scope (f :: env) := by
  obtain ⟨gs, c, l⟩ := r.outer
  rcases r.here with ⟨h1, h2, _⟩ | ⟨h1, h2, _⟩
  · refine ⟨gs, h1 ▸ c, fun a => ?_⟩
    rw [← l a, lookupIn, h2]
    rfl
  · refine ⟨_, .cons h2 (by have := r.le_lo; omega) c, fun a => ?_⟩
    simp only [lookupIn, l a]

theorem Ready.congr {s s' : Sema} {f : Frame} {env : List Frame} {prev lo : Nat} (r : Ready s f env prev lo)
    (h : ∀ j ≤ max lo s.scope, s'.heap[j]? = s.heap[j]?) (hs : s'.scope = s.scope)
    (hc : match s.creators, s'.creators with
      | [], [] => True
      | c :: _, c' :: _ => c'.prev = c.prev ∧ c'.kind = c.kind
      | _, _ => False) : Ready s' f env prev lo := by
  have hle := r.le
  have hlo : lo < s'.heap.length := by
    have := h lo (by omega)
    rw [List.getElem?_eq_getElem r.lo_lt] at this
    exact (List.getElem?_eq_some_iff.1 this).1
  refine ⟨r.le_lo, hlo, r.outer.congr fun j hj => h j (by omega), r.kind, ?_⟩
  rcases r.here with ⟨h1, h2, c, cs, h3, h4, h5⟩ | ⟨h1, h2, h3⟩
  · rw [h3] at hc
    cases e : s'.creators with
    | nil => rw [e] at hc; exact hc.elim
    | cons c' cs' =>
      rw [e] at hc
      exact .inl ⟨hs.trans h1, h2, c', cs', rfl, hc.1.trans h4, hc.2.trans h5⟩
  · refine .inr ⟨hs ▸ h1, by rw [hs]; exact (h _ (by omega)).trans h2, ?_⟩
    intro c' cs' e
    rw [e] at hc
    cases e2 : s.creators with
    | nil => rw [e2] at hc; exact hc.elim
    | cons c cs =>
      rw [e2] at hc
      exact hc.1.trans (h3 c cs e2)

/-- ScopeForAdd: after it, the scope has been made. -/
theorem Ready.add {s : Sema} {f : Frame} {env : List Frame} {prev lo : Nat} (r : Ready s f env prev lo) :
    ∃ h, (∀ j ≤ lo, h[j]? = s.heap[j]?) ∧ ∃ i, lo < i ∧ scopeForAdd s = ({ s with heap := h, scope := i }, i) ∧
      h[i]? = some ⟨some prev, f.kind, f.names⟩ ∧ Ready { s with heap := h, scope := i } f env prev lo ∧
      (f.names = [] ∧ s.scope < i ∨ i = s.scope ∧ h = s.heap) := by
  have hl := r.sees.lt
  have hpl := r.le_lo
  have hll := r.lo_lt
  rcases r.here with ⟨h1, h2, c, cs, h3, h4, h5⟩ | ⟨h1, h2, h3⟩
  · have low : ∀ j ≤ lo, (s.heap ++ [⟨some s.scope, c.kind, []⟩])[j]? = s.heap[j]? :=
      fun j hj => List.getElem?_append_left (by omega)
    have top : (s.heap ++ [(⟨some s.scope, c.kind, []⟩ : Scope)])[s.heap.length]? = some ⟨some prev, f.kind, f.names⟩ := by
      rw [List.getElem?_append_right (Nat.le_refl _), Nat.sub_self, h1, h5, h2]
      rfl
    refine ⟨_, low, s.heap.length, by omega, ?_, top, ?_, .inl ⟨h2, hl⟩⟩
    · unfold scopeForAdd
      rw [h3]
      simp only
      rw [if_pos (h1.trans h4.symm)]
    · refine ⟨hpl, by show lo < (s.heap ++ _).length; rw [List.length_append]; omega, r.outer.congr fun j hj => low j (by omega), r.kind, .inr ⟨hll, top, ?_⟩⟩
      intro c' cs' e
      rw [h3] at e
      cases e
      exact h4
  · refine ⟨s.heap, fun _ _ => rfl, s.scope, h1, ?_, h2, r, .inr ⟨rfl, rfl⟩⟩
    unfold scopeForAdd
    split
    · rfl
    · next c cs e =>
      rw [if_neg (by have := h3 _ _ e; omega)]

theorem kindOf_eq {h : List Scope} {i : Nat} {s : Scope} (e : h[i]? = some s) : kindOf h i = s.kind := by
  rw [kindOf, e]; rfl

theorem lookup_mem {a : Atom} {n : Names} (h : n = []) : n.lookup a = none := by rw [h]; rfl

/-- CheckNameRedefinition in a function. -/
theorem check_ok {s : Sema} {f : Frame} {env : List Frame} {prev lo : Nat} (r : Ready s f env prev lo) (a : Atom) (d : Decl) (v : Kind)
    (hn : s.native = true → s.creators = []) :
    ∃ h i, (∀ j ≤ lo, h[j]? = s.heap[j]?) ∧
      checkName s a v = ({ s with heap := h, scope := i, log := s.log ++ (declare s.native f env d a).2.1 }, (declare s.native f env d a).2.2) ∧
      ∀ l, Ready { s with heap := h, scope := i, log := l } f env prev lo := by
  obtain ⟨h, hlow, i, hi, hadd, hget, r', hnew⟩ := r.add
  have hk := kindOf_eq hget
  have hpl := r.le_lo
  have hit : isTop (kindOf h i) = false := by
    rw [hk]; rcases r.kind with e | e <;> simp only [e] <;> rfl
  have hfind := r.sees.find a
  have hout := r.outer.find a
  -- where the name is found
  have found : ∀ d0 j, findSymbol s.heap s.scope a = some (d0, j) →
      (f.names.lookup a = some d0 ∧ j = i) ∨ (f.names.lookup a = none ∧ lookupIn env a = some d0 ∧ j ≠ i) := by
    intro d0 j e
    have h1 := hfind.1
    rw [e] at h1
    simp only [Option.map_some, lookupIn] at h1
    rcases hnew with ⟨h2, h3⟩ | ⟨h2, h3⟩
    · rw [lookup_mem h2] at h1
      exact .inr ⟨lookup_mem h2, h1.symm, by have := hfind.2 _ _ e; omega⟩
    · rw [h3, h2] at hget
      have hlen := (List.getElem?_eq_some_iff.1 hget).1
      obtain ⟨n, hn⟩ : ∃ n, s.heap.length = n + 1 := ⟨s.heap.length - 1, by omega⟩
      rw [findSymbol, hn, findFrom, hget] at e
      simp only [Scope.find] at e
      cases hl : f.names.lookup a with
      | some d1 =>
        rw [hl] at e
        simp only at e
        cases e
        exact .inl ⟨rfl, h2.symm⟩
      | none =>
        rw [hl] at e h1
        simp only at e h1
        obtain ⟨gs, c, _⟩ := r.outer
        have := (c.find a n (by omega)).2 _ _ e
        exact .inr ⟨rfl, h1.symm, by omega⟩
  by_cases hnat : s.native = true
  · -- a native: only this scope counts
    have hs : i = s.scope ∧ h = s.heap := by
      rcases hnew with ⟨h2, h3⟩ | e
      · rcases r.here with ⟨_, _, c, cs, h5, _⟩ | ⟨h5, h6, _⟩
        · rw [hn hnat] at h5; cases h5
        · have hsf := hadd
          unfold scopeForAdd at hsf
          rw [hn hnat] at hsf
          simp only [Prod.mk.injEq] at hsf
          omega
      · exact e
    obtain ⟨rfl, rfl⟩ := hs
    refine ⟨s.heap, s.scope, fun _ _ => rfl, ?_, fun l => ⟨r'.le_lo, r'.lo_lt, r'.outer, r'.kind, r'.here⟩⟩
    unfold checkName newNameStatus
    simp only [hnat, if_true, hget, Scope.find]
    unfold declare
    cases hl : f.names.lookup a with
    | none =>
      simp only [Option.map_none]
      cases lookupIn env a <;> simp [← hnat]
    | some d0 =>
      simp only [Option.map_some, hadd, hit, Bool.false_eq_true, and_false, if_false, if_true]
      simp [Sema.say, ← hnat]
  · simp only [Bool.not_eq_true] at hnat
    unfold checkName newNameStatus
    simp only [hnat, Bool.false_eq_true, if_false]
    unfold declare
    cases e : findSymbol s.heap s.scope a with
    | none =>
      have h1 := hfind.1
      rw [e] at h1
      simp only [Option.map_none, lookupIn] at h1
      refine ⟨s.heap, s.scope, fun _ _ => rfl, ?_, fun l => ⟨r.le_lo, r.lo_lt, r.outer, r.kind, r.here⟩⟩
      cases hl : f.names.lookup a with
      | some d1 => rw [hl] at h1; cases h1
      | none =>
        rw [hl] at h1
        simp only at h1
        simp [← h1, ← hnat]
    | some p =>
      obtain ⟨d0, j⟩ := p
      refine ⟨h, i, hlow, ?_, fun l => ⟨r'.le_lo, r'.lo_lt, r'.outer, r'.kind, r'.here⟩⟩
      simp only [hadd, hit, Bool.false_eq_true, and_false, if_false]
      rcases found d0 j e with ⟨h1, h2⟩ | ⟨h1, h2, h3⟩
      · simp [h1, h2, Sema.say, ← hnat]
      · simp only [h1, h2, if_neg h3, hk]
        by_cases hc : f.kind = .argument ∧ d0.isFun = true
        · simp [hc, ← hnat]
        · simp [hc, Sema.say, ← hnat]

/-- DefineSymbol in a function. -/
theorem define_ok {s : Sema} {f : Frame} {env : List Frame} {prev lo : Nat} (r : Ready s f env prev lo) (a : Atom) (d : Decl) (v : Kind)
    (hnew : f.names.lookup a = none) :
    ∃ h i, (∀ j ≤ lo, h[j]? = s.heap[j]?) ∧ define s d a v = { s with heap := h, scope := i } ∧
      ∀ l, Ready { s with heap := h, scope := i, log := l } { f with names := (a, d) :: f.names } env prev lo := by
  obtain ⟨h, hlow, i, hi, hadd, hget, r', _⟩ := r.add
  have hk := kindOf_eq hget
  have hpl := r.le_lo
  have hft : ¬ (kindOf h i = .fileStatic ∧ v ≠ .static) := by
    rw [hk]; rcases r.kind with e | e <;> simp [e]
  have hit : isTop f.kind = false := by rcases r.kind with e | e <;> simp only [e] <;> rfl
  have hset : ∀ j ≤ lo, (h.set i ⟨some prev, f.kind, (a, d) :: f.names⟩)[j]? = h[j]? :=
    fun j hj => List.getElem?_set_ne (by omega)
  refine ⟨h.set i ⟨some prev, f.kind, (a, d) :: f.names⟩, i, fun j hj => (hset j hj).trans (hlow j hj), ?_, ?_⟩
  · unfold define
    rw [hadd]
    simp only [if_neg hft, updScope, hget, hit, Bool.false_eq_true, if_false, Scope.add, Scope.find, hnew]
  · intro l
    refine ⟨hpl, by show lo < (h.set i _).length; rw [List.length_set]; exact r'.lo_lt, r'.outer.congr fun j hj => hset j (by omega), r.kind, .inr ⟨hi, ?_, ?_⟩⟩
    · show (h.set i _)[i]? = _
      rw [List.getElem?_set_self (List.getElem?_eq_some_iff.1 hget).1]
    · intro c cs e
      rcases r'.here with ⟨_, _, c', cs', e', h', _⟩ | ⟨_, _, h'⟩
      · have e2 : c :: cs = c' :: cs' := e.symm.trans e'
        cases e2
        exact h'
      · exact h' c cs e

/-! ## Statements -/

/-- The block that may get a scope is the same, and what it will reparent is not older than `prev`. -/
def SameBlock (prev : Nat) : List Creator → List Creator → Prop
  | [], [] => True
  | c :: cs, c' :: cs' => c'.prev = c.prev ∧ c'.kind = c.kind ∧ cs' = cs ∧ ((∀ x ∈ c.pending, prev < x) → ∀ x ∈ c'.pending, prev < x)
  | _, _ => False

theorem SameBlock.refl (prev : Nat) (cs : List Creator) : SameBlock prev cs cs := by
  cases cs with
  | nil => trivial
  | cons c cs => exact ⟨rfl, rfl, rfl, id⟩

theorem SameBlock.trans {prev : Nat} {a b c : List Creator} (h : SameBlock prev a b) (h' : SameBlock prev b c) : SameBlock prev a c := by
  cases a <;> cases b <;> cases c <;> simp only [SameBlock] at h h' ⊢
  obtain ⟨h1, h2, h3, h4⟩ := h
  obtain ⟨g1, g2, g3, g4⟩ := h'
  exact ⟨g1.trans h1, g2.trans h2, g3.trans h3, fun h => g4 (h4 h)⟩

/-- From `s` to `s'`, in the same block, whose scope is now `f'`. -/
structure Moves (s s' : Sema) (f' : Frame) (env : List Frame) (prev lo : Nat) (l : List Event) : Prop where
  low : ∀ j ≤ lo, s'.heap[j]? = s.heap[j]?
  log : s'.log = s.log ++ l
  native : s'.native = s.native
  block : SameBlock lo s.creators s'.creators
  ready : Ready s' f' env prev lo

theorem Moves.trans {s s1 s2 : Sema} {f1 f2 : Frame} {env : List Frame} {prev lo : Nat} {l1 l2 : List Event}
    (h : Moves s s1 f1 env prev lo l1) (h' : Moves s1 s2 f2 env prev lo l2) : Moves s s2 f2 env prev lo (l1 ++ l2) :=
  ⟨fun j hj => (h'.low j hj).trans (h.low j hj), by rw [h'.log, h.log, List.append_assoc], h'.native.trans h.native,
    h.block.trans h'.block, h'.ready⟩

variable {s : Sema} {f : Frame} {env : List Frame} {prev lo : Nat}

theorem moves_expr (r : Ready s f env prev lo) (e : NExpr) : Moves s (bindExpr s e).1 f env prev lo (useExpr (f :: env) e).1 := by
  rw [bindExpr_ok e s r.sees]
  exact ⟨fun _ _ => rfl, rfl, rfl, .refl _ _, ⟨r.le_lo, r.lo_lt, r.outer, r.kind, r.here⟩⟩

theorem moves_opt (r : Ready s f env prev lo) (e : Option NExpr) : Moves s (bindOpt s e) f env prev lo (useOpt (f :: env) e) := by
  rw [bindOpt_ok e r.sees]
  exact ⟨fun _ _ => rfl, rfl, rfl, .refl _ _, ⟨r.le_lo, r.lo_lt, r.outer, r.kind, r.here⟩⟩

theorem declare_new {native : Bool} {d : Decl} {a : Atom} (h : (declare native f env d a).2.2 = true) :
    f.names.lookup a = none ∧ (declare native f env d a).1 = { f with names := (a, d) :: f.names } := by
  unfold declare at h ⊢
  cases e : f.names.lookup a with
  | some _ => rw [e] at h; cases h
  | none => exact ⟨rfl, rfl⟩

theorem declare_old {native : Bool} {d : Decl} {a : Atom} (h : (declare native f env d a).2.2 = false) :
    (declare native f env d a).1 = f := by
  unfold declare at h ⊢
  cases e : f.names.lookup a with
  | some _ => rfl
  | none => rw [e] at h; cases h

/-- CheckNameRedefinition and, if it succeeds, DefineSymbol. -/
theorem moves_declare (r : Ready s f env prev lo) (hn : s.native = true → s.creators = []) (d : Decl) (a : Atom) (v : Kind) :
    (checkName s a v).2 = (declare s.native f env d a).2.2 ∧
    Moves s (if (checkName s a v).2 then define (checkName s a v).1 d a v else (checkName s a v).1)
      (declare s.native f env d a).1 env prev lo (declare s.native f env d a).2.1 := by
  obtain ⟨h, i, low, e, r'⟩ := check_ok r a d v hn
  rw [e]
  refine ⟨rfl, ?_⟩
  cases ok : (declare s.native f env d a).2.2 with
  | false =>
    rw [declare_old ok]
    exact ⟨low, rfl, rfl, .refl _ _, r' _⟩
  | true =>
    obtain ⟨h1, h2⟩ := declare_new ok
    rw [h2]
    obtain ⟨h', i', low', e', r''⟩ := define_ok (r' (s.log ++ (declare s.native f env d a).2.1)) a d v h1
    simp only [if_true, e']
    exact ⟨fun j hj => (low' j hj).trans (low j hj), rfl, rfl, .refl _ _, r'' _⟩

theorem moves_var (r : Ready s f env prev lo) (hn : s.native = true → s.creators = []) (d : Nat) (a : Atom) (v : Kind) (init : Option NExpr) :
    Moves s (bindVar s d a v init) (specVar s.native f env d a init).1 env prev lo (specVar s.native f env d a init).2 := by
  have m0 := moves_opt r init
  have e0 := bindOpt_ok init r.sees
  have hn0 : (bindOpt s init).native = true → (bindOpt s init).creators = [] := by rw [e0]; exact hn
  have m1 := (moves_declare m0.ready hn0 ⟨d, false⟩ a v).2
  rw [m0.native] at m1
  have m2 := m0.trans m1
  unfold bindVar specVar
  cases init with
  | none => simpa only [List.append_nil] using m2
  | some e =>
    refine m2.trans ⟨fun _ _ => rfl, ?_, rfl, .refl _ _, ⟨m2.ready.le_lo, m2.ready.lo_lt, m2.ready.outer, m2.ready.kind, m2.ready.here⟩⟩
    simp only [Sema.say]
    have := (m2.ready.sees.find a).1
    simp only [← this]

theorem lookupIn_fresh {a b : Atom} {d : Decl} (h : (b == a) = false) :
    lookupIn ({ f with names := (a, d) :: f.names } :: env) b = lookupIn (f :: env) b := by
  simp only [lookupIn, List.lookup, h]

theorem useExpr_fresh {a : Atom} {d : Decl} (e : NExpr) (h : e.mentions a = false) :
    useExpr ({ f with names := (a, d) :: f.names } :: env) e = useExpr (f :: env) e := by
  induction e with
  | sym b => simp only [useExpr, lookupIn_fresh h]
  | call t u iht ihu =>
    simp only [NExpr.mentions, Bool.or_eq_false_iff] at h
    simp only [useExpr, iht h.1, ihu h.2]
  | lit => rfl
  | pair l r ihl ihr =>
    simp only [NExpr.mentions, Bool.or_eq_false_iff] at h
    simp only [useExpr, ihl h.1, ihr h.2]

theorem moves_const (r : Ready s f env prev lo) (hn : s.native = false) (d : Nat) (a : Atom) (v : Kind) (e : NExpr) (fair : e.mentions a = false) :
    Moves s (bindConst s d a v e).1 (declare false f env ⟨d, false⟩ a).1 env prev lo
      ((declare false f env ⟨d, false⟩ a).2.1 ++ if (declare false f env ⟨d, false⟩ a).2.2 then (useExpr (f :: env) e).1 else []) := by
  obtain ⟨h1, m⟩ := moves_declare r (by rw [hn]; exact fun h => nomatch h) ⟨d, false⟩ a v
  rw [hn] at h1 m
  unfold bindConst
  rw [h1] at m
  simp only [h1]
  cases ok : (declare false f env ⟨d, false⟩ a).2.2 with
  | false =>
    rw [ok] at m
    simpa using m
  | true =>
    rw [ok] at m
    simp only [if_true] at m ⊢
    have m' := moves_expr m.ready e
    rw [(declare_new ok).2, useExpr_fresh e fair, ← (declare_new ok).2] at m'
    exact m.trans m'

theorem moves_fields (v : Kind) (fields : List (Nat × Atom × Option NExpr)) : ∀ (s : Sema) (f : Frame), Ready s f env prev lo → s.native = false →
    Moves s (bindFields s v fields) (specFields f env fields).1 env prev lo (specFields f env fields).2 := by
  induction fields with
  | nil =>
    intro s f r _
    exact ⟨fun _ _ => rfl, (List.append_nil _).symm, rfl, .refl _ _, r⟩
  | cons x rest ih =>
    intro s f r hn
    obtain ⟨d, a, e⟩ := x
    have m0 := moves_opt r e
    have hn0 : (bindOpt s e).native = false := m0.native.trans hn
    have m1 := (moves_declare m0.ready (by rw [hn0]; exact fun h => nomatch h) ⟨d, false⟩ a v).2
    rw [hn0] at m1
    have m2 := m0.trans m1
    exact m2.trans (ih _ _ m2.ready (m2.native.trans hn))

/-! ## Blocks -/

theorem updScope_low {h : List Scope} {n x : Nat} {g : Scope → Scope} (hx : n < x) : ∀ j ≤ n, (updScope h x g)[j]? = h[j]? := by
  intro j hj
  unfold updScope
  split
  · exact List.getElem?_set_ne (by omega)
  · rfl

theorem reparent_low {n p : Nat} (xs : List Nat) : ∀ h : List Scope, (∀ x ∈ xs, n < x) → ∀ j ≤ n, (reparent h p xs)[j]? = h[j]? := by
  induction xs with
  | nil => intro h _ j _; rfl
  | cons x xs ih =>
    intro h hx j hj
    exact (ih _ (fun y hy => hx y (List.mem_cons_of_mem _ hy)) j hj).trans (updScope_low (hx x List.mem_cons_self) j hj)

/-- What is in a block is resolved as by the rules. -/
def Good (b : NStmt) : Prop := ∀ (s : Sema) (f : Frame) (env : List Frame) (prev lo : Nat), Ready s f env prev lo → s.native = false →
  s.creators ≠ [] → Moves s (bindStmt s b) (specStmt f env b).1 env prev lo (specStmt f env b).2

/-- Entering a block, something in it, and leaving it. -/
theorem scope_run {env : List Frame} {s s' : Sema} {g : Frame} {l : List Event} {n k : Nat} (hs : Sees s.heap s.scope env)
    (m : Moves (enter s .local) s' g env s.scope k l) (hle : n ≤ k) :
    (leave s').scope = s.scope ∧ (∀ j ≤ k, (leave s').heap[j]? = s.heap[j]?) ∧ (leave s').log = s.log ++ l ∧ (leave s').native = s.native ∧
      SameBlock n s.creators (leave s').creators := by
  obtain ⟨low, log, native, block, ready⟩ := m
  have e : (enter s .local).creators = ⟨.local, s.scope, []⟩ :: s.creators := rfl
  rw [e] at block
  cases hc : s'.creators with
  | nil => rw [hc] at block; exact block.elim
  | cons c cs =>
    rw [hc] at block
    obtain ⟨b1, b2, b3, b4⟩ := block
    have b4 := b4 (fun x hx => nomatch hx)
    have hle' := ready.le
    simp only at b1 b2
    unfold leave
    rw [hc]
    simp only [b3]
    by_cases h : s'.scope = c.prev
    · rw [if_pos h]
      cases hp : s.creators with
      | nil => exact ⟨b1, fun j hj => (reparent_low _ _ b4 j hj).trans (low j hj), log, native, trivial⟩
      | cons p ps =>
        refine ⟨b1, low, log, native, rfl, rfl, rfl, fun hx x hm => ?_⟩
        rcases List.mem_append.1 hm with hm | hm
        · exact hx x hm
        · have := b4 x hm; omega
    · rw [if_neg h]
      have hlt : k < s'.scope := by
        rcases ready.here with ⟨e, _⟩ | ⟨e, _⟩
        · exact absurd (e.trans b1.symm) h
        · exact e
      cases hp : s.creators with
      | nil =>
        refine ⟨b1, fun j hj => (reparent_low _ _ b4 j hj).trans ((reparent_low _ _ ?_ j hj).trans (low j hj)), log, native, trivial⟩
        intro x hx
        rw [List.mem_singleton.1 hx]
        exact hlt
      | cons p ps =>
        refine ⟨b1, fun j hj => (reparent_low _ _ b4 j hj).trans (low j hj), log, native, rfl, rfl, rfl, fun hx x hm => ?_⟩
        rcases List.mem_append.1 hm with hm | hm
        · exact hx x hm
        · rw [List.mem_singleton.1 hm]; omega

theorem enter_ready {k : Nat} (hs : Sees s.heap s.scope env) (h1 : s.scope ≤ k) (h2 : k < s.heap.length) :
    Ready (enter s .local) ⟨.local, []⟩ env s.scope k :=
  ⟨h1, h2, hs, .inl rfl, .inl ⟨rfl, rfl, _, _, rfl, rfl, rfl⟩⟩

/-- A block in a block. -/
theorem scope_moves {s' : Sema} {g : Frame} {l : List Event} (r : Ready s f env prev lo)
    (m : Moves (enter s .local) s' g (f :: env) s.scope (max lo s.scope) l) : Moves s (leave s') f env prev lo l := by
  obtain ⟨h1, h2, h3, h4, h5⟩ := scope_run r.sees m (Nat.le_max_left lo s.scope)
  have hle := r.le
  refine ⟨fun j hj => h2 j (by omega), h3, h4, h5, r.congr h2 h1 ?_⟩
  cases e : s.creators <;> cases e' : (leave s').creators <;> rw [e, e'] at h5 <;> simp only [SameBlock] at h5 ⊢
  exact ⟨h5.1, h5.2.1⟩

theorem good (b : NStmt) (fair : b.fair = true) : Good b := by
  induction b with
  | skip => intro s f env prev lo r _ _; exact ⟨fun _ _ => rfl, (List.append_nil _).symm, rfl, .refl _ _, r⟩
  | seq a b iha ihb =>
    intro s f env prev lo r hn hc
    simp only [NStmt.fair, Bool.and_eq_true] at fair
    have m := iha fair.1 s f env prev lo r hn hc
    refine m.trans (ihb fair.2 _ _ _ _ _ m.ready (m.native.trans hn) fun h => ?_)
    have := m.block
    rw [h] at this
    cases e : s.creators with
    | nil => exact hc e
    | cons c cs => rw [e] at this; exact this
  | expr e => intro s f env prev lo r _ _; exact moves_expr r e
  | var d a init =>
    intro s f env prev lo r hn _
    have := moves_var r (by rw [hn]; exact fun h => nomatch h) d a .local init
    rw [hn] at this
    exact this
  | const d a e =>
    intro s f env prev lo r hn _
    simp only [NStmt.fair, Bool.not_eq_true'] at fair
    exact moves_const r hn d a .local e fair
  | enum name fields =>
    intro s f env prev lo r hn _
    cases name with
    | none => exact moves_fields .local fields s f r hn
    | some x =>
      obtain ⟨d, a⟩ := x
      have m := (moves_declare r (by rw [hn]; exact fun h => nomatch h) ⟨d, false⟩ a .local).2
      rw [hn] at m
      exact m.trans (moves_fields .local fields _ _ m.ready (m.native.trans hn))
  | block b ih =>
    intro s f env prev lo r hn _
    exact scope_moves r (ih fair _ _ _ _ _ (enter_ready r.sees (Nat.le_max_right lo s.scope) (Nat.max_lt.2 ⟨r.lo_lt, r.sees.lt⟩)) hn (fun h => nomatch h))
  | for_ init cond advance body ihi ihb =>
    intro s f env prev lo r hn hc
    simp only [NStmt.fair, Bool.and_eq_true] at fair
    simp only [bindStmt, specStmt]
    cases hd : init.declares with
    | true =>
      simp only [if_true]
      have m1 := ihi fair.1 _ _ _ _ _ (enter_ready r.sees (Nat.le_max_right lo s.scope) (Nat.max_lt.2 ⟨r.lo_lt, r.sees.lt⟩)) hn (fun h => nomatch h)
      have m2 := m1.trans (moves_expr m1.ready cond)
      have m3 := m2.trans (moves_expr m2.ready advance)
      refine scope_moves r (m3.trans (ihb fair.2 _ _ _ _ _ m3.ready (m3.native.trans hn) fun h => ?_))
      have := m3.block
      rw [h] at this
      exact this
    | false =>
      simp only [Bool.false_eq_true, if_false]
      have m1 := ihi fair.1 _ _ _ _ _ r hn hc
      have m2 := m1.trans (moves_expr m1.ready cond)
      have m3 := m2.trans (moves_expr m2.ready advance)
      refine m3.trans (ihb fair.2 _ _ _ _ _ m3.ready (m3.native.trans hn) fun h => ?_)
      have := m3.block
      rw [h] at this
      cases e : s.creators with
      | nil => exact hc e
      | cons c cs => rw [e] at this; exact this

/-! ## Files -/

/-- Outside of functions. -/
structure Top (files : Nat) (s : Sema) (P : Plugin) : Prop where
  globals : s.heap[0]? = some ⟨none, .global, P.globals⟩
  statics : ∀ n < files, s.heap[n + 1]? = some ⟨some 0, .fileStatic, P.statics n⟩
  scope : s.scope = P.file + 1
  file : P.file < files
  creators : s.creators = []
  native : s.native = false

variable {files : Nat} {P : Plugin}

theorem Top.here (t : Top files s P) : s.heap[s.scope]? = some ⟨some 0, .fileStatic, P.statics P.file⟩ := by
  rw [t.scope]; exact t.statics _ t.file

theorem Top.sees (t : Top files s P) : Sees s.heap s.scope P.frames :=
  ⟨_, .cons t.here (by rw [t.scope]; omega) (.top t.globals), fun _ => rfl⟩

theorem Top.say (t : Top files s P) (l : List Event) : Top files { s with log := l } P :=
  ⟨t.globals, t.statics, t.scope, t.file, t.creators, t.native⟩

theorem Top.find (t : Top files s P) (a : Atom) : findSymbol s.heap s.scope a =
    match (P.statics P.file).lookup a with
    | some d => some (d, s.scope)
    | none => (P.globals.lookup a).map fun d => (d, 0) := by
  have hlt := t.sees.lt
  have := t.scope
  obtain ⟨n, hn⟩ : ∃ n, s.heap.length = n + 1 + 1 := ⟨s.heap.length - 2, by omega⟩
  rw [findSymbol, hn, findFrom, t.here]
  simp only [Scope.find]
  cases (P.statics P.file).lookup a with
  | some d => rfl
  | none =>
    simp only [findFrom, t.globals, Scope.find]
    cases P.globals.lookup a <;> rfl

theorem Top.sfa (t : Top files s P) : scopeForAdd s = (s, s.scope) := by
  rw [scopeForAdd, t.creators]

theorem Top.check (t : Top files s P) (a : Atom) (d : Decl) (static : Bool) :
    checkName s a (topClass static) = ({ s with log := s.log ++ (P.declare static d a).2.1 }, (P.declare static d a).2.2) := by
  have k1 := kindOf_eq t.here
  have k2 := kindOf_eq t.globals
  have h0 : (0 : Nat) ≠ s.scope := by rw [t.scope]; omega
  unfold checkName newNameStatus
  simp only [t.native, Bool.false_eq_true, if_false, t.find a]
  unfold Plugin.declare
  cases h1 : (P.statics P.file).lookup a with
  | some d1 => simp [t.sfa, k1, Sema.say, t.native]
  | none =>
    cases h2 : P.globals.lookup a with
    | none => simp [← t.native]
    | some d2 =>
      cases static <;> simp [t.sfa, k1, k2, isTop, topClass, Sema.say, t.native]

theorem Top.define (t : Top files s P) (a : Atom) (d : Decl) (static : Bool) :
    ∃ h, Names.define s d a (topClass static) = { s with heap := h } ∧ ∀ l, Top files { s with heap := h, log := l } (P.add static d a) := by
  have k1 := kindOf_eq t.here
  have hlt := t.sees.lt
  have hsc := t.scope
  unfold Names.define
  rw [t.sfa]
  cases static with
  | true =>
    refine ⟨s.heap.set s.scope ⟨some 0, .fileStatic, (a, d) :: P.statics P.file⟩, ?_, fun l => ⟨?_, ?_, t.scope, t.file, t.creators, t.native⟩⟩
    · simp only [topClass, if_true, ne_eq, not_true, and_false, if_false, updScope, t.here, isTop, Scope.addChain]
      rfl
    · show (s.heap.set _ _)[0]? = _
      rw [List.getElem?_set_ne (by omega)]; exact t.globals
    · intro n hn
      show (s.heap.set _ _)[n + 1]? = some ⟨some 0, .fileStatic, if n = P.file then (a, d) :: P.statics n else P.statics n⟩
      by_cases e : n = P.file
      · rw [if_pos e, e, ← hsc, List.getElem?_set_self hlt]
      · rw [if_neg e, List.getElem?_set_ne (by omega)]; exact t.statics n hn
  | false =>
    refine ⟨s.heap.set 0 ⟨none, .global, (a, d) :: P.globals⟩, ?_, fun l => ⟨?_, ?_, t.scope, t.file, t.creators, t.native⟩⟩
    · have hi : (if kindOf s.heap s.scope = .fileStatic ∧ topClass false ≠ .static then (s.heap[s.scope]?.bind (·.parent)).getD s.scope else s.scope) = 0 := by
        rw [if_pos ⟨k1, by decide⟩, t.here]; rfl
      simp only [hi, t.globals, updScope, Scope.addChain]
      rfl
    · show (s.heap.set _ _)[0]? = _
      rw [List.getElem?_set_self (by omega)]; rfl
    · intro n hn
      show (s.heap.set _ _)[n + 1]? = _
      rw [List.getElem?_set_ne (by omega)]; exact t.statics n hn

/-- CheckNameRedefinition and, if it succeeds, DefineSymbol. -/
theorem Top.declares (t : Top files s P) (a : Atom) (d : Decl) (static : Bool) :
    ∃ s', (if (checkName s a (topClass static)).2 then Names.define (checkName s a (topClass static)).1 d a (topClass static)
        else (checkName s a (topClass static)).1) = s' ∧
      s'.log = s.log ++ (P.declare static d a).2.1 ∧ Top files s' (P.declare static d a).1 := by
  rw [t.check a d static]
  refine ⟨_, rfl, ?_⟩
  cases ok : (P.declare static d a).2.2 with
  | true =>
    have e : (P.declare static d a).1 = P.add static d a := by
      unfold Plugin.declare at ok ⊢
      split <;> simp_all
      split <;> simp_all
    obtain ⟨h, h1, h2⟩ := (t.say (s.log ++ (P.declare static d a).2.1)).define a d static
    simp only [if_true, h1]
    rw [e]
    exact ⟨trivial, h2 _⟩
  | false =>
    have e : (P.declare static d a).1 = P := by
      unfold Plugin.declare at ok ⊢
      split <;> simp_all
      split <;> simp_all
    simp only [Bool.false_eq_true, if_false]
    rw [e]
    exact ⟨trivial, t.say _⟩

theorem Top.opt (t : Top files s P) (e : Option NExpr) : (bindOpt s e).log = s.log ++ useOpt P.frames e ∧ Top files (bindOpt s e) P := by
  rw [bindOpt_ok e t.sees]
  exact ⟨rfl, t.say _⟩

theorem Top.fields (fields : List (Nat × Atom × Option NExpr)) : ∀ (s : Sema) (P : Plugin), Top files s P →
    (bindFields s .global fields).log = s.log ++ (P.fields fields).2 ∧ Top files (bindFields s .global fields) (P.fields fields).1 := by
  induction fields with
  | nil => intro s P t; exact ⟨(List.append_nil _).symm, t⟩
  | cons x rest ih =>
    intro s P t
    obtain ⟨d, a, e⟩ := x
    obtain ⟨h1, t1⟩ := t.opt e
    obtain ⟨s', h2, h3, t2⟩ := t1.declares a ⟨d, false⟩ false
    obtain ⟨h4, t3⟩ := ih s' _ t2
    have e : bindFields s .global ((d, a, e) :: rest) = bindFields s' .global rest := by
      rw [← h2]; rfl
    rw [e, h4, h3, h1]
    refine ⟨?_, t3⟩
    simp only [Plugin.fields, List.append_assoc]

theorem Plugin.declare_ok {static : Bool} {d : Decl} {a : Atom} (h : (P.declare static d a).2.2 = true) :
    (P.declare static d a).1 = P.add static d a := by
  unfold Plugin.declare at h ⊢
  split <;> simp_all
  split <;> simp_all

theorem lookupIn_add {static : Bool} {d : Decl} {a b : Atom} (h : (b == a) = false) : lookupIn (P.add static d a).frames b = lookupIn P.frames b := by
  unfold Plugin.add
  split <;> simp only [Plugin.frames, lookupIn, List.lookup, h, if_true]

theorem useExpr_add {static : Bool} {d : Decl} {a : Atom} (e : NExpr) (h : e.mentions a = false) :
    useExpr (P.add static d a).frames e = useExpr P.frames e := by
  induction e with
  | sym b => simp only [useExpr, lookupIn_add h]
  | call t u iht ihu =>
    simp only [NExpr.mentions, Bool.or_eq_false_iff] at h
    simp only [useExpr, iht h.1, ihu h.2]
  | lit => rfl
  | pair l r ihl ihr =>
    simp only [NExpr.mentions, Bool.or_eq_false_iff] at h
    simp only [useExpr, ihl h.1, ihr h.2]

theorem useExpr_errors {fs : List Frame} (e : NExpr) (h : ∀ x ∈ (useExpr fs e).1, x.isError = false) : (useExpr fs e).2 = true := by
  induction e with
  | sym a =>
    have := h (.use a (lookupIn fs a)) (by simp [useExpr])
    simp only [useExpr]
    cases e : lookupIn fs a with
    | none => rw [e] at this; cases this
    | some _ => rfl
  | call t u iht ihu =>
    simp only [useExpr] at h ⊢
    cases e : (useExpr fs t).2 with
    | false =>
      rw [e] at h
      have := iht (fun x hx => h x (by simpa using hx))
      rw [e] at this; cases this
    | true =>
      rw [e] at h
      simp only [if_true] at h ⊢
      exact ihu fun x hx => h x (List.mem_append.2 (.inr hx))
  | lit => rfl
  | pair l r ihl ihr =>
    simp only [useExpr] at h ⊢
    rw [ihl fun x hx => h x (List.mem_append.2 (.inl hx)), ihr fun x hx => h x (List.mem_append.2 (.inr hx))]
    rfl

theorem declare_errors {static : Bool} {d : Decl} {a : Atom} (h : ∀ x ∈ (P.declare static d a).2.1, x.isError = false) :
    (P.declare static d a).2.2 = true := by
  unfold Plugin.declare at h ⊢
  cases e1 : (P.statics P.file).lookup a with
  | some _ => rw [e1] at h; have := h (.dup a) (List.mem_singleton.2 rfl); cases this
  | none =>
    cases e2 : P.globals.lookup a with
    | none => rfl
    | some _ =>
      rw [e1, e2] at h
      cases static with
      | true => rfl
      | false => have := h (.dup a) (List.mem_singleton.2 rfl); cases this

/-- The constants of the plugin that have been bound. -/
def Bound (done : List Nat) : TopDecl → Prop
  | .const d _ _ => d ∈ done
  | _ => True

/-- The first pass, for one declaration. -/
theorem Top.enter (t : Top files s P) (done : List Nat) (x : TopDecl) (fair : x.fair files) :
    (enterNames s done x).1.log = s.log ++ (P.top x).2 ∧ Top files (enterNames s done x).1 (P.top x).1 ∧
      (∀ d ∈ done, d ∈ (enterNames s done x).2) ∧ ((∀ e ∈ (P.top x).2, e.isError = false) → Bound (enterNames s done x).2 x) := by
  cases x with
  | file n =>
    exact ⟨(List.append_nil _).symm, ⟨t.globals, t.statics, rfl, fair, t.creators, t.native⟩, fun _ h => h, fun _ => trivial⟩
  | var d a static init =>
    obtain ⟨h1, t1⟩ := t.opt init
    obtain ⟨s', h2, h3, t2⟩ := t1.declares a ⟨d, false⟩ static
    cases init with
    | none =>
      have e : enterNames s done (.var d a static none) = (s', done) := by rw [← h2]; rfl
      rw [e]
      refine ⟨?_, t2, fun _ h => h, fun _ => trivial⟩
      simp only [Plugin.top, h3, h1, List.append_assoc, List.append_nil]
    | some e =>
      have e : enterNames s done (.var d a static (some e)) = (s'.say (.use a ((findSymbol s'.heap s'.scope a).map (·.1))), done) := by rw [← h2]; rfl
      rw [e]
      refine ⟨?_, t2.say _, fun _ h => h, fun _ => trivial⟩
      simp only [Plugin.top, Sema.say, h3, h1, List.append_assoc, (t2.sees.find a).1]
  | const d a e =>
    have fair : e.mentions a = false := fair
    have hc := t.check a ⟨d, false⟩ false
    simp only [enterNames, bindConst, Plugin.top]
    rw [show Kind.global = topClass false from rfl, hc]
    cases ok : (P.declare false ⟨d, false⟩ a).2.2 with
    | false =>
      simp only [Bool.false_eq_true, if_false, List.append_nil]
      obtain ⟨s', h2, h3, t2⟩ := t.declares a ⟨d, false⟩ false
      rw [hc, ok] at h2
      simp only [Bool.false_eq_true, if_false] at h2
      rw [← h2] at t2
      refine ⟨trivial, t2, fun _ h => h, fun h => ?_⟩
      rw [declare_errors h] at ok
      cases ok
    | true =>
      simp only [if_true]
      obtain ⟨s', h2, h3, t2⟩ := t.declares a ⟨d, false⟩ false
      rw [hc, ok] at h2
      simp only [if_true] at h2
      rw [h2, bindExpr_ok e s' t2.sees]
      have e1 : useExpr (P.declare false ⟨d, false⟩ a).1.frames e = useExpr P.frames e := by
        rw [Plugin.declare_ok ok, useExpr_add e fair]
      rw [e1]
      cases hu : (useExpr P.frames e).2 with
      | true =>
        refine ⟨by simp only [h3, List.append_assoc], t2.say _, fun _ h => List.mem_cons_of_mem _ h, fun _ => List.mem_cons_self⟩
      | false =>
        refine ⟨by simp only [h3, List.append_assoc], t2.say _, fun _ h => h, fun h => ?_⟩
        rw [useExpr_errors e fun x hx => h x (List.mem_append.2 (.inr hx))] at hu
        cases hu
  | enum name fields =>
    cases name with
    | none =>
      obtain ⟨h1, t1⟩ := Top.fields fields s P t
      exact ⟨h1, t1, fun _ h => h, fun _ => trivial⟩
    | some x =>
      obtain ⟨d, a⟩ := x
      obtain ⟨s', h2, h3, t2⟩ := t.declares a ⟨d, false⟩ false
      obtain ⟨h4, t3⟩ := Top.fields fields s' _ t2
      have e : enterNames s done (.enum (some (d, a)) fields) = (bindFields s' .global fields, done) := by rw [← h2]; rfl
      rw [e]
      refine ⟨?_, t3, fun _ h => h, fun _ => trivial⟩
      simp only [Plugin.top, h4, h3, List.append_assoc]
  | fn d a static native args body =>
    have hf := (t.sees.find a).1
    simp only [enterNames, Plugin.top]
    cases e : findSymbol s.heap s.scope a with
    | none =>
      rw [e] at hf
      simp only [← hf, Option.map_none]
      obtain ⟨h, h1, h2⟩ := t.define a ⟨d, true⟩ static
      rw [h1]
      exact ⟨(List.append_nil _).symm, h2 _, fun _ h => h, fun _ => trivial⟩
    | some p =>
      obtain ⟨other, i⟩ := p
      rw [e] at hf
      simp only [← hf, Option.map_some]
      exact ⟨rfl, t.say _, fun _ h => h, fun _ => trivial⟩

theorem Top.enterAll (p : List TopDecl) : ∀ (s : Sema) (P : Plugin) (done : List Nat), Top files s P → (∀ x ∈ p, x.fair files) →
    (Names.enterAll s done p).1.log = s.log ++ (P.all p).2 ∧ Top files (Names.enterAll s done p).1 (P.all p).1 ∧
      (∀ d ∈ done, d ∈ (Names.enterAll s done p).2) ∧ ((∀ e ∈ (P.all p).2, e.isError = false) → ∀ x ∈ p, Bound (Names.enterAll s done p).2 x) := by
  induction p with
  | nil => intro s P done t _; exact ⟨(List.append_nil _).symm, t, fun _ h => h, fun _ x hx => nomatch hx⟩
  | cons x p ih =>
    intro s P done t fair
    obtain ⟨h1, t1, h2, h3⟩ := t.enter done x (fair x List.mem_cons_self)
    obtain ⟨g1, t2, g2, g3⟩ := ih _ _ (enterNames s done x).2 t1 (fun y hy => fair y (List.mem_cons_of_mem _ hy))
    have e : Names.enterAll s done (x :: p) = Names.enterAll (enterNames s done x).1 (enterNames s done x).2 p := rfl
    rw [e]
    simp only [Plugin.all]
    refine ⟨by rw [g1, h1, List.append_assoc], t2, fun d hd => g2 d (h2 d hd), fun he y hy => ?_⟩
    rcases List.mem_cons.1 hy with rfl | hy
    · have := h3 fun e he' => he e (List.mem_append.2 (.inl he'))
      cases y <;> first | trivial | exact g2 _ this
    · exact g3 (fun e he' => he e (List.mem_append.2 (.inr he'))) y hy

/-! ## Functions -/

theorem moves_args (args : List (Nat × Atom × Option NExpr)) : ∀ (s : Sema) (f : Frame), Ready s f env prev lo → s.creators = [] →
    Moves s (bindArgs s args) (specArgs s.native f env args).1 env prev lo (specArgs s.native f env args).2 := by
  induction args with
  | nil => intro s f r _; exact ⟨fun _ _ => rfl, (List.append_nil _).symm, rfl, .refl _ _, r⟩
  | cons x rest ih =>
    intro s f r hc
    obtain ⟨d, a, e⟩ := x
    have m := moves_var r (fun _ => hc) d a .argument e
    have hc' : (bindVar s d a .argument e).creators = [] := by
      have := m.block
      rw [hc] at this
      cases e : (bindVar s d a .argument e).creators with
      | nil => rfl
      | cons c cs => rw [e] at this; exact this.elim
    have m' := ih _ _ m.ready hc'
    rw [m.native] at m'
    exact m.trans m'

/-- The block of a function. -/
theorem block_ok {b : NStmt} {lo : Nat} (fair : b.fair = true) (hs : Sees s.heap s.scope env) (hc : s.creators = [])
    (hn : s.native = true → b = .skip) (hlo : s.scope ≤ lo) (hlt : lo < s.heap.length) :
    (∀ j ≤ lo, (bindStmt s (.block b)).heap[j]? = s.heap[j]?) ∧ (bindStmt s (.block b)).log = s.log ++ (specStmt ⟨.local, []⟩ env b).2 := by
  have m : Moves (enter s .local) (bindStmt (enter s .local) b) (specStmt ⟨.local, []⟩ env b).1 env s.scope lo (specStmt ⟨.local, []⟩ env b).2 := by
    cases h : s.native with
    | false => exact good b fair _ _ _ _ _ (enter_ready hs hlo hlt) h (fun h => nomatch h)
    | true =>
      rw [hn h]
      exact ⟨fun _ _ => rfl, (List.append_nil _).symm, rfl, .refl _ _, enter_ready hs hlo hlt⟩
  obtain ⟨_, h2, h3, _, _⟩ := scope_run hs m (Nat.le_refl lo)
  exact ⟨h2, h3⟩

theorem Top.len (t : Top files s P) : files < s.heap.length := by
  cases files with
  | zero => exact absurd t.file (by omega)
  | succ n => exact (List.getElem?_eq_some_iff.1 (t.statics n (by omega))).1

theorem Top.of_heap {s' : Sema} (t : Top files s P) (h : ∀ j ≤ files, s'.heap[j]? = s.heap[j]?) (hs : s'.scope = s.scope) (hc : s'.creators = s.creators)
    (hn : s'.native = s.native) : Top files s' P :=
  ⟨(h 0 (by omega)).trans t.globals, fun n hn => (h _ (by omega)).trans (t.statics n hn), hs.trans t.scope, t.file, hc.trans t.creators, hn.trans t.native⟩

theorem lookupIn_empty {k : Kind} (fs : List Frame) (a : Atom) : lookupIn (⟨k, []⟩ :: fs) a = lookupIn fs a := rfl

theorem Top.fn (t : Top files s P) (native : Bool) (args : List (Nat × Atom × Option NExpr)) (body : NStmt) (fair : body.fair = true)
    (hn : native = true → body = .skip) :
    (bindFn s native args body).log = s.log ++ ((specArgs native ⟨.argument, []⟩ P.frames args).2 ++
        (specStmt ⟨.local, []⟩ ((specArgs native ⟨.argument, []⟩ P.frames args).1 :: P.frames) body).2) ∧
      Top files (bindFn s native args body) P := by
  have hf := t.file
  have hsc := t.scope
  have hlen := t.len
  cases args with
  | nil =>
    have hs : Sees s.heap s.scope (⟨.argument, []⟩ :: P.frames) := by
      obtain ⟨gs, c, l⟩ := t.sees
      exact ⟨gs, c, fun a => (lookupIn_empty _ a).trans (l a)⟩
    obtain ⟨h1, h2⟩ := block_ok (s := { s with creators := [], native := native }) (lo := files) fair hs rfl hn (by show s.scope ≤ files; omega) hlen
    refine ⟨h2, t.of_heap h1 rfl rfl rfl⟩
  | cons x rest =>
    have r : Ready (enterScope { s with creators := [], native := native } .argument) ⟨.argument, []⟩ P.frames s.scope files := by
      refine ⟨by omega, ?_, t.sees.congr fun j hj => List.getElem?_append_left (by have := t.sees.lt; show j < s.heap.length; omega), .inr rfl, .inr ⟨hlen, ?_, fun c cs e => nomatch e⟩⟩
      · show files < (s.heap ++ _).length
        rw [List.length_append]; omega
      · show (s.heap ++ _)[s.heap.length]? = _
        rw [List.getElem?_append_right (Nat.le_refl _), Nat.sub_self]; rfl
    have m := moves_args (x :: rest) _ _ r rfl
    generalize hs2 : bindArgs (enterScope { s with creators := [], native := native } .argument) (x :: rest) = s2 at m
    have e : bindFn s native (x :: rest) body = { bindStmt s2 (.block body) with scope := s.scope, creators := s.creators, native := s.native } := by
      rw [← hs2]; rfl
    have hc : s2.creators = [] := by
      have := m.block
      cases e : s2.creators with
      | nil => rfl
      | cons c cs => rw [e] at this; exact this.elim
    obtain ⟨h1, h2⟩ := block_ok (lo := max files s2.scope) fair m.ready.sees hc (by rw [m.native]; exact hn) (Nat.le_max_right _ _)
      (Nat.max_lt.2 ⟨m.ready.lo_lt, m.ready.sees.lt⟩)
    rw [e]
    refine ⟨?_, t.of_heap (fun j hj => ?_) rfl rfl rfl⟩
    · show (bindStmt s2 (.block body)).log = _
      rw [h2, m.log, List.append_assoc]
      rfl
    · show (bindStmt s2 (.block body)).heap[j]? = _
      rw [h1 j (by omega), m.low j hj]
      exact List.getElem?_append_left (by show j < s.heap.length; omega)

/-- The second pass. -/
theorem Top.bindAll (p : List TopDecl) : ∀ (s : Sema) (P : Plugin) (done : List Nat), Top files s P → (∀ x ∈ p, x.fair files) → (∀ x ∈ p, Bound done x) →
    (Names.bindAll done s p).log = s.log ++ P.bodies p := by
  induction p with
  | nil => intro s P done _ _ _; exact (List.append_nil _).symm
  | cons x p ih =>
    intro s P done t fair bound
    have fair' : ∀ y ∈ p, y.fair files := fun y hy => fair y (List.mem_cons_of_mem _ hy)
    have bound' : ∀ y ∈ p, Bound done y := fun y hy => bound y (List.mem_cons_of_mem _ hy)
    have fx := fair x List.mem_cons_self
    have bx := bound x List.mem_cons_self
    cases x with
    | file n => exact ih _ { P with file := n } done ⟨t.globals, t.statics, rfl, fx, t.creators, t.native⟩ fair' bound'
    | var d a static init => exact ih s P done t fair' bound'
    | const d a e =>
      have : Names.bindAll done s (.const d a e :: p) = Names.bindAll done s p := by
        show Names.bindAll done (if d ∈ done then s else _) p = _
        rw [if_pos (show d ∈ done from bx)]
      rw [this]
      exact ih s P done t fair' bound'
    | enum name fields => exact ih s P done t fair' bound'
    | fn d a static native args body =>
      obtain ⟨h1, t1⟩ := t.fn native args body fx.1 fx.2
      have := ih _ P done t1 fair' bound'
      show (Names.bindAll done (bindFn s native args body) p).log = _
      rw [this, h1]
      simp only [Plugin.bodies, List.append_assoc]

end Verif.Names

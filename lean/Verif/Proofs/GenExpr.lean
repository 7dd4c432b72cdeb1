import Verif.Proofs.GenBase

/-! The code for expressions does what the source says. -/
namespace Verif.Compiled
open Verif.VM Verif.Lang Verif.CodeGen

/-- Outcome of a piece of code: it ends, and memory holds the new variables. -/
abbrev EndsWith (L : Layout) (b : State) (e N : Nat) (s : IState) {α : Type} (P : α → IState → Prop) :
    α → Store → Nat → Nat → IState → Prop := fun a σ' N' q s' =>
  N' = N ∧ q = e ∧ Post L b s.vm σ' s'.vm ∧ P a s'

/-- Outcome of a test. -/
abbrev Branches (L : Layout) (b : State) (j : Bool) (t e : Nat) (N : Nat) (s : IState) : Cell → Store → Nat → Nat → IState → Prop :=
  fun v σ' N' q s' => N' = N - 1 ∧ q = (if decide (v ≠ 0) = j then t else e) ∧ Post L b s.vm σ' s'.vm

section
variable (E : Env) (L : Layout) (lim : Int) (m n : Nat) (b : State)

/-- The code computes the value. -/
def ExprOk (ev : Ev Cell) (c : Code) : Prop := ∀ N p s σ, N ≤ n → Here E c p → Holds L b σ s.vm →
  Runs E L lim m N p s (ev σ) (EndsWith L b (Ends c p) N s fun v s' => s'.pri = v)

/-- The code has the effects. -/
def BareOk (ev : Ev Cell) (c : Code) : Prop := ∀ N p s σ, N ≤ n → Here E c p → Holds L b σ s.vm →
  Runs E L lim m N p s (ev σ) (EndsWith L b (Ends c p) N s fun _ _ => True)

/-- The test branches on the value. -/
def TestOk (ev : Ev Cell) (t : Test) : Prop := ∀ j T N p s σ, N ≤ n → T < E.code.length → Here E (t j T) p → Holds L b σ s.vm →
  Runs E L lim m N p s (ev σ) (Branches L b j T (Ends (t j T) p) N s)

/-- All tests jump to the target. -/
def prefixSeq (isOr : Bool) (X : Nat) : List Test → Code
  | [] => skip
  | t :: rest => t isOr X ⨟ prefixSeq isOr X rest

/-- A sequence of tests, as operands of `||` or `&&`. -/
structure SeqOk (isOr : Bool) (ev : Ev Cell) (ts : List Test) : Prop where
  ne : ts ≠ []
  fixed : ∀ t ∈ ts, ∀ j, Fixed2 (t j)
  pre : ∀ X N p s σ, N ≤ n → X < E.code.length → Here E (prefixSeq isOr X ts) p → Holds L b σ s.vm →
    Runs E L lim m N p s (ev σ) (Branches L b isOr X (Ends (prefixSeq isOr X ts) p) N s)
  last : ∀ j T F N p s σ, N ≤ n → T < E.code.length → Here E (emitSequence isOr j T F ts) p → F = Ends (emitSequence isOr j T F ts) p →
    Holds L b σ s.vm → Runs E L lim m N p s (ev σ) (Branches L b j T F N s)

/-- What the nodes of expressions satisfy. -/
structure NodeOk (ev : Ev Cell) (nd : Node) : Prop where
  const : ∀ v, nd.const = some v → (∀ σ, ev σ = .ok v σ) ∧ nd.expr = constPri v
  expr : ExprOk E L lim m n b ev nd.expr
  bare : ∀ d, BareOk E L lim m n b ev (nd.bare d)
  test : TestOk E L lim m n b ev nd.test
  flat : ∀ isOr, SeqOk E L lim m n b isOr ev (nd.flat isOr)
  fexpr : Fixed nd.expr
  fbare : ∀ d, Fixed (nd.bare d)
  ftest : ∀ j, Fixed2 (nd.test j)

/-- A register holds what is needed to access a place. -/
def InReg (r : Place) (a : Cell) : Prop :=
  match r with
  | .var (.glob x) => 0 < L.size x
  | .var (.loc i) => L.hasSlot i = true
  | .elem x i => i < L.size x ∧ a = BitVec.ofInt 32 (L.gaddr x + 4 * (i : Nat))

/-- What the nodes of l-values satisfy. -/
structure LNodeOk (pl : Ev Place) (ln : LNode) : Prop where
  addr : ∀ N p s σ, N ≤ n → Here E ln.addr p → Holds L b σ s.vm →
    Runs E L lim m N p s (pl σ) (EndsWith L b (Ends ln.addr p) N s fun r s' => InReg L r s'.pri)
  load : ∀ r N p s σ σ0 σ1, pl σ0 = .ok r σ1 → Here E ln.load p → Holds L b σ s.vm → InReg L r s.pri →
    Runs E L lim m N p s (Lang.load r σ) fun v σ' N' q s' => N' = N ∧ q = Ends ln.load p ∧ σ' = σ ∧ s' = { s with pri := v }
  store : ∀ r N p s σ σ0 σ1, pl σ0 = .ok r σ1 → Here E ln.store p → Holds L b σ s.vm → InReg L r s.alt →
    Runs E L lim m N p s (Lang.save r s.pri σ) (EndsWith L b (Ends ln.store p) N s fun _ s' => s'.pri = s.pri ∧ s'.alt = s.alt)
  remat : ∀ r σ0 σ1, pl σ0 = .ok r σ1 → (ln.remat = true ↔ ∃ v, r = .var v)
  faddr : Fixed ln.addr
  fload : Fixed ln.load
  fstore : Fixed ln.store

end

section
variable {E : Env} {L : Layout} {lim : Int} {m n : Nat} {b : State}

/-! ### Plain nodes -/

theorem cmp_notZero (v a : Cell) : cmpCells .notZero v a = decide (v ≠ 0) := by
  show (v != 0) = _
  rw [Bool.eq_iff_iff]; simp only [bne_iff_ne, decide_eq_true_eq]

theorem cmp_zero (v a : Cell) : cmpCells .zero v a = decide (v = 0) := by
  show (v == 0) = _
  rw [Bool.eq_iff_iff]; simp only [beq_iff_eq, decide_eq_true_eq]

theorem ExprOk.testDefault (hF : Fits E L lim b) {ev : Ev Cell} {c : Code} (h : ExprOk E L lim m n b ev c) :
    TestOk E L lim m n b ev (testDefault c) := by
  intro j T N p s σ hN hT hc hH
  unfold CodeGen.testDefault at hc ⊢
  have hb : ∀ x : Ev Cell, (x >>= pure) σ = x σ := by
    intro x
    show Ev.bind x Ev.pure σ = _
    unfold Ev.bind Ev.pure
    cases x σ <;> rfl
  rw [← hb ev]
  refine Runs.bind (h N p s σ hN hc.fst hH) ?_
  rintro v σ' N' q s' _ ⟨rfl, rfl, hP, hv⟩
  rw [ends_then]
  refine Runs.jcmp (M := N' - 1) hF hT hc.snd (Nat.le_refl _) ?_ ?_
  · intro hcmp i
    refine Runs.ok ⟨rfl, (if_pos ?_).symm, hP⟩
    cases j
    · have := hcmp; simp only [Bool.false_eq_true, if_false, cmp_zero, hv, decide_eq_true_eq] at this
      simp [this]
    · have := hcmp; simp only [if_true, cmp_notZero, hv, decide_eq_true_eq] at this
      simpa using this
  · intro hcmp
    refine Runs.ok ⟨rfl, (if_neg ?_).symm, hP⟩
    cases j
    · have := hcmp; simp only [Bool.false_eq_true, if_false, cmp_zero, hv, decide_eq_false_iff_not] at this
      simpa using this
    · have := hcmp; simp only [if_true, cmp_notZero, hv, decide_eq_false_iff_not] at this
      simpa using this

theorem testDefault_fixed {c : Code} (h : Fixed c) (j : Bool) : Fixed2 (testDefault c j) :=
  (Fixed2.const h).then (Fixed2.jcmp _)

/-- One test is a sequence. -/
theorem TestOk.seq {ev : Ev Cell} {t : Test} (h : TestOk E L lim m n b ev t) (hf : ∀ j, Fixed2 (t j)) (isOr : Bool) :
    SeqOk E L lim m n b isOr ev [t] := by
  refine ⟨by simp, by simpa using hf, ?_, ?_⟩
  · intro X N p s σ hN hX hc hH
    have e : prefixSeq isOr X [t] = t isOr X := then_skip _
    rw [e] at hc ⊢
    exact h isOr X N p s σ hN hX hc hH
  · intro j T F N p s σ hN hT hc hF hH
    have e : emitSequence isOr j T F [t] = t j T := rfl
    rw [e] at hc hF
    rw [hF]
    exact h j T N p s σ hN hT hc hH

theorem ExprOk.bare {ev : Ev Cell} {c : Code} (h : ExprOk E L lim m n b ev c) : BareOk E L lim m n b ev c := by
  intro N p s σ hN hc hH
  refine (h N p s σ hN hc hH).mono ?_
  rintro v σ' N' q s' _ ⟨h1, h2, h3, _⟩
  exact ⟨h1, h2, h3, True.intro⟩

theorem constPri_ok {ev : Ev Cell} {v : Cell} (h : ∀ σ, ev σ = .ok v σ) : ExprOk E L lim m n b ev (constPri v) := by
  intro N p s σ hN hc hH
  rw [h σ]
  exact Runs.constPri hc (Runs.ok ⟨rfl, rfl, Post.refl hH, rfl⟩)

/-- Nodes without special treatment. -/
theorem plain_ok (hF : Fits E L lim b) {ev : Ev Cell} {const : Option Cell} {bad : Bool} {c : Code} (hc : ∀ v, const = some v → ∀ σ, ev σ = .ok v σ)
    (he : const = none → ExprOk E L lim m n b ev c) (hf : Fixed c) : NodeOk E L lim m n b ev (plain const bad c) := by
  have e : ExprOk E L lim m n b ev (plain const bad c).expr := by
    cases const with
    | none => exact he rfl
    | some v => exact constPri_ok (hc v rfl)
  have f : Fixed (plain const bad c).expr := by
    cases const with
    | none => exact hf
    | some v => exact Fixed.constPri v
  refine ⟨?_, e, fun _ => e.bare, e.testDefault hF, fun isOr => (e.testDefault hF).seq (testDefault_fixed f) isOr, f, fun _ => f, testDefault_fixed f⟩
  rintro v rfl'
  have hv : const = some v := rfl'
  subst hv
  exact ⟨hc v rfl, rfl⟩

/-- Nodes with their own test. -/
theorem NodeOk.withTest {ev : Ev Cell} {nd : Node} (h : NodeOk E L lim m n b ev nd) {t : Test} (ht : TestOk E L lim m n b ev t)
    (hf : ∀ j, Fixed2 (t j)) : NodeOk E L lim m n b ev { nd with test := t, flat := fun _ => [t] } :=
  ⟨h.const, h.expr, h.bare, ht, fun isOr => ht.seq hf isOr, h.fexpr, h.fbare, hf⟩

/-! ### Binary operators -/

theorem binop_comm {op : BinOp} (h : commutative (some op) = true) (x y : Cell) (σ : Store) : binop op x y σ = binop op y x σ := by
  cases op <;> first | exact absurd h (by decide) | skip
  all_goals simp only [binop]
  · rw [Int.mul_comm]
  · rw [Int.add_comm]
  · rw [BitVec.and_comm]
  · rw [BitVec.xor_comm]
  · rw [BitVec.or_comm]
  · rw [show decide (x = y) = decide (y = x) by rw [Bool.eq_iff_iff]; simp only [decide_eq_true_eq]; exact eq_comm]
  · rw [show decide (x ≠ y) = decide (y ≠ x) by rw [Bool.eq_iff_iff]; simp only [decide_eq_true_eq]; exact ne_comm]

theorem comm_not_exchanged {op : BinOp} (h : commutative (some op) = true) : exchanged op = false := by
  cases op <;> first | rfl | exact absurd h (by decide)

theorem emitBinaryOp_fixed (op : BinOp) : Fixed (emitBinaryOp op) := (Fixed.ins _).emitIf _ |>.then (Fixed.ins _)

theorem inner_fixed (oper : Option BinOp) (lc : Option Cell) (lr : Bool) {nd : Node} (h : Fixed nd.expr) : Fixed (emitBinaryInner oper lc lr nd) := by
  unfold emitBinaryInner
  refine Fixed.then ?_ ?_
  · cases lc with
    | some l => exact h.then (Fixed.constAlt l)
    | none =>
      simp only
      cases nd.const with
      | some r =>
        simp only
        split
        · exact Fixed.constAlt r
        · exact ((Fixed.ins _).emitIf _).then ((Fixed.constPri r).then ((Fixed.ins _).emitIf _))
      | none => exact ((Fixed.ins _).emitIf _).then (h.then ((Fixed.ins _).emitIf _))
  · cases oper with
    | none => exact Fixed.skip
    | some op => exact emitBinaryOp_fixed op

/-- EmitBinaryInner with an operator, continuation style. -/
theorem inner_ok (hF : Fits E L lim b) (hA : Activation E L m b) {ev : Ev Cell} {nd : Node} (h : NodeOk E L lim m n b ev nd) (op : BinOp)
    {lc : Option Cell} {x : Cell} {N p : Nat} {s : IState} {σ : Store} (hN : N ≤ n) (hc : Here E (emitBinaryInner (some op) lc false nd) p)
    (hH : Holds L b σ s.vm) (hl : ∀ l, lc = some l → l = x) (hx : lc = none → s.pri = x) {α : Type} {f : Cell → Cell → Ev α}
    {Q : α → Store → Nat → Nat → IState → Prop}
    (k : ∀ v y σ' s', Post L b s.vm σ' s'.vm → s'.pri = v → (exchanged op = true → s'.alt = y) → binop op x y σ' = .ok v σ' → ev σ = .ok y σ' →
      Runs E L lim m N (Ends (emitBinaryInner (some op) lc false nd) p) s' (f v y σ') Q) :
    Runs E L lim m N p s ((do let y ← ev; let v ← binop op x y; f v y) σ) Q := by
  unfold emitBinaryInner at hc
  -- the operator itself
  have fin : ∀ (y : Cell) (σ' : Store) (q : Nat) (s' : IState), Here E (emitBinaryOp op) q →
      Ends (emitBinaryOp op) q = Ends (emitBinaryInner (some op) lc false nd) p → Post L b s.vm σ' s'.vm →
      ((s'.alt = x ∧ s'.pri = y) ∨ (commutative (some op) = true ∧ s'.alt = y ∧ s'.pri = x)) → ev σ = .ok y σ' →
      Runs E L lim m N q s' ((do let v ← binop op x y; f v y) σ') Q := by
    intro y σ' q s' hq hE hP hreg hy
    rcases hreg with ⟨h1, h2⟩ | ⟨hcm, h1, h2⟩
    · refine Runs.bind (Runs.binop op hq h1 h2 hP.holds.globals) ?_
      rintro v σ2 N2 q2 s2 hb ⟨rfl, rfl, rfl, rfl⟩
      have := k v y σ2 { s' with pri := v, alt := if exchanged op then y else x } hP rfl (fun he => by simp only [he, if_true]) hb hy
      rw [← hE] at this
      exact this
    · have hsw : (do let v ← binop op x y; f v y) σ' = (do let v ← binop op y x; f v y) σ' := by
        show Ev.bind _ _ σ' = Ev.bind _ _ σ'
        unfold Ev.bind
        rw [binop_comm hcm]
      rw [hsw]
      refine Runs.bind (Runs.binop op hq h1 h2 hP.holds.globals) ?_
      rintro v σ2 N2 q2 s2 hb ⟨rfl, rfl, rfl, rfl⟩
      have := k v y σ2 { s' with pri := v, alt := if exchanged op then x else y } hP rfl
        (fun he => by rw [comm_not_exchanged hcm] at he; cases he) (by rw [binop_comm hcm]; exact hb) hy
      rw [← hE] at this
      exact this
  unfold emitBinaryInner at fin
  cases lc with
  | some l =>
    obtain rfl := hl l rfl
    simp only [Option.elim] at hc fin
    rw [ends_then] at fin
    refine Runs.bind (h.expr N p s σ hN hc.fst.fst hH) ?_
    rintro y σ' N' q s' hy ⟨rfl, rfl, hP, hv⟩
    refine Runs.constAlt hc.fst.snd ?_
    rw [ends_then] at fin
    exact fin y σ' _ { s' with alt := l } (by have := hc.snd; rw [ends_then] at this; exact this) rfl hP (Or.inl ⟨rfl, hv⟩) hy
  | none =>
    have hx := hx rfl
    simp only [Option.elim, Option.isSome_some, Bool.true_or, emitIf_true] at hc fin
    cases hr : nd.const with
    | some r =>
      obtain ⟨hev, _⟩ := h.const r hr
      rw [hr] at hc fin
      simp only at hc fin
      have hgoal : ∀ g : Cell → Ev α, (do let y ← ev; g y) σ = g r σ := fun g => Ev.bind_ok (hev σ)
      rw [hgoal]
      split at hc
      · rename_i hcm
        rw [if_pos hcm] at fin
        rw [ends_then] at fin
        exact Runs.constAlt hc.fst (fin r σ _ { s with alt := r } hc.snd rfl (Post.refl hH) (Or.inr ⟨hcm, rfl, hx⟩) (hev σ))
      · rename_i hcm
        rw [if_neg hcm] at fin
        simp only [ends_then] at fin
        refine Runs.push hF hA hc.fst.fst hH (fun hs => ?_)
        refine Runs.constPri hc.fst.snd.fst ?_
        have hH2 := hH.pushed hF hs (s.reg .pri)
        refine Runs.pop hF hA hc.fst.snd.snd hH2 ?_
        have hP := (Post.refl hH2).pop hF hH hs
        refine fin r σ _ _ (by have := hc.snd; simp only [ends_then] at this; exact this) rfl hP.1 (Or.inl ⟨?_, rfl⟩) (hev σ)
        show rd32 _ _ = x
        rw [← hx]
        exact hP.2
    | none =>
      rw [hr] at hc fin
      simp only at hc fin
      simp only [ends_then] at fin
      refine Runs.push hF hA hc.fst.fst hH (fun hs => ?_)
      have hH2 := hH.pushed hF hs (s.reg .pri)
      refine Runs.bind (h.expr N _ _ σ hN hc.fst.snd.fst hH2) ?_
      rintro y σ' N' q s' hy ⟨rfl, rfl, hP, hv⟩
      have hP2 := hP.pop hF hH hs
      refine Runs.pop hF hA hc.fst.snd.snd hP.holds ?_
      refine fin y σ' _ _ (by have := hc.snd; simp only [ends_then] at this; exact this) rfl hP2.1 (Or.inl ⟨?_, hv⟩) hy
      show rd32 _ _ = x
      rw [← hx]
      exact hP2.2

end

end Verif.Compiled

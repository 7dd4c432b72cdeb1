import Verif.Proofs.GenTypedExpr

/-! All compiled statements have certificates. -/
namespace Verif.Compiled
open Verif.VM Verif.Lang Verif.CodeGen Verif.Verifier

variable {C : Ctx} {L : Layout} {X : Labs} {p d : Nat}

/-- The code of a statement has certificates; its end can be reached only if `fl`. -/
structure ST (C : Ctx) (nd : SNode) (fl : Bool) : Prop where
  code : ∀ B K p X, (nd.brk = true → X B 0) → (nd.cont = true → X K 0) → G C X (nd.code B K) p 0 0 (fl = true)
  fixed : FixedF fun x : Nat × Nat => nd.code x.1 x.2

/-- The same for several statements. -/
structure SST (C : Ctx) (nd : SNodes) (fl : Bool) : Prop where
  code : ∀ f B K p X, (nd.brk = true → X B 0) → (nd.cont = true → X K 0) → G C X (nd.code f B K) p 0 0 (fl = true)
  fixed : ∀ f, FixedF fun x : Nat × Nat => nd.code f x.1 x.2

theorem emitBreak_g {f : Bool} : G C X (emitBreak f) p d d True := (G.emitIf fun _ => G.brk).falls fun _ => trivial

theorem ST.emit {nd : SNode} {fl : Bool} (h : ST C nd fl) (f : Bool) {B K p : Nat} {X : Labs} (hB : nd.brk = true → X B 0) (hK : nd.cont = true → X K 0) :
    G C X (emitStmt f nd B K) p 0 0 (fl = true) := (emitBreak_g.then (h.code B K _ X hB hK)).falls And.right

theorem simple_st {bad after : Bool} {c : Code} (h : T C c 0 0) (hf : Fixed c) : ST C (simpleStmt bad after c) true :=
  ⟨fun _ _ p X _ _ => (h X p).falls fun _ => rfl, FixedF.const hf⟩

theorem expr_st {e : Node} (h : NT C e) : ST C (exprStmt e) true := simple_st (h.bare true 0) (h.fbare true)

theorem local_st (hS : Suits C L) {slot : Nat} {init : Option Node} (h : ∀ e, init = some e → NT C e) (hs : L.hasSlot slot = true) : ST C (localVar L slot init) true := by
  refine simple_st ?_ ?_
  · cases init with
    | none => exact fun _ _ => G.zeroS hS hs
    | some e =>
      simp only
      cases e.const with
      | none => exact ((h e rfl).expr 0).then fun _ _ => G.storS hS hs
      | some v => exact fun _ _ => G.storSC hS hs
  · cases init with
    | none => exact Fixed.ins _
    | some e =>
      simp only
      cases e.const with
      | none => exact (h e rfl).fexpr.then (Fixed.ins _)
      | some v => exact Fixed.ins _

theorem block_st {ss : SNodes} {fl : Bool} (h : SST C ss fl) : ST C (blockStmt ss) fl := ⟨h.code true, h.fixed true⟩

theorem ifThen_st {c : Node} {a : SNode} {fl : Bool} (hc : NT C c) (ha : ST C a fl) : ST C (ifThen c a) true := by
  have hf : FixedF fun i : (Nat × Nat) × Nat => c.test false i.2 ⨟ emitStmt false a i.1.1 i.1.2 :=
    ((FixedF.of2 (hc.ftest false)).comp fun i : (Nat × Nat) × Nat => i.2).then ((emit_fixed ha.fixed false).comp fun i : (Nat × Nat) × Nat => i.1)
  refine ⟨fun B K p X hB hK => ?_, FixedF.endLabel (f := fun (x : Nat × Nat) t => c.test false t ⨟ emitStmt false a x.1 x.2) hf⟩
  refine G.falls ?_ (fun _ : True => rfl)
  refine G.exit (ft := True ∧ fl = true) ((hf.comp fun t : Nat => ((B, K), t)).to2) ?_
  exact (hc.test false _ 0 _ p (Or.inr ⟨rfl, rfl, trivial⟩)).then (ha.emit false (fun h => Or.inl (hB h)) (fun h => Or.inl (hK h)))

theorem or_true_iff {a b : Bool} : (a || b) = true ↔ a = true ∨ b = true := by cases a <;> simp

theorem ifElse_st {c : Node} {x y : SNode} {fx fy : Bool} (hc : NT C c) (hx : ST C x fx) (hy : ST C y fy) : ST C (ifElse c x y) (decide (x.flow = .none) || fy) := by
  have hi : FixedF fun i : (Nat × Nat) × Nat × Nat => c.test false i.2.2 ⨟ emitStmt false x i.1.1 i.1.2 ⨟ emitIf (x.flow = .none) (ins (.jump (off i.2.1))) :=
    ((FixedF.of2 (hc.ftest false)).comp fun i : (Nat × Nat) × Nat × Nat => i.2.2).then
      (((emit_fixed hx.fixed false).comp fun i : (Nat × Nat) × Nat × Nat => i.1).then ((FixedF.jump fun i : (Nat × Nat) × Nat × Nat => i.2.1).emitIf _))
  have ho : FixedF fun i : (Nat × Nat) × Nat => (endLabel fun flab1 => c.test false flab1 ⨟ emitStmt false x i.1.1 i.1.2 ⨟ emitIf (x.flow = .none) (ins (.jump (off i.2)))) ⨟
      emitStmt (if x.flow = .none then false else x.after) y i.1.1 i.1.2 :=
    FixedF.then (f := fun i : (Nat × Nat) × Nat => endLabel fun flab1 => c.test false flab1 ⨟ emitStmt false x i.1.1 i.1.2 ⨟ emitIf (x.flow = .none) (ins (.jump (off i.2))))
      (FixedF.endLabel (f := fun (i : (Nat × Nat) × Nat) t => c.test false t ⨟ emitStmt false x i.1.1 i.1.2 ⨟ emitIf (x.flow = .none) (ins (.jump (off i.2))))
        (hi.comp fun i : ((Nat × Nat) × Nat) × Nat => (i.1.1, i.1.2, i.2)))
      ((emit_fixed hy.fixed _).comp fun i : (Nat × Nat) × Nat => i.1)
  refine ⟨fun B K p X hB hK => ?_, FixedF.endLabel (f := fun (i : Nat × Nat) t => (endLabel fun flab1 => c.test false flab1 ⨟ emitStmt false x i.1 i.2 ⨟ emitIf (x.flow = .none) (ins (.jump (off t)))) ⨟
      emitStmt (if x.flow = .none then false else x.after) y i.1 i.2) ho⟩
  have hB1 : x.brk = true → X B 0 := fun h => hB (by show (x.brk || y.brk) = true; rw [h]; rfl)
  have hB2 : y.brk = true → X B 0 := fun h => hB (by show (x.brk || y.brk) = true; rw [h, Bool.or_true])
  have hK1 : x.cont = true → X K 0 := fun h => hK (by show (x.cont || y.cont) = true; rw [h]; rfl)
  have hK2 : y.cont = true → X K 0 := fun h => hK (by show (x.cont || y.cont) = true; rw [h, Bool.or_true])
  refine G.falls (ft := (True ∧ fy = true) ∨ x.flow = .none) ?_ ?_
  · refine G.endLabel ((ho.comp fun t : Nat => ((B, K), t)).to2) (G.then (d' := 0) ?_ (hy.emit _ (fun h => Or.inl (hB2 h)) (fun h => Or.inl (hK2 h))))
    refine G.exit (ft := True ∧ fx = true ∧ (decide (x.flow = .none) = true → False)) ((hi.comp fun t : Nat => ((B, K), _, t)).to2) ?_
    refine (hc.test false _ 0 _ p (Or.inr ⟨rfl, rfl, trivial⟩)).then ((hx.emit false (fun h => Or.inl (Or.inl (hB1 h))) (fun h => Or.inl (Or.inl (hK1 h)))).then ?_)
    exact G.emitIf fun h => G.jump (Or.inl (Or.inr ⟨rfl, rfl, by simpa using h⟩))
  · rintro (⟨_, h⟩ | h)
    · rw [h, Bool.or_true]
    · rw [decide_eq_true h]; rfl

theorem while_st {c : Node} {body : SNode} {fl : Bool} (hc : NT C c) (hb : ST C body fl) : ST C (whileStmt c body) true := by
  have hf : FixedF fun i : Nat × Nat => c.test false i.2 ⨟ emitStmt false body i.2 i.1 ⨟ emitIf (body.flow = .none) (ins (.jump (off i.1))) :=
    ((FixedF.of2 (hc.ftest false)).comp fun i : Nat × Nat => i.2).then
      (((emit_fixed hb.fixed false).comp fun i : Nat × Nat => (i.2, i.1)).then ((FixedF.jump fun i : Nat × Nat => i.1).emitIf _))
  have hf' : FixedF fun top : Nat => endLabel fun exit => c.test false exit ⨟ emitStmt false body exit top ⨟ emitIf (body.flow = .none) (ins (.jump (off top))) :=
    FixedF.endLabel hf
  refine ⟨fun B K p X _ _ => ?_, fun _ _ p q => hf' p q p q⟩
  refine G.falls ?_ (fun _ : True => rfl)
  refine G.topLabel (f := fun top => endLabel fun exit => c.test false exit ⨟ emitStmt false body exit top ⨟ emitIf (body.flow = .none) (ins (.jump (off top)))) ?_
  refine G.exit (ft := True ∧ fl = true ∧ (decide (body.flow = .none) = true → False)) ((hf.comp fun t : Nat => (p, t)).to2) ?_
  refine (hc.test false _ 0 _ p (Or.inr ⟨rfl, rfl, trivial⟩)).then ((hb.emit false (fun _ => Or.inr ⟨rfl, rfl, trivial⟩) (fun _ => Or.inl (Or.inr ⟨rfl, rfl⟩))).then ?_)
  exact G.emitIf fun _ => G.jump (Or.inl (Or.inr ⟨rfl, rfl⟩))

theorem do_st {c : Node} {body : SNode} {fl : Bool} (hc : NT C c) (hb : ST C body fl) : ST C (doStmt body c) (fl || body.cont || body.brk) := by
  have hf : FixedF fun i : Nat × Nat => (endLabel fun next => emitStmt true body i.2 next) ⨟ emitIf (!body.flow.terminal || body.cont) (c.test true i.1) :=
    ((labelled_fixed hb.fixed true).comp fun i : Nat × Nat => i.2).then (((FixedF.of2 (hc.ftest true)).comp fun i : Nat × Nat => i.1).emitIf _)
  have hf' : FixedF fun start : Nat => endLabel fun exit => (endLabel fun next => emitStmt true body exit next) ⨟ emitIf (!body.flow.terminal || body.cont) (c.test true start) :=
    FixedF.endLabel hf
  refine ⟨fun B K p X _ _ => ?_, fun _ _ p q => hf' p q p q⟩
  refine G.falls (ft := ((fl = true ∨ body.cont = true) ∧ ((!body.flow.terminal || body.cont) = true → True)) ∨ body.brk = true) ?_ ?_
  · refine G.topLabel (f := fun start => endLabel fun exit => (endLabel fun next => emitStmt true body exit next) ⨟ emitIf (!body.flow.terminal || body.cont) (c.test true start)) ?_
    refine G.endLabel ((hf.comp fun t : Nat => (p, t)).to2) (G.then (d' := 0) ?_ (G.emitIf fun _ => hc.test true _ 0 _ _ (Or.inl (Or.inr ⟨rfl, rfl⟩))))
    refine G.endLabel (((emit_fixed hb.fixed true).comp fun t : Nat => (_, t)).to2) ?_
    exact hb.emit true (fun h => Or.inl (Or.inr ⟨rfl, rfl, h⟩)) (fun h => Or.inr ⟨rfl, rfl, h⟩)
  · rintro (⟨h | h, _⟩ | h) <;> rw [h] <;> simp

theorem forTest_g {c : Option Node} {exit : Nat} (hc : ∀ e, c = some e → NT C e) (hX : alwaysTaken c = false → X exit 0) : G C X (forTest c exit) p 0 0 True := by
  cases c with
  | none => exact G.skip
  | some e =>
    refine (G.emitIf (x := !alwaysTaken (some e)) fun h => (hc e rfl).test false _ 0 _ _ (hX ?_)).falls fun _ => trivial
    simpa using h

theorem forTest_f {c : Option Node} (hc : ∀ e, c = some e → NT C e) : FixedF (forTest c) := by
  cases c with
  | none => exact FixedF.const Fixed.skip
  | some e => exact (FixedF.of2 ((hc e rfl).ftest false)).emitIf _

/-- Can the end of a `for` loop be reached? -/
def forFalls (init : Bool) (c : Option Node) (body : SNode) (fl : Bool) : Bool :=
  init && (neverTaken c || !alwaysTaken c || body.brk || ((body.flow.terminal && !(body.leak || !body.flow.terminal || !alwaysTaken c)) && (fl || body.cont)))

theorem for_st {init : SNodes} {c step : Option Node} {body : SNode} {fi fl : Bool} (hi : SST C init fi) (hc : ∀ e, c = some e → NT C e)
    (hs : ∀ e, step = some e → NT C e) (hb : ST C body fl) : ST C (forStmt init c step body) (forFalls fi c body fl) := by
  let first := if !alwaysTaken c then false else init.after true
  let more := body.leak || !body.flow.terminal || !alwaysTaken c
  let exits := body.flow.terminal && !more
  -- the two loops
  have f1 : ∀ e : Node, NT C e → FixedF fun i : Nat × Nat => forTest c i.2 ⨟ (endLabel fun next => emitStmt first body i.2 next) ⨟ emitIf more (e.bare false) ⨟
      emitIf (!exits) (ins (.jump (off i.1))) := fun e he =>
    ((forTest_f hc).comp fun i : Nat × Nat => i.2).then (((labelled_fixed hb.fixed first).comp fun i : Nat × Nat => i.2).then
      ((FixedF.const ((he.fbare false).emitIf _)).then ((FixedF.jump fun i : Nat × Nat => i.1).emitIf _)))
  have f2 : FixedF fun i : Nat × Nat => forTest c i.2 ⨟ emitStmt first body i.2 i.1 ⨟ emitIf (!exits) (ins (.jump (off i.1))) :=
    ((forTest_f hc).comp fun i : Nat × Nat => i.2).then (((emit_fixed hb.fixed first).comp fun i : Nat × Nat => (i.2, i.1)).then
      ((FixedF.jump fun i : Nat × Nat => i.1).emitIf _))
  have f1' : ∀ e : Node, NT C e → FixedF fun top : Nat => endLabel fun exit => forTest c exit ⨟ (endLabel fun next => emitStmt first body exit next) ⨟ emitIf more (e.bare false) ⨟
      emitIf (!exits) (ins (.jump (off top))) := fun e he =>
    FixedF.endLabel (f := fun (top exit : Nat) => forTest c exit ⨟ (endLabel fun next => emitStmt first body exit next) ⨟ emitIf more (e.bare false) ⨟ emitIf (!exits) (ins (.jump (off top)))) (f1 e he)
  have f2' : FixedF fun top : Nat => endLabel fun exit => forTest c exit ⨟ emitStmt first body exit top ⨟ emitIf (!exits) (ins (.jump (off top))) :=
    FixedF.endLabel (f := fun (top exit : Nat) => forTest c exit ⨟ emitStmt first body exit top ⨟ emitIf (!exits) (ins (.jump (off top)))) f2
  have hout : ∀ (P : Prop), (P → neverTaken c = true ∨ alwaysTaken c = false ∨ body.brk = true ∨ (exits = true ∧ (fl = true ∨ body.cont = true))) →
      (fi = true ∧ P) → forFalls fi c body fl = true := by
    rintro P hP ⟨h1, h2⟩
    unfold forFalls
    rw [h1, Bool.true_and]
    simp only [or_true_iff, Bool.and_eq_true]
    rcases hP h2 with h | h | h | ⟨h, h'⟩
    · exact Or.inl (Or.inl (Or.inl h))
    · exact Or.inl (Or.inl (Or.inr (by rw [h]; rfl)))
    · exact Or.inl (Or.inr h)
    · refine Or.inr ⟨?_, h'⟩
      simp only [exits, more, Bool.and_eq_true] at h
      exact h
  have hjump : ∀ {q : Nat} {Z : Labs} {t : Nat}, Z t 0 → G C Z (emitIf (!exits) (ins (.jump (off t)))) q 0 0 (exits = true) := fun hZ =>
    (G.emitIf fun _ => G.jump hZ).falls fun h => by
      cases he : exits with
      | true => rfl
      | false => rw [he] at h; exact (h rfl).elim
  by_cases hn : neverTaken c = true
  · have hcode : ∀ B K, (forStmt init c step body).code B K = (init.code true B K ⨟ skip) := fun B K => by
      show (init.code true B K ⨟ if neverTaken c then skip else _) = _
      rw [if_pos hn]
    refine ⟨fun B K p X hB hK => ?_, fun x y p q => ?_⟩
    · rw [hcode]
      exact ((hi.code true B K p X hB hK).then G.skip).falls (hout True fun _ => Or.inl hn)
    · simp only [hcode]
      exact ((hi.fixed true).then (FixedF.const Fixed.skip)) x y p q
  · cases step with
    | some e =>
      have he := hs e rfl
      have hcode : ∀ B K, (forStmt init c (some e) body).code B K = (init.code true B K ⨟ topLabel fun top => endLabel fun exit => forTest c exit ⨟
          (endLabel fun next => emitStmt first body exit next) ⨟ emitIf more (e.bare false) ⨟ emitIf (!exits) (ins (.jump (off top)))) := fun B K => by
        show (init.code true B K ⨟ if neverTaken c then skip else _) = _
        rw [if_neg hn]; rfl
      refine ⟨fun B K p X hB hK => ?_, fun x y p q => ?_⟩
      · rw [hcode]
        refine ((hi.code true B K p X hB hK).then ?_).falls
          (hout ((True ∧ (fl = true ∨ body.cont = true) ∧ (more = true → True) ∧ exits = true) ∨ (alwaysTaken c = false ∨ body.brk = true)) ?_)
        · refine G.topLabel (f := fun top => endLabel fun exit => forTest c exit ⨟ (endLabel fun next => emitStmt first body exit next) ⨟ emitIf more (e.bare false) ⨟
            emitIf (!exits) (ins (.jump (off top)))) ?_
          refine G.endLabel (((f1 e he).comp fun t : Nat => (_, t)).to2) ?_
          refine (forTest_g hc fun h => Or.inr ⟨rfl, rfl, Or.inl h⟩).then (G.then (d' := 0) ?_ ((G.emitIf fun _ => he.bare false 0 _ _).then (hjump (Or.inl (Or.inr ⟨rfl, rfl⟩)))))
          refine G.endLabel (((emit_fixed hb.fixed first).comp fun t : Nat => (_, t)).to2) ?_
          exact hb.emit first (fun h => Or.inl (Or.inr ⟨rfl, rfl, Or.inr h⟩)) (fun h => Or.inr ⟨rfl, rfl, h⟩)
        · rintro (⟨_, h, _, h'⟩ | h | h)
          · exact Or.inr (Or.inr (Or.inr ⟨h', h⟩))
          · exact Or.inr (Or.inl h)
          · exact Or.inr (Or.inr (Or.inl h))
      · simp only [hcode]
        exact ((hi.fixed true).then (FixedF.const fun p q => f1' e he p q p q)) x y p q
    | none =>
      have hcode : ∀ B K, (forStmt init c none body).code B K = (init.code true B K ⨟ topLabel fun next => endLabel fun exit => forTest c exit ⨟
          emitStmt first body exit next ⨟ emitIf (!exits) (ins (.jump (off next)))) := fun B K => by
        show (init.code true B K ⨟ if neverTaken c then skip else _) = _
        rw [if_neg hn]; rfl
      refine ⟨fun B K p X hB hK => ?_, fun x y p q => ?_⟩
      · rw [hcode]
        refine ((hi.code true B K p X hB hK).then ?_).falls
          (hout ((True ∧ fl = true ∧ exits = true) ∨ (alwaysTaken c = false ∨ body.brk = true)) ?_)
        · refine G.topLabel (f := fun next => endLabel fun exit => forTest c exit ⨟ emitStmt first body exit next ⨟ emitIf (!exits) (ins (.jump (off next)))) ?_
          refine G.endLabel ((f2.comp fun t : Nat => (_, t)).to2) ?_
          refine (forTest_g hc fun h => Or.inr ⟨rfl, rfl, Or.inl h⟩).then (G.then (d' := 0) ?_ (hjump (Or.inl (Or.inr ⟨rfl, rfl⟩))))
          exact hb.emit first (fun h => Or.inr ⟨rfl, rfl, Or.inr h⟩) (fun h => Or.inl (Or.inr ⟨rfl, rfl⟩))
        · rintro (⟨_, h, h'⟩ | h | h)
          · exact Or.inr (Or.inr (Or.inr ⟨h', Or.inl h⟩))
          · exact Or.inr (Or.inl h)
          · exact Or.inr (Or.inr (Or.inl h))
      · simp only [hcode]
        exact ((hi.fixed true).then (FixedF.const fun p q => f2' p q p q)) x y p q

theorem break_st : ST C breakStmt false :=
  ⟨fun _ _ _ _ hB _ => (G.jump (hB rfl)).falls False.elim, FixedF.jump fun i : Nat × Nat => i.1⟩

theorem continue_st : ST C continueStmt false :=
  ⟨fun _ _ _ _ _ hK => (G.jump (hK rfl)).falls False.elim, FixedF.jump fun i : Nat × Nat => i.2⟩

theorem return_st {e : Option Node} (h : ∀ x, e = some x → NT C x) : ST C (returnStmt e) false := by
  cases e with
  | none => exact ⟨fun _ _ _ _ _ _ => (G.constPri.then G.retn).falls fun h => h.2.elim, FixedF.const ((Fixed.constPri _).then (Fixed.ins _))⟩
  | some x => exact ⟨fun _ _ _ X _ _ => (((h x rfl).expr 0 X _).then G.retn).falls fun h => h.2.elim, FixedF.const ((h x rfl).fexpr.then (Fixed.ins _))⟩

/-! ### Switches -/

/-- The code of cases has certificates; it is entered at its beginning and at every case. -/
structure CST (C : Ctx) (cs : CNode) (fl : Bool) : Prop where
  code : ∀ f E B K p X, (cs.brk = true → X B 0) → (cs.cont = true → X K 0) → (fl = true → X E 0) → At C.code p (cs.code f E B K p) → Out X p (Ends (cs.code f E B K) p) →
    Fr C p (Ends (cs.code f E B K) p) 0 0 X (fl = true) (fun j => j = p ∨ (∃ k, (k, j) ∈ cs.table f p) ∨ cs.dflt f p = some j)
  dflt : ∀ f p, cs.dflt f p = none → fl = true
  fixed : ∀ f, FixedF fun i : Nat × Nat × Nat => cs.code f i.1 i.2.1 i.2.2
  keys : ∀ f p, (cs.table f p).map Prod.fst = cs.keys

theorem emitCase_g {x : SNode} {fl : Bool} (hx : ST C x fl) {f : Bool} {E B K : Nat} (hB : x.brk = true → X B 0) (hK : x.cont = true → X K 0) (hE : x.flow = .none → X E 0) :
    G C X (emitCase f x E B K) p 0 0 (fl = true ∧ x.flow ≠ .none) :=
  ((hx.emit f hB hK).then (G.emitIf fun h => G.jump (hE (by simpa using h)))).falls fun h => ⟨h.1, fun h' => h.2 (decide_eq_true h')⟩

theorem cnil_st : CST C { bad := false, flow := .none, brk := false, cont := false, leak := false, ret := false, keys := [],
                          code := fun _ _ _ _ => skip, table := fun _ _ => [], dflt := fun _ _ => none } true := by
  refine ⟨?_, fun _ _ _ => rfl, fun _ => FixedF.const Fixed.skip, fun _ _ => rfl⟩
  intro f E B K p X _ _ _ hat ho
  refine (G.skip hat ho).mono (fun _ _ => id) (fun _ => rfl) ?_
  rintro j (h | ⟨_, h⟩ | h)
  · exact h
  · cases h
  · cases h

theorem dflt_st {x : SNode} {fl : Bool} (hx : ST C x fl) {bad ret : Bool} : CST C
    { bad, flow := x.flow, brk := x.brk, cont := x.cont, leak := x.leak, ret, keys := []
      code := fun after exit b c => emitCase after x exit b c, table := fun _ _ => [], dflt := fun _ p => some p } (decide (x.flow = .none) || fl) := by
  refine ⟨?_, fun _ _ h => (by cases h), fun f => emitCase_fixed hx.fixed f, fun _ _ => rfl⟩
  intro f E B K p X hB hK hE hat ho
  refine (emitCase_g hx hB hK (fun h => hE (by rw [decide_eq_true h]; rfl)) hat ho).mono (fun _ _ => id) (fun h => (by rw [h.1, Bool.or_true])) ?_
  rintro j (h | ⟨_, h⟩ | h)
  · exact h
  · cases h
  · cases h; rfl

theorem case_st {x : SNode} {r : CNode} {fl fr : Bool} {labels : List Cell} (hx : ST C x fl) (hr : CST C r fr) {bad ret : Bool} : CST C
    { bad, flow := x.flow.join r.flow, brk := x.brk || r.brk, cont := x.cont || r.cont, leak := x.leak || r.leak, ret
      keys := labels ++ r.keys
      code := fun after exit b c => emitCase after x exit b c ⨟ r.code (if x.flow = .none then false else x.after) exit b c
      table := fun after p => labels.map (·, p) ++ r.table (if x.flow = .none then false else x.after) (p + (emitCase after x 0 0 0 p).length)
      dflt := fun after p => r.dflt (if x.flow = .none then false else x.after) (p + (emitCase after x 0 0 0 p).length) } (decide (x.flow = .none) || fr) := by
  have hlen : ∀ f X B C p, p + (emitCase f x 0 0 0 p).length = Ends (emitCase f x X B C) p := by
    intro f X B C p
    unfold Ends
    rw [emitCase_fixed hx.fixed f (0, 0, 0) (X, B, C) p p]
  refine ⟨?_, ?_, ?_, ?_⟩
  · intro f E B K p X hB hK hE hat ho
    have f1 := emitCase_g hx (f := f) (E := E) (p := p) (fun h => hB (by simp only [h, Bool.true_or])) (fun h => hK (by simp only [h, Bool.true_or]))
      (fun h => hE (by rw [decide_eq_true h]; rfl)) (At.left hat) ho.left
    have f2 := hr.code _ E B K _ X (fun h => hB (by simp only [h, Bool.or_true])) (fun h => hK (by simp only [h, Bool.or_true]))
      (fun h => hE (by rw [h, Bool.or_true])) (At.right hat) ho.right
    have ho' := ho
    simp only [ends_then] at ho' ⊢
    refine (f1.alt f2 ho' (Or.inl rfl)).mono (fun _ _ => id) (fun h => by rw [h, Bool.or_true]) ?_
    intro j hj
    rw [hlen f E B K p] at hj
    rcases hj with h | ⟨k, h⟩ | h
    · exact Or.inl h
    · rcases List.mem_append.1 h with h | h
      · obtain ⟨_, _, h⟩ := List.mem_map.1 h
        cases h
        exact Or.inl rfl
      · exact Or.inr (Or.inr (Or.inl ⟨k, h⟩))
    · exact Or.inr (Or.inr (Or.inr h))
  · intro f p h
    rw [hr.dflt _ _ h, Bool.or_true]
  · exact fun f => (emitCase_fixed hx.fixed f).then (hr.fixed _)
  · intro f p
    simp only
    rw [List.map_append, hr.keys, List.map_map]
    congr 1
    exact List.map_id' labels

theorem casetbl_tbl {dflt q : Nat} {l : List (Cell × Nat)} (h : At C.code q (casetbl dflt l q)) : Tbl C.code q dflt (l.map Prod.snd) := by
  have hlen := casetbl_length dflt l q
  have hl := h.2
  rw [hlen] at hl
  have h0 := h.1 0 (by omega)
  have h1 := h.1 1 (by omega)
  have h2 := h.1 2 (by omega)
  refine ⟨h0, by rw [List.length_map]; exact h1, h2, ?_, by rw [List.length_map]; omega⟩
  intro k hk
  have hk' : k < l.length := by simpa using hk
  have e2 := h.1 (4 + 2 * k) (by omega)
  have f2 : (casetbl dflt l q)[4 + 2 * k]? = (l.flatMap fun e => [e.1, BitVec.ofInt 32 (off e.2)])[2 * k + 1]? := by
    rw [show 4 + 2 * k = 2 * k + 1 + 1 + 1 + 1 by omega]; rfl
  rw [f2, (flatMap_get l k hk').2, ← Nat.add_assoc] at e2
  rw [e2, List.getElem_map]
  rfl

theorem switch_st {e : Node} {cs : CNode} {fl : Bool} (he : NT C e) (hcs : CST C cs fl) (hn : cs.keys.Nodup) : ST C (switchStmt e cs) fl := by
  have hk : ∀ p, (caseMap (cs.table false p)).length = cs.keys.length := by
    intro p
    rw [(caseMap_perm (by rw [hcs.keys]; exact hn)).length_eq, ← hcs.keys false p, List.length_map]
  have hsw : FixedF fun i : Nat × Nat × Nat => endLabel fun tbl => ins (.switch (off tbl)) ⨟ cs.code false i.1 i.2.1 i.2.2 := by
    have h : FixedF fun i : (Nat × Nat × Nat) × Nat => ins (.switch (off i.2)) ⨟ cs.code false i.1.1 i.1.2.1 i.1.2.2 :=
      FixedF.then (fun _ _ _ _ => rfl) ((hcs.fixed false).comp fun i : (Nat × Nat × Nat) × Nat => i.1)
    exact FixedF.endLabel h
  have hsc : FixedF fun i : Nat × Nat × Nat => switchCode cs i.1 i.2.1 i.2.2 := by
    intro i j p q
    show ((endLabel fun tbl => ins (.switch (off tbl)) ⨟ cs.code false i.1 i.2.1 i.2.2) p ++ casetbl _ _ _).length =
      ((endLabel fun tbl => ins (.switch (off tbl)) ⨟ cs.code false j.1 j.2.1 j.2.2) q ++ casetbl _ _ _).length
    rw [List.length_append, List.length_append, hsw i j p q, casetbl_length, casetbl_length, hk, hk]
  have hf : FixedF fun i : (Nat × Nat) × Nat => e.expr ⨟ switchCode cs i.2 i.1.1 i.1.2 :=
    (FixedF.const he.fexpr).then (hsc.comp fun i : (Nat × Nat) × Nat => (i.2, i.1.1, i.1.2))
  have hf' : FixedF fun i : Nat × Nat => endLabel fun exit => e.expr ⨟ switchCode cs exit i.1 i.2 := FixedF.endLabel hf
  refine ⟨fun B K p X hB hK => ?_, hf'⟩
  show G C X (endLabel fun exit => e.expr ⨟ switchCode cs exit B K) p 0 0 _
  intro hat ho
  have g := (hf.comp fun t : Nat => ((B, K), t)).to2
  rw [endLabel_eq g] at hat
  have hends := endLabel_ends g p
  generalize Ends (endLabel fun exit => e.expr ⨟ switchCode cs exit B K) p = x at *
  simp only at hat hends
  have ho1 : Out X p (Ends (e.expr ⨟ switchCode cs x B K) p) := by rw [hends]; exact ho
  have f1 := he.expr 0 X p (At.left hat) ho1.left
  have hat2 : At C.code (Ends e.expr p) (switchCode cs x B K (Ends e.expr p)) := At.right hat
  have ho2 := ho1.right
  rw [ends_then] at hends
  rw [hends] at ho2
  generalize Ends e.expr p = q at *
  have hk2 : Fixed2 fun tbl => ins (.switch (off tbl)) ⨟ cs.code false x B K := by
    have h : FixedF fun tbl : Nat => ins (.switch (off tbl)) ⨟ cs.code false x B K :=
      FixedF.then (fun _ _ _ _ => rfl) (FixedF.const ((hcs.fixed false).code (x, B, K)))
    exact h.to2
  have hat3 : At C.code q ((endLabel fun tbl => ins (.switch (off tbl)) ⨟ cs.code false x B K) q) := At.left hat2
  have hat4 : At C.code (Ends (endLabel fun tbl => ins (.switch (off tbl)) ⨟ cs.code false x B K) q)
      (casetbl ((cs.dflt false (q + 2)).getD x) (caseMap (cs.table false (q + 2))) (Ends (endLabel fun tbl => ins (.switch (off tbl)) ⨟ cs.code false x B K) q)) := At.right hat2
  have hends2 : Ends (endLabel fun tbl => ins (.switch (off tbl)) ⨟ cs.code false x B K) q + (3 + 2 * (caseMap (cs.table false (q + 2))).length) = x := by
    refine Eq.trans ?_ hends
    show _ = q + ((endLabel fun tbl => ins (.switch (off tbl)) ⨟ cs.code false x B K) q ++ casetbl _ _ _).length
    rw [List.length_append, casetbl_length, ← Nat.add_assoc q]
  rw [endLabel_eq hk2] at hat3
  have hends3 := endLabel_ends hk2 q
  generalize Ends (endLabel fun tbl => ins (.switch (off tbl)) ⨟ cs.code false x B K) q = tbl at *
  have hat5 : At C.code (q + 2) (cs.code false x B K (q + 2)) := At.right hat3
  have hat6 : At C.code q [129, ofs tbl] := At.left hat3
  have hends4 : Ends (cs.code false x B K) (q + 2) = tbl := (ends_then (a := ins (.switch (off tbl))) (b := cs.code false x B K) (p := q)).symm.trans hends3
  have hT := casetbl_tbl hat4
  have hx : tbl + 3 + 2 * ((caseMap (cs.table false (q + 2))).map Prod.snd).length = x := by rw [List.length_map]; omega
  have hq : q + 2 ≤ tbl := by rw [← hends4]; unfold Ends; omega
  have f2 := hcs.code false x B K (q + 2) (fun j y => X j y ∨ (j = x ∧ y = 0 ∧ fl = true)) (fun h => Or.inl (hB h)) (fun h => Or.inl (hK h))
    (fun h => Or.inr ⟨rfl, rfl, h⟩) hat5 (by
      rw [hends4]
      rintro j y (h | ⟨h, _⟩)
      · have := ho2 j y h; omega
      · omega)
  rw [hends4] at f2
  have f3 := Fr.switch (X := X) (u := fl = true) (At.head hat6) (by simpa using hat6.1 1 (by simp)) hT (by rw [hx]; exact f2) (by rw [hx]; exact ho2) (by
    intro t ht
    rw [hx]
    rcases List.mem_cons.1 ht with h | h
    · cases hd : cs.dflt false (q + 2) with
      | none =>
        rw [hd] at h
        exact Or.inr ⟨h, hcs.dflt _ _ hd⟩
      | some t' =>
        rw [hd] at h
        exact Or.inl (Or.inr (Or.inr (by rw [h]; rfl)))
    · obtain ⟨⟨k, t'⟩, hm, h⟩ := List.mem_map.1 h
      simp only at h
      subst h
      exact Or.inl (Or.inr (Or.inl ⟨k, (caseMap_perm (by rw [hcs.keys]; exact hn)).mem_iff.1 hm⟩)))
  rw [hx] at f3
  exact (f1.seq f3 ho rfl).falls fun h => h.2.elim id id

/-! ### All statements -/

mutual
/-- Can the end of a statement's code be reached, as far as its jumps tell? -/
def falls (L : Layout) : Stmt → Bool
  | .expr _ => true
  | .decl _ _ => true
  | .block ss => fallsAll L ss
  | .ifThen _ _ => true
  | .ifElse _ a b => decide ((genS L a).flow = .none) || falls L b
  | .while _ _ => true
  | .doWhile body _ => falls L body || (genS L body).cont || (genS L body).brk
  | .for init c _ body => forFalls (fallsAll L init) (c.map (gen L)) (genS L body) (falls L body)
  | .switch _ cases => fallsCases L cases
  | .brk => false
  | .cont => false
  | .ret _ => false
  | .assert _ => true
  | .exit _ => true

@[inherit_doc falls] def fallsAll (L : Layout) : Stmts → Bool
  | .nil => true
  | .cons s rest => falls L s && fallsAll L rest

@[inherit_doc falls] def fallsCases (L : Layout) : Cases → Bool
  | .nil => true
  | .dflt s => decide ((genS L s).flow = .none) || falls L s
  | .case _ s rest => decide ((genS L s).flow = .none) || fallsCases L rest
end

theorem mem_l {a b : List Nat} {P : Nat → Prop} (h : ∀ g ∈ a ++ b, P g) : ∀ g ∈ a, P g := fun g hg => h g (List.mem_append.2 (Or.inl hg))
theorem mem_r {a b : List Nat} {P : Nat → Prop} (h : ∀ g ∈ a ++ b, P g) : ∀ g ∈ b, P g := fun g hg => h g (List.mem_append.2 (Or.inr hg))

theorem opt_nt (hS : Suits C L) {o : Option Expr} (hb : (o.map (gen L)).elim false (·.bad) = false) (hg : ∀ g ∈ callsO o, C.code[L.entry g]? = some 46) :
    ∀ e, o.map (gen L) = some e → NT C e := by
  cases o with
  | none => intro e h; cases h
  | some x => intro e h; cases h; exact gen_nt hS x hb hg

theorem snil_st : SST C { bad := false, flow := .none, brk := false, cont := false, leak := false, ret := false, after := id, code := fun _ _ _ => skip } true :=
  ⟨fun _ _ _ _ _ _ _ => G.skip.falls fun _ => rfl, fun _ => FixedF.const Fixed.skip⟩

theorem scons_st {x : SNode} {r : SNodes} {fx fr : Bool} (hx : ST C x fx) (hr : SST C r fr) {bad leak ret : Bool} {flow : Flow} {after : Bool → Bool} :
    SST C { bad, flow, brk := x.brk || r.brk, cont := x.cont || r.cont, leak, ret, after, code := fun after b c => emitStmt after x b c ⨟ r.code x.after b c } (fx && fr) := by
  refine ⟨fun f B K p X hB hK => ?_, fun f => (emit_fixed hx.fixed f).then (hr.fixed _)⟩
  refine ((hx.emit f (fun h => hB (by simp only [h, Bool.true_or])) (fun h => hK (by simp only [h, Bool.true_or]))).then
    (hr.code _ B K _ X (fun h => hB (by simp only [h, Bool.or_true])) (fun h => hK (by simp only [h, Bool.or_true])))).falls ?_
  rintro ⟨h1, h2⟩
  rw [h1, h2]; rfl

mutual
theorem genS_st (hS : Suits C L) : ∀ s : Stmt, (genS L s).bad = false → haltFree s = true → (∀ g ∈ callsS s, C.code[L.entry g]? = some 46) → ST C (genS L s) (falls L s)
  | .expr e, hb, _, hg => expr_st (gen_nt hS e hb hg)
  | .decl slot init, hb, _, hg => by
    simp only [genS] at hb ⊢
    obtain ⟨h1, h2⟩ := or_false_iff.1 (show ((init.map (gen L)).elim false (·.bad) || !L.hasSlot slot) = false from hb)
    exact local_st hS (opt_nt hS h1 hg) (by simpa using h2)
  | .block ss, hb, hh, hg => by
    simp only [genS, falls] at hb ⊢
    exact block_st (genSs_st hS ss hb hh hg)
  | .ifThen c a, hb, hh, hg => by
    simp only [genS] at hb ⊢
    obtain ⟨h1, h2⟩ := or_false_iff.1 hb
    exact ifThen_st (gen_nt hS c h1 (mem_l hg)) (genS_st hS a h2 hh (mem_r hg))
  | .ifElse c a b, hb, hh, hg => by
    simp only [genS, falls, haltFree, callsS] at hb hh hg ⊢
    obtain ⟨h1, h3⟩ := or_false_iff.1 hb
    obtain ⟨h1, h2⟩ := or_false_iff.1 h1
    rw [Bool.and_eq_true] at hh
    exact ifElse_st (gen_nt hS c h1 (mem_l (mem_l hg))) (genS_st hS a h2 hh.1 (mem_r (mem_l hg))) (genS_st hS b h3 hh.2 (mem_r hg))
  | .while c body, hb, hh, hg => by
    simp only [genS] at hb ⊢
    obtain ⟨h1, h2⟩ := or_false_iff.1 hb
    exact while_st (gen_nt hS c h1 (mem_l hg)) (genS_st hS body h2 hh (mem_r hg))
  | .doWhile body c, hb, hh, hg => by
    simp only [genS, falls] at hb ⊢
    obtain ⟨h1, h2⟩ := or_false_iff.1 hb
    exact do_st (gen_nt hS c h1 (mem_r hg)) (genS_st hS body h2 hh (mem_l hg))
  | .for init c step body, hb, hh, hg => by
    simp only [genS, falls, haltFree, callsS] at hb hh hg ⊢
    obtain ⟨h1, h4⟩ := or_false_iff.1 hb
    obtain ⟨h1, h3⟩ := or_false_iff.1 h1
    obtain ⟨h1, h2⟩ := or_false_iff.1 h1
    rw [Bool.and_eq_true] at hh
    exact for_st (genSs_st hS init h1 hh.1 (mem_l (mem_l (mem_l hg)))) (opt_nt hS h2 (mem_r (mem_l (mem_l hg)))) (opt_nt hS h3 (mem_r (mem_l hg)))
      (genS_st hS body h4 hh.2 (mem_r hg))
  | .switch e cases, hb, hh, hg => by
    simp only [genS, falls] at hb ⊢
    obtain ⟨h1, h3⟩ := or_false_iff.1 hb
    obtain ⟨h1, h2⟩ := or_false_iff.1 h1
    exact switch_st (gen_nt hS e h1 (mem_l hg)) (genCs_st hS cases h2 hh (mem_r hg)) (by simpa using h3)
  | .brk, _, _, _ => break_st
  | .cont, _, _, _ => continue_st
  | .ret e, hb, _, hg => by
    simp only [genS] at hb ⊢
    exact return_st (opt_nt hS hb hg)
  | .assert _, _, hh, _ => by cases hh
  | .exit _, _, hh, _ => by cases hh

theorem genSs_st (hS : Suits C L) : ∀ s : Stmts, (genSs L s).bad = false → haltFreeAll s = true → (∀ g ∈ callsSs s, C.code[L.entry g]? = some 46) → SST C (genSs L s) (fallsAll L s)
  | .nil, _, _, _ => by
    simp only [genSs]
    exact snil_st
  | .cons s rest, hb, hh, hg => by
    simp only [genSs, fallsAll, haltFreeAll, callsSs] at hb hh hg ⊢
    obtain ⟨h1, h2⟩ := or_false_iff.1 hb
    rw [Bool.and_eq_true] at hh
    exact scons_st (genS_st hS s h1 hh.1 (mem_l hg)) (genSs_st hS rest h2 hh.2 (mem_r hg))

theorem genCs_st (hS : Suits C L) : ∀ s : Cases, (genCs L s).bad = false → haltFreeCases s = true → (∀ g ∈ callsCs s, C.code[L.entry g]? = some 46) → CST C (genCs L s) (fallsCases L s)
  | .nil, _, _, _ => by
    simp only [genCs]
    exact cnil_st
  | .dflt s, hb, hh, hg => by
    simp only [genCs, fallsCases] at hb ⊢
    exact dflt_st (genS_st hS s hb hh hg)
  | .case labels s rest, hb, hh, hg => by
    simp only [genCs, fallsCases, haltFreeCases, callsCs] at hb hh hg ⊢
    obtain ⟨h1, h2⟩ := or_false_iff.1 hb
    rw [Bool.and_eq_true] at hh
    exact case_st (genS_st hS s h1 hh.1 (mem_l hg)) (genCs_st hS rest h2 hh.2 (mem_r hg))
end

/-! ### A statement known to return does not reach its end -/

theorem seq_eq {a b f : Flow} (_ : f ≠ .none) (h : a.seq b = f) : a = f ∨ (a = .none ∧ b = f) := by
  unfold Flow.seq at h
  split at h
  · exact Or.inr ⟨‹_›, h⟩
  · exact Or.inl h

theorem join_eq {a b f : Flow} (hf : f ≠ .none) (h : a.join b = f) : a = f ∧ b = f := by
  unfold Flow.join at h
  split at h
  · rename_i he; subst he; exact ⟨h, h⟩
  · exact (hf h.symm).elim

theorem loopFlow_cases (t : Bool) (x : SNode) : loopFlow t x = .none ∨ (loopFlow t x = .ret ∧ t = true ∧ x.brk = false) := by
  unfold loopFlow
  split
  · rename_i h
    simp only [Bool.and_eq_true, Bool.not_eq_true'] at h
    exact Or.inr ⟨rfl, h.1.1, h.1.2⟩
  · exact Or.inl rfl

mutual
theorem genS_brk : ∀ s : Stmt, (genS L s).flow = .brk → (genS L s).brk = true
  | .expr _, h => by cases h
  | .decl _ _, h => by cases h
  | .block ss, h => by
    simp only [genS] at h ⊢
    exact genSs_brk ss h
  | .ifThen _ _, h => by simp only [genS] at h; cases h
  | .ifElse _ a b, h => by
    simp only [genS, ifElse] at h ⊢
    rw [genS_brk a (join_eq (by decide) h).1]; rfl
  | .while c body, h => by
    simp only [genS, whileStmt] at h
    split at h
    · cases h
    · rcases loopFlow_cases (alwaysTaken (some (gen L c))) (genS L body) with h' | ⟨h', _⟩ <;> rw [h'] at h <;> cases h
  | .doWhile body c, h => by
    simp only [genS, doStmt] at h
    rcases loopFlow_cases (alwaysTaken (some (gen L c))) (genS L body) with h' | ⟨h', _⟩ <;> rw [h'] at h <;> cases h
  | .for init c step body, h => by
    simp only [genS, forStmt] at h
    split at h
    · cases h
    · rcases loopFlow_cases (alwaysTaken (c.map (gen L))) (genS L body) with h' | ⟨h', _⟩ <;> rw [h'] at h <;> cases h
  | .switch e cases, h => by
    simp only [genS] at h ⊢
    exact genCs_brk cases h
  | .brk, _ => rfl
  | .cont, h => by cases h
  | .ret _, h => by simp only [genS] at h; cases h
  | .assert _, h => by simp only [genS] at h; cases h
  | .exit _, h => by simp only [genS] at h; cases h

theorem genSs_brk : ∀ s : Stmts, (genSs L s).flow = .brk → (genSs L s).brk = true
  | .nil, h => by simp only [genSs] at h; cases h
  | .cons s rest, h => by
    simp only [genSs] at h ⊢
    rcases seq_eq (by decide) h with h | ⟨_, h⟩
    · rw [genS_brk s h]; rfl
    · rw [genSs_brk rest h, Bool.or_true]

theorem genCs_brk : ∀ s : Cases, (genCs L s).flow = .brk → (genCs L s).brk = true
  | .nil, h => by simp only [genCs] at h; cases h
  | .dflt s, h => by
    simp only [genCs] at h ⊢
    exact genS_brk s h
  | .case _ s rest, h => by
    simp only [genCs] at h ⊢
    rw [genS_brk s (join_eq (by decide) h).1]; rfl
end

theorem or_leak {a b c d : Bool} (h1 : a = true → c = true) (h2 : b = true → d = true) : (a || b) = true → (c || d) = true := by
  cases a <;> cases b <;> cases c <;> cases d <;> simp_all

mutual
theorem genS_leak : ∀ s : Stmt, (genS L s).cont = true → (genS L s).leak = true
  | .expr _, h => by cases h
  | .decl _ _, h => by cases h
  | .block ss, h => by
    simp only [genS] at h ⊢
    exact genSs_leak ss h
  | .ifThen _ a, h => by
    simp only [genS] at h ⊢
    exact genS_leak a h
  | .ifElse _ a b, h => by
    simp only [genS, ifElse] at h ⊢
    exact or_leak (genS_leak a) (genS_leak b) h
  | .while _ _, h => by simp only [genS] at h; cases h
  | .doWhile _ _, h => by simp only [genS] at h; cases h
  | .for init _ _ _, h => by
    simp only [genS] at h ⊢
    exact genSs_leak init h
  | .switch e cases, h => by
    simp only [genS] at h ⊢
    exact genCs_leak cases h
  | .brk, h => by cases h
  | .cont, _ => rfl
  | .ret _, h => by simp only [genS] at h; cases h
  | .assert _, h => by simp only [genS] at h; cases h
  | .exit _, h => by simp only [genS] at h; cases h

theorem genSs_leak : ∀ s : Stmts, (genSs L s).cont = true → (genSs L s).leak = true
  | .nil, h => by simp only [genSs] at h; cases h
  | .cons s rest, h => by
    simp only [genSs] at h ⊢
    exact or_leak (genS_leak s) (genSs_leak rest) h

theorem genCs_leak : ∀ s : Cases, (genCs L s).cont = true → (genCs L s).leak = true
  | .nil, h => by simp only [genCs] at h; cases h
  | .dflt s, h => by
    simp only [genCs] at h ⊢
    exact genS_leak s h
  | .case _ s rest, h => by
    simp only [genCs] at h ⊢
    exact or_leak (genS_leak s) (genCs_leak rest) h
end

theorem taken_excl {c : Option Node} (h : alwaysTaken c = true) : neverTaken c = false := by
  cases c with
  | none => rfl
  | some e =>
    simp only [alwaysTaken, neverTaken, Option.elim] at h ⊢
    cases hc : e.const with
    | none => rfl
    | some v => rw [hc] at h; simpa using h

mutual
theorem genS_returns : ∀ s : Stmt, tested L s = true → (genS L s).flow = .ret → falls L s = false
  | .expr _, _, h => by cases h
  | .decl _ _, _, h => by cases h
  | .block ss, ht, h => by
    simp only [genS, falls, tested] at h ht ⊢
    exact genSs_returns ss ht h
  | .ifThen _ _, _, h => by simp only [genS] at h; cases h
  | .ifElse _ a b, ht, h => by
    simp only [genS, ifElse, falls, tested, Bool.and_eq_true] at h ht ⊢
    have h := join_eq (by decide) h
    rw [genS_returns b ht.2 h.2, h.1]; rfl
  | .while c body, ht, h => by
    simp only [genS, whileStmt, tested, Bool.and_eq_true, Bool.not_eq_true'] at h ht
    split at h
    · cases h
    · rcases loopFlow_cases (alwaysTaken (some (gen L c))) (genS L body) with h' | ⟨_, h', _⟩
      · rw [h'] at h; cases h
      · rw [ht.1] at h'; cases h'
  | .doWhile body c, ht, h => by
    simp only [genS, doStmt, tested, Bool.and_eq_true, Bool.not_eq_true'] at h ht
    rcases loopFlow_cases (alwaysTaken (some (gen L c))) (genS L body) with h' | ⟨_, h', _⟩
    · rw [h'] at h; cases h
    · rw [ht.1] at h'; cases h'
  | .for init c step body, ht, h => by
    simp only [genS, forStmt, tested, Bool.and_eq_true, falls, forFalls] at h ht ⊢
    split at h
    · cases h
    · rcases loopFlow_cases (alwaysTaken (c.map (gen L))) (genS L body) with h' | ⟨_, h1, h2⟩
      · rw [h'] at h; cases h
      · have hb := genS_brk (L := L) body
        have hl := genS_leak (L := L) body
        have hr := genS_returns body ht.2
        rw [taken_excl h1, h1, h2]
        cases hf : (genS L body).flow with
        | none => simp [Flow.terminal]
        | cont => simp [Flow.terminal]
        | brk => rw [hb hf] at h2; cases h2
        | ret =>
          rw [hr hf]
          cases hc : (genS L body).cont with
          | false => simp
          | true => rw [hl hc]; simp [Flow.terminal]
  | .switch e cases, ht, h => by
    simp only [genS, falls, tested] at h ht ⊢
    exact genCs_returns cases ht h
  | .brk, _, _ => rfl
  | .cont, _, _ => rfl
  | .ret _, _, _ => rfl
  | .assert _, _, h => by simp only [genS] at h; cases h
  | .exit _, _, h => by simp only [genS] at h; cases h

theorem genSs_returns : ∀ s : Stmts, testedAll L s = true → (genSs L s).flow = .ret → fallsAll L s = false
  | .nil, _, h => by simp only [genSs] at h; cases h
  | .cons s rest, ht, h => by
    simp only [genSs, fallsAll, testedAll, Bool.and_eq_true] at h ht ⊢
    rcases seq_eq (by decide) h with h | ⟨_, h⟩
    · rw [genS_returns s ht.1 h]; rfl
    · rw [genSs_returns rest ht.2 h, Bool.and_false]

theorem genCs_returns : ∀ s : Cases, testedCases L s = true → (genCs L s).flow = .ret → fallsCases L s = false
  | .nil, _, h => by simp only [genCs] at h; cases h
  | .dflt s, ht, h => by
    simp only [genCs, fallsCases, testedCases] at h ht ⊢
    rw [genS_returns s ht h, h]; rfl
  | .case _ s rest, ht, h => by
    simp only [genCs, fallsCases, testedCases, Bool.and_eq_true] at h ht ⊢
    have h := join_eq (by decide) h
    rw [genCs_returns rest ht.2 h.2, h.1]; rfl
end

/-! ### Functions -/

theorem foldl_fours (n a : Nat) : (List.replicate n 4).foldl (· + ·) a = a + 4 * n := by
  induction n generalizing a with
  | zero => rfl
  | succ n ih => rw [List.replicate_succ, List.foldl_cons, ih]; omega

theorem emitFn_cert {F : Func} {start : Nat} (hS : Suits C { L with params := F.params, slots := F.slots }) (hb : badFn L F = false) (hh : haltFree F.body = true)
    (hg : ∀ g ∈ callsS F.body, C.code[L.entry g]? = some 46) (hf : (genFn L F).flow = .ret → falls { L with params := F.params, slots := F.slots } F.body = false)
    (hat : At C.code start (emitFn L F start)) : ∃ stop ns Lv R, Cert C start stop ns Lv R := by
  unfold badFn at hb
  obtain ⟨hb, h3⟩ := or_false_iff.1 hb
  obtain ⟨h1, h2⟩ := or_false_iff.1 hb
  have hs : ST C (genFn L F) _ := genS_st hS F.body h1 hh hg
  let body : Code := emitBreak false ⨟ emitStmt true (genFn L F) 0 0 ⨟ emitIf (decide ((genFn L F).flow ≠ .ret)) (ins (.zero .pri) ⨟ ins .retn)
  have hbody : G C noLabs body (start + 1) 0 0 False := by
    refine (emitBreak_g.then ((hs.emit true (fun h => by rw [h2] at h; cases h) (fun h => by rw [h3] at h; cases h)).then
      (G.emitIf fun _ => G.zero.then G.retn))).falls ?_
    rintro ⟨_, h, h'⟩
    by_cases hr : (genFn L F).flow = .ret
    · rw [hf hr] at h; cases h
    · exact (h' (decide_eq_true hr)).2
  have hat' : At C.code start ([46] ++ (body (start + 1) ++ [166])) := by
    have : emitFn L F start = [46] ++ (body (start + 1) ++ [166]) := by
      show [46] ++ (_ ++ (_ ++ (_ ++ [166]))) = [46] ++ ((_ ++ (_ ++ _)) ++ [166])
      simp only [List.append_assoc]
      rfl
    rw [← this]; exact hat
  have hb1 : At C.code (start + 1) (body (start + 1)) := At.left (At.right hat')
  have hb2 : At C.code (start + 1 + (body (start + 1)).length) [166] := At.right (At.right hat')
  have f := hbody hb1 (fun _ _ h => h.elim)
  exact ⟨_, Fr.cert f (At.head (At.left hat')) (At.head hb2) hS.code⟩

theorem emitFn_accepted {F : Func} {start fuel : Nat} (hS : Suits C { L with params := F.params, slots := F.slots }) (hb : badFn L F = false) (hh : haltFree F.body = true)
    (hg : ∀ g ∈ callsS F.body, C.code[L.entry g]? = some 46) (hf : (genFn L F).flow = .ret → falls { L with params := F.params, slots := F.slots } F.body = false)
    (hat : At C.code start (emitFn L F start)) (hfuel : C.code.length + 2 ≤ fuel) : ∃ V, verify C start fuel = .ok V := by
  obtain ⟨stop, ns, Lv, R, K⟩ := emitFn_cert hS hb hh hg hf hat
  refine K.accepted ?_ hfuel
  rw [hS.locals, foldl_fours]
  have := hS.small
  simp only [top] at *
  omega

end Verif.Compiled

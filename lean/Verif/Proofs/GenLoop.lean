import Verif.Proofs.GenStmt

/-! The code for blocks, conditionals and loops does what the source says. -/
namespace Verif.Compiled
open Verif.VM Verif.Lang Verif.CodeGen

section
variable {E : Env} {L : Layout} {lim : Int} {m n : Nat} {b : State}

theorem Runs.done {α : Type} {N M p : Nat} {s : IState} {a : α} {σ : Store} {Q : α → Store → Nat → Nat → IState → Prop} (hM : N ≤ M) (h : Q a σ M p s) :
    Runs E L lim m N p s (.ok a σ) Q := Or.inl ⟨M, p, s, Reach.rfl.relax hM, h⟩

theorem Leaves.done {e B C N N1 : Nat} {s : IState} {r : Sig} {σ' : Store} {N' q : Nat} {s' : IState} (h : Leaves E L b e B C N s r σ' N' q s') (hN : N1 ≤ N') :
    Runs E L lim m N1 q s' (.ok r σ') (Leaves E L b e B C N s) := Runs.done hN h

theorem StmtOk.up {ev : Ev Sig} {code : Nat → Nat → Code} (h : StmtOk E L lim m n b ev code) {N N1 p : Nat} {s s1 : IState} {σ1 : Store} {B C : Nat} (hN1 : N1 ≤ N)
    (hN : N1 ≤ n) (hB : B < E.code.length) (hC : C < E.code.length) (hc : Here E (code B C) p) (hP : Post L b s.vm σ1 s1.vm) :
    Runs E L lim m N1 p s1 (ev σ1) (Leaves E L b (Ends (code B C) p) B C N s) := by
  refine (h N1 p s1 σ1 B C hN hB hC hc hP.holds).relax ?_
  intro r σ' N' q s' _ hl
  exact hl.up hN1 hP

theorem ite_sig {x : Cell} {a b : Ev Sig} {σ : Store} {o : Out Sig} (h : (if x.toInt ≠ 0 then a else b) σ = o) : a σ = o ∨ b σ = o := by
  split at h
  · exact Or.inl h
  · exact Or.inr h

/-! ### Sequences -/

theorem nil_ok : SNodesOk E L lim m n b (pure .next)
    { bad := false, flow := .none, brk := false, cont := false, leak := false, ret := false, after := id, code := fun _ _ _ => skip } := by
  refine ⟨fun f => ?_, fun f => FixedF.const Fixed.skip, Sigs.normal (fun σ r σ' h => (Ev.pure_inv h).1) _ _, fun h => (by cases h)⟩
  intro N p s σ B C hN _ _ hc hH
  exact Runs.ok ⟨Post.refl hH, rfl, rfl⟩

theorem andThen_cases {k : Ev Sig} {r r' : Sig} {σ σ' : Store} (h : r.andThen k σ = .ok r' σ') : (r = .next ∧ k σ = .ok r' σ') ∨ (r ≠ .next ∧ r = r' ∧ σ = σ') := by
  cases r with
  | next => exact Or.inl ⟨rfl, h⟩
  | brk => cases h; exact Or.inr ⟨fun h => (by cases h), rfl, rfl⟩
  | cont => cases h; exact Or.inr ⟨fun h => (by cases h), rfl, rfl⟩
  | ret v => cases h; exact Or.inr ⟨fun h => (by cases h), rfl, rfl⟩

theorem seq_sigs {x y : Ev Sig} {fx fy : Flow} {bx by' cx cy : Bool} (hx : Sigs x fx bx cx) (hy : Sigs y fy by' cy) :
    Sigs (do let r ← x; r.andThen y) (fx.seq fy) (bx || by') (cx || cy) := by
  refine ⟨?_, ?_, ?_⟩ <;> intro σ σ' h <;> obtain ⟨r, σ1, h1, h2⟩ := Ev.bind_ok_iff h <;> rcases andThen_cases h2 with ⟨rfl, h2⟩ | ⟨h3, rfl, rfl⟩
  · rw [hx.next _ _ h1, hy.next _ _ h2]; rfl
  · exact absurd rfl h3
  · rw [hy.brk _ _ h2, Bool.or_true]
  · rw [hx.brk _ _ h1, Bool.true_or]
  · rw [hy.cont _ _ h2, Bool.or_true]
  · rw [hx.cont _ _ h1, Bool.true_or]

theorem leak_or {a b c d : Bool} (h1 : a = true → c = true) (h2 : b = true → d = true) : (a || b) = true → (c || d) = true := by
  cases a <;> cases b <;> cases c <;> cases d <;> simp_all

theorem andThen_ok {x y : Ev Sig} {cx cy : Nat → Nat → Code} (hx : StmtOk E L lim m n b x cx) (hy : StmtOk E L lim m n b y cy) :
    StmtOk E L lim m n b (do let r ← x; r.andThen y) (fun B C => cx B C ⨟ cy B C) := by
  intro N p s σ B C hN hB hC hc hH
  rw [ends_then]
  refine Runs.bind (hx N p s σ B C hN hB hC hc.fst hH) ?_
  rintro r σ' N' q s' _ ⟨hP, h⟩
  cases r with
  | next => obtain ⟨rfl, rfl⟩ := h; exact hy.up (Nat.le_refl _) hN hB hC hc.snd hP
  | brk => obtain ⟨rfl, rfl⟩ := h; exact Runs.ok ⟨hP, rfl, rfl⟩
  | cont => obtain ⟨rfl, rfl⟩ := h; exact Runs.ok ⟨hP, rfl, rfl⟩
  | ret v => obtain ⟨rfl, h1, h2⟩ := h; exact Runs.ok ⟨hP, rfl, h1, h2⟩

theorem cons_ok {ev evs : Ev Sig} {x : SNode} {r : SNodes} (hx : SNodeOk E L lim m n b ev x) (hr : SNodesOk E L lim m n b evs r) {bad ret : Bool} :
    SNodesOk E L lim m n b (do let r ← ev; r.andThen evs)
    { bad, flow := x.flow.seq r.flow, brk := x.brk || r.brk, cont := x.cont || r.cont, leak := x.leak || r.leak, ret
      after := fun _ => r.after x.after
      code := fun after b c => emitStmt after x b c ⨟ r.code x.after b c } :=
  ⟨fun f => andThen_ok (hx.run.emit f) (hr.run x.after), fun f => (emit_fixed hx.fixed f).then (hr.fixed x.after), seq_sigs hx.sig hr.sig, leak_or hx.leak hr.leak⟩

theorem block_ok {ev : Ev Sig} {ss : SNodes} (h : SNodesOk E L lim m n b ev ss) : SNodeOk E L lim m n b ev (blockStmt ss) :=
  ⟨h.run true, h.fixed true, h.sig, h.leak⟩

/-! ### Conditionals -/

theorem FixedF.code {ι : Type} {f : ι → Code} (h : FixedF f) (i : ι) : Fixed (f i) := fun p q => h i i p q
theorem FixedF.to2 {f : Nat → Code} (h : FixedF f) : Fixed2 f := fun t t' p q => h t t' p q
theorem FixedF.of2 {f : Nat → Code} (h : Fixed2 f) : FixedF f := fun t t' p q => h t t' p q

theorem ifThen_ok {ev : Ev Cell} {ea : Ev Sig} {c : Node} {a : SNode} (hc : NodeOk E L lim m n b ev c) (ha : SNodeOk E L lim m n b ea a) :
    SNodeOk E L lim m n b (do let x ← ev; if x.toInt ≠ 0 then ea else pure .next) (ifThen c a) := by
  have hf : FixedF fun y : (Nat × Nat) × Nat => c.test false y.2 ⨟ emitStmt false a y.1.1 y.1.2 :=
    ((FixedF.of2 (hc.ftest false)).comp fun y : (Nat × Nat) × Nat => y.2).then ((emit_fixed ha.fixed false).comp fun y : (Nat × Nat) × Nat => y.1)
  have hf' : FixedF fun y : Nat × Nat => endLabel fun flab1 => c.test false flab1 ⨟ emitStmt false a y.1 y.2 := FixedF.endLabel hf
  refine ⟨?_, hf', ⟨fun _ _ _ => rfl, ?_, ?_⟩, ha.leak⟩
  · intro N p s σ B C hN hB hC hcode hH
    have hf2 : Fixed2 fun flab1 => c.test false flab1 ⨟ emitStmt false a B C := (hf.comp fun t => ((B, C), t)).to2
    have h1 := endLabel_here hf2 hcode
    have h2 := endLabel_ends hf2 p
    have hlt := hcode.lt
    show Runs E L lim m N p s _ (Leaves E L b (Ends (endLabel fun flab1 => c.test false flab1 ⨟ emitStmt false a B C) p) B C N s)
    have hlt : Ends (endLabel fun flab1 => c.test false flab1 ⨟ emitStmt false a B C) p < E.code.length := hcode.lt
    generalize Ends (endLabel fun flab1 => c.test false flab1 ⨟ emitStmt false a B C) p = e at h1 h2 hlt ⊢
    rw [ends_then] at h2
    refine Runs.bind (hc.test false _ N p s σ hN hlt h1.fst hH) ?_
    rintro x σ' N' q s' _ ⟨rfl, rfl, hP⟩
    by_cases hx : x.toInt ≠ 0
    · rw [if_pos hx, if_neg (by simpa [toInt_ne_zero] using hx)]
      have := (ha.run.emit false).up (N := N) (N1 := N - 1) (by omega) (by omega) hB hC h1.snd hP
      rw [h2] at this
      exact this
    · rw [if_neg hx, if_pos (by simpa [toInt_ne_zero] using hx)]
      exact Runs.done (M := N) (by omega) ⟨hP, rfl, rfl⟩
  · intro σ σ' h
    obtain ⟨x, σ1, h1, h2⟩ := Ev.bind_ok_iff h
    rcases ite_sig h2 with h2 | h2
    · exact ha.sig.brk _ _ h2
    · cases h2
  · intro σ σ' h
    obtain ⟨x, σ1, h1, h2⟩ := Ev.bind_ok_iff h
    rcases ite_sig h2 with h2 | h2
    · exact ha.sig.cont _ _ h2
    · cases h2

theorem join_none_left {a b : Flow} (h : a = .none) : a.join b = .none := by subst h; unfold Flow.join; split <;> rfl
theorem join_none_right {a b : Flow} (h : b = .none) : a.join b = .none := by subst h; unfold Flow.join; split; (· assumption); rfl

/-- A statement, followed by a jump unless it never ends normally. -/
theorem stmt_jump (hF : Fits E L lim b) {ev : Ev Sig} {x : SNode} (hx : SNodeOk E L lim m n b ev x) {N N1 p : Nat} {s s1 : IState} {σ1 : Store} {B C t : Nat} {f : Bool}
    (hN1 : N1 ≤ N) (hN : N1 ≤ n) (hB : B < E.code.length) (hC : C < E.code.length) (ht : t < E.code.length)
    (hc : Here E (emitStmt f x B C ⨟ emitIf (x.flow = .none) (ins (.jump (off t)))) p) (hP : Post L b s.vm σ1 s1.vm) :
    Runs E L lim m N1 p s1 (ev σ1) (Leaves E L b t B C N s) := by
  have h := (hx.run.emit f).up (s := s) hN1 hN hB hC hc.fst hP
  have hb : (ev >>= pure) σ1 = ev σ1 := by
    show Ev.bind ev Ev.pure σ1 = _
    unfold Ev.bind Ev.pure
    cases ev σ1 <;> rfl
  rw [← hb]
  refine Runs.bind h ?_
  rintro r σ' N' q s' he ⟨hP', hr⟩
  cases r with
  | next =>
    obtain ⟨rfl, rfl⟩ := hr
    have hfl := hx.sig.next _ _ he
    have hj := hc.snd
    rw [hfl] at hj
    exact Runs.jump (M := N') hF ht hj (by omega) fun i => Runs.ok ⟨hP', rfl, rfl⟩
  | brk => obtain ⟨rfl, rfl⟩ := hr; exact Runs.ok ⟨hP', rfl, rfl⟩
  | cont => obtain ⟨rfl, rfl⟩ := hr; exact Runs.ok ⟨hP', rfl, rfl⟩
  | ret v => obtain ⟨rfl, h1, h2⟩ := hr; exact Runs.ok ⟨hP', rfl, h1, h2⟩

theorem ifElse_ok (hF : Fits E L lim b) {ev : Ev Cell} {ex ey : Ev Sig} {c : Node} {x y : SNode} (hc : NodeOk E L lim m n b ev c) (hx : SNodeOk E L lim m n b ex x)
    (hy : SNodeOk E L lim m n b ey y) : SNodeOk E L lim m n b (do let v ← ev; if v.toInt ≠ 0 then ex else ey) (ifElse c x y) := by
  -- index: break, continue, flab2; then flab1
  have hf1 : FixedF fun i : (Nat × Nat × Nat) × Nat => c.test false i.2 ⨟ emitStmt false x i.1.1 i.1.2.1 ⨟ emitIf (x.flow = .none) (ins (.jump (off i.1.2.2))) :=
    ((FixedF.of2 (hc.ftest false)).comp fun i : (Nat × Nat × Nat) × Nat => i.2).then
      (((emit_fixed hx.fixed false).comp fun i : (Nat × Nat × Nat) × Nat => (i.1.1, i.1.2.1)).then ((FixedF.jump fun i : (Nat × Nat × Nat) × Nat => i.1.2.2).emitIf _))
  have hf1' : FixedF fun i : Nat × Nat × Nat => endLabel fun flab1 => c.test false flab1 ⨟ emitStmt false x i.1 i.2.1 ⨟ emitIf (x.flow = .none) (ins (.jump (off i.2.2))) :=
    FixedF.endLabel hf1
  have hf2 : FixedF fun i : (Nat × Nat) × Nat =>
      (endLabel fun flab1 => c.test false flab1 ⨟ emitStmt false x i.1.1 i.1.2 ⨟ emitIf (x.flow = .none) (ins (.jump (off i.2)))) ⨟
      emitStmt (if x.flow = .none then false else x.after) y i.1.1 i.1.2 :=
    (hf1'.comp fun i : (Nat × Nat) × Nat => (i.1.1, i.1.2, i.2)).then ((emit_fixed hy.fixed _).comp fun i : (Nat × Nat) × Nat => i.1)
  have hf3 : FixedF fun i : Nat × Nat => endLabel fun flab2 =>
      (endLabel fun flab1 => c.test false flab1 ⨟ emitStmt false x i.1 i.2 ⨟ emitIf (x.flow = .none) (ins (.jump (off flab2)))) ⨟
      emitStmt (if x.flow = .none then false else x.after) y i.1 i.2 := FixedF.endLabel hf2
  refine ⟨?_, hf3, ⟨?_, ?_, ?_⟩, leak_or hx.leak hy.leak⟩
  · intro N p s σ B C hN hB hC hcode hH
    have g2 := (hf2.comp fun t : Nat => ((B, C), t)).to2
    have h1 := endLabel_here g2 hcode
    have h2 := endLabel_ends g2 p
    have hlt : Ends ((ifElse c x y).code B C) p < E.code.length := hcode.lt
    have he : Ends ((ifElse c x y).code B C) p = Ends (endLabel fun flab2 =>
      (endLabel fun flab1 => c.test false flab1 ⨟ emitStmt false x B C ⨟ emitIf (x.flow = .none) (ins (.jump (off flab2)))) ⨟
      emitStmt (if x.flow = .none then false else x.after) y B C) p := rfl
    simp only at h1 h2
    rw [← he] at h1 h2
    generalize Ends ((ifElse c x y).code B C) p = e at h1 h2 hlt ⊢
    have g1 := (hf1.comp fun t : Nat => ((B, C, e), t)).to2
    have k1 := endLabel_here g1 h1.fst
    have k2 := endLabel_ends g1 p
    have klt := Here.lt (c := endLabel _) h1.fst
    have h3 := h1.snd
    rw [ends_then] at h2
    simp only at k1 k2 klt h3
    generalize Ends (endLabel _) p = e1 at k1 k2 h2 klt h3
    refine Runs.bind (hc.test false e1 N p s σ hN klt k1.fst hH) ?_
    rintro v σ' N' q s' _ ⟨rfl, rfl, hP⟩
    by_cases hv : v.toInt ≠ 0
    · rw [if_pos hv, if_neg (by simpa [toInt_ne_zero] using hv)]
      exact stmt_jump hF hx (by omega) (by omega) hB hC hlt k1.snd hP
    · rw [if_neg hv, if_pos (by simpa [toInt_ne_zero] using hv)]
      have := (hy.run.emit _).up (N := N) (N1 := N - 1) (by omega) (by omega) hB hC h3 hP
      rw [h2] at this
      exact this
  · intro σ σ' h
    obtain ⟨v, σ1, h1, h2⟩ := Ev.bind_ok_iff h
    rcases ite_sig h2 with h2 | h2
    · exact join_none_left (hx.sig.next _ _ h2)
    · exact join_none_right (hy.sig.next _ _ h2)
  · intro σ σ' h
    obtain ⟨v, σ1, h1, h2⟩ := Ev.bind_ok_iff h
    rcases ite_sig h2 with h2 | h2
    · show (x.brk || y.brk) = true; rw [hx.sig.brk _ _ h2, Bool.true_or]
    · show (x.brk || y.brk) = true; rw [hy.sig.brk _ _ h2, Bool.or_true]
  · intro σ σ' h
    obtain ⟨v, σ1, h1, h2⟩ := Ev.bind_ok_iff h
    rcases ite_sig h2 with h2 | h2
    · show (x.cont || y.cont) = true; rw [hx.sig.cont _ _ h2, Bool.true_or]
    · show (x.cont || y.cont) = true; rw [hy.sig.cont _ _ h2, Bool.or_true]

/-! ### Loops -/

/-- The outcome of one round of a loop. -/
def Round (E : Env) (L : Layout) (b : State) (top e N : Nat) (s : IState) : Option Sig → Store → Nat → Nat → IState → Prop := fun o σ' N' q s' =>
  Post L b s.vm σ' s'.vm ∧
  match o with
  | none => N' ≤ N - 1 ∧ q = top
  | some .next => N' = N ∧ q = e
  | some (.ret v) => N' = N ∧ Here E (ins .retn) q ∧ s'.pri = v
  | some _ => False

theorem iterate_ok {round : Ev (Option Sig)} {top e B C : Nat}
    (h : ∀ N s σ, N ≤ n → Holds L b σ s.vm → Runs E L lim m N top s (round σ) (Round E L b top e N s)) :
    ∀ k N s σ, N ≤ k → N ≤ n → Holds L b σ s.vm → Runs E L lim m N top s (iterate round k σ) (Leaves E L b e B C N s)
  | 0, N, s, σ, hk, _, _ => by
    obtain rfl : N = 0 := by omega
    exact Or.inl rfl
  | k+1, N, s, σ, hk, hN, hH => by
    show Runs E L lim m N top s ((round >>= _) σ) _
    refine Runs.bind (h N s σ hN hH) ?_
    rintro o σ' N' q s' _ ⟨hP, ho⟩
    cases o with
    | none =>
      obtain ⟨h1, rfl⟩ := ho
      rcases Nat.eq_zero_or_pos N with h0 | h0
      · refine (iterate_ok (B := B) (C := C) h k N' s' σ' (by omega) (by omega) hP.holds).relax ?_
        intro r σ2 N2 q2 s2 _ hl
        exact hl.up (by omega) hP
      · refine (iterate_ok (B := B) (C := C) h k N' s' σ' (by omega) (by omega) hP.holds).relax ?_
        intro r σ2 N2 q2 s2 _ hl
        exact hl.up (by omega) hP
    | some r =>
      show Runs E L lim m N' q s' (.ok r σ') _
      cases r with
      | next => exact Runs.ok ⟨hP, ho⟩
      | ret v => exact Runs.ok ⟨hP, ho⟩
      | brk => exact ho.elim
      | cont => exact ho.elim

/-- What the end of the body means for the loop. -/
theorem afterBody_cases {r r' : Sig} (h : afterBody r = some r') : (r = .brk ∧ r' = .next) ∨ ∃ v, r = .ret v ∧ r' = .ret v := by
  cases r with
  | next => cases h
  | cont => cases h
  | brk => cases h; exact Or.inl ⟨rfl, rfl⟩
  | ret v => cases h; exact Or.inr ⟨v, rfl, rfl⟩

theorem pure_some {o : Option Sig} {r : Sig} {σ σ' : Store} (h : (pure o : Ev (Option Sig)) σ = .ok (some r) σ') : o = some r := by cases h; rfl

theorem unlessDone_cases {k : Ev (Option Sig)} {o : Option Sig} {r : Option Sig} {σ σ' : Store} (h : unlessDone k o σ = .ok r σ') :
    (o = none ∧ k σ = .ok r σ') ∨ (∃ r', o = some r' ∧ r = some r') := by
  cases o with
  | none => exact Or.inl ⟨rfl, h⟩
  | some r' => cases h; exact Or.inr ⟨r', rfl, rfl⟩

/-- How a loop ends: by a return, or by a break or because the condition does not hold. -/
def LoopEnd (c : Ev Cell) (body : Ev Sig) (r : Sig) : Prop :=
  (∃ v, r = .ret v) ∨ (r = .next ∧ ((∃ σ σ', body σ = .ok .brk σ') ∨ ∃ σ x σ', c σ = .ok x σ' ∧ x = 0))

theorem while_end {c : Ev Cell} {body : Ev Sig} {k : Nat} {σ σ' : Store} {r : Sig} (h : iterate (whileRound c body) k σ = .ok r σ') : LoopEnd c body r := by
  obtain ⟨σ1, h⟩ := iterate_end h
  obtain ⟨x, σ2, h1, h2⟩ := Ev.bind_ok_iff h
  split at h2
  · obtain ⟨r', σ3, h3, h4⟩ := Ev.bind_ok_iff h2
    rcases afterBody_cases (pure_some h4) with ⟨rfl, rfl⟩ | ⟨v, rfl, rfl⟩
    · exact Or.inr ⟨rfl, Or.inl ⟨_, _, h3⟩⟩
    · exact Or.inl ⟨v, rfl⟩
  · rename_i hx
    have := pure_some h2
    cases this
    exact Or.inr ⟨rfl, Or.inr ⟨_, _, _, h1, by simpa [toInt_ne_zero] using hx⟩⟩

theorem do_end {c : Ev Cell} {body : Ev Sig} {k : Nat} {σ σ' : Store} {r : Sig} (h : iterate (doRound body c) k σ = .ok r σ') : LoopEnd c body r := by
  obtain ⟨σ1, h⟩ := iterate_end h
  obtain ⟨r', σ2, h1, h2⟩ := Ev.bind_ok_iff h
  rcases unlessDone_cases h2 with ⟨_, h3⟩ | ⟨r1, h3, h4⟩
  · obtain ⟨x, σ3, h4, h5⟩ := Ev.bind_ok_iff h3
    have := pure_some h5
    split at this
    · cases this
    · rename_i hx
      cases this
      exact Or.inr ⟨rfl, Or.inr ⟨_, _, _, h4, by simpa [toInt_ne_zero] using hx⟩⟩
  · cases h4
    rcases afterBody_cases h3 with ⟨rfl, rfl⟩ | ⟨v, rfl, rfl⟩
    · exact Or.inr ⟨rfl, Or.inl ⟨_, _, h1⟩⟩
    · exact Or.inl ⟨v, rfl⟩

theorem for_end {c step : Ev Cell} {body : Ev Sig} {k : Nat} {σ σ' : Store} {r : Sig} (h : iterate (forRound c step body) k σ = .ok r σ') : LoopEnd c body r := by
  obtain ⟨σ1, h⟩ := iterate_end h
  obtain ⟨x, σ2, h1, h2⟩ := Ev.bind_ok_iff h
  split at h2
  · obtain ⟨r', σ3, h3, h4⟩ := Ev.bind_ok_iff h2
    rcases unlessDone_cases h4 with ⟨_, h5⟩ | ⟨r1, h5, h6⟩
    · obtain ⟨_, _, _, h6⟩ := Ev.bind_ok_iff h5
      have := pure_some h6
      cases this
    · cases h6
      rcases afterBody_cases h5 with ⟨rfl, rfl⟩ | ⟨v, rfl, rfl⟩
      · exact Or.inr ⟨rfl, Or.inl ⟨_, _, h3⟩⟩
      · exact Or.inl ⟨v, rfl⟩
  · rename_i hx
    have := pure_some h2
    cases this
    exact Or.inr ⟨rfl, Or.inr ⟨_, _, _, h1, by simpa [toInt_ne_zero] using hx⟩⟩

theorem loop_sigs {ec : Ev Cell} {eb : Ev Sig} {es : Ev Sig} {body : SNode} {taken : Bool} (hb : Sigs eb body.flow body.brk body.cont)
    (hl : ∀ σ r σ', es σ = .ok r σ' → LoopEnd ec eb r) (ht : taken = true → ∀ σ x σ', ec σ = .ok x σ' → x ≠ 0) : Sigs es (loopFlow taken body) false false := by
  refine ⟨?_, ?_, ?_⟩
  · intro σ σ' h
    rcases hl _ _ _ h with ⟨v, h⟩ | ⟨_, ⟨σ1, σ2, h⟩ | ⟨σ1, x, σ2, h, hx⟩⟩
    · cases h
    · have := hb.brk _ _ h
      unfold loopFlow
      rw [this]
      simp
    · unfold loopFlow
      cases taken
      · simp
      · exact absurd hx (ht rfl _ _ _ h)
  · intro σ σ' h
    rcases hl _ _ _ h with ⟨v, h⟩ | ⟨h, _⟩ <;> cases h
  · intro σ σ' h
    rcases hl _ _ _ h with ⟨v, h⟩ | ⟨h, _⟩ <;> cases h

theorem Sigs.weaken {ev : Ev Sig} {f : Flow} {x y : Bool} (h : Sigs ev f x y) (p : Bool) : Sigs ev (if p then .none else f) x y :=
  ⟨fun σ σ' h' => (by have := h.next _ _ h'; rw [this]; split <;> rfl), h.brk, h.cont⟩

theorem always_ne {ev : Ev Cell} {c : Node} (hc : NodeOk E L lim m n b ev c) (h : alwaysTaken (some c) = true) : ∀ σ x σ', ev σ = .ok x σ' → x ≠ 0 := by
  intro σ x σ' hx
  unfold alwaysTaken at h
  simp only [Option.elim] at h
  cases hk : c.const with
  | none => rw [hk] at h; cases h
  | some v =>
    rw [hk] at h
    rw [(hc.const v hk).1 σ] at hx
    cases hx
    simpa using h

theorem while_ok (hF : Fits E L lim b) {ev : Ev Cell} {eb : Ev Sig} {c : Node} {body : SNode} (hc : NodeOk E L lim m n b ev c) (hb : SNodeOk E L lim m n b eb body) :
    SNodeOk E L lim m n b (iterate (whileRound ev eb) n) (whileStmt c body) := by
  have hf : FixedF fun i : Nat × Nat => c.test false i.2 ⨟ emitStmt false body i.2 i.1 ⨟ emitIf (body.flow = .none) (ins (.jump (off i.1))) :=
    ((FixedF.of2 (hc.ftest false)).comp fun i : Nat × Nat => i.2).then
      (((emit_fixed hb.fixed false).comp fun i : Nat × Nat => (i.2, i.1)).then ((FixedF.jump fun i : Nat × Nat => i.1).emitIf _))
  have hf' : FixedF fun top : Nat => endLabel fun exit => c.test false exit ⨟ emitStmt false body exit top ⨟ emitIf (body.flow = .none) (ins (.jump (off top))) :=
    FixedF.endLabel hf
  refine ⟨?_, fun _ _ p q => hf' p q p q, (loop_sigs hb.sig (fun _ _ _ => while_end) (fun h => always_ne hc h)).weaken _, fun h => by cases h⟩
  intro N p s σ B C hN hB hC hcode hH
  have hcode : Here E (endLabel fun exit => c.test false exit ⨟ emitStmt false body exit p ⨟ emitIf (body.flow = .none) (ins (.jump (off p)))) p := hcode
  show Runs E L lim m N p s _ (Leaves E L b (Ends (endLabel fun exit => c.test false exit ⨟ emitStmt false body exit p ⨟ emitIf (body.flow = .none) (ins (.jump (off p)))) p) B C N s)
  have g := (hf.comp fun t : Nat => (p, t)).to2
  have h1 := endLabel_here g hcode
  have hlt := hcode.lt
  simp only at h1
  generalize Ends (endLabel _) p = e at h1 hlt ⊢
  refine iterate_ok ?_ n N s σ hN hN hH
  clear N s σ hN hH
  intro N s σ hN hH
  refine Runs.bind (hc.test false e N p s σ hN hlt h1.fst hH) ?_
  rintro x σ' N' q s' _ ⟨rfl, rfl, hP⟩
  by_cases hx : x.toInt ≠ 0
  · rw [if_pos hx, if_neg (by simpa [toInt_ne_zero] using hx)]
    have hpe : p < E.code.length := by have := h1.lt; unfold Ends at this; omega
    refine Runs.bind (stmt_jump (N := N - 1) (N1 := N - 1) (C := p) (s := s) hF hb (by omega) (by omega) hlt hpe hpe h1.snd hP) ?_
    rintro r σ2 N2 q2 s2 _ ⟨hP2, hr⟩
    cases r with
    | next => obtain ⟨rfl, rfl⟩ := hr; exact Runs.ok ⟨hP2, Nat.le_refl _, rfl⟩
    | brk => obtain ⟨rfl, rfl⟩ := hr; exact Runs.done (M := N) (by omega) ⟨hP2, rfl, rfl⟩
    | cont => obtain ⟨rfl, rfl⟩ := hr; exact Runs.ok ⟨hP2, by omega, rfl⟩
    | ret v => obtain ⟨rfl, hr⟩ := hr; exact Runs.done (M := N) (by omega) ⟨hP2, rfl, hr⟩
  · rw [if_neg hx, if_pos (by simpa [toInt_ne_zero] using hx)]
    exact Runs.done (M := N) (by omega) ⟨hP, rfl, rfl⟩

/-- A statement with a label behind it that `continue` jumps to. -/
theorem labelled_ok {ev : Ev Sig} {x : SNode} (hx : SNodeOk E L lim m n b ev x) {N N1 p : Nat} {s s1 : IState} {σ1 : Store} {B : Nat} {f : Bool}
    (hN1 : N1 ≤ N) (hN : N1 ≤ n) (hB : B < E.code.length) (hc : Here E (endLabel fun next => emitStmt f x B next) p) (hP : Post L b s.vm σ1 s1.vm) :
    Runs E L lim m N1 p s1 (ev σ1)
      (Leaves E L b (Ends (endLabel fun next => emitStmt f x B next) p) B (Ends (endLabel fun next => emitStmt f x B next) p) N s) := by
  have g : Fixed2 fun next => emitStmt f x B next := ((emit_fixed hx.fixed f).comp fun t : Nat => (B, t)).to2
  have h1 := endLabel_here g hc
  have h2 := endLabel_ends g p
  have h3 := hc.lt
  generalize Ends (endLabel fun next => emitStmt f x B next) p = e at h1 h2 h3 ⊢
  have := (hx.run.emit f).up (s := s) hN1 hN hB h3 h1 hP
  rw [h2] at this
  exact this

theorem labelled_fixed {x : SNode} (hx : FixedF fun y : Nat × Nat => x.code y.1 y.2) (f : Bool) : FixedF fun B : Nat => endLabel fun next => emitStmt f x B next :=
  FixedF.endLabel (f := fun B next => emitStmt f x B next) (emit_fixed hx f)

theorem do_ok {ev : Ev Cell} {eb : Ev Sig} {c : Node} {body : SNode} (hc : NodeOk E L lim m n b ev c) (hb : SNodeOk E L lim m n b eb body) :
    SNodeOk E L lim m n b (iterate (doRound eb ev) n) (doStmt body c) := by
  have hf : FixedF fun i : Nat × Nat => (endLabel fun next => emitStmt true body i.2 next) ⨟ emitIf (!body.flow.terminal || body.cont) (c.test true i.1) :=
    ((labelled_fixed hb.fixed true).comp fun i : Nat × Nat => i.2).then (((FixedF.of2 (hc.ftest true)).comp fun i : Nat × Nat => i.1).emitIf _)
  have hf' : FixedF fun start : Nat => endLabel fun exit => (endLabel fun next => emitStmt true body exit next) ⨟ emitIf (!body.flow.terminal || body.cont) (c.test true start) :=
    FixedF.endLabel hf
  refine ⟨?_, fun _ _ p q => hf' p q p q, (loop_sigs hb.sig (fun _ _ _ => do_end) (fun h => always_ne hc h)), fun h => by cases h⟩
  intro N p s σ B C hN hB hC hcode hH
  have hcode : Here E (endLabel fun exit => (endLabel fun next => emitStmt true body exit next) ⨟ emitIf (!body.flow.terminal || body.cont) (c.test true p)) p := hcode
  show Runs E L lim m N p s _
    (Leaves E L b (Ends (endLabel fun exit => (endLabel fun next => emitStmt true body exit next) ⨟ emitIf (!body.flow.terminal || body.cont) (c.test true p)) p) B C N s)
  have g := (hf.comp fun t : Nat => (p, t)).to2
  have h1 := endLabel_here g hcode
  have h2 := endLabel_ends g p
  have hlt := hcode.lt
  simp only at h1 h2
  generalize Ends (endLabel fun exit => (endLabel fun next => emitStmt true body exit next) ⨟ emitIf (!body.flow.terminal || body.cont) (c.test true p)) p = e at h1 h2 hlt ⊢
  refine iterate_ok ?_ n N s σ hN hN hH
  clear N s σ hN hH
  intro N s σ hN hH
  rw [ends_then] at h2
  have hl := labelled_ok hb (Nat.le_refl N) hN hlt h1.fst (Post.refl hH)
  have h3 := h1.snd
  have hpe : p < E.code.length := by have := h1.lt; unfold Ends at this; omega
  generalize Ends (endLabel fun next => emitStmt true body e next) p = nx at hl h2 h3
  refine Runs.bind hl ?_
  rintro r σ2 N2 q2 s2 he ⟨hP2, hr⟩
  have test : (!body.flow.terminal || body.cont) = true → N2 ≤ N → q2 = nx →
      Runs E L lim m N2 q2 s2 ((do let x ← ev; pure (if x.toInt ≠ 0 then none else some .next) : Ev (Option Sig)) σ2) (Round E L b p e N s) := by
    rintro ht hN2 rfl
    rw [ht, emitIf_true] at h3 h2
    refine Runs.bind (hc.test true p N2 q2 s2 σ2 (by omega) hpe h3 hP2.holds) ?_
    rintro x σ3 N3 q3 s3 _ ⟨rfl, rfl, hP3⟩
    by_cases hx : x.toInt ≠ 0
    · rw [if_pos hx, if_pos (by simpa [toInt_ne_zero] using hx)]
      exact Runs.ok ⟨hP2.trans hP3, by omega, rfl⟩
    · rw [if_neg hx, if_neg (by simpa [toInt_ne_zero] using hx)]
      exact Runs.done (M := N) (by omega) ⟨hP2.trans hP3, rfl, h2⟩
  cases r with
  | next =>
    obtain ⟨rfl, rfl⟩ := hr
    refine test ?_ (Nat.le_refl _) rfl
    rw [hb.sig.next _ _ he]; rfl
  | cont =>
    obtain ⟨rfl, rfl⟩ := hr
    refine test ?_ (by omega) rfl
    rw [hb.sig.cont _ _ he, Bool.or_true]
  | brk => obtain ⟨rfl, rfl⟩ := hr; exact Runs.ok ⟨hP2, rfl, rfl⟩
  | ret v => obtain ⟨rfl, hr⟩ := hr; exact Runs.ok ⟨hP2, rfl, hr⟩

/-- A part of `for` that may be left out. -/
def PartOk (E : Env) (L : Layout) (lim : Int) (m n : Nat) (b : State) (default : Cell) (ev : Ev Cell) : Option Node → Prop
  | none => ev = pure default
  | some e => NodeOk E L lim m n b ev e

/-- The test at the beginning of a `for` loop. -/
def forTest (c : Option Node) (exit : Nat) : Code := c.elim skip fun e => emitIf (!alwaysTaken c) (e.test false exit)

theorem forTest_fixed {ev : Ev Cell} {c : Option Node} (h : PartOk E L lim m n b 1 ev c) : FixedF (forTest c) := by
  cases c with
  | none => exact FixedF.const Fixed.skip
  | some e => exact (FixedF.of2 (h.ftest false)).emitIf _

theorem part_always {ev : Ev Cell} {c : Option Node} (h : PartOk E L lim m n b 1 ev c) (ha : alwaysTaken c = true) : ∀ σ x σ', ev σ = .ok x σ' → x ≠ 0 := by
  cases c with
  | none => intro σ x σ' hx; have h : ev = pure 1 := h; rw [h] at hx; cases hx; decide
  | some e => exact always_ne h ha

theorem forTest_ok {ev : Ev Cell} {c : Option Node} (h : PartOk E L lim m n b 1 ev c) {N p : Nat} {s : IState} {σ : Store} {exit : Nat} (hN : N ≤ n) (hX : exit < E.code.length)
    (hc : Here E (forTest c exit) p) (hH : Holds L b σ s.vm) :
    Runs E L lim m N p s (ev σ) fun x σ' N' q s' => N' ≤ N ∧ q = (if x.toInt ≠ 0 then Ends (forTest c exit) p else exit) ∧ Post L b s.vm σ' s'.vm := by
  cases c with
  | none =>
    have h : ev = pure 1 := h
    rw [h]
    exact Runs.ok ⟨Nat.le_refl _, rfl, Post.refl hH⟩
  | some e =>
    have h : NodeOk E L lim m n b ev e := h
    unfold forTest at hc ⊢
    simp only [Option.elim] at hc ⊢
    cases ha : alwaysTaken (some e) with
    | false =>
      rw [ha] at hc
      refine (h.test false exit N p s σ hN hX hc hH).mono ?_
      rintro x σ' N' q s' _ ⟨rfl, rfl, hP⟩
      refine ⟨by omega, ?_, hP⟩
      by_cases hx : x.toInt ≠ 0
      · rw [if_pos hx, if_neg (by simpa [toInt_ne_zero] using hx)]; rfl
      · rw [if_neg hx, if_pos (by simpa [toInt_ne_zero] using hx)]
    | true =>
      have h0 := always_ne h ha
      have : ∃ v, e.const = some v := by
        unfold alwaysTaken at ha
        simp only [Option.elim] at ha
        cases hk : e.const with
        | none => rw [hk] at ha; cases ha
        | some v => exact ⟨v, rfl⟩
      obtain ⟨v, hv⟩ := this
      have h1 := (h.const v hv).1 σ
      have h2 := h0 _ _ _ h1
      rw [h1]
      exact Runs.ok ⟨Nat.le_refl _, (if_pos (toInt_ne_zero.2 h2)).symm, Post.refl hH⟩

/-- The code of a `for` loop behind the initialisation. -/
def forLoop (c step : Option Node) (body : SNode) (first : Bool) : Code :=
  let hasContinue := body.leak || !body.flow.terminal || !alwaysTaken c
  let exits := body.flow.terminal && !hasContinue
  match step with
  | some e => topLabel fun top => endLabel fun exit =>
      forTest c exit ⨟ (endLabel fun next => emitStmt first body exit next) ⨟ emitIf hasContinue (e.bare false) ⨟ emitIf (!exits) (ins (.jump (off top)))
  | none => topLabel fun next => endLabel fun exit =>
      forTest c exit ⨟ emitStmt first body exit next ⨟ emitIf (!exits) (ins (.jump (off next)))

theorem forLoop_fixed {ec es : Ev Cell} {eb : Ev Sig} {c step : Option Node} {body : SNode} (hc : PartOk E L lim m n b 1 ec c)
    (hs : PartOk E L lim m n b 0 es step) (hb : SNodeOk E L lim m n b eb body) (first : Bool) : Fixed (forLoop c step body first) := by
  unfold forLoop
  cases step with
  | some e =>
    have hs : NodeOk E L lim m n b es e := hs
    have hf : FixedF fun i : Nat × Nat => forTest c i.2 ⨟ (endLabel fun next => emitStmt first body i.2 next) ⨟
        emitIf (body.leak || !body.flow.terminal || !alwaysTaken c) (e.bare false) ⨟
        emitIf (!(body.flow.terminal && !(body.leak || !body.flow.terminal || !alwaysTaken c))) (ins (.jump (off i.1))) :=
      ((forTest_fixed hc).comp fun i : Nat × Nat => i.2).then (((labelled_fixed hb.fixed first).comp fun i : Nat × Nat => i.2).then
        ((FixedF.const ((hs.fbare false).emitIf _)).then ((FixedF.jump fun i : Nat × Nat => i.1).emitIf _)))
    exact fun p q => hf (p, _) (q, _) p q
  | none =>
    have hf : FixedF fun i : Nat × Nat => forTest c i.2 ⨟ emitStmt first body i.2 i.1 ⨟
        emitIf (!(body.flow.terminal && !(body.leak || !body.flow.terminal || !alwaysTaken c))) (ins (.jump (off i.1))) :=
      ((forTest_fixed hc).comp fun i : Nat × Nat => i.2).then (((emit_fixed hb.fixed first).comp fun i : Nat × Nat => (i.2, i.1)).then
        ((FixedF.jump fun i : Nat × Nat => i.1).emitIf _))
    exact fun p q => hf (p, _) (q, _) p q

theorem forLoop_ok (hF : Fits E L lim b) {ec es : Ev Cell} {eb : Ev Sig} {c step : Option Node} {body : SNode} (hc : PartOk E L lim m n b 1 ec c)
    (hs : PartOk E L lim m n b 0 es step) (hb : SNodeOk E L lim m n b eb body) (first : Bool) :
    StmtOk E L lim m n b (iterate (forRound ec es eb) n) (fun _ _ => forLoop c step body first) := by
  intro N p s σ B C hN hB hC hcode hH
  have hgo : ∀ {r σ σ'}, eb σ = .ok r σ' → r = .next ∨ r = .cont → (body.leak || !body.flow.terminal || !alwaysTaken c) = true := by
    rintro r σ σ' he (rfl | rfl)
    · rw [hb.sig.next _ _ he]; simp [Flow.terminal]
    · rw [hb.leak (hb.sig.cont _ _ he)]; rfl
  cases step with
  | some e =>
    have hs : NodeOk E L lim m n b es e := hs
    have hf : FixedF fun i : Nat => forTest c i ⨟ (endLabel fun next => emitStmt first body i next) ⨟
        emitIf (body.leak || !body.flow.terminal || !alwaysTaken c) (e.bare false) ⨟
        emitIf (!(body.flow.terminal && !(body.leak || !body.flow.terminal || !alwaysTaken c))) (ins (.jump (off p))) :=
      (forTest_fixed hc).then ((labelled_fixed hb.fixed first).then ((FixedF.const ((hs.fbare false).emitIf _)).then (FixedF.const ((Fixed.ins _).emitIf _))))
    have hcode : Here E (endLabel fun i => forTest c i ⨟ (endLabel fun next => emitStmt first body i next) ⨟
        emitIf (body.leak || !body.flow.terminal || !alwaysTaken c) (e.bare false) ⨟
        emitIf (!(body.flow.terminal && !(body.leak || !body.flow.terminal || !alwaysTaken c))) (ins (.jump (off p)))) p := hcode
    show Runs E L lim m N p s _ (Leaves E L b (Ends (endLabel fun i => forTest c i ⨟ (endLabel fun next => emitStmt first body i next) ⨟
        emitIf (body.leak || !body.flow.terminal || !alwaysTaken c) (e.bare false) ⨟
        emitIf (!(body.flow.terminal && !(body.leak || !body.flow.terminal || !alwaysTaken c))) (ins (.jump (off p)))) p) B C N s)
    have h1 := endLabel_here hf.to2 hcode
    have hlt := hcode.lt
    generalize Ends (endLabel _) p = x at h1 hlt ⊢
    have hpe : p < E.code.length := by have := h1.lt; unfold Ends at this; omega
    refine iterate_ok ?_ n N s σ hN hN hH
    clear N s σ hN hH
    intro N s σ hN hH
    refine Runs.bind (forTest_ok hc hN hlt h1.fst hH) ?_
    rintro v σ1 N1 q1 s1 _ ⟨hN1, rfl, hP1⟩
    by_cases hv : v.toInt ≠ 0
    · rw [if_pos hv, if_pos hv]
      have hl := labelled_ok hb (s := s) (N := N1) (Nat.le_refl _) (by omega) hlt h1.snd.fst hP1
      have h3 := h1.snd.snd
      generalize Ends (endLabel fun next => emitStmt first body x next) _ = nx at hl h3
      refine Runs.bind hl ?_
      rintro r σ2 N2 q2 s2 he ⟨hP2, hr⟩
      have next : (body.leak || !body.flow.terminal || !alwaysTaken c) = true → N2 ≤ N → q2 = nx →
          Runs E L lim m N2 q2 s2 ((do let _ ← es; pure none : Ev (Option Sig)) σ2) (Round E L b p x N s) := by
        rintro ht hN2 rfl
        rw [ht] at h3
        simp only [Bool.not_true, Bool.and_false, Bool.not_false, emitIf_true] at h3
        refine Runs.bind (hs.bare false N2 q2 s2 σ2 (by omega) h3.fst hP2.holds) ?_
        rintro x σ3 N3 q3 s3 _ ⟨rfl, rfl, hP3, _⟩
        exact Runs.jump (M := N - 1) hF hpe h3.snd (by omega) fun i => Runs.ok ⟨hP2.trans hP3, Nat.le_refl _, rfl⟩
      cases r with
      | next => obtain ⟨rfl, rfl⟩ := hr; exact next (hgo he (Or.inl rfl)) hN1 rfl
      | cont => obtain ⟨rfl, rfl⟩ := hr; exact next (hgo he (Or.inr rfl)) (by omega) rfl
      | brk => obtain ⟨rfl, rfl⟩ := hr; exact Runs.done (M := N) hN1 ⟨hP2, rfl, rfl⟩
      | ret v => obtain ⟨rfl, hr⟩ := hr; exact Runs.done (M := N) hN1 ⟨hP2, rfl, hr⟩
    · rw [if_neg hv, if_neg hv]
      exact Runs.done (M := N) hN1 ⟨hP1, rfl, rfl⟩
  | none =>
    have hs : es = pure 0 := hs
    have hf : FixedF fun i : Nat => forTest c i ⨟ emitStmt first body i p ⨟
        emitIf (!(body.flow.terminal && !(body.leak || !body.flow.terminal || !alwaysTaken c))) (ins (.jump (off p))) :=
      (forTest_fixed hc).then (((emit_fixed hb.fixed first).comp fun i : Nat => (i, p)).then (FixedF.const ((Fixed.ins _).emitIf _)))
    have hcode : Here E (endLabel fun i => forTest c i ⨟ emitStmt first body i p ⨟
        emitIf (!(body.flow.terminal && !(body.leak || !body.flow.terminal || !alwaysTaken c))) (ins (.jump (off p)))) p := hcode
    show Runs E L lim m N p s _ (Leaves E L b (Ends (endLabel fun i => forTest c i ⨟ emitStmt first body i p ⨟
        emitIf (!(body.flow.terminal && !(body.leak || !body.flow.terminal || !alwaysTaken c))) (ins (.jump (off p)))) p) B C N s)
    have h1 := endLabel_here hf.to2 hcode
    have hlt := hcode.lt
    generalize Ends (endLabel _) p = x at h1 hlt ⊢
    have hpe : p < E.code.length := by have := h1.lt; unfold Ends at this; omega
    refine iterate_ok ?_ n N s σ hN hN hH
    clear N s σ hN hH
    intro N s σ hN hH
    refine Runs.bind (forTest_ok hc hN hlt h1.fst hH) ?_
    rintro v σ1 N1 q1 s1 _ ⟨hN1, rfl, hP1⟩
    by_cases hv : v.toInt ≠ 0
    · rw [if_pos hv, if_pos hv]
      refine Runs.bind ((hb.run.emit first).up (s := s) (N := N1) (Nat.le_refl _) (by omega) hlt hpe h1.snd.fst hP1) ?_
      rintro r σ2 N2 q2 s2 he ⟨hP2, hr⟩
      have hnone : (do let _ ← es; pure none : Ev (Option Sig)) σ2 = .ok none σ2 := by rw [hs]; rfl
      cases r with
      | next =>
        obtain ⟨rfl, rfl⟩ := hr
        show Runs E L lim m N2 _ s2 ((do let _ ← es; pure none : Ev (Option Sig)) σ2) _
        have h3 := h1.snd.snd
        rw [hnone]
        rw [hgo he (Or.inl rfl)] at h3
        simp only [Bool.not_true, Bool.and_false, Bool.not_false, emitIf_true] at h3
        exact Runs.jump (M := N - 1) hF hpe h3 (by omega) fun i => Runs.ok ⟨hP2, Nat.le_refl _, rfl⟩
      | cont =>
        obtain ⟨rfl, rfl⟩ := hr
        show Runs E L lim m _ _ s2 ((do let _ ← es; pure none : Ev (Option Sig)) σ2) _
        rw [hnone]
        exact Runs.ok ⟨hP2, by omega, rfl⟩
      | brk => obtain ⟨rfl, rfl⟩ := hr; exact Runs.done (M := N) hN1 ⟨hP2, rfl, rfl⟩
      | ret v => obtain ⟨rfl, hr⟩ := hr; exact Runs.done (M := N) hN1 ⟨hP2, rfl, hr⟩
    · rw [if_neg hv, if_neg hv]
      exact Runs.done (M := N) hN1 ⟨hP1, rfl, rfl⟩

theorem never_ok {ec es : Ev Cell} {eb : Ev Sig} {c : Option Node} (hc : PartOk E L lim m n b 1 ec c) (h : neverTaken c = true) :
    StmtOk E L lim m n b (iterate (forRound ec es eb) n) (fun _ _ => skip) := by
  intro N p s σ B C hN _ _ _ hH
  have hz : ec σ = .ok 0 σ := by
    cases c with
    | none => cases h
    | some e =>
      have hc : NodeOk E L lim m n b ec e := hc
      unfold neverTaken at h
      simp only [Option.elim] at h
      cases hk : e.const with
      | none => rw [hk] at h; cases h
      | some v =>
        rw [hk] at h
        simp only [decide_eq_true_eq] at h
        rw [(hc.const v hk).1 σ, h]
  cases n with
  | zero =>
    obtain rfl : N = 0 := by omega
    exact Or.inl rfl
  | succ k =>
    have : iterate (forRound ec es eb) (k + 1) σ = .ok .next σ := by
      show Ev.bind (Ev.bind ec _) _ σ = _
      unfold Ev.bind
      rw [hz]
      rfl
    rw [this]
    exact Runs.ok ⟨Post.refl hH, rfl, rfl⟩

theorem for_ok (hF : Fits E L lim b) {ei : Ev Sig} {ec es : Ev Cell} {eb : Ev Sig} {init : SNodes} {c step : Option Node} {body : SNode} (hi : SNodesOk E L lim m n b ei init)
    (hc : PartOk E L lim m n b 1 ec c) (hs : PartOk E L lim m n b 0 es step) (hb : SNodeOk E L lim m n b eb body) :
    SNodeOk E L lim m n b (do let r ← ei; r.andThen (iterate (forRound ec es eb) n)) (forStmt init c step body) := by
  have hsig : Sigs (iterate (forRound ec es eb) n) (if neverTaken c then .none else loopFlow (alwaysTaken c) body) false false :=
    (loop_sigs hb.sig (fun _ _ _ => for_end) (fun h => part_always hc h)).weaken _
  have hcode : ∀ B C, (forStmt init c step body).code B C =
      (init.code true B C ⨟ if neverTaken c then skip else forLoop c step body (if !alwaysTaken c then false else init.after true)) := by
    intro B C
    unfold forStmt forLoop forTest
    cases step <;> rfl
  have hgo : StmtOk E L lim m n b (iterate (forRound ec es eb) n)
      (fun _ _ => if neverTaken c then skip else forLoop c step body (if !alwaysTaken c then false else init.after true)) ∧
      Fixed (if neverTaken c then skip else forLoop c step body (if !alwaysTaken c then false else init.after true)) := by
    cases hn : neverTaken c with
    | true => exact ⟨never_ok hc hn, Fixed.skip⟩
    | false => exact ⟨forLoop_ok hF hc hs hb _, forLoop_fixed hc hs hb _⟩
  refine ⟨?_, ?_, ⟨?_, ?_, ?_⟩, hi.leak⟩
  · have := andThen_ok (hi.run true) hgo.1
    intro N p s σ B C hN hB hC hc hH
    rw [hcode] at hc ⊢
    exact this N p s σ B C hN hB hC hc hH
  · have := (hi.fixed true).then (FixedF.const hgo.2)
    intro x y p q
    simp only [hcode]
    exact this x y p q
  · intro σ σ' h
    obtain ⟨r, σ1, h1, h2⟩ := Ev.bind_ok_iff h
    rcases andThen_cases h2 with ⟨rfl, h2⟩ | ⟨h3, rfl, rfl⟩
    · exact hsig.next _ _ h2
    · exact absurd rfl h3
  · intro σ σ' h
    obtain ⟨r, σ1, h1, h2⟩ := Ev.bind_ok_iff h
    rcases andThen_cases h2 with ⟨rfl, h2⟩ | ⟨h3, rfl, rfl⟩
    · cases hsig.brk _ _ h2
    · exact hi.sig.brk _ _ h1
  · intro σ σ' h
    obtain ⟨r, σ1, h1, h2⟩ := Ev.bind_ok_iff h
    rcases andThen_cases h2 with ⟨rfl, h2⟩ | ⟨h3, rfl, rfl⟩
    · cases hsig.cont _ _ h2
    · exact hi.sig.cont _ _ h1

end

end Verif.Compiled

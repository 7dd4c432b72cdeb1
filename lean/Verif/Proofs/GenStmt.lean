import Verif.Model.StmtGen
import Verif.Proofs.GenFlow

/-! The code for statements does what the source says. -/
namespace Verif.Compiled
open Verif.VM Verif.Lang Verif.CodeGen

/-! ### Lengths -/

/-- The lengths of all codes of a family are the same. -/
abbrev FixedF {ι : Type} (f : ι → Code) : Prop := ∀ i j p q, (f i p).length = (f j q).length

theorem FixedF.const {ι : Type} {c : Code} (h : Fixed c) : FixedF fun _ : ι => c := fun _ _ p q => h p q
theorem FixedF.then {ι : Type} {f g : ι → Code} (hf : FixedF f) (hg : FixedF g) : FixedF fun i => f i ⨟ g i := fun i j p q => by
  show (f i p ++ g i _).length = (f j q ++ g j _).length
  rw [List.length_append, List.length_append, hf i j p q, hg i j _ (q + (f j q).length)]
theorem FixedF.emitIf {ι : Type} {f : ι → Code} (hf : FixedF f) (x : Bool) : FixedF fun i => emitIf x (f i) := by
  cases x
  · exact fun _ _ _ _ => rfl
  · exact hf
theorem FixedF.endLabel {ι : Type} {f : ι → Nat → Code} (h : FixedF fun x : ι × Nat => f x.1 x.2) : FixedF fun i => endLabel (f i) :=
  fun i j p q => h (i, _) (j, _) p q
theorem FixedF.topLabel {ι : Type} {f : ι → Nat → Code} (h : FixedF fun x : ι × Nat => f x.1 x.2) : FixedF fun i => topLabel (f i) :=
  fun i j p q => h (i, _) (j, _) p q
theorem FixedF.jump {ι : Type} (t : ι → Nat) : FixedF fun i => CodeGen.ins (.jump (off (t i))) := fun _ _ _ _ => rfl
theorem FixedF.comp {ι κ : Type} {f : ι → Code} (h : FixedF f) (g : κ → ι) : FixedF fun k => f (g k) := fun i j p q => h (g i) (g j) p q

section
variable (E : Env) (L : Layout) (lim : Int) (m n : Nat) (b : State)

/-- How the code of a statement is left: at its end, at the target of `break` or `continue`, or at a RETN instruction. -/
def Leaves (e B C N : Nat) (s : IState) (r : Sig) (σ' : Store) (N' q : Nat) (s' : IState) : Prop :=
  Post L b s.vm σ' s'.vm ∧
  match r with
  | .next => N' = N ∧ q = e
  | .brk => N' = N ∧ q = B
  | .cont => N' = N - 1 ∧ q = C
  | .ret v => N' = N ∧ Here E (ins .retn) q ∧ s'.pri = v

/-- The code does what the statement says. -/
def StmtOk (ev : Ev Sig) (code : Nat → Nat → Code) : Prop := ∀ N p s σ B C, N ≤ n → B < E.code.length → C < E.code.length →
  Here E (code B C) p → Holds L b σ s.vm → Runs E L lim m N p s (ev σ) (Leaves E L b (Ends (code B C) p) B C N s)

/-- How the source statement can end. -/
structure Sigs (ev : Ev Sig) (flow : Flow) (brk cont : Bool) : Prop where
  next : ∀ σ σ', ev σ = .ok .next σ' → flow = .none
  brk : ∀ σ σ', ev σ = .ok .brk σ' → brk = true
  cont : ∀ σ σ', ev σ = .ok .cont σ' → cont = true

/-- What the nodes of statements satisfy. -/
structure SNodeOk (ev : Ev Sig) (nd : SNode) : Prop where
  run : StmtOk E L lim m n b ev nd.code
  fixed : FixedF fun x : Nat × Nat => nd.code x.1 x.2
  sig : Sigs ev nd.flow nd.brk nd.cont
  leak : nd.cont = true → nd.leak = true

/-- What the nodes of sequences of statements satisfy. -/
structure SNodesOk (ev : Ev Sig) (nd : SNodes) : Prop where
  run : ∀ f, StmtOk E L lim m n b ev (nd.code f)
  fixed : ∀ f, FixedF fun x : Nat × Nat => nd.code f x.1 x.2
  sig : Sigs ev nd.flow nd.brk nd.cont
  leak : nd.cont = true → nd.leak = true

end

section
variable {E : Env} {L : Layout} {lim : Int} {m n : Nat} {b : State}

theorem Leaves.up {e B C N N1 : Nat} {s s1 : IState} {σ1 : Store} {r : Sig} {σ' : Store} {N' q : Nat} {s' : IState}
    (h : Leaves E L b e B C N1 s1 r σ' N' q s') (hN : N1 ≤ N) (hP : Post L b s.vm σ1 s1.vm) : ∃ M, N' ≤ M ∧ Leaves E L b e B C N s r σ' M q s' := by
  obtain ⟨hP', h⟩ := h
  cases r with
  | next => exact ⟨N, by omega, hP.trans hP', rfl, h.2⟩
  | brk => exact ⟨N, by omega, hP.trans hP', rfl, h.2⟩
  | cont => exact ⟨N - 1, by omega, hP.trans hP', rfl, h.2⟩
  | ret v => exact ⟨N, by omega, hP.trans hP', rfl, h.2⟩

/-! ### Ev -/

theorem Ev.bind_ok_iff {α β : Type} {x : Ev α} {f : α → Ev β} {σ σ' : Store} {v : β} (h : (x >>= f) σ = .ok v σ') :
    ∃ a σ1, x σ = .ok a σ1 ∧ f a σ1 = .ok v σ' := by
  have h : Ev.bind x f σ = _ := h
  unfold Ev.bind at h
  cases hx : x σ with
  | ok a s => rw [hx] at h; exact ⟨a, s, rfl, h⟩
  | err => rw [hx] at h; cases h
  | undef => rw [hx] at h; cases h
  | more => rw [hx] at h; cases h

theorem Ev.pure_inv {α : Type} {a v : α} {σ σ' : Store} (h : (pure a : Ev α) σ = .ok v σ') : v = a ∧ σ' = σ := by cases h; exact ⟨rfl, rfl⟩

theorem iterate_end {body : Ev (Option Sig)} : ∀ {k : Nat} {σ σ' : Store} {r : Sig}, iterate body k σ = .ok r σ' →
    ∃ σ1, body σ1 = .ok (some r) σ'
  | 0, _, _, _, h => by cases h
  | k+1, σ, σ', r, h => by
    obtain ⟨o, σ1, h1, h2⟩ := Ev.bind_ok_iff h
    cases o with
    | none => exact iterate_end h2
    | some r' =>
      have h2 : (pure r' : Ev Sig) σ1 = _ := h2
      obtain ⟨rfl, rfl⟩ := Ev.pure_inv h2
      exact ⟨σ, h1⟩

theorem toInt_ne_zero {x : Cell} : x.toInt ≠ 0 ↔ x ≠ 0 := by rw [ne_eq, toInt_zero_iff]

/-! ### Single statements -/

theorem emitBreak_fixed (f : Bool) : Fixed (emitBreak f) := (Fixed.ins _).emitIf _

theorem Runs.brk {α : Type} {N p : Nat} {s : IState} {o : Out α} {Q : α → Store → Nat → Nat → IState → Prop} {f : Bool} (h : Here E (emitBreak f) p)
    (k : Runs E L lim m N (Ends (emitBreak f) p) s o Q) : Runs E L lim m N p s o Q := by
  cases f
  · have h : Here E (CodeGen.ins .brk) p := h
    exact Runs.ins h enc_brk (fun _ => rfl) k
  · exact k

theorem StmtOk.emit {ev : Ev Sig} {nd : SNode} (h : StmtOk E L lim m n b ev nd.code) (f : Bool) : StmtOk E L lim m n b ev (emitStmt f nd) := by
  intro N p s σ B C hN hB hC hc hH
  rw [show emitStmt f nd B C = (emitBreak f ⨟ nd.code B C) from rfl, ends_then]
  exact Runs.brk hc.fst (h N _ s σ B C hN hB hC hc.snd hH)

theorem emit_fixed {nd : SNode} (h : FixedF fun x : Nat × Nat => nd.code x.1 x.2) (f : Bool) : FixedF fun x : Nat × Nat => emitStmt f nd x.1 x.2 :=
  (FixedF.const (emitBreak_fixed f)).then h

theorem Sigs.normal {ev : Ev Sig} (h : ∀ σ r σ', ev σ = .ok r σ' → r = .next) (x y : Bool) : Sigs ev .none x y :=
  ⟨fun _ _ _ => rfl, fun σ σ' h' => (by have := h _ _ _ h'; cases this), fun σ σ' h' => (by have := h _ _ _ h'; cases this)⟩

theorem simple_ok {ev : Ev Sig} {bad after : Bool} {c : Code} (hs : ∀ σ r σ', ev σ = .ok r σ' → r = .next) (hf : Fixed c)
    (hr : ∀ N p s σ, N ≤ n → Here E c p → Holds L b σ s.vm → Runs E L lim m N p s (ev σ) (EndsWith L b (Ends c p) N s fun _ _ => True)) :
    SNodeOk E L lim m n b ev (simpleStmt bad after c) := by
  refine ⟨?_, FixedF.const hf, Sigs.normal hs _ _, fun h => by cases h⟩
  intro N p s σ B C hN _ _ hc hH
  refine (hr N p s σ hN hc hH).mono ?_
  rintro r σ' N' q s' he ⟨rfl, rfl, hP, _⟩
  have := hs _ _ _ he
  subst this
  exact ⟨hP, rfl, rfl⟩

theorem exprStmt_ok {ev : Ev Cell} {e : Node} (he : NodeOk E L lim m n b ev e) :
    SNodeOk E L lim m n b (do let _ ← ev; pure .next) (exprStmt e) := by
  refine simple_ok (fun σ r σ' h => ?_) (he.fbare true) ?_
  · obtain ⟨_, _, _, h2⟩ := Ev.bind_ok_iff h
    exact (Ev.pure_inv h2).1
  · intro N p s σ hN hc hH
    refine Runs.bind (he.bare true N p s σ hN hc hH) ?_
    rintro v σ' N' q s' _ ⟨rfl, rfl, hP, _⟩
    exact Runs.ok ⟨rfl, rfl, hP, True.intro⟩

theorem localVar_ok (hF : Fits E L lim b) (hA : Activation E L m b) {call : Nat → List Cell → Ev Cell} {slot : Nat} {init : Option Expr}
    (hi : ∀ e, init = some e → NodeOk E L lim m n b (eval L.size call e) (gen L e)) (hs : L.hasSlot slot = true) :
    SNodeOk E L lim m n b (do let v ← evalOpt L.size call 0 init; fun s => .ok .next (s.setL slot v)) (localVar L slot (init.map (gen L))) := by
  unfold localVar
  refine simple_ok (fun σ r σ' h => ?_) ?_ ?_
  · obtain ⟨_, _, _, h2⟩ := Ev.bind_ok_iff h
    cases h2
    rfl
  · cases init with
    | none => exact Fixed.ins _
    | some e =>
      show Fixed ((gen L e).const.elim _ _)
      cases (gen L e).const with
      | none => exact (hi e rfl).fexpr.then (Fixed.ins _)
      | some v => exact Fixed.ins _
  · intro N p s σ hN hc hH
    cases init with
    | none =>
      refine Runs.zeroS hF hA hs hc hH (fun v' hP => ?_)
      exact Runs.ok ⟨rfl, rfl, hP, True.intro⟩
    | some e =>
      have he := hi e rfl
      show Runs E L lim m N p s ((do let v ← eval L.size call e; fun s => .ok .next (s.setL slot v) : Ev Sig) σ) _
      have hc : Here E ((gen L e).const.elim ((gen L e).expr ⨟ ins (.storS slot .pri)) fun v => ins (.storSC slot v)) p := hc
      show Runs E L lim m N p s _ (EndsWith L b (Ends ((gen L e).const.elim ((gen L e).expr ⨟ ins (.storS slot .pri)) fun v => ins (.storSC slot v)) p) N s fun _ _ => True)
      cases hk : (gen L e).const with
      | none =>
        rw [hk] at hc
        have hc : Here E ((gen L e).expr ⨟ ins (.storS slot .pri)) p := hc
        show Runs E L lim m N p s _ (EndsWith L b (Ends ((gen L e).expr ⨟ ins (.storS slot .pri)) p) N s fun _ _ => True)
        rw [ends_then]
        refine Runs.bind (he.expr N p s σ hN hc.fst hH) ?_
        rintro v σ' N' q s' _ ⟨rfl, rfl, hP, rfl⟩
        refine Runs.storS hF hA hs hc.snd hP.holds (fun v' hP' => ?_)
        exact Runs.ok ⟨rfl, rfl, hP.trans hP', True.intro⟩
      | some v =>
        rw [hk] at hc
        have hc : Here E (ins (.storSC slot v)) p := hc
        have hv := (he.const v hk).1 σ
        have : (do let v ← eval L.size call e; fun s => .ok .next (s.setL slot v) : Ev Sig) σ = .ok .next (σ.setL slot v) := by
          show Ev.bind _ _ σ = _
          unfold Ev.bind
          rw [hv]
        rw [this]
        refine Runs.storSC hF hA hs hc hH (fun v' hP => ?_)
        exact Runs.ok ⟨rfl, rfl, hP, True.intro⟩

theorem break_ok (hF : Fits E L lim b) : SNodeOk E L lim m n b (pure .brk) breakStmt := by
  refine ⟨?_, FixedF.jump _, ⟨fun _ _ h => (by cases h), fun _ _ _ => rfl, fun _ _ h => (by cases h)⟩, fun h => by cases h⟩
  intro N p s σ B C hN hB hC hc hH
  exact Runs.jump (M := N) hF hB hc (by omega) (fun i => Runs.ok ⟨Post.refl hH, rfl, rfl⟩)

theorem continue_ok (hF : Fits E L lim b) : SNodeOk E L lim m n b (pure .cont) continueStmt := by
  refine ⟨?_, FixedF.jump _, ⟨fun _ _ h => (by cases h), fun _ _ h => (by cases h), fun _ _ _ => rfl⟩, fun _ => rfl⟩
  intro N p s σ B C hN hB hC hc hH
  exact Runs.jump (M := N - 1) hF hC hc (by omega) (fun i => Runs.ok ⟨Post.refl hH, rfl, rfl⟩)

/-- Expressions that may be left out. -/
theorem evalOpt_ok {call : Nat → List Cell → Ev Cell} {init : Option Expr}
    (hi : ∀ e, init = some e → NodeOk E L lim m n b (eval L.size call e) (gen L e)) :
    ExprOk E L lim m n b (evalOpt L.size call 0 init) ((init.map (gen L)).elim (constPri 0) (·.expr)) ∧ Fixed ((init.map (gen L)).elim (constPri 0) (·.expr)) := by
  cases init with
  | none => exact ⟨constPri_ok fun _ => rfl, Fixed.constPri 0⟩
  | some e => exact ⟨(hi e rfl).expr, (hi e rfl).fexpr⟩

theorem return_ok {call : Nat → List Cell → Ev Cell} {e : Option Expr}
    (hi : ∀ x, e = some x → NodeOk E L lim m n b (eval L.size call x) (gen L x)) :
    SNodeOk E L lim m n b (do let v ← evalOpt L.size call 0 e; pure (.ret v)) (returnStmt (e.map (gen L))) := by
  have he := evalOpt_ok hi
  have hsig : ∀ {σ σ' r}, (do let v ← evalOpt L.size call 0 e; pure (.ret v) : Ev Sig) σ = .ok r σ' → ∃ v, r = .ret v := by
    intro σ σ' r h
    obtain ⟨v, _, _, h2⟩ := Ev.bind_ok_iff h
    exact ⟨v, (Ev.pure_inv h2).1⟩
  refine ⟨?_, FixedF.const (he.2.then (Fixed.ins _)), ⟨?_, ?_, ?_⟩, fun h => by cases h⟩
  · intro N p s σ B C hN hB hC hc hH
    have hc : Here E ((e.map (gen L)).elim (constPri 0) (·.expr) ⨟ ins .retn) p := hc
    refine Runs.bind (he.1 N p s σ hN hc.fst hH) ?_
    rintro v σ' N' q s' _ ⟨rfl, rfl, hP, hv⟩
    exact Runs.ok ⟨hP, rfl, hc.snd, hv⟩
  · intro σ σ' h; obtain ⟨v, h⟩ := hsig h; cases h
  · intro σ σ' h; obtain ⟨v, h⟩ := hsig h; cases h
  · intro σ σ' h; obtain ⟨v, h⟩ := hsig h; cases h

theorem Runs.halt {α : Type} {N p : Nat} {s : IState} {σ : Store} {Q : α → Store → Nat → Nat → IState → Prop} {v : Cell} (h : Here E (CodeGen.ins (.halt v)) p)
    (hH : Holds L b σ s.vm) : Runs E L lim m N p s (.err σ .invalidInstruction) Q :=
  Runs.fail (loop_fail ((enc_halt v).at h) (s' := s) rfl 0) hH.globals

theorem exit_ok {call : Nat → List Cell → Ev Cell} {e : Option Expr}
    (hi : ∀ x, e = some x → NodeOk E L lim m n b (eval L.size call x) (gen L x)) :
    SNodeOk E L lim m n b (do let _ ← evalOpt L.size call 0 e; raise .invalidInstruction) (exitStmt (e.map (gen L))) := by
  have he := evalOpt_ok hi
  refine simple_ok (fun σ r σ' h => ?_) (he.2.then (Fixed.ins _)) ?_
  · obtain ⟨_, _, _, h2⟩ := Ev.bind_ok_iff h
    cases h2
  · intro N p s σ hN hc hH
    refine Runs.bind (he.1 N p s σ hN hc.fst hH) ?_
    rintro v σ' N' q s' _ ⟨rfl, rfl, hP, hv⟩
    exact Runs.halt hc.snd hP.holds

theorem assert_ok {ev : Ev Cell} {c : Node} (hc : NodeOk E L lim m n b ev c) :
    SNodeOk E L lim m n b (do let x ← ev; if x.toInt ≠ 0 then pure .next else raise .invalidInstruction) (assertStmt c) := by
  have hf : Fixed2 fun flab1 => c.test true flab1 ⨟ ins (.halt 2) := (hc.ftest true).then (Fixed2.const (Fixed.ins _))
  refine simple_ok (fun σ r σ' h => ?_) (Fixed.endLabel hf) ?_
  · obtain ⟨x, _, _, h2⟩ := Ev.bind_ok_iff h
    split at h2
    · exact (Ev.pure_inv h2).1
    · cases h2
  · intro N p s σ hN hcode hH
    have h1 := endLabel_here hf hcode
    refine Runs.bind (hc.test true _ N p s σ hN hcode.lt h1.fst hH) ?_
    rintro x σ' N' q s' _ ⟨rfl, rfl, hP⟩
    split
    · rename_i hx
      rw [if_pos (by simpa [toInt_ne_zero] using hx)]
      exact Or.inl ⟨N, _, s', Reach.rfl.relax (by omega), rfl, rfl, hP, True.intro⟩
    · rename_i hx
      rw [if_neg (by simpa [toInt_ne_zero] using hx)]
      exact Runs.halt h1.snd hP.holds

end

end Verif.Compiled

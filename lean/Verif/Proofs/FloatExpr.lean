import Verif.Proofs.FloatStep

/-! Lemmas for C91: operators. -/
namespace Verif.Flt
open Verif.VM hiding run
open Verif.Long (run run_append run_two run_fail)

variable {F : Frame} {E : Env} {A : FloatArith} {m : Nat} {here : Int} {b : State} {σ : Store} {s : IState}

theorem run_constTo (r : Reg) (v : Cell) : run E m here [constTo r v] s = .ok (s.setReg r v) () := by
  unfold constTo
  by_cases h : v = 0
  · rw [if_pos h, h]; rfl
  · rw [if_neg h]; rfl

theorem reg_set (r q : Reg) (v : Cell) : (s.setReg r v).vm = s.vm := by cases r <;> rfl

/-- The code of a node computes a value (or ends with an error). -/
def Goal (E : Env) (m : Nat) (here : Int) (F : Frame) (b : State) (n : Node) (r : Except Err (Value × Store)) (σ : Store) (s : IState) : Prop :=
  match r with
  | .ok (v, σ') => v.ty = n.ty ∧ (∀ c, n.const = some c → v.cell = c ∧ σ' = σ) ∧
      ∃ s', run E m here n.code s = .ok s' () ∧ s'.pri = v.cell ∧ Post F b σ' s s'
  | .error x => n.const = none ∧ ∃ s', run E m here n.code s = .fail s' x

theorem goal_num {t : Ty} {v : Cell} {w : Bool} (hH : Holds F b σ s.vm) : Goal E m here F b (.num t v w) (.ok (⟨t, v⟩, σ)) σ s := by
  refine ⟨rfl, fun c h => ⟨Option.some.inj h, rfl⟩, s.setReg .pri v, run_constTo .pri v, rfl, ?_⟩
  exact ⟨hH, rfl, fun _ _ _ => rfl⟩

/-- Code that goes on with the value in PRI, and only changes registers. -/
theorem goal_then {n : Node} {r : Except Err (Value × Store)} (h : Goal E m here F b n r σ s) {t : Ty} {w : Bool} {c : List Insn} {f : Value → Value}
    (ht : ∀ v, v.ty = n.ty → (f v).ty = t)
    (hc : ∀ v s1, v.ty = n.ty → s1.pri = v.cell → ∃ s2, run E m here c s1 = .ok s2 () ∧ s2.pri = (f v).cell ∧ s2.vm = s1.vm) :
    Goal E m here F b ⟨t, none, w, n.code ++ c⟩ (r.bind fun r => .ok (f r.1, r.2)) σ s := by
  cases r with
  | error x =>
    obtain ⟨h1, s', h2⟩ := h
    exact ⟨rfl, s', run_fail h2⟩
  | ok p =>
    obtain ⟨v, σ'⟩ := p
    obtain ⟨h1, h2, s1, h3, h4, h5⟩ := h
    obtain ⟨s2, k1, k2, k3⟩ := hc v s1 h1 h4
    refine ⟨ht v h1, fun c h => (nomatch h), s2, ?_, k2, h5.regs k3⟩
    show run E m here (n.code ++ c) s = _
    rw [run_two h3, k1]

theorem goal_toFloat (hA : Agree E.floats A) {n : Node} {r : Except Err (Value × Store)} (h : Goal E m here F b n r σ s) :
    Goal E m here F b (toFloat n) (r.bind fun r => .ok (⟨.float, r.1.asFloat A⟩, r.2)) σ s := by
  unfold toFloat
  by_cases ht : n.ty = .float
  · rw [if_pos ht]
    cases r with
    | error x => exact h
    | ok p =>
      obtain ⟨v, σ'⟩ := p
      obtain ⟨h1, h2⟩ := h
      have e : v.asFloat A = v.cell := by unfold Value.asFloat; rw [if_pos (by rw [h1, ht])]
      refine ⟨ht.symm, ?_⟩
      show (∀ c, n.const = some c → v.asFloat A = c ∧ _) ∧ ∃ s' : IState, _ ∧ s'.pri = v.asFloat A ∧ _
      rw [e]
      exact h2
  · rw [if_neg ht]
    refine goal_then (f := fun v => ⟨.float, v.asFloat A⟩) h (fun _ _ => rfl) fun v s1 h1 h2 => ?_
    refine ⟨_, rfl, ?_, rfl⟩
    show E.floats.ofInt s1.pri = v.asFloat A
    unfold Value.asFloat
    rw [if_neg (by rw [h1]; exact ht), hA.ofInt, h2]

theorem toFloat_ty (n : Node) : (toFloat n).ty = .float := by
  unfold toFloat; split
  · assumption
  · rfl

/-! ### Instructions of operators -/

theorem run_opF (hA : Agree E.floats A) (op : Bin) {l r : Cell}
    (h : (s.pri = r ∧ s.alt = l) ∨ (commutative op = true ∧ s.pri = l ∧ s.alt = r)) :
    ∃ s', run E m here (emitOp .float op) s = .ok s' () ∧ s'.vm = s.vm ∧ s'.pri = (opF A op l r).cell ∧ (exchanged op = true → s'.alt = r) := by
  obtain ⟨vm, p, a, k⟩ := s
  rcases h with ⟨h1, h2⟩ | ⟨h0, h1, h2⟩ <;> cases h1 <;> cases h2 <;> cases op <;> first | cases h0 | skip
  all_goals refine ⟨_, rfl, rfl, ?_, ?_⟩
  all_goals first | (intro hx; cases hx; done) | (intro; rfl) | skip
  all_goals simp only [opF, IState.setReg, bit, boolCell, hA.add, hA.sub, hA.mul, hA.div, hA.rem, hA.eq, hA.ne, hA.lt, hA.le, hA.gt, hA.ge, IState.reg]
  all_goals first | rfl | exact hA.addComm _ _ | exact hA.mulComm _ _ | rw [hA.eqComm]

theorem opI_div {t : Ty} {x y r : Cell} : (if y = 0 then Except.error Err.divideByZero
      else if y = -1 ∧ x = BitVec.intMin 32 then .error .integerOverflow else .ok (⟨t, r⟩ : Value)) =
    match divCheck x y with | some e => .error e | none => .ok ⟨t, r⟩ := by
  unfold divCheck
  split
  · rfl
  · split <;> rfl

theorem run_opI (t' : Ty) (ht : t' ≠ .float) (op : Bin) {l r : Cell}
    (h : (s.pri = r ∧ s.alt = l) ∨ (commutative op = true ∧ s.pri = l ∧ s.alt = r)) :
    match opI t' op l r with
    | .ok v => v.ty = resultTy op t' ∧ ∃ s', run E m here (emitOp t' op) s = .ok s' () ∧ s'.vm = s.vm ∧ s'.pri = v.cell ∧ (exchanged op = true → s'.alt = r)
    | .error x => ∃ s', run E m here (emitOp t' op) s = .fail s' x := by
  obtain ⟨vm, p, a, k⟩ := s
  have e : emitOp t' op = (if exchanged op then [.xchg] else []) ++ [insnI op] := by unfold emitOp; rw [if_neg ht]
  rw [e]
  have hd : ∀ (i : Insn) (q : Cell → Cell → Cell), (i = .sdivAltI32 ∧ q = BitVec.sdiv) ∨ (i = .smodAltI32 ∧ q = BitVec.srem) →
      run E m here [i] ⟨vm, r, l, k⟩ = match divCheck l r with | some e => .fail ⟨vm, r, l, k⟩ e | none => .ok ⟨vm, q l r, l, k⟩ () := by
    intro i q hi
    rcases hi with ⟨rfl, rfl⟩ | ⟨rfl, rfl⟩
    all_goals
      simp only [run, visit, bind, IM.bind, getR, IState.reg]
      cases divCheck l r <;> rfl
  rcases h with ⟨h1, h2⟩ | ⟨h0, h1, h2⟩
  · cases h1; cases h2
    cases op
    case div =>
      simp only [opI, opI_div]
      have := hd .sdivAltI32 _ (.inl ⟨rfl, rfl⟩)
      show match (match divCheck a p with | some e => _ | none => _ : Except Err Value) with | .ok v => _ | .error x => _
      cases hx : divCheck a p with
      | some e => rw [hx] at this; exact ⟨_, this⟩
      | none => rw [hx] at this; exact ⟨rfl, _, this, rfl, rfl, fun h => (nomatch h)⟩
    case mod =>
      simp only [opI, opI_div]
      have := hd .smodAltI32 _ (.inr ⟨rfl, rfl⟩)
      show match (match divCheck a p with | some e => _ | none => _ : Except Err Value) with | .ok v => _ | .error x => _
      cases hx : divCheck a p with
      | some e => rw [hx] at this; exact ⟨_, this⟩
      | none => rw [hx] at this; exact ⟨rfl, _, this, rfl, rfl, fun h => (nomatch h)⟩
    all_goals refine ⟨rfl, _, rfl, rfl, ?_, ?_⟩
    all_goals first | (intro hx; cases hx; done) | (intro; rfl) | skip
    all_goals first
      | rfl
      | exact BitVec.mul_comm _ _
      | exact BitVec.add_comm _ _
      | (show boolCell (p == a) = bit (a == p); unfold bit boolCell; rw [BEq.comm])
      | (show boolCell (p != a) = bit (a != p); unfold bit boolCell; rw [bne_comm])
  · cases h1; cases h2
    cases op <;> first | cases h0 | skip
    all_goals exact ⟨rfl, _, rfl, rfl, rfl, fun h => (nomatch h)⟩

/-- An operator, when its operands are in the registers. -/
theorem run_op (hA : Agree E.floats A) {t : Ty} (op : Bin) {l r : Value} (hl : l.ty = t) (hr : l.ty = .float ↔ r.ty = .float)
    (h : (s.pri = r.cell ∧ s.alt = l.cell) ∨ (commutative op = true ∧ s.pri = l.cell ∧ s.alt = r.cell)) :
    match apply A op l r with
    | .ok v => v.ty = resultTy op t ∧ ∃ s', run E m here (emitOp t op) s = .ok s' () ∧ s'.vm = s.vm ∧ s'.pri = v.cell ∧
        (exchanged op = true → s'.alt = r.cell)
    | .error x => ∃ s', run E m here (emitOp t op) s = .fail s' x := by
  unfold apply
  by_cases hf : l.ty = .float
  · rw [if_pos (.inl hf)]
    have e1 : l.asFloat A = l.cell := by unfold Value.asFloat; rw [if_pos hf]
    have e2 : r.asFloat A = r.cell := by unfold Value.asFloat; rw [if_pos (hr.mp hf)]
    rw [e1, e2]
    rw [← hl, hf]
    refine ⟨?_, run_opF hA op h⟩
    cases op <;> rfl
  · rw [if_neg (fun hc => hc.elim hf (fun h => hf (hr.mpr h))), hl]
    exact run_opI t (by rw [← hl]; exact hf) op h

/-! ### Operands -/

theorem run_operands (hF : F.Fits E m b) (hH : Holds F b σ s.vm) {left right : Node} {l : Value} {op : Bin} {k : Nat}
    (hp : match left.const with | some c => l.cell = c | none => s.pri = l.cell) (hroom : b.hp + 4 * ((k : Int) + 1) < s.vm.sp)
    {rr : Except Err (Value × Store)}
    (hr : ∀ s1 : IState, Holds F b σ s1.vm → b.hp + 4 * (k : Int) < s1.vm.sp → Goal E m here F b right rr σ s1) :
    match rr with
    | .error x => ∃ s', run E m here (operands op left right) s = .fail s' x
    | .ok (r, σ') => r.ty = right.ty ∧ ∃ s', run E m here (operands op left right) s = .ok s' () ∧ Post F b σ' s s' ∧
        ((s'.pri = r.cell ∧ s'.alt = l.cell) ∨ (commutative op = true ∧ s'.pri = l.cell ∧ s'.alt = r.cell)) := by
  have h0 := hr s hH (by omega)
  have hpu : b.hp + 4 < s.vm.sp := by omega
  -- the state after PUSH
  have hpush : ∀ s1 : IState, s1 = { s with vm := { s.vm with mem := wr32 s.vm.mem (s.vm.sp - 4) (s.reg .pri), sp := s.vm.sp - 4 } } →
      Holds F b σ s1.vm ∧ b.hp + 4 * (k : Int) < s1.vm.sp := by
    rintro s1 rfl
    refine ⟨hH.pushed hF hpu _, ?_⟩
    show _ < s.vm.sp - 4
    omega
  unfold operands
  cases hlc : left.const with
  | some v =>
    rw [hlc] at hp
    dsimp only at hp ⊢
    cases hrc : right.const with
    | some w =>
      cases rr with
      | error x => exact absurd (hrc ▸ h0.1) (fun h => (nomatch h))
      | ok p =>
        obtain ⟨r, σ'⟩ := p
        obtain ⟨h1, hk, _⟩ := h0
        obtain ⟨h2, rfl⟩ := hk w hrc
        clear hk
        refine ⟨h1, ⟨s.vm, w, v, s.polls⟩, ?_, ⟨hH, rfl, fun _ _ _ => rfl⟩, .inl ⟨h2.symm, hp.symm⟩⟩
        dsimp only
        rw [run_two (run_constTo .pri w), run_constTo]; rfl
    | none =>
      dsimp only
      cases rr with
      | error x =>
        obtain ⟨_, s', h⟩ := h0
        exact ⟨s', run_fail h⟩
      | ok p =>
        obtain ⟨r, σ'⟩ := p
        obtain ⟨h1, _, s1, h3, h4, h5⟩ := h0
        refine ⟨h1, s1.setReg .alt v, ?_, h5.regs rfl, .inl ⟨h4, hp.symm⟩⟩
        rw [run_two h3, run_constTo]
  | none =>
    rw [hlc] at hp
    dsimp only at hp ⊢
    cases hrc : right.const with
    | some w =>
      cases rr with
      | error x => exact absurd (hrc ▸ h0.1) (fun h => (nomatch h))
      | ok p =>
        obtain ⟨r, σ'⟩ := p
        obtain ⟨h1, hk, _⟩ := h0
        obtain ⟨h2, rfl⟩ := hk w hrc
        clear hk
        refine ⟨h1, ?_⟩
        dsimp only
        by_cases hcm : commutative op = true
        · rw [if_pos hcm]
          exact ⟨s.setReg .alt w, run_constTo .alt w, ⟨hH, rfl, fun _ _ _ => rfl⟩, .inr ⟨hcm, hp, h2.symm⟩⟩
        · rw [if_neg hcm]
          obtain ⟨s', k1, k2, k3⟩ := run_around (here := here) (c := [constTo .pri w]) (r := .alt) (q := .pri) hF hH hpu _ _ rfl
            (run_constTo .pri w) ⟨(hpush _ rfl).1, rfl, fun _ _ _ => rfl⟩
          refine ⟨s', k1, k3, .inl ⟨?_, ?_⟩⟩
          · rw [k2]; exact h2.symm
          · rw [k2]; exact hp
    | none =>
      dsimp only
      have hg := fun s1 h => hr s1 (hpush s1 h).1 (hpush s1 h).2
      cases rr with
      | error x =>
        obtain ⟨_, s', h⟩ := hg _ rfl
        refine ⟨s', run_fail ?_⟩
        rw [run_append]
        simp only [run, visit_push hF hH hpu]
        exact h
      | ok p =>
        obtain ⟨r, σ'⟩ := p
        obtain ⟨h1, _, s1, h3, h4, h5⟩ := hg _ rfl
        obtain ⟨s', k1, k2, k3⟩ := run_around (here := here) (r := .alt) (q := .pri) hF hH hpu _ _ rfl h3 h5
        refine ⟨h1, s', k1, k3, .inl ⟨?_, ?_⟩⟩
        · rw [k2]; exact h4
        · rw [k2]; exact hp

theorem run_inner (hA : Agree E.floats A) (hF : F.Fits E m b) (hH : Holds F b σ s.vm) {left right : Node} {l : Value} (op : Bin) {k : Nat}
    (hl : l.ty = left.ty) (ht : left.ty = .float ↔ right.ty = .float)
    (hp : match left.const with | some c => l.cell = c | none => s.pri = l.cell) (hroom : b.hp + 4 * ((k : Int) + 1) < s.vm.sp)
    {rr : Except Err (Value × Store)}
    (hr : ∀ s1 : IState, Holds F b σ s1.vm → b.hp + 4 * (k : Int) < s1.vm.sp → Goal E m here F b right rr σ s1) :
    match rr.bind fun r => (apply A op l r.1).bind fun v => .ok (r, v) with
    | .error x => ∃ s', run E m here (inner op left right) s = .fail s' x
    | .ok ((r, σ'), v) => r.ty = right.ty ∧ v.ty = resultTy op left.ty ∧ ∃ s', run E m here (inner op left right) s = .ok s' () ∧
        Post F b σ' s s' ∧ s'.pri = v.cell ∧ (exchanged op = true → s'.alt = r.cell) := by
  have h := run_operands (op := op) hF hH hp hroom hr
  unfold inner
  cases rr with
  | error x =>
    obtain ⟨s', h⟩ := h
    exact ⟨s', run_fail h⟩
  | ok p =>
    obtain ⟨r, σ'⟩ := p
    obtain ⟨h1, s1, h2, h3, h4⟩ := h
    have ho := run_op (m := m) (here := here) hA op hl (by rw [hl, h1]; exact ht) h4
    cases ha : apply A op l r with
    | error x =>
      rw [ha] at ho
      simp only [Except.bind, ha]
      obtain ⟨s', ho⟩ := ho
      exact ⟨s', by rw [run_two h2]; exact ho⟩
    | ok v =>
      rw [ha] at ho
      simp only [Except.bind, ha]
      obtain ⟨k1, s2, k2, k3, k4, k5⟩ := ho
      exact ⟨h1, k1, s2, by rw [run_two h2]; exact k2, h3.regs k3, k4, k5⟩

end Verif.Flt

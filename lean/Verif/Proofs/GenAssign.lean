import Verif.Proofs.GenOps

/-! Nodes of assignments, increments, logical operators, conditionals and sequences. -/
namespace Verif.Compiled
open Verif.VM Verif.Lang Verif.CodeGen

section
variable {E : Env} {L : Layout} {lim : Int} {m n : Nat} {b : State}

theorem InReg.any {r : Place} {a : Cell} (h : InReg L r a) (hr : ∃ v, r = .var v) (a' : Cell) : InReg L r a' := by
  obtain ⟨v, rfl⟩ := hr
  cases v <;> exact h

/-- EmitBinaryInner without an operator. -/
theorem inner_none_true {ev : Ev Cell} {nd : Node} (h : NodeOk E L lim m n b ev nd) : emitBinaryInner none none true nd = nd.expr := by
  unfold emitBinaryInner
  cases hc : nd.const with
  | none => exact (then_skip _).trans (then_skip _)
  | some r =>
    rw [(h.const r hc).2]
    exact (then_skip _).trans (then_skip _)

theorem inner_none_false {ev : Ev Cell} {nd : Node} (h : NodeOk E L lim m n b ev nd) :
    emitBinaryInner none none false nd = (ins (.push .pri) ⨟ nd.expr ⨟ ins (.pop .alt)) := by
  unfold emitBinaryInner
  cases hc : nd.const with
  | none => exact then_skip _
  | some r =>
    rw [(h.const r hc).2]
    exact then_skip _

theorem inner_some (op : BinOp) (nd : Node) (x : Bool) : emitBinaryInner (some op) none x nd = emitBinaryInner (some op) none false nd := by
  unfold emitBinaryInner
  simp only [Option.isSome_some, Bool.true_or]

theorem assign_fixed {op : Option BinOp} {x : Bool} {l : LNode} {e : Node} (h1 : Fixed l.addr) (h2 : Fixed l.load) (h3 : Fixed l.store)
    (h4 : Fixed e.expr) : Fixed (emitAssign op x l e) := by
  unfold emitAssign
  refine h1.then (Fixed.then ?_ ((inner_fixed _ _ _ h4).then (((Fixed.ins _).emitIf _).then h3)))
  split
  · exact ((Fixed.ins _).then h2).emitIf _
  · exact h2.emitIf _

/-- `l = e`. -/
theorem assign_none_ok (hF : Fits E L lim b) (hA : Activation E L m b) {pl : Ev Place} {l : LNode} {ev : Ev Cell} {e : Node}
    (hl : LNodeOk E L lim m n b pl l) (he : NodeOk E L lim m n b ev e) :
    ExprOk E L lim m n b (do let r ← pl; let v ← ev; save r v; pure v) (emitAssign none (!l.remat) l e) := by
  intro N p s σ hN hc hH
  unfold emitAssign at hc ⊢
  simp only [Option.isSome_none, Bool.and_false, emitIf_false, ite_self, skip_then, ends_then] at hc ⊢
  refine Runs.bind (hl.addr N p s σ hN hc.fst hH) ?_
  rintro r σ1 N1 q1 s1 hr ⟨rfl, rfl, hP1, hi⟩
  have hvar := hl.remat r σ σ1 hr
  have hc2 := hc.snd
  cases hm : l.remat with
  | true =>
    rw [hm, inner_none_true he] at hc2
    rw [inner_none_true he]
    refine Runs.bind (he.expr N1 _ s1 σ1 hN hc2.fst hP1.holds) ?_
    rintro v σ2 N2 q2 s2 _ ⟨rfl, rfl, hP2, hv⟩
    have hst := hl.store r N2 _ s2 σ2 σ σ1 hr hc2.snd hP2.holds (hi.any (hvar.1 hm) _)
    rw [hv] at hst
    refine Runs.bind hst ?_
    rintro _ σ3 N3 q3 s3 _ ⟨rfl, rfl, hP3, h1, _⟩
    exact Runs.ok ⟨rfl, rfl, (hP1.trans hP2).trans hP3, h1⟩
  | false =>
    rw [hm, inner_none_false he] at hc2
    rw [inner_none_false he]
    simp only [ends_then, then_assoc] at hc2 ⊢
    refine Runs.push hF hA hc2.fst hP1.holds (fun hs => ?_)
    have hH2 := hP1.holds.pushed hF hs (s1.reg .pri)
    refine Runs.bind (he.expr N1 _ _ σ1 hN hc2.snd.fst hH2) ?_
    rintro v σ2 N2 q2 s2 _ ⟨rfl, rfl, hP2, hv⟩
    obtain ⟨hP3, htop⟩ := hP2.pop hF hP1.holds hs
    refine Runs.pop hF hA hc2.snd.snd.fst hP2.holds ?_
    have hst := hl.store r N2 _ ({ s2 with vm := popped s2.vm }.setReg .alt (rd32 s2.vm.mem s2.vm.sp)) σ2 σ σ1 hr hc2.snd.snd.snd hP3.holds
      (by show InReg L r (rd32 s2.vm.mem s2.vm.sp); rw [htop]; exact hi)
    rw [show (({ s2 with vm := popped s2.vm } : IState).setReg .alt (rd32 s2.vm.mem s2.vm.sp)).pri = v from hv] at hst
    refine Runs.bind hst ?_
    rintro _ σ3 N3 q3 s3 _ ⟨rfl, rfl, hP4, h1, _⟩
    exact Runs.ok ⟨rfl, rfl, (hP1.trans hP3).trans hP4, h1⟩

/-- `l op= e`. -/
theorem assign_some_ok (hF : Fits E L lim b) (hA : Activation E L m b) {pl : Ev Place} {l : LNode} {ev : Ev Cell} {e : Node}
    (hl : LNodeOk E L lim m n b pl l) (he : NodeOk E L lim m n b ev e) (op : BinOp) :
    ExprOk E L lim m n b (do let r ← pl; let x ← load r; let y ← ev; let v ← binop op x y; save r v; pure v) (emitAssign (some op) (!l.remat) l e) := by
  intro N p s σ hN hc hH
  unfold emitAssign at hc ⊢
  simp only [Option.isSome_some, Bool.and_true, emitIf_true, ends_then, inner_some] at hc ⊢
  refine Runs.bind (hl.addr N p s σ hN hc.fst hH) ?_
  rintro r σ1 N1 q1 s1 hr ⟨rfl, rfl, hP1, hi⟩
  have hvar := hl.remat r σ σ1 hr
  have hc2 := hc.snd
  cases hm : l.remat with
  | true =>
    simp only [hm, Bool.not_true, Bool.false_eq_true, if_false, emitIf_false, skip_then, ends_then] at hc2 ⊢
    refine Runs.bind (hl.load r N1 _ s1 σ1 σ σ1 hr hc2.fst hP1.holds hi) ?_
    rintro x σ2 N2 q2 s2 _ ⟨rfl, rfl, rfl, rfl⟩
    refine inner_ok (f := fun v _ => (do save r v; pure v : Ev Cell)) (x := x) (s := { s1 with pri := x }) hF hA he op hN hc2.snd.fst hP1.holds (fun _ h => by cases h) (fun _ => rfl) ?_
    intro v y σ3 s3 hP3 hv _ _ _
    have hst := hl.store r N2 _ s3 σ3 σ σ2 hr hc2.snd.snd hP3.holds (hi.any (hvar.1 hm) _)
    rw [hv] at hst
    refine Runs.bind hst ?_
    rintro _ σ4 N4 q4 s4 _ ⟨rfl, rfl, hP4, h1, _⟩
    exact Runs.ok ⟨rfl, rfl, (hP1.trans hP3).trans hP4, h1⟩
  | false =>
    simp only [hm, Bool.not_false, if_true, emitIf_true, ends_then, then_assoc] at hc2 ⊢
    refine Runs.push hF hA hc2.fst hP1.holds (fun hs => ?_)
    have hH2 := hP1.holds.pushed hF hs (s1.reg .pri)
    refine Runs.bind (hl.load r N1 _ { s1 with vm := pushed s1.vm (s1.reg .pri) } σ1 σ σ1 hr hc2.snd.fst hH2 hi) ?_
    rintro x σ2 N2 q2 s2 _ ⟨rfl, rfl, rfl, rfl⟩
    refine inner_ok (f := fun v _ => (do save r v; pure v : Ev Cell)) (x := x) (s := { s1 with vm := pushed s1.vm (s1.reg .pri), pri := x }) hF hA he op hN hc2.snd.snd.fst hH2 (fun _ h => by cases h) (fun _ => rfl) ?_
    intro v y σ3 s3 hP3 hv _ _ _
    obtain ⟨hP4, htop⟩ := Post.pop hF hP1.holds hs hP3
    refine Runs.pop hF hA hc2.snd.snd.snd.fst hP3.holds ?_
    have hst := hl.store r N2 _ ({ s3 with vm := popped s3.vm }.setReg .alt (rd32 s3.vm.mem s3.vm.sp)) σ3 σ σ2 hr hc2.snd.snd.snd.snd hP4.holds
      (by show InReg L r (rd32 s3.vm.mem s3.vm.sp); rw [htop]; exact hi)
    rw [show (({ s3 with vm := popped s3.vm } : IState).setReg .alt (rd32 s3.vm.mem s3.vm.sp)).pri = v from hv] at hst
    refine Runs.bind hst ?_
    rintro _ σ4 N4 q4 s4 _ ⟨rfl, rfl, hP5, h1, _⟩
    exact Runs.ok ⟨rfl, rfl, (hP1.trans hP4).trans hP5, h1⟩

/-! ### Increments -/

theorem wr32_congr {m m' : Int → BitVec 8} {p a : Int} {c : Cell} (h : (p ≤ a ∧ a < p + 4) ∨ m a = m' a) : wr32 m p c a = wr32 m' p c a := by
  unfold wr32
  rcases h with h | h
  · rcases (show a = p ∨ a = p + 1 ∨ a = p + 2 ∨ a = p + 3 by omega) with rfl | rfl | rfl | rfl
    all_goals repeat' split
    all_goals first | rfl | omega
  · rw [h]

theorem incdec_fixed {inc pre d : Bool} {l : LNode} (h1 : Fixed l.addr) (h2 : Fixed l.load) (h3 : Fixed l.store) : Fixed (emitIncDec inc pre d l) := by
  unfold emitIncDec
  refine h1.then (((Fixed.ins _).emitIf _).then (h2.then (((Fixed.ins _).emitIf _).then ((Fixed.ins _).then (((Fixed.ins _).emitIf _).then ?_)))))
  split
  · exact ((Fixed.ins _).emitIf _).then (h3.then (Fixed.ins _))
  · exact h3

/-- The new value. -/
def bumped (inc : Bool) (x : Cell) : Cell := int (x.toInt + (if inc then 1 else -1))

theorem enc_bump (inc : Bool) : Enc (if inc then .inc .pri else .dec .pri) := by
  cases inc
  · exact enc_dec .pri
  · exact enc_inc .pri

theorem visit_bump (here : Int) (inc : Bool) (s : IState) : visit E m here (if inc then .inc .pri else .dec .pri) s =
    .ok { s with pri := bumped inc s.pri } .next := by
  cases inc
  · have h : visit E m here (.dec .pri) s = .ok { s with pri := s.pri - 1 } .next := rfl
    have e : s.pri - 1 = bumped false s.pri := by
      unfold bumped
      have := int_add s.pri (-1)
      simp only [Bool.false_eq_true, if_false]
      rw [show (-1 : Int) = (-1 : Cell).toInt by decide, this, BitVec.sub_eq_add_neg]
    rw [e] at h
    exact h
  · have h : visit E m here (.inc .pri) s = .ok { s with pri := s.pri + 1 } .next := rfl
    have e : s.pri + 1 = bumped true s.pri := by
      unfold bumped
      have := int_add s.pri 1
      simp only [if_true]
      rw [show (1 : Int) = (1 : Cell).toInt by decide, this]
    rw [e] at h
    exact h

/-- `++l`, `l++`, `--l`, `l--`: without `d` the value is left in PRI. -/
theorem incdec_any_ok (hF : Fits E L lim b) (hA : Activation E L m b) {pl : Ev Place} {l : LNode}
    (hl : LNodeOk E L lim m n b pl l) (inc pre d : Bool) {N p : Nat} {s : IState} {σ : Store} (hN : N ≤ n) (hc : Here E (emitIncDec inc pre d l) p)
    (hH : Holds L b σ s.vm) :
    Runs E L lim m N p s ((do let r ← pl; let x ← load r; let y := bumped inc x; save r y; pure (if pre then y else x)) σ)
      (EndsWith L b (Ends (emitIncDec inc pre d l) p) N s fun v s' => d = false → s'.pri = v) := by
  unfold emitIncDec at hc ⊢
  simp only [ends_then] at hc ⊢
  refine Runs.bind (hl.addr N p s σ hN hc.fst hH) ?_
  rintro r σ1 N1 q1 s1 hr ⟨rfl, rfl, hP1, hi⟩
  have hvar := hl.remat r σ σ1 hr
  have hc2 := hc.snd
  cases hm : l.remat with
  | true =>
    simp only [hm, Bool.not_true, emitIf_false, skip_then, ends_then, ends_skip] at hc2 ⊢
    refine Runs.bind (hl.load r N1 _ s1 σ1 σ σ1 hr hc2.fst hP1.holds hi) ?_
    rintro x σ2 N2 q2 s2 _ ⟨rfl, rfl, rfl, rfl⟩
    cases hw : (!(pre || d)) with
    | true =>
      obtain ⟨rfl, rfl⟩ : pre = false ∧ d = false := by cases pre <;> cases d <;> first | exact ⟨rfl, rfl⟩ | cases hw
      simp only [Bool.or_false, Bool.not_false, emitIf_true, if_true, ends_then] at hc2 ⊢
      refine Runs.push hF hA hc2.snd.fst hP1.holds (fun hs => ?_)
      have hH2 := hP1.holds.pushed hF hs x
      refine Runs.ins hc2.snd.snd.fst (enc_bump inc) (fun here => visit_bump here inc _) ?_
      have hst := hl.store r N2 _ { s1 with vm := pushed s1.vm x, pri := bumped inc x } σ2 σ σ2 hr hc2.snd.snd.snd.fst hH2 (hi.any (hvar.1 hm) _)
      refine Runs.bind hst ?_
      rintro _ σ3 N3 q3 s3 _ ⟨rfl, rfl, hP3, h1, _⟩
      obtain ⟨hP4, htop⟩ := Post.pop hF hP1.holds hs hP3
      refine Runs.pop hF hA hc2.snd.snd.snd.snd hP3.holds ?_
      exact Runs.ok ⟨rfl, rfl, hP1.trans hP4, fun _ => htop⟩
    | false =>
      simp only [hw, emitIf_false, skip_then, ends_then, ends_skip, Bool.false_eq_true, if_false] at hc2 ⊢
      refine Runs.ins hc2.snd.fst (enc_bump inc) (fun here => visit_bump here inc _) ?_
      have hst := hl.store r N2 _ { s1 with pri := bumped inc x } σ2 σ σ2 hr hc2.snd.snd hP1.holds (hi.any (hvar.1 hm) _)
      refine Runs.bind hst ?_
      rintro _ σ3 N3 q3 s3 _ ⟨rfl, rfl, hP3, h1, _⟩
      refine Runs.ok ⟨rfl, rfl, hP1.trans hP3, ?_⟩
      rintro rfl
      obtain rfl : pre = true := by cases pre; cases hw; rfl
      exact h1
  | false =>
    simp only [hm, Bool.not_false, emitIf_true, ends_then] at hc2 ⊢
    refine Runs.push hF hA hc2.fst hP1.holds (fun hs => ?_)
    have hH2 := hP1.holds.pushed hF hs s1.pri
    refine Runs.bind (hl.load r N1 _ { s1 with vm := pushed s1.vm s1.pri } σ1 σ σ1 hr hc2.snd.fst hH2 hi) ?_
    rintro x σ2 N2 q2 s2 _ ⟨rfl, rfl, rfl, rfl⟩
    cases hw : (!(pre || d)) with
    | true =>
      obtain ⟨rfl, rfl⟩ : pre = false ∧ d = false := by cases pre <;> cases d <;> first | exact ⟨rfl, rfl⟩ | cases hw
      simp only [Bool.or_false, Bool.not_false, emitIf_true, if_true, ends_then] at hc2 ⊢
      refine Runs.push hF hA hc2.snd.snd.fst hH2 (fun hs2 => ?_)
      have hs2 : b.hp + 4 < s1.vm.sp - 4 := hs2
      have hH3 := hH2.pushed hF hs2 x
      refine Runs.ins hc2.snd.snd.snd.fst (enc_bump inc) (fun here => visit_bump here inc _) ?_
      refine Runs.pop hF hA hc2.snd.snd.snd.snd.fst hH3 ?_
      obtain ⟨hP3, htop⟩ := Post.pop hF hH2 hs2 (Post.refl hH3)
      -- now ALT holds the old value and the address is on top of the stack
      refine Runs.swap hF hA hc2.snd.snd.snd.snd.snd.fst hP3.holds ?_ ?_
      · show b.hp < s1.vm.sp - 4 - 4 + 4
        omega
      · have hfr := hP1.holds.frame
        have htop2 : rd32 (pushed (pushed s1.vm s1.pri) x).mem (pushed (pushed s1.vm s1.pri) x).sp = x := htop
        have haddr : rd32 (popped (pushed (pushed s1.vm s1.pri) x)).mem (popped (pushed (pushed s1.vm s1.pri) x)).sp = s1.pri := by
          show rd32 (wr32 (wr32 s1.vm.mem (s1.vm.sp - 4) s1.pri) (s1.vm.sp - 4 - 4) x) (s1.vm.sp - 4 - 4 + 4) = _
          rw [show s1.vm.sp - 4 - 4 + 4 = s1.vm.sp - 4 by omega, rd32_wr32_disj (by omega), rd32_wr32_same]
        have key : ∀ V : State, V = { popped (pushed (pushed s1.vm s1.pri) x) with
            mem := wr32 (popped (pushed (pushed s1.vm s1.pri) x)).mem (popped (pushed (pushed s1.vm s1.pri) x)).sp x } →
            Post L b (pushed s1.vm x) σ2 V := by
          rintro V rfl
          refine ⟨?_, ?_, ?_⟩
          · simp only [popped, pushed, State.mk.injEq, true_and, and_true]
            omega
          · exact hP3.holds.wr_top hF (by show s1.vm.sp - 4 - 4 + 4 + 4 ≤ _; omega) x
          · intro a h1 h2 h3
            have h1 : a < b.hp ∨ s1.vm.sp - 4 ≤ a := h1
            show wr32 (wr32 (wr32 s1.vm.mem (s1.vm.sp - 4) s1.pri) (s1.vm.sp - 4 - 4) x) (s1.vm.sp - 4 - 4 + 4) x a = wr32 s1.vm.mem (s1.vm.sp - 4) x a
            rw [show s1.vm.sp - 4 - 4 + 4 = s1.vm.sp - 4 by omega]
            apply wr32_congr
            rcases Decidable.em (s1.vm.sp - 4 ≤ a ∧ a < s1.vm.sp - 4 + 4) with h | h
            · exact Or.inl h
            · refine Or.inr ?_
              rw [wr32_far (by omega), wr32_far (by omega)]
        have hK := key { popped (pushed (pushed s1.vm s1.pri) x) with
            mem := wr32 (popped (pushed (pushed s1.vm s1.pri) x)).mem (popped (pushed (pushed s1.vm s1.pri) x)).sp
              (rd32 (pushed (pushed s1.vm s1.pri) x).mem (pushed (pushed s1.vm s1.pri) x).sp) } (by rw [htop2])
        have hst := hl.store r N2 _ (({ s1 with pri := bumped inc x, vm := { popped (pushed (pushed s1.vm s1.pri) x) with
            mem := wr32 (popped (pushed (pushed s1.vm s1.pri) x)).mem (popped (pushed (pushed s1.vm s1.pri) x)).sp
              (rd32 (pushed (pushed s1.vm s1.pri) x).mem (pushed (pushed s1.vm s1.pri) x).sp) } } : IState).setReg .alt
            (rd32 (popped (pushed (pushed s1.vm s1.pri) x)).mem (popped (pushed (pushed s1.vm s1.pri) x)).sp))
          σ2 σ σ2 hr hc2.snd.snd.snd.snd.snd.snd.fst hK.holds (by
            show InReg L r (rd32 (popped (pushed (pushed s1.vm s1.pri) x)).mem (popped (pushed (pushed s1.vm s1.pri) x)).sp)
            rw [haddr]; exact hi)
        refine Runs.bind hst ?_
        rintro _ σ3 N3 q3 s3 _ ⟨rfl, rfl, hP5, _, _⟩
        obtain ⟨hP6, htop6⟩ := Post.pop hF hP1.holds hs (hK.trans hP5)
        refine Runs.pop hF hA hc2.snd.snd.snd.snd.snd.snd.snd hP5.holds ?_
        exact Runs.ok ⟨rfl, rfl, hP1.trans hP6, fun _ => htop6⟩
    | false =>
      simp only [hw, emitIf_false, skip_then, ends_then, ends_skip, Bool.false_eq_true, if_false] at hc2 ⊢
      refine Runs.ins hc2.snd.snd.fst (enc_bump inc) (fun here => visit_bump here inc _) ?_
      refine Runs.pop hF hA hc2.snd.snd.snd.fst hH2 ?_
      obtain ⟨hP3, htop⟩ := Post.pop hF hP1.holds hs (Post.refl hH2)
      have hst := hl.store r N2 _ ({ s1 with vm := popped (pushed s1.vm s1.pri), pri := bumped inc x }.setReg .alt
        (rd32 (pushed s1.vm s1.pri).mem (pushed s1.vm s1.pri).sp)) σ2 σ σ2 hr hc2.snd.snd.snd.snd hP3.holds
        (by show InReg L r (rd32 (pushed s1.vm s1.pri).mem (pushed s1.vm s1.pri).sp); rw [htop]; exact hi)
      refine Runs.bind hst ?_
      rintro _ σ3 N3 q3 s3 _ ⟨rfl, rfl, hP4, h1, _⟩
      refine Runs.ok ⟨rfl, rfl, (hP1.trans hP3).trans hP4, ?_⟩
      rintro rfl
      obtain rfl : pre = true := by cases pre; cases hw; rfl
      exact h1

end

end Verif.Compiled

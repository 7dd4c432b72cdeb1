import Verif.Proofs.FloatSound

/-! Lemmas for C91: conditions. -/
namespace Verif.Flt
open Verif.VM hiding run
open Verif.Long (run run_append run_two run_fail)

variable {F : Frame} {E : Env} {A : FloatArith} {Γ : Var → Ty} {m : Nat} {here : Int} {b : State}

/-- What is wanted of the code of a condition. -/
def TestGoal (A : FloatArith) (E : Env) (m : Nat) (here : Int) (F : Frame) (b : State) (j : Bool) (c : List Insn) (cmp : Cmp)
    (r : Except Err (Value × Store)) (s : IState) : Prop :=
  match r with
  | .ok (v, σ') => ∃ s', run E m here c s = .ok s' () ∧ cmpCells cmp s'.pri s'.alt = (v.truth A == j) ∧ Post F b σ' s s'
  | .error x => ∃ s', run E m here c s = .fail s' x

theorem jump_ok {op : Bin} (h : op.isRel = true) (x y : Cell) (t : Ty) (j : Bool) :
    ∃ v, opI t op x y = .ok v ∧ cmpCells (jumpCmp op j) x y = (v.truth A == j) := by
  have hb : ∀ q j : Bool, (((⟨.bool, bit q⟩ : Value).truth A) == j) = (q == j) := by intro q j; cases q <;> rfl
  cases op <;> first | cases h | skip
  all_goals
    refine ⟨_, rfl, ?_⟩
    rw [hb]
    cases j
    all_goals simp only [jumpCmp, cmpCells, BitVec.sle, BitVec.slt, bne, beq_true, beq_false, ← decide_not, Int.not_lt, Int.not_le, Bool.not_not]

theorem test_leaf {n : Node} {r : Except Err (Value × Store)} {σ : Store} {s : IState} (h : Goal E m here F b n r σ s) (j : Bool)
    (hb : ∀ v σ', r = .ok (v, σ') → v.ty = .float → A.truth v.cell = (v.cell != 0)) :
    TestGoal A E m here F b j n.code (if j then .notZero else .zero) r s := by
  cases r with
  | error x => exact h.2
  | ok p =>
    obtain ⟨v, σ'⟩ := p
    obtain ⟨_, _, s', h1, h2, h3⟩ := h
    refine ⟨s', h1, ?_, h3⟩
    have ht : v.truth A = (v.cell != 0) := by
      unfold Value.truth
      split
      · next hf => exact hb v σ' rfl hf
      · rfl
    rw [ht, h2]
    cases j
    · show (v.cell == 0) = _
      unfold bne
      cases (v.cell == 0) <;> rfl
    · show (v.cell != 0) = _
      cases (v.cell != 0) <;> rfl

theorem sound_test (hA : Agree E.floats A) (hF : F.Fits E m b) : ∀ (e : Expr) (n : Node) (j : Bool) (c : List Insn) (cmp : Cmp) (σ : Store) (s : IState),
    check Γ e = some n → n.warn = false → test Γ j e = some (c, cmp) → Plain A e → Known F e →
    (∀ v σ', eval A Γ F.tgt σ (bare e) = .ok (v, σ') → v.ty = .float → A.truth v.cell = (v.cell != 0)) →
    Holds F b σ s.vm → b.hp + 4 * (need e : Int) < s.vm.sp → TestGoal A E m here F b j c cmp (eval A Γ F.tgt σ e) s := by
  intro e
  match e with
  | .not e =>
    intro n j c cmp σ s hc hw ht hp hk hb hH hr
    simp only [check, Option.map_eq_some_iff] at hc
    obtain ⟨k, hk1, hc⟩ := hc
    have hkw : k.warn = false := by cases hx : k.const <;> rw [hx] at hc <;> subst hc <;> exact hw
    have ih := sound_test hA hF e k (!j) c cmp σ s hk1 hkw ht hp.1 hk hb hH hr
    simp only [eval]
    cases hev : eval A Γ F.tgt σ e with
    | error x => rw [hev] at ih; exact ih
    | ok q =>
      obtain ⟨v, σ'⟩ := q
      rw [hev] at ih
      obtain ⟨s', h1, h2, h3⟩ := ih
      refine ⟨s', h1, h2.trans ?_, h3⟩
      show _ = (((⟨.bool, bit (!v.truth A)⟩ : Value).truth A) == j)
      cases v.truth A <;> cases j <;> rfl
  | .bin op x y =>
    intro n j c cmp σ s hc hw ht hp hk hb hH hr
    simp only [test] at ht
    rw [hc] at ht
    have hc' := hc
    simp only [check] at hc
    split at hc
    · next a d ha hd =>
      rw [ha, hd] at ht
      dsimp only at ht
      split at ht
      · next hrel =>
        simp only [Bool.and_eq_true, Bool.not_eq_true'] at hrel
        obtain ⟨hop, hmx⟩ := hrel
        cases ht
        simp only [need] at hr
        have hws : a.warn = false ∧ d.warn = false := by
          have : (a.warn || d.warn || a.ty != d.ty) = false := by
            unfold binary at hc
            simp only [hmx, if_false, Bool.false_eq_true] at hc
            split at hc
            · split at hc
              · cases hc; exact hw
              · cases hc
            · cases hc; exact hw
          simp only [Bool.or_eq_false_iff] at this
          exact this.1
        have hnf : a.ty ≠ .float ∧ d.ty ≠ .float := by
          constructor
          · intro h; rw [mixed_iff.mpr (.inl h)] at hmx; cases hmx
          · intro h; rw [mixed_iff.mpr (.inr h)] at hmx; cases hmx
        have ga := sound (here := here) hA hF x a σ s ha hws.1 hp.1 hk.1 hH (by omega)
        simp only [eval]
        cases hev : eval A Γ F.tgt σ x with
        | error z =>
          rw [hev] at ga
          obtain ⟨_, s', h⟩ := ga
          exact ⟨s', by rw [List.append_assoc, List.append_assoc]; exact run_fail h⟩
        | ok q =>
          obtain ⟨lv, σ1⟩ := q
          rw [hev] at ga
          obtain ⟨h1, h2, s1, h3, h4, h5⟩ := ga
          have hsp := h5.sp
          let s1' : IState := { s1 with vm := { s1.vm with mem := wr32 s1.vm.mem (s1.vm.sp - 4) (s1.reg .pri), sp := s1.vm.sp - 4 } }
          have hroom : b.hp + 4 < s1.vm.sp := by omega
          have gd := sound (here := here) hA hF y d σ1 s1' hd hws.2 hp.2 hk.2 (h5.holds.pushed hF hroom _)
            (by show _ < s1.vm.sp - 4; omega)
          have hpush : run E m here [.push .pri] s1 = .ok s1' () := by simp only [run, visit_push hF h5.holds hroom, s1']
          simp only [Except.bind]
          cases hev2 : eval A Γ F.tgt σ1 y with
          | error z =>
            rw [hev2] at gd
            obtain ⟨_, s', h⟩ := gd
            refine ⟨s', ?_⟩
            rw [List.append_assoc, List.append_assoc, run_two h3, run_two hpush]
            exact run_fail h
          | ok q =>
            obtain ⟨rv, σ2⟩ := q
            rw [hev2] at gd
            obtain ⟨g1, g2, s2, g3, g4, g5⟩ := gd
            obtain ⟨s3, c1, c2, c3⟩ := run_around (here := here) (r := .alt) (q := .pri) hF h5.holds hroom s1' s2 rfl g3 g5
            obtain ⟨v, j1, j2⟩ := jump_ok (A := A) hop lv.cell rv.cell lv.ty j
            have hap : apply A op lv rv = .ok v := by
              unfold apply
              rw [if_neg (by rw [h1, g1]; exact fun h => h.elim hnf.1 hnf.2), j1]
            dsimp only
            rw [hap]
            refine ⟨{ s3 with pri := s3.alt, alt := s3.pri }, ?_, ?_, ?_⟩
            · have e1 : a.code ++ [.push .pri] ++ d.code ++ [.pop .alt, .xchg] = a.code ++ (([.push .pri] ++ d.code ++ [.pop .alt]) ++ [.xchg]) := by
                simp only [List.append_assoc, List.cons_append, List.nil_append]
              rw [e1, run_two h3, run_two c1]
              rfl
            · have e1 : s3.alt = lv.cell := by rw [c2]; exact h4
              have e2 : s3.pri = rv.cell := by rw [c2]; exact g4
              show cmpCells (jumpCmp op j) s3.alt s3.pri = _
              rw [e1, e2]
              exact j2
            · exact (h5.trans c3).regs rfl
      · cases ht
        exact test_leaf (sound hA hF _ n σ s hc' hw hp hk hH hr) j hb
    · cases hc
  | .lit t v =>
    intro n j c cmp σ s hc hw ht hp hk hb hH hr
    simp only [test, hc, Option.map_some, Option.some.injEq, Prod.mk.injEq] at ht
    obtain ⟨rfl, rfl⟩ := ht
    exact test_leaf (sound hA hF _ n σ s hc hw hp hk hH hr) j hb
  | .var x =>
    intro n j c cmp σ s hc hw ht hp hk hb hH hr
    simp only [test, hc, Option.map_some, Option.some.injEq, Prod.mk.injEq] at ht
    obtain ⟨rfl, rfl⟩ := ht
    exact test_leaf (sound hA hF _ n σ s hc hw hp hk hH hr) j hb
  | .neg x =>
    intro n j c cmp σ s hc hw ht hp hk hb hH hr
    simp only [test, hc, Option.map_some, Option.some.injEq, Prod.mk.injEq] at ht
    obtain ⟨rfl, rfl⟩ := ht
    exact test_leaf (sound hA hF _ n σ s hc hw hp hk hH hr) j hb
  | .chain x op y r =>
    intro n j c cmp σ s hc hw ht hp hk hb hH hr
    simp only [test, hc, Option.map_some, Option.some.injEq, Prod.mk.injEq] at ht
    obtain ⟨rfl, rfl⟩ := ht
    exact test_leaf (sound hA hF _ n σ s hc hw hp hk hH hr) j hb
  | .set x y =>
    intro n j c cmp σ s hc hw ht hp hk hb hH hr
    simp only [test, hc, Option.map_some, Option.some.injEq, Prod.mk.injEq] at ht
    obtain ⟨rfl, rfl⟩ := ht
    exact test_leaf (sound hA hF _ n σ s hc hw hp hk hH hr) j hb
  | .opset op x y =>
    intro n j c cmp σ s hc hw ht hp hk hb hH hr
    simp only [test, hc, Option.map_some, Option.some.injEq, Prod.mk.injEq] at ht
    obtain ⟨rfl, rfl⟩ := ht
    exact test_leaf (sound hA hF _ n σ s hc hw hp hk hH hr) j hb
  | .inc u p x =>
    intro n j c cmp σ s hc hw ht hp hk hb hH hr
    simp only [test, hc, Option.map_some, Option.some.injEq, Prod.mk.injEq] at ht
    obtain ⟨rfl, rfl⟩ := ht
    exact test_leaf (sound hA hF _ n σ s hc hw hp hk hH hr) j hb
  | .conv x =>
    intro n j c cmp σ s hc hw ht hp hk hb hH hr
    simp only [test, hc, Option.map_some, Option.some.injEq, Prod.mk.injEq] at ht
    obtain ⟨rfl, rfl⟩ := ht
    exact test_leaf (sound hA hF _ n σ s hc hw hp hk hH hr) j hb

end Verif.Flt

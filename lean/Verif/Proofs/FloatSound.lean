import Verif.Proofs.FloatMain

/-! Lemmas for C91: all expressions. -/
namespace Verif.Flt
open Verif.VM hiding run
open Verif.Long (run run_append run_two run_fail)

variable {F : Frame} {E : Env} {A : FloatArith} {Γ : Var → Ty} {m : Nat} {here : Int} {b : State}

theorem rest_const : ∀ (rest : Rest) {left : Node} {l : List (Bin × Node)} {r : Bool}, checkRest Γ rest = some l → foldChain left l = some r →
    chainWarn left l = false → left.ty = .float → restConst rest = true
  | .nil, left, l, r, h, hf, hw, ht => rfl
  | .cons op a rest, left, l, r, h, hf, hw, ht => by
    simp only [checkRest] at h
    split at h
    · next n l' hn hl =>
      split at h
      · cases h
        simp only [chainWarn, Bool.or_eq_false_iff, bne_eq_false_iff_eq] at hw
        simp only [foldChain] at hf
        split at hf
        · next v w r' hv hw' hr' =>
          have htn : n.ty = .float := by rw [← hw.1.2, ht]
          simp only [restConst, float_const a hn hw' htn, Option.isSome_some, Bool.true_and]
          exact rest_const rest hl hr' hw.2 htn
        · cases hf
      · cases h
    · cases h

theorem run_storeX (hF : F.Fits E m b) {σ : Store} {s s1 : IState} (hP : Post F b σ s s1) (hs : b.hp ≤ s.vm.sp) {x : Var} (hx : F.knows x) :
    ∃ s2, run E m here (store x) s1 = .ok s2 () ∧ s2.pri = s1.pri ∧ Post F b (σ.set (x.obj F.tgt) s1.pri) s s2 := by
  refine ⟨_, run_store hF hP.holds hx, rfl, ⟨hP.holds.put hF (knows_has hF hx) _, hP.sp, fun y h1 h2 => ?_⟩⟩
  show wr32 s1.vm.mem _ _ y = _
  obtain ⟨a1, a2, a3⟩ := hF.range _ (knows_has hF hx)
  rw [wr32_far (by omega)]
  exact hP.keep y h1 h2

/-- A value is stored. -/
theorem goal_store (hF : F.Fits E m b) {σ : Store} {s : IState} (hs : b.hp ≤ s.vm.sp) {x : Var} (hx : F.knows x) {c : List Insn} {t : Ty} {w : Bool}
    {r : Except Err (Value × Store)} (h : Goal E m here F b ⟨t, none, w, c⟩ r σ s) :
    Goal E m here F b ⟨t, none, w, c ++ store x⟩ (r.bind fun r => .ok (r.1, r.2.set (x.obj F.tgt) r.1.cell)) σ s := by
  cases r with
  | error e =>
    obtain ⟨_, s', h⟩ := h
    exact ⟨rfl, s', run_fail h⟩
  | ok p =>
    obtain ⟨v, σ'⟩ := p
    obtain ⟨h1, _, s1, h2, h3, h4⟩ := h
    obtain ⟨s2, k1, k2, k3⟩ := run_storeX (here := here) hF h4 hs hx
    refine ⟨h1, fun c h => (nomatch h), s2, ?_, k2.trans h3, ?_⟩
    · show run E m here (c ++ store x) s = _
      rw [run_two h2, k1]
    · rw [h3] at k3; exact k3

theorem goal_load (hF : F.Fits E m b) {σ : Store} {s : IState} (hH : Holds F b σ s.vm) {x : Var} (hx : F.knows x) {w : Bool} :
    Goal E m here F b ⟨Γ x, none, w, load x⟩ (.ok (⟨Γ x, σ (x.obj F.tgt)⟩, σ)) σ s :=
  ⟨rfl, fun c h => (nomatch h), _, run_load hF hH hx, rfl, ⟨hH, rfl, fun _ _ _ => rfl⟩⟩

theorem goal_bare {n : Node} {r : Except Err (Value × Store)} {σ : Store} {s : IState} (h : Goal E m here F b n r σ s) {t : Ty} {w : Bool} (ht : t = n.ty) :
    Goal E m here F b ⟨t, none, w, n.code⟩ r σ s := by
  cases r with
  | error e => exact ⟨rfl, h.2⟩
  | ok p => exact ⟨by rw [ht]; exact h.1, fun c h => (nomatch h), h.2.2⟩

theorem goal_inc (hA : Agree E.floats A) (hF : F.Fits E m b) {σ : Store} {s : IState} (hH : Holds F b σ s.vm) (up pre : Bool) {x : Var} (hx : F.knows x)
    (hr : b.hp + 4 < s.vm.sp) {n : Node} (hc : check Γ (.inc up pre x) = some n) :
    Goal E m here F b n (eval A Γ F.tgt σ (.inc up pre x)) σ s := by
  simp only [check, Option.some.injEq] at hc
  subst hc
  let new := if Γ x = .float then (if up then A.add (σ (x.obj F.tgt)) unit else A.sub (σ (x.obj F.tgt)) unit)
    else (if up then σ (x.obj F.tgt) + 1 else σ (x.obj F.tgt) - 1)
  let add : List Insn := if Γ x = .float then [.const .alt (if up then one else minusOne), .binF32 .add] else [if up then .inc .pri else .dec .pri]
  have hadd : ∀ s1 : IState, s1.pri = σ (x.obj F.tgt) → ∃ s2, run E m here add s1 = .ok s2 () ∧ s2.pri = new ∧ s2.vm = s1.vm := by
    intro s1 h
    by_cases hf : Γ x = .float
    · refine ⟨⟨s1.vm, E.floats.bin .add s1.pri (if up then one else minusOne), if up then one else minusOne, s1.polls⟩, ?_, ?_, rfl⟩
      · show run E m here (if Γ x = .float then _ else _) s1 = _
        rw [if_pos hf]; rfl
      · show E.floats.bin .add s1.pri (if up then one else minusOne) = (if Γ x = .float then _ else _)
        rw [if_pos hf, hA.add, h]
        cases up
        · exact (hA.subOne _).symm
        · rfl
    · refine ⟨{ s1 with pri := if up then s1.pri + 1 else s1.pri - 1 }, ?_, ?_, rfl⟩
      · show run E m here (if Γ x = .float then _ else _) s1 = _
        rw [if_neg hf]
        cases up <;> rfl
      · show (if up then s1.pri + 1 else s1.pri - 1) = (if Γ x = .float then _ else _)
        rw [if_neg hf, h]
  have hld := run_load (here := here) hF hH hx
  have hs : b.hp ≤ s.vm.sp := by omega
  cases pre
  · refine ⟨rfl, fun c h => (nomatch h), ?_⟩
    let s0 : IState := { s with pri := σ (x.obj F.tgt) }
    obtain ⟨s2, a1, a2, a3⟩ := hadd { s0 with vm := { s0.vm with mem := wr32 s0.vm.mem (s0.vm.sp - 4) (s0.reg .pri), sp := s0.vm.sp - 4 } } rfl
    have hP1 : Post F b σ { s0 with vm := { s0.vm with mem := wr32 s0.vm.mem (s0.vm.sp - 4) (s0.reg .pri), sp := s0.vm.sp - 4 } } s2 :=
      Post.regs (s1 := { s0 with vm := { s0.vm with mem := wr32 s0.vm.mem (s0.vm.sp - 4) (s0.reg .pri), sp := s0.vm.sp - 4 } })
        ⟨hH.pushed hF hr _, rfl, fun _ _ _ => rfl⟩ a3
    obtain ⟨s3, b1, b2, b3⟩ := run_storeX (here := here) hF hP1 (by show b.hp ≤ s.vm.sp - 4; omega) hx
    obtain ⟨s4, c1, c2, c3⟩ := run_around (s := s0) (here := here) (c := add ++ store x) (r := .pri) (q := .pri) hF hH hr _ _ rfl
      (by rw [run_two a1, b1]) b3
    refine ⟨s4, ?_, ?_, ?_⟩
    · show run E m here (load x ++ ([.push .pri] ++ add ++ store x ++ [.pop .pri])) s = _
      rw [run_two hld, ← c1]
      simp only [List.append_assoc]
      rfl
    · rw [c2]; rfl
    · rw [a2] at c3
      exact ⟨c3.holds, c3.sp, c3.keep⟩
  · refine ⟨rfl, fun c h => (nomatch h), ?_⟩
    obtain ⟨s2, a1, a2, a3⟩ := hadd { s with pri := σ (x.obj F.tgt) } rfl
    have hP1 : Post F b σ s s2 := Post.regs (s1 := { s with pri := σ (x.obj F.tgt) }) ⟨hH, rfl, fun _ _ _ => rfl⟩ a3
    obtain ⟨s3, b1, b2, b3⟩ := run_storeX (here := here) hF hP1 hs hx
    refine ⟨s3, ?_, b2.trans a2, by rw [a2] at b3; exact b3⟩
    show run E m here (load x ++ (add ++ store x)) s = _
    rw [run_two hld, run_two a1, b1]

mutual
theorem sound (hA : Agree E.floats A) (hF : F.Fits E m b) : ∀ (e : Expr) (n : Node) (σ : Store) (s : IState), check Γ e = some n → n.warn = false →
    Plain A e → Known F e → Holds F b σ s.vm → b.hp + 4 * (need e : Int) < s.vm.sp → Goal E m here F b n (eval A Γ F.tgt σ e) σ s
  | .lit t v, n, σ, s, hc, hw, hp, hk, hH, hr => by
    simp only [check, Option.some.injEq] at hc
    subst hc
    exact goal_num hH
  | .var x, n, σ, s, hc, hw, hp, hk, hH, hr => by
    simp only [check, Option.some.injEq] at hc
    subst hc
    exact goal_load hF hH hk
  | .neg e, n, σ, s, hc, hw, hp, hk, hH, hr => by
    simp only [check, Option.map_eq_some_iff] at hc
    obtain ⟨k, hk1, hc⟩ := hc
    have hkw : k.warn = false := by cases hx : k.const <;> rw [hx] at hc <;> subst hc <;> exact hw
    have ih := sound hA hF e k σ s hk1 hkw hp hk hH hr
    simp only [eval]
    cases hx : k.const with
    | some v =>
      rw [hx] at hc
      subst hc
      cases hev : eval A Γ F.tgt σ e with
      | error x => rw [hev] at ih; exact absurd (hx ▸ ih.1) (fun h => (nomatch h))
      | ok q =>
        obtain ⟨v', σ'⟩ := q
        rw [hev] at ih
        obtain ⟨h1, h0, _⟩ := ih
        obtain ⟨h2, h3⟩ := h0 v hx
        clear h0
        subst h3
        simp only [Except.bind, h1, h2]
        exact goal_num hH
    | none =>
      rw [hx] at hc
      subst hc
      have hc0 : k.const = none := hx
      have g := goal_then (t := k.ty) (w := k.warn) (c := [if k.ty = .float then .negF32 else .neg])
        (f := fun v => ⟨v.ty, if v.ty = .float then opposite v.cell else -v.cell⟩) ih (fun v h => h) (fun v s1 h1 h2 => by
          by_cases hf : k.ty = .float
          · refine ⟨{ s1 with pri := E.floats.neg s1.pri }, ?_, ?_, rfl⟩
            · rw [if_pos hf]; rfl
            · show E.floats.neg s1.pri = if v.ty = .float then _ else _
              rw [if_pos (by rw [h1, hf]), hA.neg, h2]
          · refine ⟨{ s1 with pri := -s1.pri }, ?_, ?_, rfl⟩
            · rw [if_neg hf]; rfl
            · show -s1.pri = if v.ty = .float then _ else _
              rw [if_neg (by rw [h1]; exact hf), h2])
      exact g
  | .not e, n, σ, s, hc, hw, hp, hk, hH, hr => by
    simp only [check, Option.map_eq_some_iff] at hc
    obtain ⟨k, hk1, hc⟩ := hc
    have hkw : k.warn = false := by cases hx : k.const <;> rw [hx] at hc <;> subst hc <;> exact hw
    have ih := sound hA hF e k σ s hk1 hkw hp.1 hk hH hr
    simp only [eval]
    cases hx : k.const with
    | some v =>
      rw [hx] at hc
      subst hc
      cases hev : eval A Γ F.tgt σ e with
      | error x => rw [hev] at ih; exact absurd (hx ▸ ih.1) (fun h => (nomatch h))
      | ok q =>
        obtain ⟨v', σ'⟩ := q
        rw [hev] at ih
        obtain ⟨h1, h0, _⟩ := ih
        obtain ⟨h2, h3⟩ := h0 v hx
        clear h0
        subst h3
        have e1 : v'.truth A = (v != 0) := by
          unfold Value.truth
          by_cases hf : k.ty = .float
          · rw [if_pos (by rw [h1, hf]), h2]
            exact hp.2 v (float_const e hk1 hx hf)
          · rw [if_neg (by rw [h1]; exact hf), h2]
        have e2 : bit (!(v != 0)) = if v = 0 then 1 else 0 := by
          by_cases h0 : v = 0
          · rw [if_pos h0, h0]; rfl
          · rw [if_neg h0, bne_iff_ne.mpr h0]; rfl
        simp only [Except.bind, e1, e2]
        exact goal_num hH
    | none =>
      rw [hx] at hc
      subst hc
      have g := goal_then (t := .bool) (w := k.warn) (c := (if k.ty = .float then [.testF32] else []) ++ [.not])
        (f := fun v => ⟨.bool, bit (!v.truth A)⟩) ih (fun v h => rfl) (fun v s1 h1 h2 => by
          by_cases hf : k.ty = .float
          · refine ⟨{ s1 with pri := if boolCell (E.floats.truth s1.pri) = 0 then 1 else 0 }, ?_, ?_, rfl⟩
            · rw [if_pos hf]; rfl
            · show (if boolCell (E.floats.truth s1.pri) = 0 then (1 : Cell) else 0) = bit (!v.truth A)
              unfold Value.truth
              rw [if_pos (show v.ty = .float by rw [h1, hf]), hA.truth, h2]
              cases A.truth v.cell <;> rfl
          · refine ⟨{ s1 with pri := if s1.pri = 0 then 1 else 0 }, ?_, ?_, rfl⟩
            · rw [if_neg hf]; rfl
            · show (if s1.pri = 0 then (1 : Cell) else 0) = bit (!v.truth A)
              unfold Value.truth
              rw [if_neg (show ¬ v.ty = .float by rw [h1]; exact hf), h2]
              by_cases h0 : v.cell = 0
              · rw [if_pos h0, h0]; rfl
              · rw [if_neg h0, bne_iff_ne.mpr h0]; rfl)
      rw [← List.append_assoc] at g
      exact g
  | .bin op x y, n, σ, s, hc, hw, hp, hk, hH, hr => by
    simp only [check] at hc
    split at hc
    · next a d ha hd =>
      simp only [need] at hr
      exact goal_binary (k := need y) hA hF op hc hw (fun h => sound hA hF x a σ s ha h hp.1 hk.1 hH (by omega))
        (fun h σ1 s1 h1 h2 => sound hA hF y d σ1 s1 hd h hp.2 hk.2 h1 h2) hH (by omega)
    · cases hc
  | .chain e op x rest, n, σ, s, hc, hw, hp, hk, hH, hr => by
    simp only [check] at hc
    split at hc
    · next a d l ha hd hl =>
      split at hc
      · next hop =>
        simp only [need] at hr
        obtain ⟨p1, p2, p3, p4⟩ := hp
        obtain ⟨k1, k2, k3⟩ := hk
        cases hc
        have hwn : (a.warn || chainWarn a ((op, d) :: l)) = false := by
          unfold chained at hw
          dsimp only at hw
          split at hw <;> exact hw
        simp only [chainWarn, Bool.or_eq_false_iff, bne_eq_false_iff_eq] at hwn
        obtain ⟨w1, ⟨w2, w3⟩, w4⟩ := hwn
        have ga := sound hA hF e a σ s ha w1 p1 k1 hH (by omega)
        unfold chained
        dsimp only
        cases hf : foldChain a ((op, d) :: l) with
        | some r =>
          dsimp only
          simp only [foldChain] at hf
          split at hf
          · next v w r' hv hw' hr' =>
            cases hf
            have hnf : a.ty ≠ .float := by
              intro h
              have hdf : d.ty = .float := by rw [← w3, h]
              have := rest_const rest hl hr' w4 hdf
              rw [float_const e ha hv h, float_const x hd hw' hdf, this] at p4
              cases p4
            simp only [eval]
            cases hev : eval A Γ F.tgt σ e with
            | error z => rw [hev] at ga; exact absurd (hv ▸ ga.1) (fun h => (nomatch h))
            | ok q =>
              obtain ⟨lv, σ1⟩ := q
              rw [hev] at ga
              obtain ⟨h1, h0, _⟩ := ga
              obtain ⟨h2, h3⟩ := h0 v hv
              clear h0
              subst h3
              have gd := sound hA hF x d σ1 s hd w2 p2 k2 hH (by omega)
              simp only [Except.bind]
              cases hev2 : eval A Γ F.tgt σ1 x with
              | error z => rw [hev2] at gd; exact absurd (hw' ▸ gd.1) (fun h => (nomatch h))
              | ok q =>
                obtain ⟨rv, σ2⟩ := q
                rw [hev2] at gd
                obtain ⟨g1, g0, _⟩ := gd
                obtain ⟨g2, g3⟩ := g0 w hw'
                clear g0
                subst g3
                have hrf : rv.ty ≠ .float := by rw [g1, ← w3]; exact hnf
                simp only [fold_rel (A := A) hop (show lv.ty ≠ .float by rw [h1]; exact hnf) hrf]
                have hrest := (soundRest hA hF rest l d rv σ2 s hl w4 p3 k3 g1 hH (by omega)
                  (fun c hc => by rw [hw'] at hc; cases hc; exact g2)).1 r' (by rw [← w3]; exact hnf) hr'
                rw [hrest]
                have e1 : ∀ y : Bool, (bit y != 0) = y := by intro y; cases y <;> rfl
                simp only [e1, h2, g2]
                exact goal_num hH
          · cases hf
        | none =>
          dsimp only
          have hsame : ∀ (ra : Except Err (Value × Store)), ra = eval A Γ F.tgt σ e → True := fun _ _ => trivial
          simp only [eval]
          cases hev : eval A Γ F.tgt σ e with
          | error z =>
            rw [hev] at ga
            obtain ⟨_, s', h⟩ := ga
            exact ⟨rfl, s', by show run E m here (_ ++ _ ++ _) s = _; exact run_fail (run_fail h)⟩
          | ok q =>
            obtain ⟨lv, σ1⟩ := q
            rw [hev] at ga
            obtain ⟨h1, h2, s1, h3, h4, h5⟩ := ga
            have hsp := h5.sp
            have hi := run_inner (here := here) (k := need x) (left := a) (right := d) (l := lv) hA hF h5.holds op h1 (by rw [w3])
              (by cases hcc : a.const with
                | some c => exact (h2 c hcc).1
                | none => exact h4) (by omega)
              (fun s2 q1 q2 => sound hA hF x d σ1 s2 hd w2 p2 k2 q1 q2)
            simp only [Except.bind] at hi ⊢
            cases hev2 : eval A Γ F.tgt σ1 x with
            | error z =>
              rw [hev2] at hi
              obtain ⟨s', h⟩ := hi
              exact ⟨rfl, s', by show run E m here (_ ++ _ ++ _) s = _; exact run_fail (by rw [run_two h3]; exact h)⟩
            | ok q =>
              obtain ⟨rv, σ2⟩ := q
              rw [hev2] at hi
              dsimp only at hi ⊢
              cases hap : apply A op lv rv with
              | error z =>
                rw [hap] at hi
                obtain ⟨s', h⟩ := hi
                exact ⟨rfl, s', by show run E m here (_ ++ _ ++ _) s = _; exact run_fail (by rw [run_two h3]; exact h)⟩
              | ok v =>
                rw [hap] at hi
                obtain ⟨i1, i2, s2, i3, i4, i5, i6⟩ := hi
                have hrun : run E m here (a.code ++ inner op a d) s = .ok s2 () := by rw [run_two h3]; exact i3
                have hP := h5.trans i4
                have hsp2 := hP.sp
                have hdc : ∀ c, d.const = some c → rv.cell = c := by
                  intro c hc
                  have gd := sound hA hF x d σ1 s1 hd w2 p2 k2 h5.holds (by omega)
                  rw [hev2] at gd
                  exact (gd.2.1 c hc).1
                have hrest := (soundRest hA hF rest l d rv σ2 s2 hl w4 p3 k3 i1 hP.holds (by omega) hdc).2 (v.cell != 0)
                  (i5.trans (rel_bit hop hap)) (i6 hop)
                dsimp only
                cases hr3 : evalRest A Γ F.tgt σ2 rv rest with
                | error z =>
                  rw [hr3] at hrest
                  obtain ⟨s', h⟩ := hrest
                  exact ⟨rfl, s', by show run E m here (_ ++ _ ++ _) s = _; rw [run_two hrun]; exact h⟩
                | ok q =>
                  obtain ⟨wv, σ3⟩ := q
                  rw [hr3] at hrest
                  obtain ⟨s3, j1, j2, j3⟩ := hrest
                  exact ⟨rfl, fun c h => (nomatch h), s3, by show run E m here (_ ++ _ ++ _) s = _; rw [run_two hrun]; exact j1, j2, hP.trans j3⟩
      · cases hc
    · cases hc
  | .set x e, n, σ, s, hc, hw, hp, hk, hH, hr => by
    simp only [check, Option.map_eq_some_iff] at hc
    obtain ⟨k, hk1, hc⟩ := hc
    subst hc
    have hw : (k.warn || Γ x != k.ty) = false := hw
    simp only [Bool.or_eq_false_iff, bne_eq_false_iff_eq] at hw
    simp only [need] at hr
    have ih := sound hA hF e k σ s hk1 hw.1 hp hk.2 hH hr
    have g := goal_store (here := here) hF (by omega) hk.1 (goal_bare (t := Γ x) (w := k.warn || Γ x != k.ty) ih hw.2)
    simp only [eval]
    cases hev : eval A Γ F.tgt σ e with
    | error z => rw [hev] at g; exact g
    | ok q =>
      rw [hev] at g ih
      have e1 : (⟨Γ x, q.1.cell⟩ : Value) = q.1 := by
        obtain ⟨⟨t, c⟩, σ'⟩ := q
        have : t = k.ty := ih.1
        simp only [Value.mk.injEq, and_true]
        rw [hw.2, this]
      simp only [Except.bind] at g ⊢
      rw [e1]
      exact g
  | .opset op x e, n, σ, s, hc, hw, hp, hk, hH, hr => by
    simp only [check] at hc
    split at hc
    · cases hc
    · next k hk1 =>
      split at hc
      · cases hc
      · next hno =>
        simp only [Bool.or_eq_true, Bool.and_eq_true, bne_iff_ne, ne_eq, beq_iff_eq, not_or, not_and, Decidable.not_not] at hno
        cases hc
        have hwn : (k.warn || Γ x != (if mixed ⟨Γ x, none, false, load x⟩ k then toFloat k else k).ty) = false := hw
        simp only [Bool.or_eq_false_iff, bne_eq_false_iff_eq] at hwn
        simp only [need] at hr
        obtain ⟨hk0, hk2⟩ := hk
        have hres : resultTy op (Γ x) = Γ x := by unfold resultTy; rw [if_neg hno.1]
        have hgen : Goal E m here F b ⟨Γ x, none, (k.warn || Γ x != (if mixed ⟨Γ x, none, false, load x⟩ k then toFloat k else k).ty),
            load x ++ inner op ⟨Γ x, none, false, load x⟩ (if mixed ⟨Γ x, none, false, load x⟩ k then toFloat k else k)⟩
            ((eval A Γ F.tgt σ e).bind fun r => (apply A op ⟨Γ x, σ (x.obj F.tgt)⟩ r.1).bind fun v => .ok (v, r.2)) σ s := by
          by_cases hx : mixed ⟨Γ x, none, false, load x⟩ k = true
          · simp only [hx, if_true]
            have hxf : Γ x = .float := (mixed_iff.mp hx).elim id fun h => Classical.byContradiction fun hn => hno.2 hn h
            refine goal_bin (a := ⟨Γ x, none, false, load x⟩) (d := k) (a' := ⟨Γ x, none, false, load x⟩) (d' := toFloat k)
              (c := fun v => ⟨.float, v.asFloat A⟩) (k := need e) (rd := fun σ1 => eval A Γ F.tgt σ1 e)
              (ra := .ok (⟨Γ x, σ (x.obj F.tgt)⟩, σ)) hA hF op (goal_load hF hH hk0) ?_
              (fun σ1 s1 q1 q2 => sound hA hF e k σ1 s1 hk1 hwn.1 hp hk2 q1 q2)
              (fun σ1 s1 q1 q2 => goal_toFloat hA (sound hA hF e k σ1 s1 hk1 hwn.1 hp hk2 q1 q2))
              (by rw [toFloat_ty]; exact ⟨fun _ => rfl, fun _ => hxf⟩) hres.symm hH (by omega) fun l r hl hr => ?_
            · show Goal E m here F b _ (.ok (⟨.float, Value.asFloat A ⟨Γ x, σ (x.obj F.tgt)⟩⟩, σ)) σ s
              have : (⟨.float, Value.asFloat A ⟨Γ x, σ (x.obj F.tgt)⟩⟩ : Value) = ⟨Γ x, σ (x.obj F.tgt)⟩ := by
                unfold Value.asFloat
                simp only [hxf, if_true]
              rw [this]
              exact goal_load hF hH hk0
            · exact apply_conv op (by rw [hl]; exact .inl hxf)
          · simp only [hx, if_false, Bool.false_eq_true] at hwn ⊢
            exact goal_bin (a := ⟨Γ x, none, false, load x⟩) (d := k) (a' := ⟨Γ x, none, false, load x⟩) (d' := k)
              (c := fun v => v) (k := need e) (rd := fun σ1 => eval A Γ F.tgt σ1 e)
              (ra := .ok (⟨Γ x, σ (x.obj F.tgt)⟩, σ)) hA hF op (goal_load hF hH hk0) (goal_load hF hH hk0)
              (fun σ1 s1 q1 q2 => sound hA hF e k σ1 s1 hk1 hwn.1 hp hk2 q1 q2)
              (fun σ1 s1 q1 q2 => goal_id (sound hA hF e k σ1 s1 hk1 hwn.1 hp hk2 q1 q2))
              (by show Γ x = _ ↔ _; rw [hwn.2]) hres.symm hH (by omega) fun l r _ _ => rfl
        have g := goal_store (here := here) hF (by omega) hk0 hgen
        simp only [eval]
        cases hev : eval A Γ F.tgt σ e with
        | error z => rw [hev] at g; exact g
        | ok q =>
          rw [hev] at g
          simp only [Except.bind] at g ⊢
          cases hap : apply A op ⟨Γ x, σ (x.obj F.tgt)⟩ q.1 with
          | error z => rw [hap] at g; exact g
          | ok v => rw [hap] at g; exact g
  | .inc up pre x, n, σ, s, hc, hw, hp, hk, hH, hr => by
    simp only [need] at hr
    exact goal_inc hA hF hH up pre hk (by omega) hc
  | .conv e, n, σ, s, hc, hw, hp, hk, hH, hr => by
    simp only [check, Option.map_eq_some_iff] at hc
    obtain ⟨k, hk1, hc⟩ := hc
    subst hc
    have hw : (k.warn || k.ty != .int) = false := hw
    simp only [Bool.or_eq_false_iff] at hw
    have ih := sound hA hF e k σ s hk1 hw.1 hp hk hH hr
    simp only [eval]
    refine goal_then (f := fun v => ⟨.float, A.ofInt v.cell⟩) ih (fun _ _ => rfl) fun v s1 h1 h2 => ⟨_, rfl, ?_, rfl⟩
    show E.floats.ofInt s1.pri = _
    rw [hA.ofInt, h2]

theorem soundRest (hA : Agree E.floats A) (hF : F.Fits E m b) : ∀ (rest : Rest) (l : List (Bin × Node)) (left : Node) (lv : Value) (σ : Store) (s : IState),
    checkRest Γ rest = some l → chainWarn left l = false → PlainRest A rest → KnownRest F rest → lv.ty = left.ty → Holds F b σ s.vm →
    b.hp + 4 * (needRest rest : Int) < s.vm.sp → (∀ c, left.const = some c → lv.cell = c) →
    (∀ r, left.ty ≠ .float → foldChain left l = some r → evalRest A Γ F.tgt σ lv rest = .ok (r, σ)) ∧
    ∀ acc, s.pri = bit acc → s.alt = lv.cell →
      match evalRest A Γ F.tgt σ lv rest with
      | .error x => ∃ s', run E m here (chainCode left l) s = .fail s' x
      | .ok (w, σ') => ∃ s', run E m here (chainCode left l) s = .ok s' () ∧ s'.pri = bit (acc && w) ∧ Post F b σ' s s'
  | .nil, l, left, lv, σ, s, hc, hw, hp, hk, ht, hH, hr, hlc => by
    simp only [checkRest, Option.some.injEq] at hc
    subst hc
    refine ⟨fun r hnf hf => ?_, fun acc h1 h2 => ?_⟩
    · simp only [foldChain, Option.map_eq_some_iff] at hf
      obtain ⟨_, _, rfl⟩ := hf
      rfl
    · exact ⟨s, rfl, by rw [h1, Bool.and_true], ⟨hH, rfl, fun _ _ _ => rfl⟩⟩
  | .cons op x rest, l, left, lv, σ, s, hc, hw, hp, hk, ht, hH, hr, hlc => by
    simp only [checkRest] at hc
    split at hc
    · next d l' hd hl =>
      split at hc
      · next hop =>
        cases hc
        simp only [chainWarn, Bool.or_eq_false_iff, bne_eq_false_iff_eq] at hw
        obtain ⟨⟨w2, w3⟩, w4⟩ := hw
        simp only [needRest] at hr
        obtain ⟨p1, p2⟩ := hp
        obtain ⟨k1, k2⟩ := hk
        refine ⟨fun r hnf hf => ?_, fun acc h1 h2 => ?_⟩
        · simp only [foldChain] at hf
          split at hf
          · next v w r' hv hw' hr' =>
            cases hf
            have gd := sound hA hF x d σ s hd w2 p1 k1 hH (by omega)
            simp only [evalRest]
            cases hev : eval A Γ F.tgt σ x with
            | error z => rw [hev] at gd; exact absurd (hw' ▸ gd.1) (fun h => (nomatch h))
            | ok q =>
              obtain ⟨rv, σ2⟩ := q
              rw [hev] at gd
              obtain ⟨g1, g0, _⟩ := gd
              obtain ⟨g2, g3⟩ := g0 w hw'
              clear g0
              subst g3
              have hdf : d.ty ≠ .float := by rw [← w3]; exact hnf
              simp only [Except.bind, fold_rel (A := A) hop (show lv.ty ≠ .float by rw [ht]; exact hnf) (show rv.ty ≠ .float by rw [g1]; exact hdf)]
              have hrest := (soundRest hA hF rest l' d rv σ2 s hl w4 p2 k2 g1 hH (by omega)
                (fun c hc => by rw [hw'] at hc; cases hc; exact g2)).1 r' hdf hr'
              rw [hrest]
              have e1 : ∀ y : Bool, (bit y != 0) = y := by intro y; cases y <;> rfl
              simp only [e1, hlc v hv, g2]
          · cases hf
        · have hi := run_link (here := here) (k := need x) (left := left) (right := d) (l := lv) hA hF hH hop ht w3 hlc h1 h2 (by omega)
            (fun s2 q1 q2 => sound hA hF x d σ s2 hd w2 p1 k1 q1 q2)
          simp only [evalRest, chainCode]
          simp only [Except.bind] at hi ⊢
          cases hev : eval A Γ F.tgt σ x with
          | error z =>
            rw [hev] at hi
            obtain ⟨s', h⟩ := hi
            exact ⟨s', run_fail h⟩
          | ok q =>
            obtain ⟨rv, σ2⟩ := q
            rw [hev] at hi
            dsimp only at hi ⊢
            cases hap : apply A op lv rv with
            | error z =>
              rw [hap] at hi
              obtain ⟨s', h⟩ := hi
              exact ⟨s', run_fail h⟩
            | ok v =>
              rw [hap] at hi
              obtain ⟨i1, s2, i3, i4, i5, i6⟩ := hi
              have hsp := i4.sp
              have hdc : ∀ c, d.const = some c → rv.cell = c := by
                intro c hc
                have gd := sound hA hF x d σ s hd w2 p1 k1 hH (by omega)
                rw [hev] at gd
                exact (gd.2.1 c hc).1
              have hrest := (soundRest hA hF rest l' d rv σ2 s2 hl w4 p2 k2 i1 i4.holds (by omega) hdc).2 _ i5 i6
              dsimp only
              cases hr3 : evalRest A Γ F.tgt σ2 rv rest with
              | error z =>
                rw [hr3] at hrest
                obtain ⟨s', h⟩ := hrest
                exact ⟨s', by rw [run_two i3]; exact h⟩
              | ok q =>
                obtain ⟨wv, σ3⟩ := q
                rw [hr3] at hrest
                obtain ⟨s3, j1, j2, j3⟩ := hrest
                exact ⟨s3, by rw [run_two i3]; exact j1, by rw [j2, Bool.and_assoc], i4.trans j3⟩
      · cases hc
    · cases hc
end

end Verif.Flt

import Verif.Proofs.FloatExpr

/-! Lemmas for C91: expressions. -/
namespace Verif.Flt
open Verif.VM hiding run
open Verif.Long (run run_append run_two run_fail)

variable {F : Frame} {E : Env} {A : FloatArith} {Γ : Var → Ty} {m : Nat} {here : Int} {b : State}

/-! ### Constants -/

theorem binary_const {op : Bin} {m n r : Node} (h : binary op m n = some r) {c : Cell} (hc : r.const = some c) : r.ty ≠ .float := by
  unfold binary at h
  dsimp only at h
  split at h
  · next v w hx hv hw =>
    split at h
    · cases h
      show resultTy op (if mixed m n then toFloat m else m).ty ≠ .float
      rw [hx]
      unfold mixed at hx
      unfold resultTy
      split
      · intro h; cases h
      · intro h
        rw [if_neg (by simp)] at h
        simp [h] at hx
    · cases h
  · cases h; cases hc

theorem float_const : ∀ (e : Expr) {n : Node} {c : Cell}, check Γ e = some n → n.const = some c → n.ty = .float → floatConst e = some c
  | .lit t v, n, c, h, hc, ht => by
    simp only [check, Option.some.injEq] at h
    subst h
    cases ht
    exact hc
  | .var x, n, c, h, hc, ht => by
    simp only [check, Option.some.injEq] at h
    subst h
    cases hc
  | .neg e, n, c, h, hc, ht => by
    simp only [check, Option.map_eq_some_iff] at h
    obtain ⟨k, hk, h⟩ := h
    cases hkc : k.const with
    | some v =>
      rw [hkc] at h
      subst h
      have ht : k.ty = .float := ht
      have := float_const e hk hkc ht
      simp only [floatConst, this, Option.map_some]
      simp only [Node.num, ht, if_true] at hc
      exact hc
    | none =>
      rw [hkc] at h
      subst h
      first | cases hc | cases hc.symm.trans hkc
  | .not e, n, c, h, hc, ht => by
    simp only [check, Option.map_eq_some_iff] at h
    obtain ⟨k, hk, h⟩ := h
    cases hkc : k.const <;> rw [hkc] at h <;> subst h <;> cases ht
  | .bin op x y, n, c, h, hc, ht => by
    simp only [check] at h
    split at h
    · exact absurd ht (binary_const h hc)
    · cases h
  | .chain e op x rest, n, c, h, hc, ht => by
    simp only [check] at h
    split at h
    · split at h
      · cases h
        unfold chained at ht
        dsimp only at ht
        split at ht <;> cases ht
      · cases h
    · cases h
  | .set x e, n, c, h, hc, ht => by
    simp only [check, Option.map_eq_some_iff] at h
    obtain ⟨k, hk, h⟩ := h
    subst h
    cases hc
  | .opset op x e, n, c, h, hc, ht => by
    simp only [check] at h
    split at h
    · cases h
    · split at h
      · cases h
      · cases h; cases hc
  | .inc up pre x, n, c, h, hc, ht => by
    simp only [check, Option.some.injEq] at h
    subst h
    cases hc
  | .conv e, n, c, h, hc, ht => by
    simp only [check, Option.map_eq_some_iff] at h
    obtain ⟨k, hk, h⟩ := h
    subst h
    cases hc

theorem calc_ok {op : Bin} {v w r : Cell} (h : CodeGen.calcBin op.calc v w = .value r) (t : Ty) : opI t op v w = .ok ⟨resultTy op t, r⟩ := by
  cases op
  case div =>
    simp only [Bin.calc, CodeGen.calcBin] at h
    split at h
    · cases h
    · split at h
      · cases h
      · next h1 h2 =>
        cases h
        simp only [opI]
        rw [if_neg h1, if_neg (fun hc => h2 ⟨hc.2, hc.1⟩)]; rfl
  case mod =>
    simp only [Bin.calc, CodeGen.calcBin] at h
    split at h
    · cases h
    · split at h
      · cases h
      · next h1 h2 =>
        cases h
        simp only [opI]
        rw [if_neg h1, if_neg (fun hc => h2 ⟨hc.2, hc.1⟩)]; rfl
  all_goals (cases h; rfl)

/-! ### Operators -/

section
variable {σ : Store} {s : IState}

/-- An operator on nodes that have been converted (`c`). -/
theorem goal_bin (hA : Agree E.floats A) (hF : F.Fits E m b) (op : Bin) {a d a' d' : Node} {c : Value → Value} {k : Nat}
    {ra : Except Err (Value × Store)} {rd : Store → Except Err (Value × Store)} {w : Bool} {t : Ty}
    (ga : Goal E m here F b a ra σ s) (ga' : Goal E m here F b a' (ra.bind fun r => .ok (c r.1, r.2)) σ s)
    (gd : ∀ σ1 (s1 : IState), Holds F b σ1 s1.vm → b.hp + 4 * (k : Int) < s1.vm.sp → Goal E m here F b d (rd σ1) σ1 s1)
    (gd' : ∀ σ1 (s1 : IState), Holds F b σ1 s1.vm → b.hp + 4 * (k : Int) < s1.vm.sp →
      Goal E m here F b d' ((rd σ1).bind fun r => .ok (c r.1, r.2)) σ1 s1)
    (ht : a'.ty = .float ↔ d'.ty = .float) (hres : t = resultTy op a'.ty) (hH : Holds F b σ s.vm) (hroom : b.hp + 4 * ((k : Int) + 1) < s.vm.sp)
    (hap : ∀ l r, l.ty = a.ty → r.ty = d.ty → apply A op (c l) (c r) = apply A op l r) :
    Goal E m here F b ⟨t, none, w, (if a'.const.isSome then [] else a'.code) ++ inner op a' d'⟩
      (ra.bind fun l => (rd l.2).bind fun r => (apply A op l.1 r.1).bind fun v => .ok (v, r.2)) σ s := by
  cases ra with
  | error x =>
    obtain ⟨h1, s', h2⟩ := ga'
    refine ⟨rfl, s', ?_⟩
    show run E m here ((if a'.const.isSome then [] else a'.code) ++ inner op a' d') s = _
    rw [h1]
    exact run_fail h2
  | ok p =>
    obtain ⟨l, σ1⟩ := p
    have hl := ga.1
    -- the state before the right operand
    have hs1 : ∃ s1, run E m here (if a'.const.isSome then [] else a'.code) s = .ok s1 () ∧ Post F b σ1 s s1 ∧
        (match a'.const with | some x => (c l).cell = x | none => s1.pri = (c l).cell) := by
      obtain ⟨h1, h2, s1, h3, h4, h5⟩ := ga'
      cases hc : a'.const with
      | some x =>
        obtain ⟨e1, e2⟩ := h2 x hc
        have e2 : σ1 = σ := e2
        exact ⟨s, rfl, by rw [e2]; exact ⟨hH, rfl, fun _ _ _ => rfl⟩, e1⟩
      | none => exact ⟨s1, h3, h5, h4⟩
    obtain ⟨s1, h1, h2, h3⟩ := hs1
    have hr1 : b.hp + 4 * ((k : Int) + 1) < s1.vm.sp := by rw [h2.sp]; exact hroom
    have hty := ga'.1
    have hi := run_inner (here := here) hA hF h2.holds (left := a') (right := d') (l := c l) op hty ht h3 hr1 (fun s2 k1 k2 => gd' σ1 s2 k1 k2)
    have hd := gd σ1 s1 h2.holds (by omega)
    show Goal E m here F b _ ((rd σ1).bind fun r => (apply A op l r.1).bind fun v => .ok (v, r.2)) σ s
    cases hrd : rd σ1 with
    | error x =>
      rw [hrd] at hi
      obtain ⟨s', hi⟩ := hi
      exact ⟨rfl, s', by show run E m here (_ ++ _) s = _; rw [run_two h1]; exact hi⟩
    | ok q =>
      obtain ⟨r, σ2⟩ := q
      rw [hrd] at hi hd
      have e := hap l r hl hd.1
      simp only [Except.bind] at hi ⊢
      rw [e] at hi
      cases ha : apply A op l r with
      | error x =>
        rw [ha] at hi
        obtain ⟨s', hi⟩ := hi
        exact ⟨rfl, s', by show run E m here (_ ++ _) s = _; rw [run_two h1]; exact hi⟩
      | ok v =>
        rw [ha] at hi
        obtain ⟨_, k2, s2, k3, k4, k5, _⟩ := hi
        exact ⟨by rw [k2, hres], fun c h => (nomatch h), s2, by show run E m here (_ ++ _) s = _; rw [run_two h1]; exact k3, k5, h2.trans k4⟩

theorem apply_conv (op : Bin) {l r : Value} (h : l.ty = .float ∨ r.ty = .float) :
    apply A op ⟨.float, l.asFloat A⟩ ⟨.float, r.asFloat A⟩ = apply A op l r := by
  unfold apply
  rw [if_pos (.inl rfl), if_pos h]
  rfl

theorem mixed_iff {a d : Node} : mixed a d = true ↔ a.ty = .float ∨ d.ty = .float := by
  unfold mixed; simp

theorem goal_id {n : Node} {r : Except Err (Value × Store)} (h : Goal E m here F b n r σ s) :
    Goal E m here F b n (r.bind fun r => .ok (r.1, r.2)) σ s := by
  cases r <;> exact h

theorem goal_binary (hA : Agree E.floats A) (hF : F.Fits E m b) (op : Bin) {a d n : Node} {k : Nat}
    {ra : Except Err (Value × Store)} {rd : Store → Except Err (Value × Store)} (hb : binary op a d = some n) (hw : n.warn = false)
    (ga : a.warn = false → Goal E m here F b a ra σ s)
    (gd : d.warn = false → ∀ σ1 (s1 : IState), Holds F b σ1 s1.vm → b.hp + 4 * (k : Int) < s1.vm.sp → Goal E m here F b d (rd σ1) σ1 s1)
    (hH : Holds F b σ s.vm) (hroom : b.hp + 4 * ((k : Int) + 1) < s.vm.sp) :
    Goal E m here F b n (ra.bind fun l => (rd l.2).bind fun r => (apply A op l.1 r.1).bind fun v => .ok (v, r.2)) σ s := by
  unfold binary at hb
  dsimp only at hb
  split at hb
  · next v w hx hv hw' =>
    split at hb
    · next r hr =>
      cases hb
      have hw : (a.warn || d.warn || (if mixed a d then toFloat a else a).ty != (if mixed a d then toFloat d else d).ty) = false := hw
      simp only [Bool.or_eq_false_iff] at hw
      have ga := ga hw.1.1
      have gd := gd hw.1.2
      rw [show (if mixed a d then toFloat a else a) = a by rw [hx]; rfl]
      cases ra with
      | error x => exact absurd (hv ▸ ga.1) (fun h => (nomatch h))
      | ok p =>
        obtain ⟨l, σ1⟩ := p
        obtain ⟨h1, hk, _⟩ := ga
        obtain ⟨h2, rfl⟩ := hk v hv
        clear hk
        have gd := gd σ1 s hH (by omega)
        show Goal E m here F b _ ((rd σ1).bind fun r => (apply A op l r.1).bind fun v => .ok (v, r.2)) σ1 s
        cases hrd : rd σ1 with
        | error x => rw [hrd] at gd; exact absurd (hw' ▸ gd.1) (fun h => (nomatch h))
        | ok q =>
          obtain ⟨y, σ2⟩ := q
          rw [hrd] at gd
          obtain ⟨k1, kk, _⟩ := gd
          obtain ⟨k2, rfl⟩ := kk w hw'
          have hnf : ¬ (l.ty = .float ∨ y.ty = .float) := by
            rw [h1, k1, ← mixed_iff, hx]; simp
          have e : apply A op l y = .ok ⟨resultTy op a.ty, r⟩ := by
            unfold apply
            rw [if_neg hnf, h1, h2, k2]
            exact calc_ok hr a.ty
          simp only [Except.bind, e]
          exact goal_num hH
    · cases hb
  · cases hb
    have hw : (a.warn || d.warn || (if mixed a d then toFloat a else a).ty != (if mixed a d then toFloat d else d).ty) = false := hw
    simp only [Bool.or_eq_false_iff, bne_eq_false_iff_eq] at hw
    have ga := ga hw.1.1
    have gd := gd hw.1.2
    have hty := hw.2
    by_cases hx : mixed a d = true
    · simp only [hx, if_true] at hty ⊢
      refine goal_bin (a := a) (d := d) (c := fun v => ⟨.float, v.asFloat A⟩) hA hF op ga (goal_toFloat hA ga) gd
        (fun σ1 s1 h1 h2 => goal_toFloat hA (gd σ1 s1 h1 h2)) (by rw [toFloat_ty, toFloat_ty]) rfl hH hroom fun l r hl hr => ?_
      exact apply_conv op (by rw [hl, hr]; exact mixed_iff.mp hx)
    · simp only [hx, if_false, Bool.false_eq_true] at hty ⊢
      exact goal_bin (a := a) (d := d) (c := fun v => v) hA hF op ga (goal_id ga) gd (fun σ1 s1 h1 h2 => goal_id (gd σ1 s1 h1 h2))
        (by rw [hty]) rfl hH hroom fun _ _ _ _ => rfl

/-! ### Chains -/

theorem run_suffix (hF : F.Fits E m b) (hH : Holds F b σ s.vm) {top : Int} (h1 : s.vm.sp = top - 4) (h2 : b.hp + 4 < top) (h3 : top ≤ b.sp) :
    run E m here [.swap .alt, .and, .pop .alt] s =
      .ok ⟨{ s.vm with mem := wr32 s.vm.mem (top - 4) s.alt, sp := top }, s.pri &&& rd32 s.vm.mem (top - 4), s.alt, s.polls⟩ () := by
  have hs : visit E m here (.swap .alt) s =
      .ok ⟨{ s.vm with mem := wr32 s.vm.mem (top - 4) s.alt, sp := top - 4 }, s.pri, rd32 s.vm.mem (top - 4), s.polls⟩ .next := by
    have hp := visit_pop (here := here) hF hH (by omega) (by omega) .alt
    have hu := visit_push (s := { s with vm := { s.vm with sp := top } }) (here := here) hF (hH.popped h3) (by show _ < top; omega) .alt
    simp only [visit, bind, IM.bind, getR, vmOp] at hp hu ⊢
    rw [h1, show top - 4 + 4 = top by omega] at hp
    cases hpp : popStack s.vm with
    | ub => rw [hpp] at hp; cases hp
    | fail v e => rw [hpp] at hp; cases hp
    | ok v x =>
      rw [hpp] at hp
      simp only [setR, pure, IM.pure, Res.ok.injEq, and_true] at hp
      have e1 : v = { s.vm with sp := top } := congrArg IState.vm hp
      have e2 : x = rd32 s.vm.mem (top - 4) := congrArg IState.alt hp
      subst e1 e2
      dsimp only [setR, IState.setReg]
      dsimp only [IState.reg] at hu ⊢
      cases hpu : pushStack s.alt { s.vm with sp := top } with
      | ub => rw [hpu] at hu; cases hu
      | fail v e => rw [hpu] at hu; cases hu
      | ok v x =>
        rw [hpu] at hu
        simp only [pure, IM.pure, Res.ok.injEq, and_true] at hu
        have e1 := congrArg IState.vm hu
        dsimp only at e1
        subst e1
        rfl
  have hH2 : Holds F b σ { s.vm with mem := wr32 s.vm.mem (top - 4) s.alt, sp := top - 4 } :=
    (hH.popped h3).pushed hF (by show _ < top; omega) s.alt
  have hp := visit_pop (s := ⟨{ s.vm with mem := wr32 s.vm.mem (top - 4) s.alt, sp := top - 4 }, s.pri &&& rd32 s.vm.mem (top - 4),
    rd32 s.vm.mem (top - 4), s.polls⟩) (here := here) hF hH2 (by show _ ≤ top - 4; omega) (by show top - 4 + 4 ≤ _; omega) .alt
  have ha : ∀ q : IState, visit E m here .and q = .ok { q with pri := q.pri &&& q.alt } .next := fun q => rfl
  simp only [run, hs, ha, hp]
  dsimp only [IState.setReg]
  rw [rd32_wr32_same, show top - 4 + 4 = top by omega]

theorem bit_and (x y : Bool) : bit x &&& bit y = bit (x && y) := by cases x <;> cases y <;> rfl

theorem rel_bit {op : Bin} (h : exchanged op = true) {l r v : Value} (ha : apply A op l r = .ok v) : v.cell = bit (v.cell != 0) := by
  have e : ∀ x : Bool, bit x = bit (bit x != 0) := by intro x; cases x <;> rfl
  unfold apply at ha
  split at ha
  · cases ha
    cases op <;> first | exact e _ | cases h
  · cases op <;> first | (cases ha; exact e _) | cases h

theorem fold_rel {op : Bin} (h : exchanged op = true) {l r : Value} (hl : l.ty ≠ .float) (hr : r.ty ≠ .float) :
    apply A op l r = .ok ⟨.bool, bit (foldRel op l.cell r.cell)⟩ := by
  unfold apply
  rw [if_neg (fun hc => hc.elim hl hr)]
  cases op <;> first | rfl | cases h

/-- One more comparison of a chain. -/
theorem run_link (hA : Agree E.floats A) (hF : F.Fits E m b) (hH : Holds F b σ s.vm) {left right : Node} {l : Value} {op : Bin} {k : Nat} {acc : Bool}
    (hx : exchanged op = true) (hl : l.ty = left.ty) (ht : left.ty = right.ty) (hlc : ∀ c, left.const = some c → l.cell = c)
    (hp : s.pri = bit acc) (ha : s.alt = l.cell) (hroom : b.hp + 4 * ((k : Int) + 2) < s.vm.sp) {rr : Except Err (Value × Store)}
    (hr : ∀ s1 : IState, Holds F b σ s1.vm → b.hp + 4 * (k : Int) < s1.vm.sp → Goal E m here F b right rr σ s1) :
    match rr.bind fun r => (apply A op l r.1).bind fun v => .ok (r, v) with
    | .error x => ∃ s', run E m here ([.push .pri, .move .pri] ++ inner op left right ++ [.swap .alt, .and, .pop .alt]) s = .fail s' x
    | .ok ((r, σ'), v) => r.ty = right.ty ∧
        ∃ s', run E m here ([.push .pri, .move .pri] ++ inner op left right ++ [.swap .alt, .and, .pop .alt]) s = .ok s' () ∧
        Post F b σ' s s' ∧ s'.pri = bit (acc && (v.cell != 0)) ∧ s'.alt = r.cell := by
  have hpu : b.hp + 4 < s.vm.sp := by omega
  have htop := hH.top
  have hH1 := hH.pushed hF hpu (s.reg .pri)
  let s1 : IState := ⟨{ s.vm with mem := wr32 s.vm.mem (s.vm.sp - 4) (s.reg .pri), sp := s.vm.sp - 4 }, s.alt, s.alt, s.polls⟩
  have e1 : run E m here [.push .pri, .move .pri] s = .ok s1 () := by
    simp only [run, visit_push hF hH hpu]
    rfl
  have hi := run_inner (s := s1) (here := here) hA hF hH1 op hl (by rw [ht]) (l := l) (k := k) (left := left) (right := right) (rr := rr)
    (by cases hc : left.const with
      | some c => exact hlc c hc
      | none => exact ha)
    (by show _ < s.vm.sp - 4; omega) hr
  cases hb : (rr.bind fun r => (apply A op l r.1).bind fun v => .ok (r, v) : Except Err ((Value × Store) × Value)) with
  | error x =>
    rw [hb] at hi
    obtain ⟨s', hi⟩ := hi
    exact ⟨s', by rw [List.append_assoc, run_two e1]; exact run_fail hi⟩
  | ok q =>
    obtain ⟨⟨r, σ'⟩, v⟩ := q
    rw [hb] at hi
    obtain ⟨k1, _, s2, k3, k4, k5, k6⟩ := hi
    have hsp : s2.vm.sp = s.vm.sp - 4 := k4.sp
    have hrd : rd32 s2.vm.mem (s.vm.sp - 4) = bit acc := by
      have : rd32 s2.vm.mem (s.vm.sp - 4) = rd32 s1.vm.mem (s.vm.sp - 4) :=
        rd32_congr fun x h1 h2 => k4.keep x h1 (by omega)
      rw [this]
      show rd32 (wr32 _ _ _) _ = _
      rw [rd32_wr32_same]
      exact hp
    have hsf := run_suffix (here := here) hF k4.holds hsp hpu htop
    rw [hrd] at hsf
    have hvb : v.cell = bit (v.cell != 0) := by
      cases hrr : rr with
      | error x => rw [hrr] at hb; cases hb
      | ok q =>
        rw [hrr] at hb
        simp only [Except.bind] at hb
        cases hap : apply A op l q.1 with
        | error x => rw [hap] at hb; cases hb
        | ok v' =>
          rw [hap] at hb
          cases hb
          exact rel_bit hx hap
    refine ⟨k1, _, (by rw [List.append_assoc, run_two e1, run_two k3] : _ = _).trans hsf, ⟨?_, rfl, fun x h1 h2 => ?_⟩, ?_, k6 hx⟩
    · have := ((k4.holds.popped htop).pushed hF (by show _ < s.vm.sp; omega) s2.alt).popped htop
      exact this
    · show wr32 s2.vm.mem (s.vm.sp - 4) s2.alt x = _
      rw [wr32_far (by omega), k4.keep x (by show s.vm.sp - 4 ≤ x; omega) h2]
      exact wr32_far (by omega)
    · show s2.pri &&& bit acc = _
      rw [k5, hvb, bit_and, Bool.and_comm]
      congr 1
      rw [← hvb]

end

end Verif.Flt

import Verif.Proofs.GenExpr

/-! Nodes of operators and l-values. -/
namespace Verif.Compiled
open Verif.VM Verif.Lang Verif.CodeGen

theorem Ev.bind_pure {α : Type} (x : Ev α) : (x >>= pure) = x := by
  funext σ
  show Ev.bind x Ev.pure σ = _
  unfold Ev.bind Ev.pure
  cases x σ <;> rfl

section
variable {E : Env} {L : Layout} {lim : Int} {m n : Nat} {b : State}

/-! ### Binary operators -/

theorem binary_expr_ok (hF : Fits E L lim b) (hA : Activation E L m b) {evA evB : Ev Cell} {a c : Node}
    (ha : NodeOk E L lim m n b evA a) (hb : NodeOk E L lim m n b evB c) (op : BinOp) :
    ExprOk E L lim m n b (do let x ← evA; let y ← evB; binop op x y) (emitBinary op a c) := by
  intro N p s σ hN hc hH
  have hrw : (fun x => do let y ← evB; binop op x y) = (fun x => do let y ← evB; let v ← binop op x y; (fun v _ => pure v : Cell → Cell → Ev Cell) v y) := by
    funext x
    simp only [Ev.bind_pure]
  show Runs E L lim m N p s ((evA >>= (fun x => do let y ← evB; binop op x y)) σ) _
  rw [hrw]
  unfold emitBinary at hc ⊢
  rw [ends_then]
  cases hl : a.const with
  | some l =>
    rw [hl] at hc
    rw [Ev.bind_ok ((ha.const l hl).1 σ)]
    have hc' : Here E (emitBinaryInner (some op) (some l) false c) p := hc.snd
    refine inner_ok hF hA hb op hN hc' hH (fun _ h => by cases h; rfl) (fun h => by cases h) ?_
    intro v y σ' s' hP hv _ _ _
    exact Runs.ok ⟨rfl, rfl, hP, hv⟩
  | none =>
    rw [hl] at hc
    refine Runs.bind (ha.expr N p s σ hN hc.fst hH) ?_
    rintro x σ1 N1 q1 s1 _ ⟨rfl, rfl, hP1, hx⟩
    refine inner_ok hF hA hb op hN hc.snd hP1.holds (fun _ h => by cases h) (fun _ => hx) ?_
    intro v y σ' s' hP hv _ _ _
    exact Runs.ok ⟨rfl, rfl, hP1.trans hP, hv⟩

theorem cmp_binop {op : BinOp} {c : Cmp} (h : cmpTokenToOp op = some c) (x y : Cell) (σ : Store) :
    binop op x y σ = .ok (truth (cmpCells c x y)) σ := by
  have hv : calcBin op x y = .value (truth (cmpCells c x y)) := by
    cases op <;> cases h <;> rfl
  exact calcBin_value hv σ

theorem cmp_invert {op : BinOp} {c : Cmp} (h : cmpTokenToOp op = some c) : ∃ c', cmpTokenToOp (invertToken op) = some c' ∧
    ∀ x y, cmpCells c' x y = !cmpCells c x y := by
  cases op <;> cases h
  · exact ⟨.neq, rfl, fun x y => rfl⟩
  · exact ⟨.eq, rfl, fun x y => by show (x == y) = !(!(x == y)); rw [Bool.not_not]⟩
  · exact ⟨.sleq, rfl, fun x y => by show x.sle y = !(y.slt x); rw [BitVec.sle_eq_not_slt]⟩
  · exact ⟨.sless, rfl, fun x y => by show x.slt y = !(y.sle x); rw [BitVec.sle_eq_not_slt, Bool.not_not]⟩
  · exact ⟨.sgeq, rfl, fun x y => by show y.sle x = !(x.slt y); rw [BitVec.sle_eq_not_slt]⟩
  · exact ⟨.sgrtr, rfl, fun x y => by show y.slt x = !(x.sle y); rw [BitVec.sle_eq_not_slt, Bool.not_not]⟩

theorem truth_ne_zero (x : Bool) : decide (truth x ≠ 0) = x := by cases x <;> rfl

theorem binary_test_ok (hF : Fits E L lim b) (hA : Activation E L m b) {evA evB : Ev Cell} {a c : Node}
    (ha : NodeOk E L lim m n b evA a) (hb : NodeOk E L lim m n b evB c) {op : BinOp} (ho : (cmpTokenToOp op).isSome = true) :
    TestOk E L lim m n b (do let x ← evA; let y ← evB; binop op x y) (emitBinaryExprTest op a c) := by
  intro j T N p s σ hN hT hc hH
  unfold emitBinaryExprTest at hc ⊢
  obtain ⟨cc, hcc⟩ := Option.isSome_iff_exists.1 ho
  simp only [ends_then]
  refine Runs.bind (ha.expr N p s σ hN hc.fst hH) ?_
  rintro x σ1 N1 q1 s1 _ ⟨rfl, rfl, hP1, hx⟩
  refine Runs.push hF hA hc.snd.fst hP1.holds (fun hs => ?_)
  have hH2 := hP1.holds.pushed hF hs (s1.reg .pri)
  refine Runs.bind (hb.expr _ _ _ σ1 hN hc.snd.snd.fst hH2) ?_
  rintro y σ2 N2 q2 s2 _ ⟨rfl, rfl, hP2, hy⟩
  refine Runs.pop hF hA hc.snd.snd.snd.fst hP2.holds ?_
  obtain ⟨hP3, htop⟩ := hP2.pop hF hP1.holds hs
  refine Runs.ins hc.snd.snd.snd.snd.fst enc_xchg (fun here => visit_xchg here) ?_
  rw [cmp_binop hcc x y σ2]
  have hpri : rd32 s2.vm.mem s2.vm.sp = x := by rw [htop]; exact hx
  obtain ⟨ci, hci, hinv⟩ := cmp_invert hcc
  have hcmp : ∀ (s' : IState), s'.pri = x → s'.alt = y →
      cmpCells ((cmpTokenToOp (if j then op else invertToken op)).getD .zero) s'.pri s'.alt = decide (decide (truth (cmpCells cc x y) ≠ 0) = j) := by
    intro s' e1 e2
    rw [e1, e2, truth_ne_zero]
    cases j
    · rw [if_neg (by simp), hci]
      show cmpCells ci x y = _
      rw [hinv]
      cases cmpCells cc x y <;> rfl
    · rw [if_pos rfl, hcc]
      show cmpCells cc x y = _
      cases cmpCells cc x y <;> rfl
  refine Runs.jcmp (M := N2 - 1) hF hT hc.snd.snd.snd.snd.snd (Nat.le_refl _) ?_ ?_
  · intro h i
    rw [hcmp _ hpri hy, decide_eq_true_eq] at h
    refine Runs.ok ⟨rfl, (if_pos h).symm, hP1.trans hP3⟩
  · intro h
    rw [hcmp _ hpri hy, decide_eq_false_iff_not] at h
    refine Runs.ok ⟨rfl, (if_neg h).symm, hP1.trans hP3⟩

theorem binary_test_fixed {a c : Node} (ha : Fixed a.expr) (hb : Fixed c.expr) (op : BinOp) (j : Bool) : Fixed2 (emitBinaryExprTest op a c j) :=
  (Fixed2.const ha).then ((Fixed2.const (Fixed.ins _)).then ((Fixed2.const hb).then ((Fixed2.const (Fixed.ins _)).then
    ((Fixed2.const (Fixed.ins _)).then (Fixed2.jcmp _)))))

theorem binary_ok (hF : Fits E L lim b) (hA : Activation E L m b) {evA evB : Ev Cell} {a c : Node}
    (ha : NodeOk E L lim m n b evA a) (hb : NodeOk E L lim m n b evB c) (op : BinOp) :
    NodeOk E L lim m n b (do let x ← evA; let y ← evB; binop op x y) (binary op a c) := by
  have hp : NodeOk E L lim m n b (do let x ← evA; let y ← evB; binop op x y)
      (plain ((foldBinary op a.const c.const).bind (·.value?)) (a.bad || c.bad || ((foldBinary op a.const c.const).map (·.value?.isNone)).getD false) (emitBinary op a c)) := by
    refine plain_ok hF ?_ (fun _ => binary_expr_ok hF hA ha hb op) ((ha.fexpr.emitIf _).then (inner_fixed _ _ _ hb.fexpr))
    intro v hv σ
    unfold foldBinary at hv
    split at hv
    · rename_i x y hx hy
      rw [Ev.bind_ok ((ha.const x hx).1 σ), Ev.bind_ok ((hb.const y hy).1 σ)]
      refine calcBin_value ?_ σ
      simp only [Option.bind_some] at hv
      unfold Folded.value? at hv
      split at hv
      · cases hv; assumption
      · cases hv
    · cases hv
  unfold binary
  simp only
  split
  · rename_i ho
    exact hp.withTest (binary_test_ok hF hA ha hb ho) (binary_test_fixed ha.fexpr hb.fexpr op)
  · exact hp

/-! ### Unary operators -/

theorem unary_expr_ok {ev : Ev Cell} {e : Node} (h : NodeOk E L lim m n b ev e) (op : UnOp) :
    ExprOk E L lim m n b (do let x ← ev; pure (unop op x)) (emitUnary op e) := by
  intro N p s σ hN hc hH
  unfold emitUnary at hc ⊢
  rw [ends_then]
  refine Runs.bind (h.expr N p s σ hN hc.fst hH) ?_
  rintro x σ1 N1 q1 s1 _ ⟨rfl, rfl, hP1, hx⟩
  refine Runs.ins hc.snd (enc_unop op) (s' := { s1 with pri := unop op x }) (fun here => ?_) (Runs.ok ⟨rfl, rfl, hP1, rfl⟩)
  rw [unop_eq_calcUn, ← hx]
  cases op <;> rfl

theorem not_ne_zero (x : Cell) : decide (unop .not x ≠ 0) = !decide (x ≠ 0) := by
  show decide (truth (decide (x.toInt = 0)) ≠ 0) = _
  rw [truth_ne_zero]
  rw [Bool.eq_iff_iff]
  simp [toInt_zero_iff]

theorem unary_ok (hF : Fits E L lim b) {ev : Ev Cell} {e : Node} (h : NodeOk E L lim m n b ev e) (op : UnOp) :
    NodeOk E L lim m n b (do let x ← ev; pure (unop op x)) (unary op e) := by
  have hp : NodeOk E L lim m n b (do let x ← ev; pure (unop op x)) (plain (e.const.map (calcUn op)) e.bad (emitUnary op e)) := by
    refine plain_ok hF ?_ (fun _ => unary_expr_ok h op) (h.fexpr.then (Fixed.ins _))
    intro v hv σ
    obtain ⟨x, hx, rfl⟩ := Option.map_eq_some_iff.1 hv
    rw [Ev.bind_ok ((h.const x hx).1 σ), unop_eq_calcUn]; rfl
  unfold unary
  simp only
  split
  · rename_i ho
    subst ho
    refine hp.withTest ?_ (fun j => h.ftest (!j))
    intro j T N p s σ hN hT hc hH
    have hp : ∀ x : Cell, ∀ σ, (pure (unop .not x) : Ev Cell) σ = .ok (unop .not x) σ := fun _ _ => rfl
    refine Runs.bind (h.test (!j) T N p s σ hN hT hc hH) ?_
    rintro x σ1 N1 q1 s1 _ ⟨rfl, rfl, hP1⟩
    rw [hp]
    refine Runs.ok ⟨rfl, ?_, hP1⟩
    rw [not_ne_zero]
    cases j <;> cases decide (x ≠ 0) <;> rfl
  · exact hp

/-! ### L-values -/

theorem glob_ok (hF : Fits E L lim b) (hA : Activation E L m b) {x : Nat} (hx : 0 < L.size x) {bad : Bool} :
    LNodeOk E L lim m n b (pure (.var (.glob x)))
      { bad, addr := skip, load := ins (.load .pri (L.gaddr x)), store := ins (.stor (L.gaddr x) .pri), remat := true } := by
  refine ⟨?_, ?_, ?_, ?_, Fixed.skip, fun _ _ => rfl, fun _ _ => rfl⟩
  · intro N p s σ hN _ hH
    exact Runs.ok ⟨rfl, rfl, Post.refl hH, hx⟩
  · intro r N p s σ σ0 σ1 hr hc hH hi
    cases hr
    exact Runs.load hF hA hx hc hH (Runs.ok ⟨rfl, rfl, rfl, rfl⟩)
  · intro r N p s σ σ0 σ1 hr hc hH hi
    cases hr
    refine Runs.stor hF hA hx hc hH (fun v' hP => ?_)
    exact Runs.ok ⟨rfl, rfl, hP, rfl, rfl⟩
  · intro r σ0 σ1 hr
    cases hr
    exact ⟨fun _ => ⟨_, rfl⟩, fun _ => rfl⟩

theorem loc_ok (hF : Fits E L lim b) (hA : Activation E L m b) {i : Int} (hi : L.hasSlot i = true) {bad : Bool} :
    LNodeOk E L lim m n b (pure (.var (.loc i)))
      { bad, addr := skip, load := ins (.loadS .pri i), store := ins (.storS i .pri), remat := true } := by
  refine ⟨?_, ?_, ?_, ?_, Fixed.skip, fun _ _ => rfl, fun _ _ => rfl⟩
  · intro N p s σ hN _ hH
    exact Runs.ok ⟨rfl, rfl, Post.refl hH, hi⟩
  · intro r N p s σ σ0 σ1 hr hc hH _
    cases hr
    simp only [Lang.load]
    cases hw : σ.l i with
    | none => exact True.intro
    | some w => exact Runs.loadS hF hA hc hH hw (Runs.ok ⟨rfl, rfl, rfl, rfl⟩)
  · intro r N p s σ σ0 σ1 hr hc hH _
    cases hr
    simp only [Lang.save]
    cases hw : σ.l i with
    | none => exact True.intro
    | some w =>
      refine Runs.storS hF hA hi hc hH (fun v' hP => ?_)
      exact Runs.ok ⟨rfl, rfl, hP, rfl, rfl⟩
  · intro r σ0 σ1 hr
    cases hr
    exact ⟨fun _ => ⟨_, rfl⟩, fun _ => rfl⟩

theorem size_small (hF : Fits E L lim b) (hA : Activation E L m b) {σ : Store} {v : State} (hH : Holds L b σ v) {x : Nat} (hx : 0 < L.size x) :
    (L.size x : Int) < 536870912 ∧ 0 ≤ L.gaddr x ∧ L.gaddr x + 4 * (L.size x : Int) ≤ 2147483000 := by
  have hr := hH.ranges hF hA
  have h1 := hF.globals x (L.size x - 1) (by omega)
  have h0 := hF.globals x 0 hx
  omega

theorem elem_addr {x : Nat} {k : Cell} (h0 : 0 ≤ k.toInt) :
    BitVec.ofInt 32 (L.gaddr x) + k * 4 = BitVec.ofInt 32 (L.gaddr x + 4 * ((k.toInt.toNat : Nat) : Int)) := by
  rw [BitVec.ofInt_add]
  congr 1
  rw [show ((k.toInt.toNat : Nat) : Int) = k.toInt by omega, Int.mul_comm]
  rw [BitVec.ofInt_mul, BitVec.ofInt_toInt]
  rfl

theorem elem_ok (hF : Fits E L lim b) (hA : Activation E L m b) {x : Nat} (hx : 0 < L.size x) {ev : Ev Cell} {nd : Node} {bad : Bool}
    (h : NodeOk E L lim m n b ev nd) (hk : ∀ k, nd.const = some k → 0 ≤ k.toInt ∧ k.toInt < L.size x) :
    LNodeOk E L lim m n b (do let k ← ev; if 0 ≤ k.toInt ∧ k.toInt < L.size x then pure (.elem x k.toInt.toNat) else raise .arrayBounds)
      { bad, addr := (ins (.const .pri (.ofInt 32 (L.gaddr x))) ⨟ nd.const.elim
          (ins (.push .pri) ⨟ nd.expr ⨟ ins (.bounds ((L.size x : Int) - 1)) ⨟ ins (.pop .alt) ⨟ ins .idxaddr)
          (fun k => if k = 0 then skip else ins (.addC (k * 4)))), load := ins .loadI, store := ins .storI, remat := false } := by
  have shape : ∀ (r : Place) (σ0 σ1 : Store), (do let k ← ev; if 0 ≤ k.toInt ∧ k.toInt < L.size x then pure (.elem x k.toInt.toNat) else raise .arrayBounds : Ev Place) σ0 = .ok r σ1 →
      ∃ i, r = .elem x i := by
    intro r σ0 σ1 hr
    have hr : Ev.bind ev _ σ0 = _ := hr
    unfold Ev.bind at hr
    split at hr
    · simp only at hr
      split at hr
      · cases hr; exact ⟨_, rfl⟩
      · cases hr
    all_goals cases hr
  refine ⟨?_, ?_, ?_, ?_, ?_, fun _ _ => rfl, fun _ _ => rfl⟩
  · intro N p s σ hN hc hH
    have hsz := size_small hF hA hH hx
    simp only [ends_then]
    refine Runs.ins hc.fst (enc_const .pri _) (fun here => rfl) ?_
    have hc2 := hc.snd
    cases hcv : nd.const with
    | some k =>
      rw [hcv] at hc2
      obtain ⟨h0, h1⟩ := hk k hcv
      rw [Ev.bind_ok ((h.const k hcv).1 σ), if_pos ⟨h0, h1⟩]
      simp only [Option.elim] at hc2 ⊢
      have hadr := elem_addr (L := L) (x := x) h0
      split at hc2
      · rename_i hz
        subst hz
        refine Runs.ok ⟨rfl, rfl, Post.refl hH, by simpa using hx, ?_⟩
        show BitVec.ofInt 32 (L.gaddr x) = _
        rw [← hadr]
        simp
      · rename_i hz
        rw [if_neg hz]
        refine Runs.ins hc2 (enc_addC _) (fun here => rfl) (Runs.ok ⟨rfl, rfl, Post.refl hH, by omega, hadr⟩)
    | none =>
      rw [hcv] at hc2
      simp only [Option.elim, ends_then] at hc2 ⊢
      refine Runs.push hF hA hc2.fst hH (fun hs => ?_)
      have hH2 := hH.pushed hF hs (BitVec.ofInt 32 (L.gaddr x))
      refine Runs.bind (h.expr N _ _ σ hN hc2.snd.fst hH2) ?_
      rintro k σ1 N1 q1 s1 _ ⟨rfl, rfl, hP1, hk⟩
      obtain ⟨hP2, htop⟩ := hP1.pop hF hH hs
      have hvis : ∀ here, visit E m here (.bounds ((L.size x : Int) - 1)) s1 =
          if s1.pri.toInt < 0 ∨ s1.pri.toInt > ((L.size x : Int) - 1) % 4294967296 then .fail s1 .arrayBounds else .ok s1 .next := fun _ => rfl
      have hmod : ((L.size x : Int) - 1) % 4294967296 = (L.size x : Int) - 1 := by omega
      have henc : Enc (.bounds ((L.size x : Int) - 1)) := enc_bounds (by omega)
      rcases Decidable.em (0 ≤ k.toInt ∧ k.toInt < L.size x) with hin | hin
      · rw [if_pos hin]
        refine Runs.ins hc2.snd.snd.fst henc (s' := s1) (fun here => ?_) ?_
        · rw [hvis, hmod, hk, if_neg (by omega)]
        refine Runs.pop hF hA hc2.snd.snd.snd.fst hP1.holds ?_
        refine Runs.ins hc2.snd.snd.snd.snd enc_idxaddr (fun here => rfl) (Runs.ok ⟨rfl, rfl, hP2, by omega, ?_⟩)
        show rd32 s1.vm.mem s1.vm.sp + s1.pri * 4 = _
        rw [htop, hk]
        exact elem_addr hin.1
      · rw [if_neg hin]
        refine Runs.fail (loop_fail (henc.at hc2.snd.snd.fst) ?_ 0) hP1.holds.globals
        rw [hvis, hmod, hk, if_pos (by omega)]
  · intro r N p s σ σ0 σ1 hr hc hH hi
    obtain ⟨i, rfl⟩ := shape r σ0 σ1 hr
    exact Runs.loadI hF hA hi.1 hc hH hi.2 (Runs.ok ⟨rfl, rfl, rfl, rfl⟩)
  · intro r N p s σ σ0 σ1 hr hc hH hi
    obtain ⟨i, rfl⟩ := shape r σ0 σ1 hr
    refine Runs.storI hF hA hi.1 hc hH hi.2 (fun v' hP => ?_)
    exact Runs.ok ⟨rfl, rfl, hP, rfl, rfl⟩
  · intro r σ0 σ1 hr
    obtain ⟨i, rfl⟩ := shape r σ0 σ1 hr
    exact ⟨fun h => (by cases h), fun ⟨v, h⟩ => (by cases h)⟩
  · refine (Fixed.ins _).then ?_
    cases nd.const with
    | none => exact (Fixed.ins _).then (h.fexpr.then ((Fixed.ins _).then ((Fixed.ins _).then (Fixed.ins _))))
    | some k =>
      simp only [Option.elim]
      split
      · exact Fixed.skip
      · exact Fixed.ins _

theorem rvalue_ok (hF : Fits E L lim b) {pl : Ev Place} {l : LNode} (h : LNodeOk E L lim m n b pl l) :
    NodeOk E L lim m n b (do let r ← pl; load r) (rvalue l) := by
  have he : ExprOk E L lim m n b (do let r ← pl; load r) (l.addr ⨟ l.load) := by
    intro N p s σ hN hc hH
    rw [ends_then]
    refine Runs.bind (h.addr N p s σ hN hc.fst hH) ?_
    rintro r σ1 N1 q1 s1 hr ⟨rfl, rfl, hP1, hi⟩
    refine (h.load r N1 _ s1 σ1 σ σ1 hr hc.snd hP1.holds hi).mono ?_
    rintro v σ2 N2 q2 s2 _ ⟨rfl, rfl, rfl, rfl⟩
    exact ⟨rfl, rfl, hP1, rfl⟩
  have hn : NodeOk E L lim m n b (do let r ← pl; load r) (plain none l.bad (l.addr ⨟ l.load)) :=
    plain_ok hF (fun v h => by cases h) (fun _ => he) (h.faddr.then h.fload)
  refine ⟨hn.const, hn.expr, ?_, hn.test, hn.flat, hn.fexpr, fun _ => h.faddr, hn.ftest⟩
  intro d N p s σ hN hc hH
  have : ∀ r σ1, pl σ = .ok r σ1 → ∀ v, load r σ1 = v → (∃ w, v = .ok w σ1) ∨ v = .undef := by
    intro r σ1 _ v hv
    cases r with
    | elem x i => exact Or.inl ⟨_, hv.symm⟩
    | var w =>
      cases w with
      | glob x => exact Or.inl ⟨_, hv.symm⟩
      | loc i =>
        simp only [load] at hv
        split at hv
        · exact Or.inl ⟨_, hv.symm⟩
        · exact Or.inr hv.symm
  refine Runs.bind (h.addr N p s σ hN hc hH) ?_
  rintro r σ1 N1 q1 s1 hr ⟨rfl, rfl, hP1, hi⟩
  rcases this r σ1 hr _ rfl with ⟨w, hw⟩ | hw
  · rw [hw]; exact Runs.ok ⟨rfl, rfl, hP1, True.intro⟩
  · rw [hw]; exact True.intro

end

end Verif.Compiled

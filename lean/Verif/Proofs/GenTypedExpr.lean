import Verif.Proofs.GenTyped
import Verif.Spec.Verifiable

/-! All compiled expressions have certificates. -/
namespace Verif.Compiled
open Verif.VM Verif.Lang Verif.CodeGen Verif.Verifier

variable {C : Ctx} {L : Layout} {X : Labs} {p d : Nat}

theorem ternary_nt {c x y : Node} (hc : NT C c) (hx : NT C x) (hy : NT C y) : NT C (ternary c x y) := by
  have hi : ∀ d, Fixed2 fun flab1 => (c.expr ⨟ ins (.jcmp .zero (off flab1)) ⨟ x.expr ⨟ ins (.jump (off d))) := fun d =>
    (Fixed2.const hc.fexpr).then ((Fixed2.jcmp _).then ((Fixed2.const hx.fexpr).then (Fixed2.const (Fixed.ins _))))
  have ho : Fixed2 fun flab2 => ((endLabel fun flab1 => c.expr ⨟ ins (.jcmp .zero (off flab1)) ⨟ x.expr ⨟ ins (.jump (off flab2))) ⨟ y.expr) := by
    refine Fixed2.then ?_ (Fixed2.const hy.fexpr)
    exact Fixed2.both (f := fun flab2 flab1 => c.expr ⨟ ins (.jcmp .zero (off flab1)) ⨟ x.expr ⨟ ins (.jump (off flab2))) hi
      (fun t => (Fixed2.const hc.fexpr).then ((Fixed2.const (Fixed2.code (Fixed2.jcmp _) t)).then ((Fixed2.const hx.fexpr).then Fixed2.jump)))
  refine plain_nt (fun d X p => ?_) (Fixed.endLabel ho)
  refine G.exit (ft := True ∧ True) ho (G.then (d' := d) ?_ (hy.expr d _ _))
  refine G.exit (ft := True ∧ True ∧ True ∧ False) (hi _) ?_
  exact (hc.expr d _ _).then ((G.jcmp (Or.inr ⟨rfl, rfl, trivial⟩)).then ((hx.expr d _ _).then (G.jump (Or.inl (Or.inr ⟨rfl, rfl, trivial⟩)))))

theorem comma_nt {x y : Node} (hx : NT C x) (hy : NT C y) : NT C (comma x y) := by
  have hp : NT C (plain none (x.bad || y.bad) (x.bare false ⨟ y.expr)) := plain_nt (fun d => (hx.bare false d).then (hy.expr d)) ((hx.fbare false).then hy.fexpr)
  exact hp.withTest (t := fun j T => x.bare false ⨟ y.test j T)
    (fun j target d X p hX => ((hx.bare false d X p).then (hy.test j target d X _ hX)).falls fun _ => trivial)
    (fun j => (Fixed2.const (hx.fbare false)).then (hy.ftest j))

theorem slot_ok (hS : Suits C L) {i : Int} (h : L.hasSlot i = true) (S : Cur) : slotOk C (BitVec.ofInt 32 i).toInt 4 S = .ok S := by
  have hf := hS.few
  have hs := hS.small
  simp only [Layout.hasSlot, Bool.and_eq_true, decide_eq_true_eq] at h
  have hi : (BitVec.ofInt 32 i).toInt = i := ofInt_toInt (by omega) (by omega)
  rw [hi]
  unfold slotOk
  rw [hS.typed, if_pos rfl]
  split
  · rw [if_neg (by omega), hS.args, if_neg (by omega)]
  · rw [hS.locals, List.getElem?_replicate, if_pos (by omega)]
    simp

theorem dat_ok (hS : Suits C L) {x : Nat} (h : L.size x ≠ 0) : 0 ≤ (BitVec.ofInt 32 (L.gaddr x)).toInt ∧ (BitVec.ofInt 32 (L.gaddr x)).toInt < C.datSize := by
  have hg := hS.globals x 0 (by omega)
  have hd := hS.data
  have hi : (BitVec.ofInt 32 (L.gaddr x)).toInt = L.gaddr x := ofInt_toInt (by omega) (by omega)
  rw [hi]
  omega

macro "gslot" hS:term "," h:term : tactic =>
  `(tactic| exact G.plain rfl (by decide) (by decide) (by decide) (by decide) (by decide) (by decide) rfl rfl rfl (passes_slot (slot_ok $hS $h)) (by omega))

theorem G.load (hS : Suits C L) {x : Nat} (h : L.size x ≠ 0) : G C X (ins (.load .pri (L.gaddr x))) p d d True :=
  G.plain rfl (by decide) (by decide) (by decide) (by decide) (by decide) (by decide) rfl rfl rfl (passes_dat (dat_ok hS h).1 (dat_ok hS h).2) (by omega)

theorem G.stor (hS : Suits C L) {x : Nat} (h : L.size x ≠ 0) : G C X (ins (.stor (L.gaddr x) .pri)) p d d True :=
  G.plain rfl (by decide) (by decide) (by decide) (by decide) (by decide) (by decide) rfl rfl rfl (passes_dat (dat_ok hS h).1 (dat_ok hS h).2) (by omega)

theorem G.loadS (hS : Suits C L) {i : Int} (h : L.hasSlot i = true) : G C X (ins (.loadS .pri i)) p d d True := by gslot hS, h
theorem G.storS (hS : Suits C L) {i : Int} (h : L.hasSlot i = true) : G C X (ins (.storS i .pri)) p d d True := by gslot hS, h
theorem G.zeroS (hS : Suits C L) {i : Int} (h : L.hasSlot i = true) : G C X (ins (.zeroS i)) p d d True := by gslot hS, h
theorem G.storSC (hS : Suits C L) {i : Int} {v : Cell} (h : L.hasSlot i = true) : G C X (ins (.storSC i v)) p d d True := by gslot hS, h

theorem glob_lt (hS : Suits C L) {x : Nat} (h : L.size x ≠ 0) : LT C (genL L (.var (.glob x))) := by
  simp only [genL]
  exact ⟨fun _ => T.skip, fun _ _ _ => G.load hS h, fun _ _ _ => G.stor hS h, Fixed.skip, fun _ _ => rfl, fun _ _ => rfl⟩

theorem loc_lt (hS : Suits C L) {i : Int} (h : L.hasSlot i = true) : LT C (genL L (.var (.loc i))) := by
  simp only [genL]
  exact ⟨fun _ => T.skip, fun _ _ _ => G.loadS hS h, fun _ _ _ => G.storS hS h, Fixed.skip, fun _ _ => rfl, fun _ _ => rfl⟩

theorem elem_lt {x : Nat} {i : Expr} (hn : NT C (gen L i)) : LT C (genL L (.elem x i)) := by
  simp only [genL]
  refine ⟨fun d => ?_, fun _ _ _ => G.loadI, fun _ _ _ => G.storI, ?_, fun _ _ => rfl, fun _ _ => rfl⟩
  · refine T.then (d' := d) (fun _ _ => G.const) ?_
    cases (gen L i).const with
    | none => exact T.push.then ((hn.expr _).then (T.then (d' := d + 1) (fun _ _ => G.bounds) (T.pop.then fun _ _ => G.idxaddr)))
    | some k =>
      simp only [Option.elim]
      split
      · exact T.skip
      · exact fun _ _ => G.addC
  · refine (Fixed.ins _).then ?_
    cases (gen L i).const with
    | none => exact (Fixed.ins _).then (hn.fexpr.then ((Fixed.ins _).then ((Fixed.ins _).then (Fixed.ins _))))
    | some k =>
      simp only [Option.elim]
      split
      · exact Fixed.skip
      · exact Fixed.ins _

theorem call_t {n t : Nat} {c : Code} (hc : ∀ d, T C c d (d + n)) (hS : C.code.length < 536870912) (h : C.code[t]? = some 46) :
    T C (c ⨟ ins (.pushC [BitVec.ofNat 32 n]) ⨟ ins (.call (off t))) d d := by
  intro X p hat ho
  have h1 := hc d X p (At.left hat) ho.left
  have h2 : At C.code (Ends c p) [39, BitVec.ofNat 32 n, 49, ofs t] := At.right hat
  have hE : Ends (c ⨟ ins (.pushC [BitVec.ofNat 32 n]) ⨟ ins (.call (off t))) p = Ends c p + 4 := by rw [ends_then]; rfl
  have hlen := h2.2
  rw [hE] at ho ⊢
  have hn : n < 2147483647 := by
    obtain ⟨_, _, _, F⟩ := h1
    have := F.deep
    simp only [List.length_cons, List.length_nil] at hlen
    omega
  have := h1.seq ((Fr.call (d := d) (h2.1 0 (by simp)) (h2.1 1 (by simp)) hn (h2.1 2 (by simp)) (h2.1 3 (by simp)) (by have := len_of h; omega) h).labs (Y := X) fun _ _ h => h.elim) ho rfl
  exact this.falls fun _ => trivial

mutual
theorem gen_nt (hS : Suits C L) : ∀ e : Expr, (gen L e).bad = false → (∀ g ∈ callsE e, C.code[L.entry g]? = some 46) → NT C (gen L e)
  | .num v, _, _ => plain_nt (fun _ => T.skip) Fixed.skip
  | .get l, h, hc => rvalue_nt (genL_lt hS l h hc)
  | .un op e, h, hc => by
    have hb : (gen L e).bad = false := by
      simp only [gen, unary] at h
      split at h <;> exact h
    exact unary_nt (gen_nt hS e hb hc)
  | .bin op x y, h, hc => by
    have hb : (gen L x).bad = false ∧ (gen L y).bad = false := by
      simp only [gen, binary] at h
      split at h <;> simp only [plain, or_false_iff] at h <;> exact h.1
    exact binary_nt (gen_nt hS x hb.1 fun g hg => hc g (by simp [callsE, hg])) (gen_nt hS y hb.2 fun g hg => hc g (by simp [callsE, hg]))
  | .assign op l e, h, hc => by
    simp only [gen, plain, or_false_iff] at h
    have hl := genL_lt hS l h.1 fun g hg => hc g (by simp [callsE, hg])
    have he := gen_nt hS e h.2 fun g hg => hc g (by simp [callsE, hg])
    exact plain_nt (fun _ => assign_t hl he) (assign_fixed hl.faddr hl.fload hl.fstore he.fexpr)
  | .incdec inc pre l, h, hc => by
    have hl := genL_lt hS l h hc
    have hp : NT C (plain none (genL L l).bad (emitIncDec inc pre false (genL L l))) :=
      plain_nt (fun _ => incdec_t hl) (incdec_fixed hl.faddr hl.fload hl.fstore)
    exact ⟨hp.expr, fun _ _ => incdec_t hl, hp.test, hp.flat, hp.fexpr, fun _ => incdec_fixed hl.faddr hl.fload hl.fstore, hp.ftest, hp.fflat⟩
  | .logic isOr x y, h, hc => by
    simp only [gen, logical, plain, or_false_iff] at h
    exact logical_nt (gen_nt hS x h.1 fun g hg => hc g (by simp [callsE, hg])) (gen_nt hS y h.2 fun g hg => hc g (by simp [callsE, hg]))
  | .chain first op e rest, h, hc => by
    simp only [gen, chain, plain, or_false_iff] at h
    exact chain_nt (gen_nt hS first h.1.1 fun g hg => hc g (by simp [callsE, hg])) (gen_nt hS e h.1.2 fun g hg => hc g (by simp [callsE, hg]))
      (genRest_nt hS rest h.2 fun g hg => hc g (by simp [callsE, hg]))
  | .tern c x y, h, hc => by
    simp only [gen, ternary, plain, or_false_iff] at h
    exact ternary_nt (gen_nt hS c h.1.1 fun g hg => hc g (by simp [callsE, hg])) (gen_nt hS x h.1.2 fun g hg => hc g (by simp [callsE, hg]))
      (gen_nt hS y h.2 fun g hg => hc g (by simp [callsE, hg]))
  | .comma x y, h, hc => by
    simp only [gen, comma, plain, or_false_iff] at h
    exact comma_nt (gen_nt hS x h.1 fun g hg => hc g (by simp [callsE, hg])) (gen_nt hS y h.2 fun g hg => hc g (by simp [callsE, hg]))
  | .call f args, h, hc => by
    simp only [gen, callNode, plain, or_false_iff] at h
    have ha := genArgs_t hS args h.1 fun g hg => hc g (by simp [callsE, hg])
    exact plain_nt (fun d => call_t ha.1 hS.code (hc f (by simp [callsE]))) (ha.2.then ((Fixed.ins _).then (Fixed.ins _)))

theorem genL_lt (hS : Suits C L) : ∀ l : LVal, (genL L l).bad = false → (∀ g ∈ callsL l, C.code[L.entry g]? = some 46) → LT C (genL L l)
  | .var (.glob x), h, _ => glob_lt hS (by simpa [genL] using h)
  | .var (.loc i), h, _ => loc_lt hS (by simpa [genL] using h)
  | .elem x i, h, hc => by
    simp only [genL, or_false_iff] at h
    exact elem_lt (gen_nt hS i h.1.1 hc)

theorem genRest_nt (hS : Suits C L) : ∀ r : Rest, (genRest L r).any (·.2.bad) = false → (∀ g ∈ callsR r, C.code[L.entry g]? = some 46) →
    ∀ y ∈ genRest L r, NT C y.2
  | .one op e, h, hc => by
    simp only [genRest, List.any_cons, List.any_nil, Bool.or_false] at h
    intro y hy
    rw [List.mem_singleton.1 hy]
    exact gen_nt hS e h hc
  | .cons op e rest, h, hc => by
    simp only [genRest, List.any_cons, or_false_iff] at h
    intro y hy
    rcases List.mem_cons.1 hy with rfl | hy
    · exact gen_nt hS e h.1 fun g hg => hc g (by simp [callsR, hg])
    · exact genRest_nt hS rest h.2 (fun g hg => hc g (by simp [callsR, hg])) y hy

theorem genArgs_t (hS : Suits C L) : ∀ r : Args, badArgs L r = false → (∀ g ∈ callsA r, C.code[L.entry g]? = some 46) →
    (∀ d, T C (genArgs L r) d (d + countArgs r)) ∧ Fixed (genArgs L r)
  | .nil, _, _ => ⟨fun _ => T.skip, Fixed.skip⟩
  | .cons e rest, h, hc => by
    simp only [badArgs, or_false_iff] at h
    have h1 := genArgs_t hS rest h.2 fun g hg => hc g (by simp [callsA, hg])
    have h2 := gen_nt hS e h.1 fun g hg => hc g (by simp [callsA, hg])
    exact ⟨fun d => (h1.1 d).then ((h2.expr _).then T.push), h1.2.then (h2.fexpr.then (Fixed.ins _))⟩
end

end Verif.Compiled

import Verif.Proofs.Frag
import Verif.Proofs.GenAll
import Verif.Proofs.GenProg

/-! Compiled expressions have certificates. -/
namespace Verif.Compiled
open Verif.VM Verif.Lang Verif.CodeGen Verif.Verifier

/-- The labels are outside. -/
def Out (X : Labs) (p e : Nat) : Prop := ∀ j y, X j y → j ≤ p ∨ e ≤ j

/-- Code that has a certificate wherever it is, entered at its beginning. -/
def G (C : Ctx) (X : Labs) (c : Code) (p d d' : Nat) (ft : Prop) : Prop :=
  At C.code p (c p) → Out X p (Ends c p) → Fr C p (Ends c p) d d' X ft (· = p)

variable {C : Ctx} {X Y : Labs} {a b c : Code} {p d d' d'' : Nat} {ft ft' u : Prop}

theorem G.falls (h : G C X c p d d' ft) (hf : ft → ft') : G C X c p d d' ft' := fun h1 h2 => (h h1 h2).falls hf

theorem G.skip : G C X skip p d d True := fun _ _ => Fr.skip.labs fun _ _ h => h.elim

theorem Out.left {X : Labs} (h : Out X p (Ends (a ⨟ b) p)) : Out X p (Ends a p) := fun j y hj => by
  rw [ends_then] at h
  have := h j y hj
  have : Ends a p ≤ Ends b (Ends a p) := by unfold Ends; omega
  omega

theorem Out.right {X : Labs} (h : Out X p (Ends (a ⨟ b) p)) : Out X (Ends a p) (Ends b (Ends a p)) := fun j y hj => by
  rw [ends_then] at h
  have := h j y hj
  have : p ≤ Ends a p := by unfold Ends; omega
  omega

theorem G.then (h1 : G C X a p d d' ft) (h2 : G C X b (Ends a p) d' d'' ft') : G C X (a ⨟ b) p d d'' (ft ∧ ft') := fun h ho => by
  have f1 := h1 (At.left h) ho.left
  have f2 := h2 (At.right h) ho.right
  rw [ends_then] at ho ⊢
  exact f1.seq f2 ho rfl

theorem G.emitIf {x : Bool} (h : x = true → G C X c p d d ft) : G C X (CodeGen.emitIf x c) p d d (x = true → ft) := by
  cases x with
  | false => exact G.skip.falls fun _ h => by cases h
  | true => exact (h rfl).falls fun h _ => h

theorem G.endLabel {f : Nat → Code} (hf : Fixed2 f)
    (h : G C (fun j y => X j y ∨ (j = Ends (CodeGen.endLabel f) p ∧ y = d' ∧ u)) (f (Ends (CodeGen.endLabel f) p)) p d d' ft) :
    G C X (CodeGen.endLabel f) p d d' (ft ∨ u) := fun h1 ho => by
  have he := endLabel_ends hf p
  have hq := endLabel_eq hf p
  generalize Ends (CodeGen.endLabel f) p = e at *
  rw [hq] at h1
  unfold G at h
  rw [he] at h
  refine (h h1 ?_).endLabel
  rintro j y (hj | ⟨hj, _⟩)
  · exact ho j y hj
  · omega

theorem G.exit {f : Nat → Code} (hf : Fixed2 f)
    (h : G C (fun j y => X j y ∨ (j = Ends (CodeGen.endLabel f) p ∧ y = d' ∧ True)) (f (Ends (CodeGen.endLabel f) p)) p d d' ft) :
    G C X (CodeGen.endLabel f) p d d' True := (G.endLabel hf h).falls fun _ => trivial

theorem G.topLabel {f : Nat → Code} (h : G C (fun j y => X j y ∨ (j = p ∧ y = d)) (f p) p d d' ft) : G C X (CodeGen.topLabel f) p d d' ft := fun h1 ho => by
  refine Fr.topLabel (h h1 ?_)
  rintro j y (hj | ⟨hj, _⟩)
  · exact ho j y hj
  · omega

/-! ### Instructions -/

theorem ins_of {i : Insn} {x : Cell} {xs : List Cell} (h : encode i = some (x :: xs)) (p : Nat) : ins i p = x :: xs := by unfold ins; rw [h]; rfl

/-- An instruction without control flow. -/
theorem G.plain {i : Insn} {x : Cell} {xs : List Cell} {f : List Cell → Option (List Check)} {cs : List Check} (he : encode i = some (x :: xs))
    (h1 : x ≠ 46) (h2 : x ≠ 166) (h3 : x ≠ 130) (h4 : x.toNat ≠ 0) (h5 : x.toNat < 236) (h6 : Graph.isControl x.toNat = false)
    (h7 : opcodeSize x.toNat = some ((xs.length : Int) + 1)) (h8 : rule x.toNat = some (xs.length, f)) (h9 : f xs = some cs) (h10 : Passes C cs d d')
    (hd : d' ≤ d + 1) : G C X (ins i) p d d' True := fun h _ => by
  have hi := ins_of he p
  have hE : Ends (ins i) p = p + 1 + xs.length := by unfold Ends; rw [hi, List.length_cons]; omega
  rw [hE]
  rw [hi] at h
  exact Fr.one (.plain h.head h1 h2 h3 h4 h5 h6 h7 h8 h.operands h9 h10) rfl rfl rfl rfl
    (fun s hs => by rw [List.mem_singleton.1 hs]; exact Or.inl ⟨rfl, rfl, trivial⟩) (fun t ht => by cases ht) hd

theorem passes_nil : Passes C [] d d := fun _ max _ h => ⟨max, h, rfl⟩

theorem runChecks_cons {cs : List Check} {k : Check} {prev : Option Nat} {S S' : Cur} (h : k.run C prev S = .ok S') :
    runChecks C prev (k :: cs) S = runChecks C prev cs S' := by
  rw [runChecks, h]
  rfl

theorem push_run {prev : Option Nat} {max : Nat} (h : d < top) :
    Check.run C prev (.push 1) ⟨flat d, max⟩ = .ok ⟨flat (d + 1), if d + 1 > max then d + 1 else max⟩ := by
  unfold top at h
  show Verifier.pushStack 1 _ = _
  unfold Verifier.pushStack
  rw [if_neg (by simp only; omega), if_neg (by simp only; omega)]

theorem pop_run {prev : Option Nat} {max : Nat} : Check.run C prev (.pop 1) ⟨flat (d + 1), max⟩ = .ok ⟨flat d, max⟩ := by
  rw [Check.run, if_neg (by omega)]
  unfold Verifier.popStack
  simp only
  rw [show ((1 : Int) % 4294967296).toNat = 1 by decide, if_neg (by omega)]
  rfl

theorem passes_push : Passes C [.push 1] d (d + 1) := fun _ max h1 h2 => by
  refine ⟨if d + 1 > max then d + 1 else max, by unfold top at *; split <;> omega, ?_⟩
  rw [runChecks_cons (push_run h1)]
  rfl

theorem passes_pop : Passes C [.pop 1] (d + 1) d := fun _ max h1 h2 => by
  refine ⟨max, h2, ?_⟩
  rw [runChecks_cons pop_run]
  rfl

theorem passes_swap : Passes C [.pop 1, .push 1] (d + 1) (d + 1) := fun _ max h1 h2 => by
  refine ⟨if d + 1 > max then d + 1 else max, by unfold top at *; split <;> omega, ?_⟩
  rw [runChecks_cons pop_run, runChecks_cons (push_run (by omega))]
  rfl

theorem passes_dat {o : Int} (h0 : 0 ≤ o) (h1 : o < C.datSize) : Passes C [.dat o] d d := fun _ max _ h => by
  refine ⟨max, h, ?_⟩
  rw [runChecks_cons (S' := ⟨flat d, max⟩)]
  · rfl
  · show datOk C o _ = _
    unfold datOk
    rw [if_neg (by omega)]

theorem passes_slot {o : Int} (h : ∀ S, slotOk C o 4 S = .ok S) : Passes C [.slot o 4] d d := fun _ max _ hm => by
  refine ⟨max, hm, ?_⟩
  rw [runChecks_cons (S' := ⟨flat d, max⟩) (by rw [Check.run]; exact h _)]
  rfl

macro "g0" : tactic => `(tactic| exact G.plain rfl (by decide) (by decide) (by decide) (by decide) (by decide) (by decide) rfl rfl rfl passes_nil (by omega))

theorem G.push {r : Reg} : G C X (ins (.push r)) p d (d + 1) True := by
  cases r
  · exact G.plain rfl (by decide) (by decide) (by decide) (by decide) (by decide) (by decide) (by decide) rfl rfl passes_push (by omega)
  · exact G.plain rfl (by decide) (by decide) (by decide) (by decide) (by decide) (by decide) (by decide) rfl rfl passes_push (by omega)

theorem G.pop {r : Reg} : G C X (ins (.pop r)) p (d + 1) d True := by
  cases r
  · exact G.plain rfl (by decide) (by decide) (by decide) (by decide) (by decide) (by decide) (by decide) rfl rfl passes_pop (by omega)
  · exact G.plain rfl (by decide) (by decide) (by decide) (by decide) (by decide) (by decide) (by decide) rfl rfl passes_pop (by omega)

theorem G.swap {r : Reg} : G C X (ins (.swap r)) p (d + 1) (d + 1) True := by
  cases r
  · exact G.plain rfl (by decide) (by decide) (by decide) (by decide) (by decide) (by decide) (by decide) rfl rfl passes_swap (by omega)
  · exact G.plain rfl (by decide) (by decide) (by decide) (by decide) (by decide) (by decide) (by decide) rfl rfl passes_swap (by omega)

theorem G.zero {r : Reg} : G C X (ins (.zero r)) p d d True := by cases r <;> g0
theorem G.const {r : Reg} {v : Cell} : G C X (ins (.const r v)) p d d True := by cases r <;> g0
theorem G.move {r : Reg} : G C X (ins (.move r)) p d d True := by cases r <;> g0
theorem G.inc {r : Reg} : G C X (ins (.inc r)) p d d True := by cases r <;> g0
theorem G.dec {r : Reg} : G C X (ins (.dec r)) p d d True := by cases r <;> g0
theorem G.xchg : G C X (ins .xchg) p d d True := by g0
theorem G.and : G C X (ins .and) p d d True := by g0
theorem G.loadI : G C X (ins .loadI) p d d True := by g0
theorem G.storI : G C X (ins .storI) p d d True := by g0
theorem G.idxaddr : G C X (ins .idxaddr) p d d True := by g0
theorem G.brk : G C X (ins .brk) p d d True := by g0
theorem G.addC {v : Cell} : G C X (ins (.addC v)) p d d True := by g0
theorem G.bounds {v : Int} : G C X (ins (.bounds v)) p d d True := by g0
theorem G.binop {op : BinOp} : G C X (ins (int32BinaryOp op)) p d d True := by cases op <;> g0
theorem G.unop {op : UnOp} : G C X (ins (match op with | .inv => .invert | .not => .not | .neg => .neg)) p d d True := by cases op <;> g0

theorem G.jump {t : Nat} (h : X t d) : G C X (ins (.jump (off t))) p d d False := fun hat _ => by
  have hi := ins_of (i := .jump (off t)) rfl p
  rw [hi] at hat
  have h1 := hat.1 1 (by simp)
  show Fr C p (p + 2) d d X False (· = p)
  exact Fr.one (.jump hat.head h1) rfl rfl rfl rfl
    (fun s hs => by rw [List.mem_singleton.1 hs]; exact Or.inr ⟨d, rfl, h⟩) (fun s hs => by rw [List.mem_singleton.1 hs]; exact ⟨d, h⟩) (by omega)

theorem jcmp_cells (cmp : Cmp) (t : Nat) : ∃ op ∈ branches, encode (.jcmp cmp (off t)) = some [op, ofs t] := by
  cases cmp
  all_goals exact ⟨_, by unfold branches; simp, rfl⟩

theorem G.jcmp {cmp : Cmp} {t : Nat} (h : X t d) : G C X (ins (.jcmp cmp (off t))) p d d True := fun hat _ => by
  obtain ⟨op, hop, he⟩ := jcmp_cells cmp t
  have hi := ins_of he p
  have hE : Ends (ins (.jcmp cmp (off t))) p = p + 2 := by unfold Ends; rw [hi]; rfl
  rw [hi] at hat
  rw [hE]
  have h1 := hat.1 1 (by simp)
  exact Fr.one (.branch hat.head hop h1) rfl rfl rfl rfl
    (fun s hs => by
      simp only [List.mem_cons, List.not_mem_nil, or_false] at hs
      rcases hs with rfl | rfl
      · exact Or.inl ⟨rfl, rfl, trivial⟩
      · exact Or.inr ⟨d, rfl, h⟩) (fun s hs => by rw [List.mem_singleton.1 hs]; exact ⟨d, h⟩) (by omega)

theorem G.retn : G C X (ins .retn) p d d False := fun hat _ => by
  have hi := ins_of (i := .retn) rfl p
  rw [hi] at hat
  show Fr C p (p + 1) d d X False (· = p)
  exact Fr.one (.retn hat.head) rfl rfl rfl rfl (fun s hs => by cases hs) (fun s hs => by cases hs) (by omega)

theorem G.constPri {v : Cell} : G C X (constPri v) p d d True := by unfold CodeGen.constPri; split; exact G.zero; exact G.const
theorem G.constAlt {v : Cell} : G C X (constAlt v) p d d True := by unfold CodeGen.constAlt; split; exact G.zero; exact G.const

/-! ### Code that is entered at its beginning and left at its end -/

/-- Entered at the beginning, left at the end. -/
def T (C : Ctx) (c : Code) (d d' : Nat) : Prop := ∀ X p, G C X c p d d' True

theorem T.skip : T C skip d d := fun _ _ => G.skip
theorem T.then (h1 : T C a d d') (h2 : T C b d' d'') : T C (a ⨟ b) d d'' := fun X p => ((h1 X p).then (h2 X _)).falls fun _ => trivial
theorem T.emitIf {x : Bool} (h : T C c d d) : T C (emitIf x c) d d := fun X p => (G.emitIf fun _ => h X p).falls fun _ => trivial
theorem T.push {r : Reg} : T C (ins (.push r)) d (d + 1) := fun _ _ => G.push
theorem T.pop {r : Reg} : T C (ins (.pop r)) (d + 1) d := fun _ _ => G.pop
theorem T.swap {r : Reg} : T C (ins (.swap r)) (d + 1) (d + 1) := fun _ _ => G.swap
theorem T.constPri {v : Cell} : T C (constPri v) d d := fun _ _ => G.constPri
theorem T.constAlt {v : Cell} : T C (constAlt v) d d := fun _ _ => G.constAlt

/-- A test: it may jump to its target. -/
def TT (C : Ctx) (t : Test) : Prop := ∀ j target d X p, X target d → G C X (t j target) p d d True

/-- The code of an expression has certificates. -/
structure NT (C : Ctx) (nd : Node) : Prop where
  expr : ∀ d, T C nd.expr d d
  bare : ∀ x d, T C (nd.bare x) d d
  test : TT C nd.test
  flat : ∀ tok, ∀ t ∈ nd.flat tok, TT C t
  fexpr : Fixed nd.expr
  fbare : ∀ x, Fixed (nd.bare x)
  ftest : ∀ j, Fixed2 (nd.test j)
  fflat : ∀ tok, ∀ t ∈ nd.flat tok, ∀ j, Fixed2 (t j)

/-- The code of an l-value has certificates. -/
structure LT (C : Ctx) (nd : LNode) : Prop where
  addr : ∀ d, T C nd.addr d d
  load : ∀ d, T C nd.load d d
  store : ∀ d, T C nd.store d d
  faddr : Fixed nd.addr
  fload : Fixed nd.load
  fstore : Fixed nd.store

theorem testDefault_tt (h : ∀ d, T C c d d) : TT C (testDefault c) := fun _ _ d X p hX =>
  ((h d X p).then (G.jcmp hX)).falls fun _ => trivial

theorem plain_nt {k : Option Cell} {bad : Bool} (h : ∀ d, T C c d d) (hf : Fixed c) : NT C (plain k bad c) := by
  have he : ∀ d, T C (k.elim c constPri) d d := by cases k; exact h; exact fun d => T.constPri
  have hfe : Fixed (k.elim c constPri) := by cases k; exact hf; exact Fixed.constPri _
  refine ⟨he, fun _ => he, testDefault_tt he, ?_, hfe, fun _ => hfe, testDefault_fixed hfe, ?_⟩
  · intro _ t ht
    rw [List.mem_singleton.1 ht]
    exact testDefault_tt he
  · intro _ t ht
    rw [List.mem_singleton.1 ht]
    exact testDefault_fixed hfe

/-- A node with a test of its own. -/
theorem NT.withTest {nd : Node} (h : NT C nd) {t : Test} (ht : TT C t) (hf : ∀ j, Fixed2 (t j)) : NT C { nd with test := t, flat := fun _ => [t] } := by
  refine ⟨h.expr, h.bare, ht, ?_, h.fexpr, h.fbare, hf, ?_⟩
  · intro _ t ht
    rw [List.mem_singleton.1 ht]
    assumption
  · intro _ t ht
    rw [List.mem_singleton.1 ht]
    assumption

theorem binaryOp_t {op : BinOp} : T C (emitBinaryOp op) d d := (T.emitIf fun _ _ => G.xchg).then fun _ _ => G.binop

theorem inner_t {oper : Option BinOp} {lc : Option Cell} {lr : Bool} {nd : Node} (h : NT C nd) : T C (emitBinaryInner oper lc lr nd) d d := by
  unfold emitBinaryInner
  refine T.then (d' := d) ?_ (by cases oper; exact T.skip; exact binaryOp_t)
  have saved : ∀ {x : Bool} {c : Code}, (∀ d, T C c d d) → T C (emitIf x (ins (.push .pri)) ⨟ c ⨟ emitIf x (ins (.pop .alt))) d d := fun {x c} hc => by
    cases x
    · exact T.skip.then ((hc d).then T.skip)
    · rw [emitIf_true, emitIf_true]
      exact T.push.then ((hc (d + 1)).then T.pop)
  split
  · exact (h.expr d).then T.constAlt
  · split
    · split
      · exact T.constAlt
      · exact saved fun _ => T.constPri
    · exact saved h.expr

theorem binary_nt {op : BinOp} {x y : Node} (hx : NT C x) (hy : NT C y) : NT C (binary op x y) := by
  have hp : NT C (plain ((foldBinary op x.const y.const).bind (·.value?)) (x.bad || y.bad || ((foldBinary op x.const y.const).map (·.value?.isNone)).getD false) (emitBinary op x y)) :=
    plain_nt (fun d => (T.emitIf (hx.expr d)).then (inner_t hy)) (Fixed.then (hx.fexpr.emitIf _) (inner_fixed _ _ _ hy.fexpr))
  unfold binary
  simp only
  split
  · refine hp.withTest ?_ (binary_test_fixed hx.fexpr hy.fexpr op)
    intro j target d X p hX
    exact ((hx.expr d X p).then (G.push.then ((hy.expr (d + 1) X _).then (G.pop.then (G.xchg.then (G.jcmp hX)))))).falls fun _ => trivial
  · exact hp

theorem unary_nt {op : UnOp} {x : Node} (hx : NT C x) : NT C (unary op x) := by
  have hp : NT C (plain (x.const.map (calcUn op)) x.bad (emitUnary op x)) :=
    plain_nt (fun d => (hx.expr d).then fun _ _ => G.unop) (Fixed.then hx.fexpr (Fixed.ins _))
  unfold unary
  simp only
  split
  · exact hp.withTest (t := fun j target => x.test (!j) target) (fun j target d X p hX => hx.test (!j) target d X p hX) (fun j => hx.ftest (!j))
  · exact hp

theorem rvalue_nt {l : LNode} (h : LT C l) : NT C (rvalue l) := by
  have hp : NT C (plain none l.bad (l.addr ⨟ l.load)) := plain_nt (fun d => (h.addr d).then (h.load d)) (Fixed.then h.faddr h.fload)
  exact ⟨hp.expr, fun _ => h.addr, hp.test, hp.flat, hp.fexpr, fun _ => h.faddr, hp.ftest, hp.fflat⟩

theorem assign_t {op : Option BinOp} {x : Bool} {l : LNode} {e : Node} (hl : LT C l) (he : NT C e) : T C (emitAssign op x l e) d d := by
  unfold emitAssign
  refine (hl.addr d).then ?_
  cases op with
  | none =>
    refine T.then (d' := d) (by cases x <;> exact T.skip) ((inner_t he).then (T.then ?_ (hl.store d)))
    cases x <;> exact T.skip
  | some op =>
    cases x with
    | false => exact (hl.load d).then ((inner_t he).then (T.skip.then (hl.store d)))
    | true =>
      show T C ((ins (.push .pri) ⨟ l.load) ⨟ _ ⨟ ins (.pop .alt) ⨟ _) d d
      exact (T.push.then (hl.load (d + 1))).then ((inner_t he).then (T.pop.then (hl.store d)))

theorem incdec_t {inc pre disc : Bool} {l : LNode} (hl : LT C l) : T C (emitIncDec inc pre disc l) d d := by
  have bump : ∀ {d}, T C (ins (if inc then .inc .pri else .dec .pri)) d d := fun {d} => by
    cases inc
    · exact fun _ _ => G.dec
    · exact fun _ _ => G.inc
  unfold emitIncDec
  simp only
  refine (hl.addr d).then ?_
  cases hr : l.remat <;> cases hw : !(pre || disc) <;> simp only [Bool.not_true, Bool.not_false, emitIf_true, emitIf_false, Bool.false_eq_true, if_false, if_true]
  · exact T.push.then ((hl.load _).then (T.skip.then (bump.then (T.pop.then (hl.store d)))))
  · exact T.push.then ((hl.load _).then (T.push.then (bump.then (T.pop.then (T.swap.then ((hl.store _).then T.pop))))))
  · exact T.skip.then ((hl.load _).then (T.skip.then (bump.then (T.skip.then (hl.store d)))))
  · exact T.skip.then ((hl.load _).then (T.push.then (bump.then (T.skip.then (T.skip.then ((hl.store _).then T.pop))))))

theorem sequence_t {isOr j : Bool} {target ft : Nat} : ∀ (ts : List Test), (∀ t ∈ ts, TT C t) → ∀ d X p, X target d → X ft d →
    G C X (emitSequence isOr j target ft ts) p d d True
  | [], _, _, _, _, _, _ => G.skip
  | [t], h, d, X, p, h1, _ => h t (by simp) j target d X p h1
  | t :: t' :: rest, h, d, X, p, h1, h2 => by
    show G C X (t isOr (if isOr = j then target else ft) ⨟ emitSequence isOr j target ft (t' :: rest)) p d d True
    refine ((h t (by simp) isOr _ d X p ?_).then (sequence_t (t' :: rest) (fun x hx => h x (by simp [hx])) d X _ h1 h2)).falls fun _ => trivial
    split <;> assumption

theorem logicalTest_tt {isOr : Bool} {ts : List Test} (h : ∀ t ∈ ts, TT C t) (hf : ∀ t ∈ ts, ∀ j, Fixed2 (t j)) : TT C (emitLogicalTest isOr ts) := by
  intro j target d X p hX
  unfold emitLogicalTest
  refine G.exit (ft := True) ?_ ?_
  · exact fun t t' p q => emitSequence_fixed isOr j ts hf _ _ _ _ _ _
  · exact sequence_t ts h d _ p (Or.inl hX) (Or.inr ⟨rfl, rfl, trivial⟩)

theorem logical_t {isOr : Bool} {ts : List Test} (h : ∀ t ∈ ts, TT C t) (hf : ∀ t ∈ ts, ∀ j, Fixed2 (t j)) : T C (emitLogical isOr ts) d d := by
  intro X p
  unfold emitLogical
  have hl : ∀ j, Fixed2 (emitLogicalTest isOr ts j) := fun j => logicalTest_fixed isOr j hf
  refine G.exit (ft := True ∧ True) (logical_outer_fixed isOr hl) (G.then (d' := d) ?_ G.constPri)
  refine G.exit (ft := True ∧ True ∧ False) (logical_inner_fixed isOr hl _) ?_
  exact (logicalTest_tt h hf isOr _ d _ p (Or.inr ⟨rfl, rfl, trivial⟩)).then (G.constPri.then (G.jump (Or.inl (Or.inr ⟨rfl, rfl, trivial⟩))))

theorem logical_nt {isOr : Bool} {x y : Node} (hx : NT C x) (hy : NT C y) : NT C (logical isOr x y) := by
  have hs : ∀ t ∈ x.flat isOr ++ y.flat isOr, TT C t := fun t ht => by
    rcases List.mem_append.1 ht with h | h
    · exact hx.flat _ t h
    · exact hy.flat _ t h
  have hf : ∀ t ∈ x.flat isOr ++ y.flat isOr, ∀ j, Fixed2 (t j) := fun t ht => by
    rcases List.mem_append.1 ht with h | h
    · exact hx.fflat _ t h
    · exact hy.fflat _ t h
  have hl : ∀ j, Fixed2 (emitLogicalTest isOr (x.flat isOr ++ y.flat isOr) j) := fun j => logicalTest_fixed isOr j hf
  have hp : NT C (plain (foldLogical isOr x.const y.const) (x.bad || y.bad) (emitLogical isOr (x.flat isOr ++ y.flat isOr))) :=
    plain_nt (fun d => logical_t hs hf) (Fixed.endLabel (logical_outer_fixed isOr hl))
  refine ⟨hp.expr, hp.bare, logicalTest_tt hs hf, ?_, hp.fexpr, hp.fbare, hl, ?_⟩
  · intro tok t ht
    replace ht : t ∈ (if tok = isOr then x.flat isOr ++ y.flat isOr else [emitLogicalTest isOr (x.flat isOr ++ y.flat isOr)]) := ht
    split at ht
    · exact hs t ht
    · rw [List.mem_singleton.1 ht]; exact logicalTest_tt hs hf
  · intro tok t ht
    replace ht : t ∈ (if tok = isOr then x.flat isOr ++ y.flat isOr else [emitLogicalTest isOr (x.flat isOr ++ y.flat isOr)]) := ht
    split at ht
    · exact hf t ht
    · rw [List.mem_singleton.1 ht]; exact hl

theorem emitChain_t : ∀ (l : List (RelOp × Node)) (k : Option Cell) (d : Nat), (∀ e ∈ l, NT C e.2) → T C (emitChain k l) d d ∧ Fixed (emitChain k l)
  | [], _, _, _ => ⟨T.skip, Fixed.skip⟩
  | (op, e) :: rest, k, d, h => by
    have he := h (op, e) (by simp)
    obtain ⟨h1, h2⟩ := emitChain_t rest e.const d (fun x hx => h x (by simp [hx]))
    refine ⟨?_, ?_⟩
    · exact T.push.then (T.then (d' := d + 1) (fun _ _ => G.move) ((inner_t he).then (T.swap.then (T.then (d' := d + 1) (fun _ _ => G.and) (T.pop.then h1)))))
    · exact Fixed.then (Fixed.ins _) (Fixed.then (Fixed.ins _) (Fixed.then (inner_fixed _ _ _ he.fexpr) (Fixed.then (Fixed.ins _) (Fixed.then (Fixed.ins _)
        (Fixed.then (Fixed.ins _) h2)))))

theorem chain_nt {x : Node} {op : RelOp} {e : Node} {rest : List (RelOp × Node)} (hx : NT C x) (he : NT C e) (hr : ∀ y ∈ rest, NT C y.2) : NT C (chain x op e rest) :=
  plain_nt (fun d => (hx.expr d).then ((inner_t he).then (emitChain_t rest _ d hr).1))
    (Fixed.then hx.fexpr (Fixed.then (inner_fixed _ _ _ he.fexpr) (emitChain_t rest _ 0 hr).2))

end Verif.Compiled

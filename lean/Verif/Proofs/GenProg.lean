import Verif.Spec.Program
import Verif.Proofs.GenCall

/-! Functions and calls do what the source says. -/
namespace Verif.Compiled
open Verif.VM Verif.Lang Verif.CodeGen

/-- What a run of a function does. -/
def FnRuns (E : Env) (L : Layout) (lim : Int) (t N : Nat) (vs : List Cell) (s : IState) : Out Cell → Prop
  | .ok v σ' => (∃ k s', run E k t s = some (.ok s' v) ∧ Returned L vs s.vm s'.vm ∧ Globals L σ'.g s'.vm.mem) ∨ ExhaustedRun E lim t s
  | .err σ' e => (∃ k s', run E k t s = some (.fail s' e) ∧ Globals L σ'.g s'.vm.mem) ∨ ExhaustedRun E lim t s
  | .undef => True
  | .more => run E N t s = none ∨ ExhaustedRun E lim t s

theorem FnRuns.exhausted {E : Env} {L : Layout} {lim : Int} {t N : Nat} {vs : List Cell} {s : IState} (h : ExhaustedRun E lim t s) :
    ∀ o, FnRuns E L lim t N vs s o
  | .ok _ _ => Or.inr h
  | .err _ _ => Or.inr h
  | .undef => True.intro
  | .more => Or.inr h

/-! ### The frame -/

theorem framed_far {v : State} {a : Int} (h : a < v.hp ∨ v.sp ≤ a) (h1 : v.hp + 4 ≤ v.sp - 8) : framed v a = v.mem a := by
  unfold framed
  rw [wr32_far (by omega), wr32_far (by omega), wr32_far (by omega)]

theorem framed_hp {v : State} : rd32 (framed v) (v.sp - 8) = BitVec.ofInt 32 v.hp := rd32_wr32_same _ _ _

theorem framed_scope {v : State} (h1 : v.hp + 4 ≤ v.sp - 8) : rd32 (framed v) v.hp = BitVec.ofInt 32 v.hpScope := by
  unfold framed
  rw [rd32_wr32_disj (by omega), rd32_wr32_same]

theorem framed_frm {v : State} (h1 : v.hp + 4 ≤ v.sp - 8) : rd32 (framed v) (v.sp - 4) = BitVec.ofInt 32 v.frm := by
  unfold framed
  rw [rd32_wr32_disj (by omega), rd32_wr32_disj (by omega), rd32_wr32_same]

theorem framed_above {v : State} {a : Int} (h : v.sp ≤ a) (h1 : v.hp + 4 ≤ v.sp - 8) : rd32 (framed v) a = rd32 v.mem a :=
  rd32_congr fun _ h2 _ => framed_far (Or.inr (by omega)) h1

theorem argLocals_some {vs : List Cell} {i : Int} {w : Cell} (h : argLocals vs i = some w) :
    i < 0 ∧ ∃ hj : (-i - 1).toNat < vs.length, vs[(-i - 1).toNat] = w := by
  unfold argLocals at h
  split at h
  · rename_i hi
    obtain ⟨hj, e⟩ := List.getElem?_eq_some_iff.mp h
    exact ⟨hi, hj, e⟩
  · cases h

section
variable {E : Env} {L : Layout} {lim : Int} {prog : Nat → Option Func} {n : Nat}

/-- The layout of the variables of a function. -/
abbrev fnLayout (L : Layout) (F : Func) : Layout := { L with params := F.params, slots := F.slots }

theorem entered_fits {v : State} {F : Func} (hF : Fits E L lim v) : Fits E (fnLayout L F) lim (entered v F.slots) :=
  ⟨hF.code, hF.typed, hF.data, by have := hF.heap; show v.dataSize ≤ v.hp + 4; omega, hF.mem, hF.big, hF.globals, hF.disjoint, hF.scope, hF.lim⟩

theorem entered_activation {v : State} {f : Nat} {F : Func} (hP : Loaded E L lim prog) (hf : prog f = some F) {vs : List Cell} (hl : vs.length = F.params) (hv : Passed vs v) :
    Activation E (fnLayout L F) (L.entry f) (entered v F.slots) := by
  refine ⟨hP.offsets f F hf, ?_⟩
  have := hv.top
  show v.sp - 8 + 12 + 4 * (F.params : Int) ≤ v.stp
  omega

theorem entered_holds {v : State} {F : Func} (hF : Fits E L lim v) {vs : List Cell} (hl : vs.length = F.params) (hv : Passed vs v)
    (hr : v.hp + 4 ≤ v.sp - 8 - 4 * (F.slots : Int)) {g : Nat → Nat → Cell} (hG : Globals L g v.mem) :
    Holds (fnLayout L F) (entered v F.slots) ⟨g, argLocals vs⟩ (entered v F.slots) := by
  refine ⟨rfl, hr, by show v.sp - 8 - 4 * (F.slots : Int) ≤ v.sp - 8 - 4 * (F.slots : Int); omega, ?_, ?_⟩
  · intro x i hi
    have h1 : 0 ≤ (fnLayout L F).gaddr x + 4 * (i : Int) ∧ (fnLayout L F).gaddr x + 4 * (i : Int) + 4 ≤ v.dataSize := hF.globals x i hi
    have h2 := hF.heap
    show _ = g x i
    rw [← hG x i hi]
    exact rd32_congr fun a h3 h4 => framed_far (Or.inl (by omega)) (by omega)
  · intro i w hi
    obtain ⟨h1, h2, rfl⟩ := argLocals_some hi
    constructor
    · show (fnLayout L F).hasSlot i = true
      unfold Layout.hasSlot
      simp only [Bool.and_eq_true, decide_eq_true_eq]
      omega
    · have e : laddr (entered v F.slots) i = v.sp + 4 + 4 * (((-i - 1).toNat : Nat) : Int) := by
        unfold laddr
        rw [if_pos h1]
        show v.sp - 8 + _ = _
        omega
      rw [e]
      show rd32 (framed v) _ = _
      rw [framed_above (by omega) (by omega)]
      exact hv.args _ h2

/-- RETN at the end of a function. -/
theorem leave_ok {s : IState} {v : State} {F : Func} {q t : Nat} {σ' : Store} (hF : Fits E L lim v) {vs : List Cell} (hl : vs.length = F.params) (hv : Passed vs v)
    (hr : v.hp + 4 ≤ v.sp - 8 - 4 * (F.slots : Int)) (hp : Post (fnLayout L F) (entered v F.slots) (entered v F.slots) σ' s.vm)
    (hc : Here E (ins .retn) q) : ∃ s', (∀ k, loop E (k + 1) t q s = some (.ok s' s.pri)) ∧ Returned L vs v s'.vm ∧ Globals L σ'.g s'.vm.mem := by
  have hd := hF.data
  have hh := hF.heap
  have hm := hF.mem
  have hb := hF.big
  have ht := hv.top
  have hf := hv.frm
  have own : ∀ a, v.dataSize ≤ a → ¬ OwnG L a := fun a h k => by have := ownG_range hF k; omega
  have keep : ∀ a, (a < v.hp + 4 ∨ v.sp - 8 - 4 * (F.slots : Int) ≤ a) → ¬ OwnG L a → ¬ OwnL (fnLayout L F) (entered v F.slots) a → s.vm.mem a = framed v a := hp.keeps
  have notL : ∀ a, (a < v.sp - 8 - 4 * (F.slots : Int) ∨ (v.sp - 8 ≤ a ∧ a < v.sp + 4) ∨ v.sp + 4 + 4 * (F.params : Int) ≤ a) → ¬ OwnL (fnLayout L F) (entered v F.slots) a := by
    rintro a ha ⟨i, hi, h1, h2⟩
    obtain ⟨k1, k2, k3⟩ := laddr_range (b := entered v F.slots) hi
    have k1 : v.sp - 8 - 4 * (F.slots : Int) ≤ laddr (entered v F.slots) i := k1
    have k2 : laddr (entered v F.slots) i + 4 ≤ v.sp - 8 + 12 + 4 * (F.params : Int) := k2
    have k3 : laddr (entered v F.slots) i + 4 ≤ v.sp - 8 ∨ v.sp - 8 + 12 ≤ laddr (entered v F.slots) i := k3
    omega
  have saved : ∀ a, (a = v.hp ∨ a = v.sp - 8 ∨ a = v.sp - 4 ∨ a = v.sp) → rd32 s.vm.mem a = rd32 (framed v) a := fun a ha =>
    rd32_congr fun x h1 h2 => keep x (by omega) (own x (by omega)) (notL x (by omega))
  have efrm : s.vm.frm = v.sp - 8 := by rw [hp.vm]; rfl
  have ehp : s.vm.hp = v.hp + 4 := by rw [hp.vm]; rfl
  have edata : s.vm.dataSize = v.dataSize := by rw [hp.vm]; rfl
  have estp : s.vm.stp = v.stp := by rw [hp.vm]; rfl
  have emem : s.vm.memSize = v.memSize := by rw [hp.vm]; rfl
  have hpop := popAmxFrame_ok (v := s.vm) (hp := v.hp) (frm := v.frm) (scope := v.hpScope) (n := F.params)
    (by rw [efrm, saved _ (by omega), framed_hp]) (by rw [efrm, show v.sp - 8 + 4 = v.sp - 4 by omega, saved _ (by omega), framed_frm (by omega)])
    (by rw [efrm, show v.sp - 8 + 8 = v.sp by omega, saved _ (by omega), framed_above (by omega) (by omega), hv.count, hl])
    (by rw [saved _ (by omega), framed_scope (by omega)])
    (by omega) (by omega) (by omega) (by omega) (by omega) (by omega) (by omega) hf hF.scope
  refine ⟨{ s with vm := { s.vm with sp := s.vm.frm + 12 + 4 * (F.params : Int), frm := v.frm, hp := v.hp, hpScope := v.hpScope } }, fun k => ?_, ⟨?_, ?_⟩, ?_⟩
  · refine loop_ret (enc_retn.at hc) ?_ k
    show IM.bind (vmOp popAmxFrame) (fun _ => IM.pure Ctl.ret) s = _
    unfold IM.bind vmOp
    rw [hpop]
    rfl
  · show ({ s.vm with sp := s.vm.frm + 12 + 4 * (F.params : Int), frm := v.frm, hp := v.hp, hpScope := v.hpScope } : State) = { v with sp := _, mem := s.vm.mem }
    rw [efrm, show v.sp - 8 + 12 + 4 * (F.params : Int) = v.sp + 4 + 4 * (vs.length : Int) by omega]
    have h := hp.vm
    generalize s.vm = w at h ⊢
    rw [h]
    rfl
  · intro a ha hg
    show s.vm.mem a = v.mem a
    rw [keep a (by omega) hg (notL a (by omega)), framed_far (by omega) (by omega)]
  · exact hp.holds.globals

/-- A function does what the source says. -/
theorem fn_ok (hP : Loaded E L lim prog) {f : Nat} {F : Func} (hf : prog f = some F) {s : IState} {vs : List Cell} {σ : Store} {N : Nat} (hN : N ≤ n)
    (hF : Fits E L lim s.vm) (hl : vs.length = F.params) (hv : Passed vs s.vm) (hG : Globals L σ.g s.vm.mem)
    (hC : CallOk E (fnLayout L F) lim (L.entry f) n (entered s.vm F.slots) (callFn L.size prog n)) :
    FnRuns E L lim (L.entry f) N vs s (callFn L.size prog (n + 1) f vs σ) := by
  have hh := hF.heap
  have hd := hF.data
  have ht := hv.top
  have hcode := hP.code f F hf
  have hacc := hP.accepted f F hf
  have hacc1 : (genFn L F).bad = false := by unfold badFn at hacc; revert hacc; cases (genFn L F).bad <;> simp
  have hacc2 : (genFn L F).brk = false := by unfold badFn at hacc; revert hacc; cases (genFn L F).brk <;> simp
  have hacc3 : (genFn L F).cont = false := by unfold badFn at hacc; revert hacc; cases (genFn L F).cont <;> simp
  rcases enterMethod_cases (s := s) (hP.offsets f F hf) (hP.slots f F hf) (by omega) hv.heap (by omega) hF.mem hF.big with ⟨hr, he⟩ | ⟨s', e, he, hk, hlt⟩
  rotate_left
  · refine FnRuns.exhausted ⟨0, s', e, ?_, ?_⟩ _
    · unfold run; rw [he]
    · have := hP.room f F hf
      have := hF.lim
      rcases hk with rfl | rfl
      · show s'.vm.sp - s'.vm.hp < lim; omega
      · show s'.vm.sp - s'.vm.hp < lim; omega
  have hrun : ∀ k, run E k (L.entry f) s = loop E k (L.entry f) (L.entry f + 1) { s with vm := entered s.vm F.slots, pri := 0, alt := 0 } := fun k => by
    unfold run; rw [he]
  have hS := genS_ok (entered_fits (F := F) hF) (entered_activation hP hf hl hv) hC F.body hacc1
  have hcode : Here E (ins .proc ⨟ emitBreak false ⨟ emitStmt true (genFn L F) 0 0 ⨟ emitIf (decide ((genFn L F).flow ≠ .ret)) (ins (.zero .pri) ⨟ ins .retn) ⨟ ins .endproc) (L.entry f) := hcode
  have h0 : 0 < E.code.length := by have := hcode.lt; omega
  have c1 := hcode.snd
  have c2 := c1.snd
  have c3 := c2.snd
  have c4 := c3.fst
  have body : Runs E L lim (L.entry f) N (L.entry f + 1) { s with vm := entered s.vm F.slots, pri := 0, alt := 0 }
      (exec L.size (callFn L.size prog n) n F.body ⟨σ.g, argLocals vs⟩) _ :=
    Runs.brk c1.fst (hS.run.emit true N _ _ _ 0 0 hN h0 h0 c2.fst (entered_holds hF hl hv hr hG))
  unfold callFn
  rw [hf]
  simp only
  rw [if_neg (by omega)]
  have exh : Exhausted E lim (L.entry f) (L.entry f + 1) { s with vm := entered s.vm F.slots, pri := 0, alt := 0 } → ExhaustedRun E lim (L.entry f) s := by
    rintro ⟨s', e, ⟨k, hk⟩, ho⟩
    exact ⟨k, s', e, by rw [hrun, hk], ho⟩
  cases hx : exec L.size (callFn L.size prog n) n F.body ⟨σ.g, argLocals vs⟩ with
  | undef => exact True.intro
  | more =>
    rw [hx] at body
    rcases body with h | h
    · exact Or.inl (by rw [hrun, h])
    · exact Or.inr (exh h)
  | err σ' e =>
    rw [hx] at body
    rcases body with ⟨s', ⟨k, hk⟩, hg⟩ | h
    · exact Or.inl ⟨k, s', by rw [hrun, hk], hg⟩
    · exact Or.inr (exh h)
  | ok r σ' =>
    rw [hx] at body
    rcases body with ⟨N', q, s', hreach, hpost, hq⟩ | h
    rotate_left
    · cases r with
      | next => exact Or.inr (exh h)
      | ret v => exact Or.inr (exh h)
      | brk => exact True.intro
      | cont => exact True.intro
    obtain ⟨j, hfwd⟩ := hreach.fwd
    cases r with
    | brk => exact True.intro
    | cont => exact True.intro
    | ret v =>
      obtain ⟨_, hc, hpri⟩ := hq
      obtain ⟨s3, hloop, hret, hg⟩ := leave_ok (t := L.entry f) hF hl hv hr hpost hc
      exact Or.inl ⟨j + 1, s3, by rw [hrun, hfwd 1 _ (hloop 0), hpri], hret, hg⟩
    | next =>
      obtain ⟨_, rfl⟩ := hq
      have hflow := hS.sig.next _ _ hx
      have hflow : (genFn L F).flow = .none := hflow
      rw [hflow] at c4
      have c4 : Here E (ins (.zero .pri) ⨟ ins .retn) _ := c4
      obtain ⟨s3, hloop, hret, hg⟩ := leave_ok (t := L.entry f) (s := { s' with pri := 0 }) hF hl hv hr hpost c4.snd
      have h1 : loop E (0 + 1 + 1) (L.entry f) _ s' = _ := loop_next ((enc_zero .pri).at c4.fst) (s' := { s' with pri := 0 }) rfl (0 + 1)
      rw [hloop 0] at h1
      exact Or.inl ⟨j + (0 + 1 + 1), s3, by rw [hrun, hfwd _ _ h1], hret, hg⟩

/-! ### Calls -/

theorem run_mono {t k k' : Nat} {s : IState} {r : Res IState Cell} (h : run E k t s = some r) (hk : k ≤ k') : run E k' t s = some r := by
  unfold run at h ⊢
  cases he : enterMethod E t s with
  | ub => rw [he] at h; exact h
  | fail => rw [he] at h; exact h
  | ok s' _ => rw [he] at h; exact loop_mono _ h _ hk

theorem loop_call_run {m p q t : Nat} {i : Insn} {s s' : IState} {o : Int} (hA : Insn.At E p i q)
    (hv : visit E m (q * 4) i s = .ok s' (.call o)) (ht : acquireMethod E o = some t) (hc : E.validate t = none) (n : Nat) :
    loop E (n + 1) m p s = match run E n t s' with
      | none => none
      | some .ub => some .ub
      | some (.fail s e) => some (.fail s e)
      | some (.ok s3 v) => loop E n m q { vm := s3.vm, pri := v, alt := s'.alt, polls := s3.polls } := by
  obtain ⟨⟨x, hx, h1, h2⟩, hd⟩ := hA
  rw [loop]
  unfold run
  simp only [hx, h1, h2, or_self, if_false, hd, hv, ht, hc]
  cases enterMethod E t s' with
  | ub => rfl
  | fail => rfl
  | ok s2 _ => rfl

theorem callFn_locals {size : Nat → Nat} {n f : Nat} {vs : List Cell} {σ σ' : Store} {v : Cell} (h : callFn size prog (n + 1) f vs σ = .ok v σ') : σ'.l = σ.l := by
  unfold callFn at h
  split at h
  · cases h
  · split at h
    · cases h
    · split at h
      · cases h; rfl
      · cases h; rfl
      · cases h
      · cases h
      · cases h
      · cases h

/-- Calls do what the source says. -/
theorem calls_ok : ∀ (n : Nat) {L : Layout} {m : Nat} {b : State}, Loaded E L lim prog → Fits E L lim b → Activation E L m b →
    CallOk E L lim m n b (callFn L.size prog n)
  | 0, L, m, b, hP, hF, hA => by
    intro f vs N p s σ hN hlen hc hH hargs hsp
    have : N = 0 := by omega
    subst this
    exact Or.inl rfl
  | n+1, L, m, b, hP, hF, hA => by
    intro f vs N p s σ hN hlen hc hH hargs hsp
    cases hf : prog f with
    | none => unfold callFn; rw [hf]; exact True.intro
    | some F =>
      have hl : vs.length = F.params := by rw [hlen, hP.arity f F hf]
      have hr := hH.ranges hF hA
      have e1 := hH.hp
      have e2 := hH.stp
      have e3 := hH.frm
      refine Runs.pushC hF hA hc.fst hH fun hroom => ?_
      have hcode := hP.code f F hf
      have hcode : Here E (ins .proc ⨟ (emitBreak false ⨟ emitStmt true (genFn L F) 0 0 ⨟ emitIf (decide ((genFn L F).flow ≠ .ret)) (ins (.zero .pri) ⨟ ins .retn) ⨟ ins .endproc)) (L.entry f) := hcode
      have hlt : L.entry f < E.code.length := Nat.lt_of_le_of_lt (Nat.le_add_right _ _) hcode.lt
      have hproc : E.code[L.entry f]? = some 46 := hcode.fst.head
      have hIA := (enc_call (off_I32 hF hlt)).at hc.snd
      have hacq : acquireMethod E (off (L.entry f)) = some (L.entry f) := by
        unfold acquireMethod
        rw [jumpIndex_off hlt]
        simp only
        rw [if_pos hproc]
      have hstep := fun k => loop_call_run (m := m) (s := { s with vm := pushed s.vm (BitVec.ofNat 32 vs.length) }) hIA rfl hacq (hP.valid f F hf) k
      have hpush : ∀ a, (a < s.vm.hp ∨ s.vm.sp ≤ a) → (pushed s.vm (BitVec.ofNat 32 vs.length)).mem a = s.vm.mem a := fun a ha => wr32_far (by omega)
      have hpassed : Passed vs (pushed s.vm (BitVec.ofNat 32 vs.length)) := by
        refine ⟨rd32_wr32_same _ _ _, fun i hi => ?_, ?_, ?_, ?_⟩
        · show rd32 (pushed s.vm (BitVec.ofNat 32 vs.length)).mem (s.vm.sp - 4 + 4 + 4 * (i : Int)) = _
          rw [show s.vm.sp - 4 + 4 + 4 * (i : Int) = s.vm.sp + 4 * (i : Int) by omega, ← hargs i hi]
          exact rd32_congr fun a h1 h2 => hpush a (by omega)
        · show s.vm.hp ≤ s.vm.sp - 4; omega
        · show s.vm.sp - 4 + 4 + 4 * (vs.length : Int) ≤ s.vm.stp; omega
        · show 0 ≤ s.vm.frm ∧ s.vm.frm ≤ _; omega
      have hfits : Fits E L lim (pushed s.vm (BitVec.ofNat 32 vs.length)) := by
        have h := hH.same
        generalize s.vm = w at h ⊢
        rw [h]
        exact ⟨hF.code, hF.typed, hF.data, hF.heap, hF.mem, hF.big, hF.globals, hF.disjoint, hF.scope, hF.lim⟩
      have hG : Globals L σ.g (pushed s.vm (BitVec.ofNat 32 vs.length)).mem := by
        intro x i hi
        rw [← hH.globals x i hi]
        have := hF.globals x i hi
        exact rd32_congr fun a h1 h2 => hpush a (by omega)
      have fn : FnRuns E L lim (L.entry f) (N - 1) vs { s with vm := pushed s.vm (BitVec.ofNat 32 vs.length) } (callFn L.size prog (n + 1) f vs σ) :=
        fn_ok (n := n) hP hf (by omega) hfits hl hpassed hG
          (calls_ok n (L := fnLayout L F) ⟨hP.accepted, hP.code, hP.arity, hP.offsets, hP.valid, hP.slots, hP.room⟩ (entered_fits hfits) (entered_activation hP hf hl hpassed))
      have exh : ExhaustedRun E lim (L.entry f) { s with vm := pushed s.vm (BitVec.ofNat 32 vs.length) } →
          Exhausted E lim m (Ends (ins (.pushC [BitVec.ofNat 32 vs.length])) p) { s with vm := pushed s.vm (BitVec.ofNat 32 vs.length) } := by
        rintro ⟨k, s', e, hk, ho⟩
        exact ⟨s', e, ⟨k + 1, by rw [hstep, hk]⟩, ho⟩
      cases hx : callFn L.size prog (n + 1) f vs σ with
      | undef => exact True.intro
      | more =>
        rw [hx] at fn
        rcases fn with h | h
        · left
          cases N with
          | zero => rfl
          | succ N =>
            have h : run E N (L.entry f) { s with vm := pushed s.vm (BitVec.ofNat 32 vs.length) } = none := h
            rw [hstep, h]
        · exact Or.inr (exh h)
      | err σ' e =>
        rw [hx] at fn
        rcases fn with ⟨k, s', hk, hg⟩ | h
        · exact Or.inl ⟨s', ⟨k + 1, by rw [hstep, hk]⟩, hg⟩
        · exact Or.inr (exh h)
      | ok v σ' =>
        rw [hx] at fn
        rcases fn with ⟨k, s3, hk, hret, hg⟩ | h
        · left
          refine ⟨N, _, { vm := s3.vm, pri := v, alt := s.alt, polls := s3.polls }, ⟨?_, ?_⟩, rfl, rfl, ?_, rfl⟩
          · refine ⟨k + 1, fun j r hj => ?_⟩
            rw [show k + 1 + j = (k + j) + 1 by omega, hstep, run_mono hk (by omega)]
            exact loop_mono _ hj _ (by omega)
          · intro hn
            cases N with
            | zero => rfl
            | succ N =>
              rw [hstep]
              cases hR : run E N (L.entry f) { s with vm := pushed s.vm (BitVec.ofNat 32 vs.length) } with
              | none => rfl
              | some r =>
                have h1 := run_mono hk (Nat.le_max_left k N)
                rw [run_mono hR (Nat.le_max_right k N)] at h1
                cases h1
                exact loop_none hn (by omega)
          · have hl2 : (callFn L.size prog (n + 1) f vs σ) = .ok v σ' := hx
            have hσ : σ'.l = σ.l := callFn_locals hl2
            have hvm : s3.vm = { s.vm with sp := s.vm.sp + 4 * (vs.length : Int), mem := s3.vm.mem } := by
              have h := hret.vm
              generalize s3.vm = w at h ⊢
              rw [h]
              show ({ s.vm with sp := s.vm.sp - 4 + 4 + 4 * (vs.length : Int), mem := w.mem } : State) = { s.vm with sp := s.vm.sp + 4 * (vs.length : Int), mem := w.mem }
              rw [show s.vm.sp - 4 + 4 + 4 * (vs.length : Int) = s.vm.sp + 4 * (vs.length : Int) by omega]
            have hkeep : ∀ a, (a < s.vm.hp ∨ s.vm.sp + 4 * (vs.length : Int) ≤ a) → ¬ OwnG L a → s3.vm.mem a = s.vm.mem a := by
              intro a ha hg
              rw [hret.keeps a (by show a < s.vm.hp ∨ s.vm.sp - 4 + 4 + 4 * (vs.length : Int) ≤ a; omega) hg]
              exact hpush a (by omega)
            have hsp3 : s3.vm.sp = s.vm.sp + 4 * (vs.length : Int) := by rw [hvm]
            refine ⟨hvm, ⟨?_, ?_, ?_, hg, ?_⟩, ?_⟩
            · have h := hH.same
              show s3.vm = { b with mem := s3.vm.mem, sp := s3.vm.sp }
              generalize s3.vm = w at hvm ⊢
              rw [hvm]
              generalize s.vm = u at h ⊢
              rw [h]
            · show b.hp ≤ s3.vm.sp; omega
            · show s3.vm.sp ≤ _; omega
            · intro i w hi
              rw [hσ] at hi
              obtain ⟨k1, k2⟩ := hH.locals i w hi
              have k3 := (laddr_range (b := b) k1).1
              refine ⟨k1, ?_⟩
              rw [← k2]
              exact rd32_congr fun a h1 h2 => hkeep a (by omega) fun hg => by have := ownG_range hF hg; omega
            · intro a ha hg _
              exact hkeep a (by rw [e1]; exact ha) hg
        · exact Or.inr (exh h)

end
end Verif.Compiled

import Verif.Proofs.JitStep
import Verif.Proofs.JitInv

/-! Tools for following compiled code next to the interpreter, and the simplest instructions. -/
namespace Verif.Jit
open Verif.X64 Verif.VM

/-- `m'` agrees with `s'`, and the native stack is that of `m`. -/
def Post (H : Host) (kp ka : Bool) (m : Mach) (s' : IState) (m' : Mach) : Prop :=
  Sim H kp ka m' s' ∧ m'.outer = m.outer

/-- Execution reached the end of the fragment in a state with `P`. -/
def Out.Ends (P : Mach → Prop) : Out → Prop
  | .done m => P m
  | .error _ _ => False
  | .fault => False

/-- The fragment runs to its end, in a state that agrees with `s'`. -/
def Runs (H : Host) (is : List Item) (m : Mach) (kp ka : Bool) (s' : IState) : Prop :=
  (run H none is m).Ends (Post H kp ka m s')

theorem Runs.elim {H : Host} {is : List Item} {m : Mach} {kp ka : Bool} {s' : IState} (h : Runs H is m kp ka s') :
    ∃ m', run H none is m = .done m' ∧ Sim H kp ka m' s' ∧ m'.outer = m.outer := by
  unfold Runs at h
  cases e : run H none is m with
  | done m' => rw [e] at h; exact ⟨m', rfl, h⟩
  | error _ _ => rw [e] at h; cases h
  | fault => rw [e] at h; cases h

theorem mkRegs {H : Host} {kp ka kp' ka' : Bool} {m m' : Mach} {s s' : IState} (h : Sim H kp ka m s)
    (pri : kp' = true → m'.reg 0 = s'.pri.setWidth 64) (alt : ka' = true → m'.reg 2 = s'.alt.setWidth 64)
    (e3 : m'.reg 3 = m.reg 3 := by rfl) (e12 : m'.reg 12 = m.reg 12 := by rfl)
    (e14 : m'.reg 14 = m.reg 14 := by rfl) (e15 : m'.reg 15 = m.reg 15 := by rfl)
    (edf : m'.df = m.df := by rfl) (em : m'.mem = m.mem := by rfl) (ef : m'.field = m.field := by rfl)
    (es : m'.outer = m.outer := by rfl) (ev : s'.vm = s.vm := by rfl) : Post H kp' ka' m s' m' :=
  ⟨⟨pri, alt, by rw [e3, ev, h.frm], by rw [e12, h.ctx], by rw [e14, ev, h.stk], by rw [e15, h.dat], by rw [edf, h.df],
    by rw [em, ev, h.mem], by rw [ef, ev, h.hpF], by rw [ef, ev, h.frmF], by rw [ef, ev, h.scopeF]⟩, es⟩

theorem mkMem {H : Host} {kp ka kp' ka' : Bool} {m m' : Mach} {s s' : IState} (h : Sim H kp ka m s)
    (pri : kp' = true → m'.reg 0 = s'.pri.setWidth 64) (alt : ka' = true → m'.reg 2 = s'.alt.setWidth 64)
    (stk : m'.reg 14 = Host.at H s'.vm.sp) (mem : m'.mem = s'.vm.mem)
    (hpF : m'.field .hp = BitVec.ofInt 32 s'.vm.hp) (scF : m'.field .scope = BitVec.ofInt 32 s'.vm.hpScope)
    (e3 : m'.reg 3 = m.reg 3 := by rfl) (e12 : m'.reg 12 = m.reg 12 := by rfl)
    (e15 : m'.reg 15 = m.reg 15 := by rfl)
    (edf : m'.df = m.df := by rfl) (ef : m'.field .frm = m.field .frm := by rfl)
    (es : m'.outer = m.outer := by rfl) (ev : s'.vm.frm = s.vm.frm := by rfl) : Post H kp' ka' m s' m' :=
  ⟨⟨pri, alt, by rw [e3, ev, h.frm], by rw [e12, h.ctx], stk, by rw [e15, h.dat], by rw [edf, h.df],
    mem, hpF, by rw [ef, ev, h.frmF], scF⟩, es⟩

theorem bv_toInt (x : Int) : (bv x).toInt = wrap32 x := by
  unfold bv wrap32
  rw [BitVec.toInt_ofInt, Int.bmod_def]
  split <;> omega

theorem wrap32_wrap (a b : Int) : wrap32 (a + wrap32 b) = wrap32 (a + b) := by unfold wrap32; omega

section
variable {H : Host} {J : JitEnv} {E : Env} {method : Nat} {s : IState} {m : Mach} {kp ka : Bool}

/-- A frame slot the interpreter accepts lies where rbx says. -/
theorem frame_at (S : Setup H J E method s) (o : Int) (g : GoodAddr s.vm (wrap32 (s.vm.frm + o))) :
    Host.at H s.vm.frm + BitVec.ofInt 64 (bv o).toInt = Host.at H (wrap32 (s.vm.frm + o)) := by
  obtain ⟨l1, l2, l3, l4, l5, l6⟩ := S.layout
  have h0 := S.frm0
  have h1 := S.frm1
  obtain ⟨g1, g2, g3⟩ := g
  rw [at_add, bv_toInt]
  have e : s.vm.frm + wrap32 o = wrap32 (s.vm.frm + o) := by
    unfold wrap32 at *
    omega
  rw [e]

theorem dat_at {p : Cell} (g : 0 ≤ p.toInt) : H.base + p.setWidth 64 = Host.at H p.toInt := by
  have : p.toInt = p.toNat := by
    rw [BitVec.toInt_eq_toNat_cond] at g ⊢
    have := p.isLt
    split at g <;> split <;> omega
  rw [zext_ofInt, this, Host.at]

theorem ea_at (m : Mach) (r : Gpr) : ea m (atDat r).meaning = m.reg 15 + m.reg r := by
  rw [atDat, ea_bisd0]
  exact BitVec.add_zero _

theorem ea_field (m : Mach) (joff : J.off = H.off) (f : Field) :
    ea m (J.field f).meaning = m.reg 12 + (H.off f).signExtend 64 := by
  rw [JitEnv.field, ea_bd, joff]; rfl

theorem field_legal (f : Field) : (J.field f).Legal := trivial
theorem at_legal (r : Gpr) (h : r ≠ 4) : (atDat r).Legal := h

theorem dat_disp {a : Int} (h0 : 0 ≤ a) (h1 : a < 2147483648) :
    H.base + BitVec.ofInt 64 (bv a).toInt = Host.at H a := by
  rw [bv_toInt, wrap32_id (by omega) h1, Host.at]

end

/-- Go on after a step. -/
def thenRun (x : Option Mach) (f : Mach → Out) : Out :=
  match x with
  | none => .fault
  | some m => f m
/-- Go on with the flags. -/
def withFlags (x : Option Flags) (f : Flags → Out) : Out :=
  match x with
  | none => .fault
  | some m => f m
/-- Like `rfl`, but `simp` does not take the lemma for a definitional one: the kernel would evaluate whole programs. -/
macro "nonrfl" : tactic => `(tactic| exact Eq.trans rfl (Eq.refl _))

theorem ends_done (P : Mach → Prop) (m : Mach) : Out.Ends P (.done m) = P m := by nonrfl
theorem thenRun_some (m : Mach) (f : Mach → Out) : thenRun (some m) f = f m := by rw [thenRun]
theorem withFlags_some (m : Flags) (f : Flags → Out) : withFlags (some m) f = f m := by rw [withFlags]

section
variable (H : Host) (is : List Item) (m : Mach)
theorem run_nil (sk : Option Nat) : run H sk [] m = .done m := by cases sk <;> rw [run]
theorem run_op (c : Call) : run H none (.op c :: is) m = thenRun (stepCall H c m) (run H none is) := by nonrfl
theorem run_bind (l : Nat) : run H none (.bind l :: is) m = run H none is m := by nonrfl
theorem run_jl (cc : Cc) (l : Nat) : run H none (.jl cc l :: is) m =
    withFlags m.flags (fun f => run H (if X64.cond f cc then some l else none) is m) := by nonrfl
theorem run_err (cc : Cc) (e : JErr) : run H none (.err cc e :: is) m =
    withFlags m.flags (fun f => if X64.cond f cc then .error e m else run H none is m) := by nonrfl
theorem run_skip_op (l : Nat) (c : Call) : run H (some l) (.op c :: is) m = run H (some l) is m := by nonrfl
theorem run_skip_err (l : Nat) (cc : Cc) (e : JErr) : run H (some l) (.err cc e :: is) m = run H (some l) is m := by nonrfl
theorem run_skip_bind (l k : Nat) : run H (some l) (.bind k :: is) m = run H (if k = l then none else some l) is m := by nonrfl
theorem run_fmodf : run H none (.fmodf :: is) m = run H none is
      { m with
        reg := fun r => if preserved r then m.reg r else H.junk m.reg r
        xmm := fun r => if r = 0 then H.fpu.fmod (m.xmm 0) (m.xmm 1) else 0
        flags := none } := by nonrfl
end

/-- Evaluate the list of items. -/
macro "jrun" "[" ts:Lean.Parser.Tactic.simpLemma,* "]" : tactic =>
  `(tactic| simp only [ends_done, run_nil, run_op, run_bind, run_jl, run_err, run_skip_op, run_skip_err, run_skip_bind, run_fmodf,
      thenRun_some, withFlags_some, List.cons_append, List.nil_append, Mach.setReg, Mach.setXmm, Mach.setField, Mach.lo, regOf,
      RO.meaning, rPri, rAlt, rTmp, rFrm, rStk, rDat, rCtx, Fin.reduceEq, if_true, if_false, reduceIte, $ts,*])

theorem sim_nop {H : Host} {m : Mach} {kp ka : Bool} {s : IState} (h : Sim H kp ka m s) : Runs H [] m kp ka s :=
  mkRegs h h.pri h.alt

section
variable {H : Host} {J : JitEnv} {E : Env} {method : Nat} {here : Int} {s s' : IState} {c : Ctl} {m : Mach} {kp ka : Bool}

theorem sim_load (S : Setup H J E method s) (h : Sim H kp ka m s) {r : Reg} {a : Int}
    (hv : visit E method here (.load r a) s = .ok s' c) :
    Runs H [.op (.movlRM (regOf r) (.bd rDat (bv a)))] m (setP r kp) (setA r ka) s' := by
  obtain ⟨l1, l2, l3, l4, l5, l6⟩ := S.layout
  obtain ⟨s1, v, h1, h2⟩ := im_bind_inv (done_inv hv)
  obtain ⟨v1, h3, rfl⟩ := vmOp_inv h1
  obtain ⟨rfl, rfl, g, gm⟩ := getCell_inv h3
  obtain rfl := setR_inv h2
  have e1 := dat_disp (H := H) g.1 (by have := g.2.2; omega)
  cases r <;> jrun [Runs, st_movlRM H m _ (.bd rDat (bv a)) trivial, ea_bd, h.dat, e1, load32_at S.host g.1 (S.size ▸ gm.2)]
  · exact mkRegs h (fun _ => by rw [h.mem]; rfl) h.alt
  · exact mkRegs h h.pri (fun _ => by rw [h.mem]; rfl)
end

end Verif.Jit

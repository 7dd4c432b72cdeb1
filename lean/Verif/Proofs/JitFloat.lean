import Verif.Proofs.JitArith

/-! Float instructions. -/
namespace Verif.Jit
open Verif.X64 Verif.VM

theorem ucom_ae (r : FRel) : X64.cond (ucomFlags r) aboveEqual = FRel.sat r .sgeq := by cases r <;> rfl
theorem ucom_above (r : FRel) : X64.cond (ucomFlags r) above = FRel.sat r .sgrtr := by cases r <;> rfl
theorem ucom_parity (r : FRel) : X64.cond (ucomFlags r) parity = decide (r = .un) := by cases r <;> rfl
theorem ucom_eq (r : FRel) : X64.cond (ucomFlags r) equal = (FRel.sat r .eq || decide (r = .un)) := by cases r <;> rfl
theorem ucom_ne (r : FRel) : X64.cond (ucomFlags r) notEqual = (FRel.sat r .neq && !decide (r = .un)) := by cases r <;> rfl

section
variable {H : Host} {J : JitEnv} {E : Env} {method : Nat} {here : Int} {s s' : IState} {c : Ctl} {m : Mach} {kp ka : Bool}

theorem sim_negF32 (F : FloatsAgree E.floats H.fpu) (h : Sim H true ka m s) (hv : visit E method here .negF32 s = .ok s' c) :
    Runs H [.op (.movlRI 1 0x80000000), .op (.alu false .xor (.reg rPri) 1)] m true ka s' := by
  cases done_inv hv
  jrun [Runs, st_movlRI, st_alu32 H _ _ (.reg _) _ trivial, alu32, get32, put32, aluFn, h.pri rfl, lo_zext]
  exact mkRegs h (fun _ => by show _ = (E.floats.neg s.pri).setWidth 64; rw [F.neg]; rfl) h.alt

theorem sim_cvtF32 (F : FloatsAgree E.floats H.fpu) (h : Sim H true ka m s) (hv : visit E method here .cvtF32 s = .ok s' c) :
    Runs H [.op (.cvtsi2ss 0 (.reg rPri)), .op (.movdOut rPri 0)] m true ka s' := by
  cases done_inv hv
  jrun [Runs, st_cvtsi2ss H _ 0 _ (by decide), st_movdOut00, h.pri rfl, lo_zext]
  exact mkRegs h (fun _ => by show _ = (E.floats.ofInt s.pri).setWidth 64; rw [F.ofInt]; rfl) h.alt

theorem sim_binF32 (F : FloatsAgree E.floats H.fpu) (h : Sim H true true m s) {o : OpF} {is : List Item}
    (hj : jit J (.binF32 o) = .code is) (hv : visit E method here (.binF32 o) s = .ok s' c) :
    Runs H is m true (decide (o ≠ .modAlt)) s' := by
  cases done_inv hv
  cases o <;> cases hj
  · jrun [Runs, st_movdIn H _ 0 _ (by decide), st_movdIn H _ 1 _ (by decide), st_sse H _ _ 0 _ (by decide), st_movdOut00,
      h.pri rfl, h.alt rfl, lo_zext]
    exact mkRegs h (fun _ => by show _ = (E.floats.bin .mul s.pri s.alt).setWidth 64; rw [F.mul]; rfl) (fun _ => h.alt rfl)
  · jrun [Runs, st_movdIn H _ 0 _ (by decide), st_movdIn H _ 1 _ (by decide), st_sse H _ _ 0 _ (by decide), st_movdOut00,
      h.pri rfl, h.alt rfl, lo_zext]
    exact mkRegs h (fun _ => by show _ = (E.floats.bin .divAlt s.pri s.alt).setWidth 64; rw [F.divAlt]; rfl) (fun _ => h.alt rfl)
  · jrun [Runs, st_movdIn H _ 0 _ (by decide), st_movdIn H _ 1 _ (by decide), st_sse H _ _ 0 _ (by decide), st_movdOut00,
      h.pri rfl, h.alt rfl, lo_zext]
    exact mkRegs h (fun _ => by show _ = (E.floats.bin .add s.pri s.alt).setWidth 64; rw [F.add]; rfl) (fun _ => h.alt rfl)
  · jrun [Runs, st_movdIn H _ 0 _ (by decide), st_movdIn H _ 1 _ (by decide), st_sse H _ _ 0 _ (by decide), st_movdOut00,
      h.pri rfl, h.alt rfl, lo_zext]
    exact mkRegs h (fun _ => by show _ = (E.floats.bin .subAlt s.pri s.alt).setWidth 64; rw [F.subAlt]; rfl) (fun _ => h.alt rfl)
  · jrun [Runs, st_movdIn H _ 0 _ (by decide), st_movdIn H _ 1 _ (by decide), st_movdOut00,
      h.pri rfl, h.alt rfl, lo_zext]
    exact mkRegs h (fun _ => by show _ = (E.floats.bin .modAlt s.pri s.alt).setWidth 64; rw [F.modAlt]; rfl) (fun k => by cases k)

theorem sim_cmpF32 (F : FloatsAgree E.floats H.fpu) (h : Sim H true true m s) {o : Cmp} {is : List Item}
    (hj : jit J (.cmpF32 o) = .code is) (hv : visit E method here (.cmpF32 o) s = .ok s' c) :
    Runs H is m true true s' := by
  cases done_inv hv
  have fin : ∀ (m1 : Mach) (b : Bool), (o ≠ .zero → o ≠ .notZero → b = FRel.sat (H.fpu.cmp s.pri s.alt) o) →
      o ≠ .zero → o ≠ .notZero → m1.reg 0 = (boolCell b).setWidth 64 → (∀ r, r ≠ 0 → m1.reg r = m.reg r) → m1.mem = m.mem →
      m1.field = m.field → m1.df = m.df → m1.outer = m.outer →
      Post H true true m { s with pri := boolCell (E.floats.cmp o s.pri s.alt) } m1 := by
    intro m1 b hb n0 n1 e0 er em ef ed es
    exact mkRegs h (fun _ => by rw [e0, hb n0 n1, ← F.cmp o s.pri s.alt n0 n1]) (fun k => (er 2 (by decide)).trans (h.alt k)) (er 3 (by decide))
      (er 12 (by decide)) (er 14 (by decide)) (er 15 (by decide)) ed em ef es
  have sw := F.swap s.pri s.alt
  have other : ∀ (x : BitVec 64) (r : Gpr), r ≠ 0 → (if r = 0 then x else if r = 0 then 0#64 else m.reg r) = m.reg r := fun x r hr => by
    rw [if_neg hr, if_neg hr]
  have other' : ∀ (x y : BitVec 64) (r : Gpr), r ≠ 0 → (if r = 0 then x else if r = 0 then y else m.reg r) = m.reg r := fun x y r hr => by
    rw [if_neg hr, if_neg hr]
  have other1 : ∀ (x : BitVec 64) (r : Gpr), r ≠ 0 → (if r = 0 then x else m.reg r) = m.reg r := fun x r hr => by rw [if_neg hr]
  cases o <;> cases hj
  all_goals
    first
    | (jrun [Runs, st_movdIn H _ 0 _ (by decide), st_movdIn H _ 1 _ (by decide), st_ucomiss, st_movlRI, st_set H _ _ 0 (by decide),
        h.pri rfl, h.alt rfl, lo_zext, ucom_ae, ucom_above, Bool.false_eq_true]
       refine fin _ _ (fun _ _ => ?_) (by decide) (by decide) (setByte_bool _) (other' _ _) rfl rfl rfl rfl
       first
       | rfl
       | (rw [sw]; cases H.fpu.cmp s.pri s.alt <;> rfl))
    | (cases hu : H.fpu.cmp s.pri s.alt <;>
        jrun [Runs, st_movdIn H _ 0 _ (by decide), st_movdIn H _ 1 _ (by decide), st_ucomiss, st_movlRI, st_set H _ _ 0 (by decide),
          h.pri rfl, h.alt rfl, lo_zext, ucom_parity, ucom_eq, ucom_ne, hu, decide_true, decide_false, reduceCtorEq, Bool.false_eq_true]
       all_goals
        first
        | exact fin _ _ (fun _ _ => by rw [hu]) (by decide) (by decide) rfl (other' _ _) rfl rfl rfl rfl
        | exact fin _ _ (fun _ _ => by rw [hu]) (by decide) (by decide) rfl (other1 _) rfl rfl rfl rfl)
end
end Verif.Jit

import Verif.Proofs.LongInc

/-! The code of expressions computes their values, the induction (C81). -/
namespace Verif.Long
open Verif.VM

section
variable {F : Frame} {K : List Kind} {b : State} {D : Scope} {E : Env} {m : Nat} {here : Int}

/-- Two operands; the rest is given. -/
theorem sound_two (hF : F.Fits K b) {x y : E64} (ihx : Sound64 F K b D E m here x) (ihy : Sound64 F K b D E m here y) {t : Slots} {σ : Store} {s : IState}
    (hW : WF t) (hP : Pre (gen64 (gen64 t x).2 y).2 K) (hH : Holds F K b D t σ s.vm) (kx : Known64 F D x) (ky : Known64 F D y) (cx : Calm64 F.tgt x)
    (cy : Calm64 F.tgt y) (hw : ∀ o, standsFor F.tgt x = some o → o ∉ writes64 F.tgt y) (rx : b.hp + 4 * (need64 x : Int) < s.vm.sp)
    (ry : b.hp + 4 * ((need64 y : Int) + 1) < s.vm.sp) :
    match (eval64 F.tgt σ x).bind fun l => (eval64 F.tgt l.2 y).bind fun r => Out.ok (l.1, r.1, r.2) with
    | .ok (v, w, σ') => ∃ s' p q, run E m here ((gen64 t x).1 ++ [.push .pri] ++ (gen64 (gen64 t x).2 y).1 ++ [.pop .alt]) s = .ok s' () ∧
        Got F K b D t (gen64 (gen64 t x).2 y).2 (standsFor F.tgt y) s s' σ' w q ∧ s'.alt = BitVec.ofInt 32 p ∧ Wide s'.vm p ∧ Wide s'.vm q ∧
        rd64 s'.vm.mem p = v
    | .err e => ∃ s', run E m here ((gen64 t x).1 ++ [.push .pri] ++ (gen64 (gen64 t x).2 y).1 ++ [.pop .alt]) s = .fail s' e
    | .undef => True := by
  have hg := gen64_grows (gen64 t x).2 y
  have hW1 := gen64_wf hW x
  have hW2 := gen64_wf hW1 y
  have hx := ihx t σ s hW (hP.of_grows hg) hH kx cx rx
  have hassoc : (gen64 t x).1 ++ [.push .pri] ++ (gen64 (gen64 t x).2 y).1 ++ [.pop .alt] =
      (gen64 t x).1 ++ ([.push .pri] ++ (gen64 (gen64 t x).2 y).1 ++ [.pop .alt]) := by simp only [List.append_assoc]
  rw [hassoc]
  cases ex : eval64 F.tgt σ x with
  | undef => trivial
  | err e =>
    rw [ex] at hx
    obtain ⟨s1, h1⟩ := hx
    exact ⟨s1, run_fail h1⟩
  | ok l =>
    obtain ⟨v, σ1⟩ := l
    rw [ex] at hx
    obtain ⟨s1, p, h1, g1⟩ := hx
    have hsp := g1.sp
    have hy := got_pair hF ihy hW1 hP g1 ky cy hw (by omega)
    simp only [Out.bind]
    cases ey : eval64 F.tgt σ1 y with
    | undef => trivial
    | err e =>
      rw [ey] at hy
      obtain ⟨s2, h2⟩ := hy
      exact ⟨s2, by rw [run_two h1]; exact h2⟩
    | ok r =>
      obtain ⟨w, σ2⟩ := r
      rw [ey] at hy
      obtain ⟨s2, q, h2, g2, h3, h4, h5⟩ := hy
      exact ⟨s2, p, q, by rw [run_two h1]; exact h2, g1.trans g2 (gen64_grows t x), h3, h4.wide hF hW2 hP g2.holds,
        g2.place.wide hF hW2 hP g2.holds, h5⟩

theorem boolCell_eq (x : Bool) : boolCell x = if x then 1 else 0 := by cases x <;> rfl

variable (hM : Meth E m K) (hF : F.Fits K b)
include hM hF

/-- An operator and what follows. -/
theorem sound_bin (op : Op) {x y : E64} (ihx : Sound64 F K b D E m here x) (ihy : Sound64 F K b D E m here y) :
    Sound64 F K b D E m here (.bin op x y) := by
  intro t σ s hW hP hH hk hc hr
  simp only [gen64] at hP ⊢
  have hg : Grows (gen64 (gen64 t x).2 y).2 (emitOp (gen64 (gen64 t x).2 y).2 op).2 := acquire_grows _ _
  have hW2 := gen64_wf (gen64_wf hW x) y
  have hn : (need64 (.bin op x y) : Int) = max (need64 x : Int) ((need64 y : Int) + 1) := by simp only [need64]; omega
  have h2 := sound_two hF ihx ihy hW (hP.of_grows hg) hH hk.1 hk.2 hc.1 hc.2.1 hc.2.2 (by omega) (by omega)
  simp only [eval64]
  cases ex : eval64 F.tgt σ x with
  | undef => trivial
  | err e =>
    rw [ex] at h2
    obtain ⟨s1, h1⟩ := h2
    exact ⟨s1, run_fail h1⟩
  | ok l =>
    obtain ⟨v, σ1⟩ := l
    rw [ex] at h2
    simp only [Out.bind] at h2 ⊢
    cases ey : eval64 F.tgt σ1 y with
    | undef => trivial
    | err e =>
      rw [ey] at h2
      obtain ⟨s1, h1⟩ := h2
      exact ⟨s1, run_fail h1⟩
    | ok r =>
      obtain ⟨w, σ2⟩ := r
      rw [ey] at h2
      obtain ⟨s1, p, q, h1, g1, ha, wp, wq, vp⟩ := h2
      have ho := got_op (E := E) (m := m) (here := here) hM hF hW2 op hP g1.holds g1.pri ha wq wp g1.val vp
      simp only []
      cases eo : op.eval v w with
      | undef => trivial
      | err e =>
        rw [eo] at ho
        obtain ⟨s2, h2⟩ := ho
        exact ⟨s2, by rw [run_two h1]; exact h2⟩
      | ok r =>
        rw [eo] at ho
        obtain ⟨s2, p', h2, g2⟩ := ho
        exact ⟨s2, p', by rw [run_two h1]; exact h2, g1.trans g2 ((gen64_grows t x).trans (gen64_grows _ y))⟩

/-- `x op= e` is `x = x op e`. -/
theorem sound_opset (op : Op) (x : Var) {y : E64} (ihy : Sound64 F K b D E m here y) : Sound64 F K b D E m here (.opset op x y) := by
  intro t σ s hW hP hH hk hc hr
  have ihx : Sound64 F K b D E m here (.var x) := by
    intro t σ s hW hP hH hk _ _
    obtain ⟨s1, p, h1, g1⟩ := got_var (E := E) (m := m) (here := here) hM hF hW hP hH hk
    exact ⟨s1, p, h1, g1⟩
  have hn : (need64 (.opset op x y) : Int) = (need64 y : Int) + 1 := by simp only [need64]; omega
  have hb := sound_bin (D := D) (here := here) hM hF op ihx ihy t σ s hW hP hH ⟨hk.1, hk.2⟩
    ⟨trivial, hc.2.1, fun o ho => by cases ho; exact hc.2.2⟩ (by simp only [need64]; omega)
  simp only [gen64] at hP hb ⊢
  have hW2 : WF (emitOp (gen64 t y).2 op).2 := (acquire_ok (gen64_wf hW y) .int64).1
  have hg : Grows t (emitOp (gen64 t y).2 op).2 := (gen64_grows t y).trans (acquire_grows _ _)
  simp only [eval64, Out.bind] at hb ⊢
  cases ey : eval64 F.tgt σ y with
  | undef => trivial
  | err e =>
    rw [ey] at hb
    obtain ⟨s1, h1⟩ := hb
    exact ⟨s1, run_fail h1⟩
  | ok r =>
    obtain ⟨w, σ2⟩ := r
    rw [ey] at hb
    simp only [] at hb ⊢
    cases eo : op.eval (σ.w (x.obj F.tgt)) w with
    | undef => trivial
    | err e =>
      rw [eo] at hb
      obtain ⟨s1, h1⟩ := hb
      exact ⟨s1, run_fail h1⟩
    | ok r =>
      rw [eo] at hb
      obtain ⟨s1, p, h1, g1⟩ := hb
      have := g1.sp
      obtain ⟨s2, h2, g2⟩ := got_store (E := E) (m := m) (here := here) hM hF hW2 hP g1 hg hk.1 hc.1 (by omega)
      exact ⟨s2, p, by rw [run_two h1]; exact h2, g2⟩

mutual
theorem sound64 : ∀ e : E64, Sound64 F K b D E m here e
  | .num w => sound_num hM hF w
  | .var x => by
    intro t σ s hW hP hH hk _ _
    obtain ⟨s1, p, h1, g1⟩ := got_var (E := E) (m := m) (here := here) hM hF hW hP hH hk
    exact ⟨s1, p, h1, g1⟩
  | .inv e => by
    intro t σ s hW hP hH hk hc hr
    simp only [gen64] at hP ⊢
    exact sound_unary hM hF (sound64 e) (f := fun x => ~~~ x) (fun h1 h2 h3 h4 => visit_inv hM hF h1 h2 h3 h4) hW hP hH hk hc hr
  | .neg e => by
    intro t σ s hW hP hH hk hc hr
    simp only [gen64] at hP ⊢
    exact sound_unary hM hF (sound64 e) (f := fun x => BitVec.ofInt 64 (-x.toInt))
      (fun h1 h2 h3 h4 => by rw [visit_neg hM hF h1 h2 h3 h4, neg_agree]) hW hP hH hk hc hr
  | .bin op x y => sound_bin hM hF op (sound64 x) (sound64 y)
  | .set x e => by
    intro t σ s hW hP hH hk hc hr
    simp only [gen64] at hP ⊢
    have hi := sound64 e t σ s hW hP hH hk.2 hc.2 hr
    simp only [eval64, Out.bind]
    cases he : eval64 F.tgt σ e with
    | undef => trivial
    | err y =>
      rw [he] at hi
      obtain ⟨s1, h1⟩ := hi
      exact ⟨s1, run_fail h1⟩
    | ok r =>
      obtain ⟨w, σ1⟩ := r
      rw [he] at hi
      obtain ⟨s1, p, h1, g1⟩ := hi
      have := g1.sp
      obtain ⟨s2, h2, g2⟩ := got_store (E := E) (m := m) (here := here) hM hF (gen64_wf hW e) hP g1 (gen64_grows t e) hk.1 hc.1 (by omega)
      exact ⟨s2, p, by rw [run_two h1]; exact h2, g2⟩
  | .opset op x e => sound_opset hM hF op x (sound64 e)
  | .inc up true x => sound_pre hM hF up x
  | .inc up false x => sound_post hM hF up x
  | .ofInt e => by
    intro t σ s hW hP hH hk hc hr
    simp only [gen64] at hP ⊢
    have hg := acquire_grows (gen32 t e).2 .int64
    have hi := sound32 e t σ s hW (hP.of_grows hg) hH hk hc hr
    simp only [eval64, Out.bind]
    cases he : eval32 F.tgt σ e with
    | undef => trivial
    | err y =>
      rw [he] at hi
      obtain ⟨s1, h1⟩ := hi
      exact ⟨s1, run_fail h1⟩
    | ok r =>
      obtain ⟨w, σ1⟩ := r
      rw [he] at hi
      obtain ⟨s1, h1, g1⟩ := hi
      have hW1 := gen32_wf hW e
      have g2 := got_temp (o := none) (s := s1) hF hW1 hP g1.holds (BitVec.ofInt 64 w.toInt) s1.alt
      refine ⟨_, _, ?_, ⟨g2.holds, g2.sp.trans g1.sp, g2.pri, g2.val, g1.keep.trans g2.keep g1.sp (gen32_grows t e), g2.place⟩⟩
      rw [run_two h1, step (visit_cvt hM hF g1.holds (acquire_slot hW1 hP)), g1.pri, extend_agree]
      rfl
  | .comma x y => by
    intro t σ s hW hP hH hk hc hr
    simp only [gen64] at hP ⊢
    have hn : (need64 (.comma x y) : Int) = max (need64 x : Int) (need64 y : Int) := by simp only [need64]; omega
    have hi := sound64 x t σ s hW (hP.of_grows (gen64_grows _ y)) hH hk.1 hc.1 (by omega)
    simp only [eval64, Out.bind]
    cases he : eval64 F.tgt σ x with
    | undef => trivial
    | err y =>
      rw [he] at hi
      obtain ⟨s1, h1⟩ := hi
      exact ⟨s1, run_fail h1⟩
    | ok r =>
      obtain ⟨w, σ1⟩ := r
      rw [he] at hi
      obtain ⟨s1, p, h1, g1⟩ := hi
      have := g1.sp
      have hj := sound64 y (gen64 t x).2 σ1 s1 (gen64_wf hW x) hP g1.holds hk.2 hc.2 (by omega)
      simp only []
      cases hf : eval64 F.tgt σ1 y with
      | undef => trivial
      | err y =>
        rw [hf] at hj
        obtain ⟨s2, h2⟩ := hj
        exact ⟨s2, by rw [run_two h1]; exact h2⟩
      | ok r =>
        obtain ⟨w', σ2⟩ := r
        rw [hf] at hj
        obtain ⟨s2, q, h2, g2⟩ := hj
        exact ⟨s2, q, by rw [run_two h1]; exact h2, g1.trans g2 (gen64_grows t x)⟩
theorem sound32 : ∀ e : E32, Sound32 F K b D E m here e
  | .num v => by
    intro t σ s hW hP hH _ _ _
    simp only [gen32, eval32]
    by_cases h : v = 0
    · rw [if_pos h]
      exact ⟨{ s with pri := 0 }, rfl, hH, rfl, h.symm, Keep.refl'⟩
    · rw [if_neg h]
      exact ⟨{ s with pri := v }, rfl, hH, rfl, rfl, Keep.refl'⟩
  | .var n => by
    intro t σ s hW hP hH hk _ _
    simp only [gen32, eval32]
    obtain ⟨i, h1, h2⟩ := hH.int n hk
    refine ⟨{ s with pri := σ.c n }, ?_, hH, rfl, rfl, Keep.refl'⟩
    simp only [run, Slots.slot32, h1, Option.getD_some, visit_loadInt hM hF hH (hP.get (hW.k32 n i h1).1), IState.setReg, h2]
  | .set n e => by
    intro t σ s hW hP hH hk hc hr
    simp only [gen32] at hP ⊢
    have hi := sound32 e t σ s hW hP hH hk.2 hc hr
    simp only [eval32, Out.bind]
    cases he : eval32 F.tgt σ e with
    | undef => trivial
    | err y =>
      rw [he] at hi
      obtain ⟨s1, h1⟩ := hi
      exact ⟨s1, run_fail h1⟩
    | ok r =>
      obtain ⟨w, σ1⟩ := r
      rw [he] at hi
      obtain ⟨s1, h1, g1⟩ := hi
      have hW1 := gen32_wf hW e
      obtain ⟨i, e1, e2⟩ := g1.holds.int n hk.1
      refine ⟨{ s1 with vm := { s1.vm with mem := wr32 s1.vm.mem (slotAddr K b.frm i) w } }, ?_, g1.holds.putInt hF hW1 hP e1 w, g1.sp, g1.pri,
        g1.keep.trans (Keep.putInt hW1 hP e1 w) g1.sp (gen32_grows t e)⟩
      rw [run_two h1, ← g1.pri]
      simp only [run, Slots.slot32, e1, Option.getD_some, visit_storInt hM hF g1.holds (hP.get (hW1.k32 n i e1).1)]
  | .trunc e => by
    intro t σ s hW hP hH hk hc hr
    simp only [gen32] at hP ⊢
    have hi := sound64 e t σ s hW hP hH hk hc hr
    simp only [eval32, Out.bind]
    cases he : eval64 F.tgt σ e with
    | undef => trivial
    | err y =>
      rw [he] at hi
      obtain ⟨s1, h1⟩ := hi
      exact ⟨s1, run_fail h1⟩
    | ok r =>
      obtain ⟨w, σ1⟩ := r
      rw [he] at hi
      obtain ⟨s1, p, h1, g1⟩ := hi
      have hp := g1.place.wide hF (gen64_wf hW e) hP g1.holds
      refine ⟨{ s1 with pri := BitVec.ofInt 32 w.toInt }, ?_, g1.holds, g1.sp, rfl, g1.keep⟩
      rw [run_two h1, step (visit_trunc hF g1.holds hp g1.pri), g1.val, trunc_agree]
      rfl
  | .rel op x y => by
    intro t σ s hW hP hH hk hc hr
    simp only [gen32] at hP ⊢
    have hn : (need32 (.rel op x y) : Int) = max (need64 x : Int) ((need64 y : Int) + 1) := by simp only [need32]; omega
    have h2 := sound_two hF (sound64 x) (sound64 y) hW hP hH hk.1 hk.2 hc.1 hc.2.1 hc.2.2 (by omega) (by omega)
    simp only [eval32]
    cases ex : eval64 F.tgt σ x with
    | undef => trivial
    | err e =>
      rw [ex] at h2
      obtain ⟨s1, h1⟩ := h2
      exact ⟨s1, run_fail h1⟩
    | ok l =>
      obtain ⟨v, σ1⟩ := l
      rw [ex] at h2
      simp only [Out.bind] at h2 ⊢
      cases ey : eval64 F.tgt σ1 y with
      | undef => trivial
      | err e =>
        rw [ey] at h2
        obtain ⟨s1, h1⟩ := h2
        exact ⟨s1, run_fail h1⟩
      | ok r =>
        obtain ⟨w, σ2⟩ := r
        rw [ey] at h2
        obtain ⟨s1, p, q, h1, g1, ha, wp, wq, vp⟩ := h2
        have hag := rel_agree op v w
        simp only []
        cases hx : op.exchanged with
        | false =>
          rw [hx] at hag
          refine ⟨{ s1 with pri := if op.eval v w then 1 else 0 }, ?_, g1.holds, g1.sp, rfl, g1.keep⟩
          rw [run_two h1]
          simp only [emitRel, hx, Bool.false_eq_true, if_false, List.nil_append] at hag ⊢
          rw [step (visit_cmp hF g1.holds wq g1.pri wp ha op.insn), g1.val, vp, hag, boolCell_eq]
          rfl
        | true =>
          rw [hx] at hag
          refine ⟨{ s1 with pri := if op.eval v w then 1 else 0, alt := s1.pri }, ?_, g1.holds, g1.sp, rfl, g1.keep⟩
          rw [run_two h1]
          simp only [emitRel, hx, if_true, List.cons_append, List.nil_append] at hag ⊢
          rw [step visit_xchg, step (visit_cmp (s := { s1 with pri := s1.alt, alt := s1.pri }) hF g1.holds wp ha wq g1.pri op.insn)]
          simp only [g1.val, vp, hag, boolCell_eq]
          rfl
  | .not e => by
    intro t σ s hW hP hH hk hc hr
    simp only [gen32] at hP ⊢
    have hi := sound64 e t σ s hW hP hH hk hc hr
    simp only [eval32, Out.bind]
    cases he : eval64 F.tgt σ e with
    | undef => trivial
    | err y =>
      rw [he] at hi
      obtain ⟨s1, h1⟩ := hi
      exact ⟨s1, run_fail h1⟩
    | ok r =>
      obtain ⟨w, σ1⟩ := r
      rw [he] at hi
      obtain ⟨s1, p, h1, g1⟩ := hi
      have hp := g1.place.wide hF (gen64_wf hW e) hP g1.holds
      refine ⟨{ s1 with pri := if w.toInt = 0 then 1 else 0 }, ?_, g1.holds, g1.sp, rfl, g1.keep⟩
      rw [run_two h1, step (visit_test hF g1.holds hp g1.pri), g1.val]
      by_cases hz : w = 0
      · subst hz
        rfl
      · have h0 : ¬ w.toInt = 0 := fun hc => hz ((zero_iff w).mp hc)
        have hb : (w != 0) = true := by simpa using hz
        rw [if_neg h0, hb]
        rfl
  | .truth e => by
    intro t σ s hW hP hH hk hc hr
    simp only [gen32] at hP ⊢
    have hi := sound64 e t σ s hW hP hH hk hc hr
    simp only [eval32, Out.bind]
    cases he : eval64 F.tgt σ e with
    | undef => trivial
    | err y =>
      rw [he] at hi
      obtain ⟨s1, h1⟩ := hi
      exact ⟨s1, run_fail h1⟩
    | ok r =>
      obtain ⟨w, σ1⟩ := r
      rw [he] at hi
      obtain ⟨s1, p, h1, g1⟩ := hi
      have hp := g1.place.wide hF (gen64_wf hW e) hP g1.holds
      refine ⟨{ s1 with pri := if w.toInt = 0 then 0 else 1 }, ?_, g1.holds, g1.sp, rfl, g1.keep⟩
      rw [run_two h1, step (visit_test hF g1.holds hp g1.pri), g1.val]
      by_cases hz : w = 0
      · subst hz
        rfl
      · have h0 : ¬ w.toInt = 0 := fun hc => hz ((zero_iff w).mp hc)
        have hb : (w != 0) = true := by simpa using hz
        rw [if_neg h0, hb]
        rfl
end

end

end Verif.Long

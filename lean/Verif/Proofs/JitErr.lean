import Verif.Proofs.JitArith

/-! Errors of compiled code. -/
namespace Verif.VM

theorem im_bind_fail {α β : Type} {x : IM α} {f : α → IM β} {s s' : IState} {e : Err} (h : (x >>= f) s = .fail s' e) :
    x s = .fail s' e ∨ ∃ s1 a, x s = .ok s1 a ∧ f a s1 = .fail s' e := by
  change IM.bind x f s = _ at h
  unfold IM.bind at h
  split at h
  · exact .inr ⟨_, _, ‹_›, h⟩
  · cases h; exact .inl ‹_›
  · cases h

theorem done_fail {x : IM Unit} {s s' : IState} {e : Err} (h : (x >>= fun _ => pure Ctl.next) s = .fail s' e) :
    x s = .fail s' e := by
  rcases im_bind_fail h with h | ⟨s1, a, h1, h2⟩
  · exact h
  · cases h2

theorem vmOp_fail {α : Type} {x : VMM α} {s s' : IState} {e : Err} (h : vmOp x s = .fail s' e) :
    ∃ v, x s.vm = .fail v e ∧ s' = { s with vm := v } := by
  unfold vmOp at h
  split at h
  · cases h
  · cases h; exact ⟨_, ‹_›, rfl⟩
  · cases h

theorem throw_fails {a : Int} {s s' : State} {e : Err} (h : throwIfBadAddress a s = .fail s' e) :
    s' = s ∧ e = .invalidAddress ∧ ¬ GoodAddr s a := by
  unfold throwIfBadAddress at h
  split at h
  · rename_i hc
    cases h
    exact ⟨rfl, rfl, by unfold GoodAddr; omega⟩
  · cases h

theorem vmm_bind_fail {α β : Type} {x : VMM α} {f : α → VMM β} {s s' : State} {e : Err} (h : (x >>= f) s = .fail s' e) :
    x s = .fail s' e ∨ ∃ s1 a, x s = .ok s1 a ∧ f a s1 = .fail s' e := by
  change VMM.bind x f s = _ at h
  unfold VMM.bind at h
  split at h
  · exact .inr ⟨_, _, ‹_›, h⟩
  · cases h; exact .inl ‹_›
  · cases h

theorem getCell_fail {a : Int} {s s' : State} {e : Err} (h : getCellValue a s = .fail s' e) :
    s' = s ∧ e = .invalidAddress ∧ ¬ GoodAddr s a := by
  rcases vmm_bind_fail h with h | ⟨s1, b, _, h2⟩
  · exact throw_fails h
  · unfold loadRaw at h2; split at h2 <;> cases h2
theorem setCell_fail {a : Int} {v : Cell} {s s' : State} {e : Err} (h : setCellValue a v s = .fail s' e) :
    s' = s ∧ e = .invalidAddress ∧ ¬ GoodAddr s a := by
  rcases vmm_bind_fail h with h | ⟨s1, b, _, h2⟩
  · exact throw_fails h
  · unfold storeRaw at h2; split at h2 <;> cases h2

theorem divCheck_some {n : Nat} {a d : BitVec n} {e : Err} (h : divCheck a d = some e) :
    (d = 0 ∧ e = .divideByZero) ∨ (d ≠ 0 ∧ d = -1#n ∧ a = BitVec.intMin n ∧ e = .integerOverflow) := by
  unfold divCheck at h
  split at h
  · cases h; exact .inl ⟨‹_›, rfl⟩
  · split at h
    · rename_i h0 h1
      cases h; exact .inr ⟨h0, h1.1, h1.2, rfl⟩
    · cases h

end Verif.VM

namespace Verif.Jit
open Verif.X64 Verif.VM

/-- The fragment ends in the error `e`, with memory and context as they were. -/
def Fails (H : Host) (is : List Item) (m : Mach) (e : Err) : Prop :=
  ∃ je m', run H none is m = .error je m' ∧ je.code = e ∧ m'.mem = m.mem ∧ m'.field = m.field ∧ m'.outer = m.outer

/-- The same of an outcome. -/
def Out.Stops (m : Mach) (e : Err) : Out → Prop
  | .error je m' => je.code = e ∧ m'.mem = m.mem ∧ m'.field = m.field ∧ m'.outer = m.outer
  | _ => False
theorem stops_error (m m' : Mach) (e : Err) (je : JErr) :
    Out.Stops m e (.error je m') = (je.code = e ∧ m'.mem = m.mem ∧ m'.field = m.field ∧ m'.outer = m.outer) := by nonrfl
theorem Fails.of {H : Host} {is : List Item} {m : Mach} {e : Err} (h : (run H none is m).Stops m e) : Fails H is m e := by
  cases hr : run H none is m with
  | error je m' => rw [hr] at h; exact ⟨je, m', hr, h⟩
  | done _ => rw [hr] at h; cases h
  | fault => rw [hr] at h; cases h

section
variable {H : Host} {J : JitEnv} {E : Env} {method : Nat} {here : Int} {s s' : IState} {e : Err} {m : Mach} {kp ka : Bool}

/-- An address the interpreter refuses does not pass the check, unless it is that of the last cell. -/
theorem check_bad (S : Setup H J E method s) (h : Sim H kp ka m s) {r : Gpr} (hr4 : r ≠ 4) {p : Cell}
    (hr : m.reg r = p.setWidth 64) (g : ¬ GoodAddr s.vm p.toInt) (ht : p.toInt ≠ s.vm.memSize - 4) (l : Nat) (rest : List Item) :
    Fails H (emitCheckAddress J r 4 l ++ rest) m .invalidAddress := by
  obtain ⟨l1, l2, l3, l4, l5, l6⟩ := S.layout
  have hz := S.size
  have hm := bv_toNat (x := s.vm.memSize - 4 + 1) (by omega) (by omega)
  have e1 : m.lo r = p := by
    show (m.reg r).setWidth 32 = p
    rw [hr]; exact lo_zext p
  unfold emitCheckAddress
  by_cases c1 : p.toNat < (bv (J.memSize - 4 + 1)).toNat
  · have c1' : decide (p.toNat < (bv (J.memSize - 4 + 1)).toNat) = true := by simp only [decide_eq_true_eq]; exact c1
    rw [S.jsize] at c1
    have hp : (p.toNat : Int) = p.toInt := by
      rw [BitVec.toInt_eq_toNat_cond]
      have := p.isLt
      split <;> omega
    have ehp : ((BitVec.ofInt 32 s.vm.hp).toNat : Int) = s.vm.hp := bv_toNat (by omega) (by omega)
    have g1 : s.vm.hp ≤ p.toInt ∧ p.toInt < s.vm.sp := by
      unfold GoodAddr at g
      omega
    have ea1 : ea { m with flags := some (cmpFlags p (bv (J.memSize - 4 + 1))) } (J.field .hp).meaning = H.addr .hp := by
      rw [ea_field _ S.joff]
      show m.reg 12 + _ = _
      rw [h.ctx]; rfl
    have c2 : decide (p.toNat < (BitVec.ofInt 32 s.vm.hp).toNat) = false := by
      simp only [decide_eq_false_iff_not]; omega
    have c3 : decide ((Host.at H p.toInt).toNat < (Host.at H s.vm.sp).toNat) = true := by
      have a1 := at_toNat S.host (a := p.toInt) (by omega) (by omega)
      have a2 := at_toNat S.host (a := s.vm.sp) (by omega) (by omega)
      simp only [decide_eq_true_eq]; omega
    refine ⟨.memAccess, { m with
      reg := fun x => if x = 1 then Host.at H p.toInt else m.reg x
      flags := some (cmpFlags (Host.at H p.toInt) (Host.at H s.vm.sp)) }, ?_, rfl, rfl, rfl, rfl⟩
    jrun [st_aluI32 H _ _ (.reg _) _ trivial, alu32, get32, hr, lo_zext, cond_ae, c1', st_cmplRM H _ _ (J.field .hp) trivial,
      ea1, load32_field S.host, h.hpF, cond_below, c2, c3, Bool.not_true, Bool.false_eq_true, st_lea H _ _ (atDat r) (at_legal r hr4),
      ea_at, h.dat, dat_at (show 0 ≤ p.toInt by omega), st_alu64 H _ _ (.reg _) _ trivial, alu64, get64, h.stk]
  · have c1' : decide (p.toNat < (bv (J.memSize - 4 + 1)).toNat) = false := by simp only [decide_eq_false_iff_not]; exact c1
    refine ⟨.memAccess, { m with flags := some (cmpFlags p (bv (J.memSize - 4 + 1))) }, ?_, rfl, rfl, rfl, rfl⟩
    jrun [st_aluI32 H _ _ (.reg _) _ trivial, alu32, get32, hr, lo_zext, cond_ae, c1', Bool.not_false]

/-- The division code reports what the interpreter reports. -/
theorem sdiv_bad {p a : Cell} (hp : m.reg 0 = p.setWidth 64) (ha : m.reg 2 = a.setWidth 64) (dest : Reg)
    (hd : divCheck (match dest with | .pri => p | .alt => a) (match dest with | .pri => a | .alt => p) = some e) (rest : List Item) :
    Fails H (emitSdiv dest ++ rest) m e := by
  cases dest
  · simp only at hd
    rcases divCheck_some hd with ⟨h0, rfl⟩ | ⟨h0, h1, h2, rfl⟩
    · refine Fails.of ?_
      unfold emitSdiv
      jrun [st_test32, hp, ha, lo_zext, cond_test0, h0, BEq.rfl, stops_error]
      exact ⟨rfl, trivial, trivial, rfl⟩
    · refine Fails.of ?_
      unfold emitSdiv
      jrun [st_test32, hp, ha, lo_zext, cond_test0, cond_eq, cond_neq, beq_no h0, Bool.false_eq_true,
          st_aluI32 H _ _ (.reg _) _ trivial, alu32, get32, bvm1, h1, m1ne, BEq.rfl, Bool.not_true, min32, h2, stops_error]
      exact ⟨rfl, trivial, trivial, rfl⟩
  · simp only at hd
    rcases divCheck_some hd with ⟨h0, rfl⟩ | ⟨h0, h1, h2, rfl⟩
    · refine Fails.of ?_
      unfold emitSdiv
      jrun [st_test32, hp, ha, lo_zext, cond_test0, h0, BEq.rfl, stops_error]
      exact ⟨rfl, trivial, trivial, rfl⟩
    · refine Fails.of ?_
      unfold emitSdiv
      jrun [st_test32, hp, ha, lo_zext, cond_test0, cond_eq, cond_neq, beq_no h0, Bool.false_eq_true,
          st_aluI32 H _ _ (.reg _) _ trivial, alu32, get32, bvm1, h1, m1ne, BEq.rfl, Bool.not_true, min32, h2, stops_error]
      exact ⟨rfl, trivial, trivial, rfl⟩

theorem err_all {i : Insn} {is : List Item} (S : Setup H J E method s)
    (h : Sim H kp ka m s) (hp : needsPri i = true → kp = true) (ha : needsAlt i = true → ka = true)
    (side : ErrSide s i) (hj : jit J i = .code is) (hv : visit E method here i s = .fail s' e) :
    Fails H is m e ∧ s'.vm = s.vm := by
  cases i with
  | loadI =>
    cases hp rfl; cases hj
    rcases im_bind_fail (done_fail hv) with h1 | ⟨s1, p, h1, h2⟩
    · cases h1
    cases h1
    rcases im_bind_fail h2 with h2 | ⟨s1, v, h2, h3⟩
    · obtain ⟨v, h3, rfl⟩ := vmOp_fail h2
      obtain ⟨rfl, rfl, g⟩ := getCell_fail h3
      exact ⟨check_bad S h (by decide) (h.pri rfl) g side _ _, rfl⟩
    · cases h3
  | lodbI w =>
    cases hp rfl; cases hj
    rcases im_bind_fail (done_fail hv) with h1 | ⟨s1, p, h1, h2⟩
    · cases h1
    cases h1
    rcases im_bind_fail h2 with h2 | ⟨s1, v, h2, h3⟩
    · obtain ⟨v, h3, rfl⟩ := vmOp_fail h2
      obtain ⟨rfl, rfl, g⟩ := getCell_fail h3
      rw [List.append_assoc]
      exact ⟨check_bad S h (by decide) (h.pri rfl) g side _ _, rfl⟩
    · repeat' split at h3
      all_goals cases h3
  | storI =>
    cases hp rfl; cases ha rfl; cases hj
    rcases im_bind_fail (done_fail hv) with h1 | ⟨s1, p, h1, h2⟩
    · cases h1
    cases h1
    rcases im_bind_fail h2 with h2 | ⟨s1, v, h2, h3⟩
    · cases h2
    · cases h2
      obtain ⟨v, h4, rfl⟩ := vmOp_fail h3
      obtain ⟨rfl, rfl, g⟩ := setCell_fail h4
      exact ⟨check_bad S h (by decide) (h.alt rfl) g side _ _, rfl⟩
  | strbI w =>
    cases hp rfl; cases ha rfl; cases hj
    rcases im_bind_fail (done_fail hv) with h1 | ⟨s1, p, h1, h2⟩
    · cases h1
    cases h1
    rcases im_bind_fail h2 with h2 | ⟨s1, v, h2, h3⟩
    · cases h2
    cases h2
    rcases im_bind_fail h3 with h3 | ⟨s1, v, h3, h4⟩
    · obtain ⟨v, h4, rfl⟩ := vmOp_fail h3
      obtain ⟨rfl, rfl, g⟩ := throw_fails h4
      exact ⟨check_bad S h (by decide) (h.alt rfl) g side _ _, rfl⟩
    · have raw8 : ∀ (a : Int) (v : BitVec 8) (t : IState), vmOp (storeRaw8 a v) t ≠ .fail s' e := by
        intro a v t hh
        obtain ⟨_, hh, _⟩ := vmOp_fail hh
        unfold storeRaw8 at hh; split at hh <;> cases hh
      split at h4
      · exact absurd h4 (raw8 _ _ _)
      split at h4
      · rcases im_bind_fail h4 with h5 | ⟨_, _, _, h5⟩
        · exact absurd h5 (raw8 _ _ _)
        · exact absurd h5 (raw8 _ _ _)
      split at h4
      · obtain ⟨_, hh, _⟩ := vmOp_fail h4
        unfold storeRaw at hh; split at hh <;> cases hh
      · cases h4
  | bounds n =>
    cases hp rfl; cases hj
    obtain ⟨n0, n1⟩ := side
    change (if s.pri.toInt < 0 ∨ s.pri.toInt > n % 4294967296 then Res.fail s Err.arrayBounds else Res.ok s Ctl.next) = _ at hv
    split at hv
    · rename_i hb
      cases hv
      have e1 := bv_toNat n0 (by omega)
      have c1 : decide ((bv n).toNat < s.pri.toNat) = true := by
        simp only [decide_eq_true_eq]
        rw [BitVec.toInt_eq_toNat_cond] at hb
        have := s.pri.isLt
        split at hb <;> omega
      refine ⟨Fails.of ?_, rfl⟩
      jrun [st_aluI32 H _ _ (.reg _) _ trivial, alu32, get32, h.pri rfl, lo_zext, cond_above, c1, stops_error]
      exact ⟨rfl, trivial, trivial, rfl⟩
    · cases hv
  | sdiv r =>
    cases hp rfl; cases ha rfl; cases hj
    have h1 := done_fail hv
    rw [← List.append_nil (emitSdiv r)]
    cases r
    · change (match divCheck s.pri s.alt with | some e => throwE e | none => _) s = _ at h1
      cases hd : divCheck s.pri s.alt with
      | some e => rw [hd] at h1; cases h1; exact ⟨sdiv_bad (h.pri rfl) (h.alt rfl) .pri hd [], rfl⟩
      | none => rw [hd] at h1; cases h1
    · change (match divCheck s.alt s.pri with | some e => throwE e | none => _) s = _ at h1
      cases hd : divCheck s.alt s.pri with
      | some e => rw [hd] at h1; cases h1; exact ⟨sdiv_bad (h.pri rfl) (h.alt rfl) .alt hd [], rfl⟩
      | none => rw [hd] at h1; cases h1
  | sdivAltI32 =>
    cases hp rfl; cases ha rfl; cases hj
    have h1 := done_fail hv
    rw [← List.append_nil (emitSdiv .alt)]
    change (match divCheck s.alt s.pri with | some e => throwE e | none => _) s = _ at h1
    cases hd : divCheck s.alt s.pri with
    | some e => rw [hd] at h1; cases h1; exact ⟨sdiv_bad (h.pri rfl) (h.alt rfl) .alt hd [], rfl⟩
    | none => rw [hd] at h1; cases h1
  | smodAltI32 =>
    cases hp rfl; cases ha rfl; cases hj
    have h1 := done_fail hv
    change (match divCheck s.alt s.pri with | some e => throwE e | none => _) s = _ at h1
    cases hd : divCheck s.alt s.pri with
    | some e => rw [hd] at h1; cases h1; exact ⟨sdiv_bad (h.pri rfl) (h.alt rfl) .alt hd _, rfl⟩
    | none => rw [hd] at h1; cases h1
  | _ => exact side.elim
end

end Verif.Jit

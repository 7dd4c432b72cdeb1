import Verif.Proofs.JitAddr

/-! Division and float arithmetic. -/
namespace Verif.Jit
open Verif.X64 Verif.VM

theorem sext32 (x : BitVec 32) : (x.sshiftRight 31 ++ x).toInt = x.toInt := by
  rw [BitVec.toInt_append]
  rw [BitVec.toInt_sshiftRight, BitVec.toInt_eq_toNat_cond]
  have := x.isLt
  simp only [Int.shiftRight_eq_div_pow]
  split <;> simp <;> omega
theorem sext64 (x : BitVec 64) : (x.sshiftRight 63 ++ x).toInt = x.toInt := by
  rw [BitVec.toInt_append]
  rw [BitVec.toInt_sshiftRight, BitVec.toInt_eq_toNat_cond]
  have := x.isLt
  simp only [Int.shiftRight_eq_div_pow]
  split <;> simp <;> omega

theorem divCheck_none {n : Nat} {a d : BitVec n} (h : divCheck a d = none) : d ≠ 0 ∧ (a ≠ BitVec.intMin n ∨ d ≠ -1#n) := by
  unfold divCheck at h
  split at h
  · cases h
  · split at h
    · cases h
    · rename_i h1 h2
      refine ⟨h1, ?_⟩
      by_cases e : d = -1#n
      · exact .inl fun e2 => h2 ⟨e, e2⟩
      · exact .inr e

theorem idiv32 {a d : BitVec 32} (h : divCheck a d = none) :
    idivFn (a.sshiftRight 31) a d = some (a.sdiv d, a.srem d) := by
  obtain ⟨h1, h2⟩ := divCheck_none h
  unfold idivFn
  simp only
  rw [sext32]
  have hq := BitVec.toInt_sdiv_of_ne_or_ne a d h2
  have hr := toInt_range (a.sdiv d)
  rw [if_neg (by rw [← hq]; simp only [h1, false_or]; omega), ← hq, ← BitVec.toInt_srem, BitVec.ofInt_toInt, BitVec.ofInt_toInt]
theorem idiv64 {a d : BitVec 64} (h : divCheck a d = none) :
    idivFn (a.sshiftRight 63) a d = some (a.sdiv d, a.srem d) := by
  obtain ⟨h1, h2⟩ := divCheck_none h
  unfold idivFn
  simp only
  rw [sext64]
  have hq := BitVec.toInt_sdiv_of_ne_or_ne a d h2
  have hr := toInt64_range (a.sdiv d)
  rw [if_neg (by rw [← hq]; simp only [h1, false_or]; omega), ← hq, ← BitVec.toInt_srem, BitVec.ofInt_toInt, BitVec.ofInt_toInt]

theorem bvm1 : bv (-1) = -1#32 := by decide
theorem min32 : (0x80000000 : BitVec 32) = BitVec.intMin 32 := by decide
theorem m1ne : ((-1#32 : BitVec 32) == 0) = false := by decide
theorem beq_no {n : Nat} {a b : BitVec n} (h : a ≠ b) : (a == b) = false := by simp [h]
theorem shr31 (a : BitVec 32) : shiftFn .sar a ((31 : Byte).toNat) = a.sshiftRight 31 := rfl
theorem shr63 (a : BitVec 64) : shiftFn .sar a ((63 : Byte).toNat) = a.sshiftRight 63 := rfl

section
variable {H : Host} {J : JitEnv} {E : Env} {method : Nat} {here : Int} {s s' : IState} {c : Ctl} {m : Mach} {kp ka : Bool}

/-- The division code leaves quotient and remainder in rax and rdx. -/
theorem run_sdiv {p a : Cell} (hp : m.reg 0 = p.setWidth 64) (ha : m.reg 2 = a.setWidth 64) (dest : Reg)
    (hd : divCheck (match dest with | .pri => p | .alt => a) (match dest with | .pri => a | .alt => p) = none) (rest : List Item) :
    ∃ m1, run H none (emitSdiv dest ++ rest) m = run H none rest m1 ∧
      m1.reg 0 = ((match dest with | .pri => p.sdiv a | .alt => a.sdiv p).setWidth 64) ∧
      m1.reg 2 = ((match dest with | .pri => p.srem a | .alt => a.srem p).setWidth 64) ∧
      (∀ r, r ≠ 0 → r ≠ 1 → r ≠ 2 → m1.reg r = m.reg r) ∧ m1.mem = m.mem ∧ m1.field = m.field ∧ m1.df = m.df ∧
      m1.outer = m.outer := by
  obtain ⟨h1, h2⟩ := divCheck_none hd
  cases dest
  · simp only at hd h1 h2 ⊢
    refine ⟨{ m with reg := fun x => if x = 2 then (p.srem a).setWidth 64 else if x = 0 then (p.sdiv a).setWidth 64
                else if x = 1 then a.setWidth 64 else m.reg x, flags := none }, ?_, rfl, rfl,
      fun r h0 h1 h2 => by show (if r = 2 then _ else if r = 0 then _ else if r = 1 then _ else _) = _; rw [if_neg h2, if_neg h0, if_neg h1],
      rfl, rfl, rfl, rfl⟩
    unfold emitSdiv
    by_cases e : a = -1#32
    · have h3 : p ≠ BitVec.intMin 32 := h2.resolve_right (fun k => k e)
      jrun [st_test32, hp, ha, lo_zext, cond_test0, cond_eq, cond_neq, beq_no h1, Bool.false_eq_true, st_aluI32 H _ _ (.reg _) _ trivial, alu32, get32, bvm1, e, m1ne,
        BEq.rfl, Bool.not_true, min32, beq_no h3, st_movlRR, st_shiftI32, shr31, st_idiv32, idiv32 (e ▸ hd)]
      congr 1
      simp only [Mach.mk.injEq, and_true]
      funext x
      grind
    · jrun [st_test32, hp, ha, lo_zext, cond_test0, cond_eq, cond_neq, beq_no h1, Bool.false_eq_true, st_aluI32 H _ _ (.reg _) _ trivial, alu32, get32, bvm1, beq_no e,
        Bool.not_false, st_movlRR, st_shiftI32, shr31, st_idiv32, idiv32 hd]
      congr 1
      simp only [Mach.mk.injEq, and_true]
      funext x
      grind
  · simp only at hd h1 h2 ⊢
    refine ⟨{ m with reg := fun x => if x = 2 then (a.srem p).setWidth 64 else if x = 0 then (a.sdiv p).setWidth 64
                else if x = 1 then p.setWidth 64 else m.reg x, flags := none }, ?_, rfl, rfl,
      fun r h0 h1 h2 => by show (if r = 2 then _ else if r = 0 then _ else if r = 1 then _ else _) = _; rw [if_neg h2, if_neg h0, if_neg h1],
      rfl, rfl, rfl, rfl⟩
    unfold emitSdiv
    by_cases e : p = -1#32
    · have h3 : a ≠ BitVec.intMin 32 := h2.resolve_right (fun k => k e)
      jrun [st_test32, hp, ha, lo_zext, cond_test0, cond_eq, cond_neq, beq_no h1, Bool.false_eq_true, st_aluI32 H _ _ (.reg _) _ trivial, alu32, get32, bvm1, e, m1ne,
        BEq.rfl, Bool.not_true, min32, beq_no h3, st_movlRR, st_shiftI32, shr31, st_idiv32, idiv32 (e ▸ hd)]
      congr 1
      simp only [Mach.mk.injEq, and_true]
      funext x
      grind
    · jrun [st_test32, hp, ha, lo_zext, cond_test0, cond_eq, cond_neq, beq_no h1, Bool.false_eq_true, st_aluI32 H _ _ (.reg _) _ trivial, alu32, get32, bvm1, beq_no e,
        Bool.not_false, st_movlRR, st_shiftI32, shr31, st_idiv32, idiv32 hd]
      congr 1
      simp only [Mach.mk.injEq, and_true]
      funext x
      grind

theorem sim_sdiv (h : Sim H true true m s) {r : Reg} (hv : visit E method here (.sdiv r) s = .ok s' c) :
    Runs H (emitSdiv r) m true true s' := by
  have h1 := done_inv hv
  cases r
  · change (match divCheck s.pri s.alt with | some e => throwE e | none => _) s = _ at h1
    cases hd : divCheck s.pri s.alt with
    | some e => rw [hd] at h1; cases h1
    | none =>
    rw [hd] at h1; cases h1
    obtain ⟨m1, e, e0, e2, er, em, ef, ed, es⟩ := run_sdiv (H := H) (h.pri rfl) (h.alt rfl) .pri hd []
    unfold Runs
    rw [List.append_nil] at e
    rw [e]
    jrun []
    exact mkRegs h (fun _ => e0) (fun _ => e2) (er 3 (by decide) (by decide) (by decide)) (er 12 (by decide) (by decide) (by decide))
      (er 14 (by decide) (by decide) (by decide)) (er 15 (by decide) (by decide) (by decide)) ed em ef es
  · change (match divCheck s.alt s.pri with | some e => throwE e | none => _) s = _ at h1
    cases hd : divCheck s.alt s.pri with
    | some e => rw [hd] at h1; cases h1
    | none =>
    rw [hd] at h1; cases h1
    obtain ⟨m1, e, e0, e2, er, em, ef, ed, es⟩ := run_sdiv (H := H) (h.pri rfl) (h.alt rfl) .alt hd []
    unfold Runs
    rw [List.append_nil] at e
    rw [e]
    jrun []
    exact mkRegs h (fun _ => e0) (fun _ => e2) (er 3 (by decide) (by decide) (by decide)) (er 12 (by decide) (by decide) (by decide))
      (er 14 (by decide) (by decide) (by decide)) (er 15 (by decide) (by decide) (by decide)) ed em ef es

theorem sim_sdivAlt (h : Sim H true true m s) (hv : visit E method here .sdivAltI32 s = .ok s' c) :
    Runs H (emitSdiv .alt) m true false s' := by
  have h1 := done_inv hv
  change (match divCheck s.alt s.pri with | some e => throwE e | none => _) s = _ at h1
  cases hd : divCheck s.alt s.pri with
  | some e => rw [hd] at h1; cases h1
  | none =>
  rw [hd] at h1; cases h1
  obtain ⟨m1, e, e0, e2, er, em, ef, ed, es⟩ := run_sdiv (H := H) (h.pri rfl) (h.alt rfl) .alt hd []
  unfold Runs
  rw [List.append_nil] at e
  rw [e]
  jrun []
  exact mkRegs h (fun _ => e0) (fun k => by cases k) (er 3 (by decide) (by decide) (by decide)) (er 12 (by decide) (by decide) (by decide))
      (er 14 (by decide) (by decide) (by decide)) (er 15 (by decide) (by decide) (by decide)) ed em ef es

theorem sim_smodAlt (h : Sim H true true m s) (hv : visit E method here .smodAltI32 s = .ok s' c) :
    Runs H (emitSdiv .alt ++ [.op (.movl (.reg 0) 2)]) m true false s' := by
  have h1 := done_inv hv
  change (match divCheck s.alt s.pri with | some e => throwE e | none => _) s = _ at h1
  cases hd : divCheck s.alt s.pri with
  | some e => rw [hd] at h1; cases h1
  | none =>
  rw [hd] at h1; cases h1
  obtain ⟨m1, e, e0, e2, er, em, ef, ed, es⟩ := run_sdiv (H := H) (h.pri rfl) (h.alt rfl) .alt hd [.op (.movl (.reg 0) 2)]
  unfold Runs
  rw [e]
  jrun [st_movlRR, e2, lo_zext]
  exact mkRegs h (fun _ => rfl) (fun k => by cases k) (er 3 (by decide) (by decide) (by decide)) (er 12 (by decide) (by decide) (by decide))
      (er 14 (by decide) (by decide) (by decide)) (er 15 (by decide) (by decide) (by decide)) ed em ef es

end

end Verif.Jit

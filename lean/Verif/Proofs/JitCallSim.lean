import Verif.Spec.JitCall
import Verif.Proofs.JitHeap
import Verif.Proofs.JitKeep
import Verif.Proofs.JitPush

/-! The fragments that make and leave a frame of the plugin's stack. -/
namespace Verif.Jit
open Verif.VM hiding Op
open Verif.X64 hiding Pre decode

section
variable {H : Host} {J : JitEnv} {E : Env} {method : Nat} {s s' : IState} {m : Mach} {kp ka : Bool}

/-- The frame without the local variables. -/
def framed (s : IState) : IState := entered 0 s

theorem run_frame (ok : HostOk H) (joff : J.off = H.off) (h : Sim H kp ka m s) (h0 : 8 ≤ s.vm.sp) (h1 : s.vm.sp ≤ H.memSize) (rest : List Item) :
    ∃ m1, run H none (frameItems J ++ rest) m = run H none rest m1 ∧ Sim H false false m1 (framed s) ∧ m1.outer = m.outer := by
  have haddr : ∀ f, H.ctx + (H.off f).signExtend 64 = H.addr f := fun _ => rfl
  have e8 : Host.at H s.vm.sp - BitVec.signExtend 64 (8 : BitVec 32) = Host.at H (s.vm.sp - 8) := by
    rw [show BitVec.signExtend 64 (8 : BitVec 32) = BitVec.ofInt 64 8 from by decide, at_sub]
  have e4 : Host.at H (s.vm.sp - 8) + BitVec.ofInt 64 (4 : BitVec 32).toInt = Host.at H (s.vm.sp - 4) := by
    rw [at_add]; congr 1; show s.vm.sp - 8 + 4 = _; omega
  have e0 : Host.at H (s.vm.sp - 8) + BitVec.ofInt 64 (0 : BitVec 32).toInt = Host.at H (s.vm.sp - 8) := by
    rw [at_add]; congr 1; show s.vm.sp - 8 + 0 = _; omega
  have ed : Host.at H (s.vm.sp - 8) - H.base = BitVec.ofInt 64 (s.vm.sp - 8) := by
    unfold Host.at
    rw [BitVec.add_comm, BitVec.add_sub_cancel]
  refine ⟨{ m with
    reg := fun x => if x = 14 then Host.at H (s.vm.sp - 8) else if x = 3 then Host.at H (s.vm.sp - 8) else
      if x = 1 then BitVec.ofInt 64 (s.vm.sp - 8) else m.reg x
    flags := none
    mem := wr32 (wr32 m.mem (s.vm.sp - 4) (BitVec.ofInt 32 s.vm.frm)) (s.vm.sp - 8) (BitVec.ofInt 32 s.vm.hp)
    field := fun g => if g = .frm then BitVec.ofInt 32 (s.vm.sp - 8) else m.field g }, ?_, ?_, rfl⟩
  · unfold frameItems
    jrun [st_subStk, st_movlRM H _ _ (J.field .frm) trivial, st_movlRM H _ _ (J.field .hp) trivial, ea_field _ joff, h.ctx, haddr,
      load32_field ok, h.frmF, h.hpF, h.stk, e8, st_movlMR H _ (.bd 14 4) _ trivial, st_movlMR H _ (.bd 14 0) _ trivial,
      st_movlMR H _ (J.field .frm) _ trivial, ea_bd, e4, e0,
      store32_at ok (show 0 ≤ s.vm.sp - 4 by omega) (show s.vm.sp - 4 + 4 ≤ H.memSize by omega),
      store32_at ok (show 0 ≤ s.vm.sp - 8 by omega) (show s.vm.sp - 8 + 4 ≤ H.memSize by omega), lo_zext,
      st_movqRR H _ 1 14 (by decide), st_movqRR H _ 3 14 (by decide), st_alu64 H _ _ (.reg _) _ trivial, alu64, get64, put64, aluFn, h.dat, ed,
      store32_field ok]
    congr 1
    simp only [Mach.mk.injEq, and_true, true_and]
    refine ⟨?_, ?_⟩
    · funext x; grind
    · funext g
      split
      · apply BitVec.eq_of_toNat_eq
        simp only [BitVec.toNat_setWidth, BitVec.toNat_ofInt]
        omega
      · rfl
  · exact ⟨nofun, nofun, rfl, h.ctx, by show _ = Host.at H (s.vm.sp - 8 + 0); rw [Int.add_zero]; rfl, h.dat, h.df,
      by show wr32 (wr32 m.mem _ _) _ _ = wr32 (wr32 s.vm.mem _ _) _ _; rw [h.mem], h.hpF, rfl, h.scopeF⟩

theorem run_check (ok : HostOk H) (joff : J.off = H.off) (hs : s.vm.sp ≤ H.memSize) (hh : 0 ≤ s.vm.hp) (hh1 : s.vm.hp < 2147483648) {max : Int} (x0 : 0 ≤ max)
    (x1 : max < 2147483648) (h : Sim H false false m (framed s)) (he : EnoughStack max s) (rest : List Item) :
    ∃ m1, run H none (checkItems J max ++ rest) m = run H none rest m1 ∧ Sim H false false m1 (framed s) ∧ m1.outer = m.outer := by
  unfold checkItems
  split
  · exact ⟨m, rfl, h, rfl⟩
  · rename_i hm
    replace he := he.resolve_left hm
    have haddr : ∀ f, H.ctx + (H.off f).signExtend 64 = H.addr f := fun _ => rfl
    have hroom := ok.room
    have hfh : m.field .hp = BitVec.ofInt 32 s.vm.hp := h.hpF
    have hst : m.reg 14 = Host.at H (s.vm.sp - 8) := by rw [h.stk]; show Host.at H (s.vm.sp - 8 + 0) = _; rw [Int.add_zero]
    have e1 : H.base + (BitVec.ofInt 32 s.vm.hp).setWidth 64 + BitVec.ofInt 64 (64 : BitVec 32).toInt = Host.at H (s.vm.hp + 64) := by
      have e1 := bv_toNat (x := s.vm.hp) (by omega) (by omega)
      rw [bv] at e1
      rw [zext_ofInt, e1, show BitVec.ofInt 64 (64 : BitVec 32).toInt = BitVec.ofInt 64 64 from by decide, BitVec.add_assoc, ← BitVec.ofInt_add]
      rfl
    have e2 : Host.at H (s.vm.sp - 8) + BitVec.ofInt 64 (bv (-max)).toInt = Host.at H (s.vm.sp - 8 - max) := by
      rw [bv_toInt, wrap32_id (by omega) (by omega), at_add]; rfl
    have c : decide ((Host.at H (s.vm.sp - 8 - max)).toNat < (Host.at H (s.vm.hp + 64)).toNat) = false := by
      have a1 := at_toNat ok (a := s.vm.sp - 8 - max) (by omega) (by omega)
      have a2 := at_toNat ok (a := s.vm.hp + 64) (by omega) (by omega)
      simp only [decide_eq_false_iff_not]
      omega
    refine ⟨{ m with
      reg := fun x => if x = 1 then Host.at H (s.vm.sp - 8 - max) else if x = 0 then Host.at H (s.vm.hp + 64) else m.reg x
      flags := some (cmpFlags (Host.at H (s.vm.sp - 8 - max)) (Host.at H (s.vm.hp + 64))) }, ?_, ?_, rfl⟩
    · jrun [st_movlRM H _ _ (J.field .hp) trivial, ea_field _ joff, h.ctx, haddr, load32_field ok, hfh,
        st_lea H _ _ (.bisd _ 0 _ _) (show (0 : Fin 16) ≠ 4 by decide), st_lea H _ _ (.bd _ _) trivial, ea_bisd0, ea_bd, h.dat, e1, hst, e2,
        st_alu64 H _ _ (.reg _) _ trivial, alu64, get64, cond_below, c, Bool.false_eq_true]
      congr 1
      simp only [Mach.mk.injEq, and_true]
      funext x
      grind
    · exact ⟨nofun, nofun, h.frm, h.ctx, h.stk, h.dat, h.df, h.mem, h.hpF, h.frmF, h.scopeF⟩

theorem run_locals {locals : Int} (x0 : -2147483648 ≤ locals) (x1 : locals ≤ 0)
    (h : Sim H false false m (framed s)) :
    ∃ m1, run H none (localItems locals) m = .done m1 ∧ Sim H false false m1 (entered locals s) ∧ m1.outer = m.outer := by
  unfold localItems
  split
  · rename_i e; subst e; exact ⟨m, rfl, h, rfl⟩
  · refine ⟨{ m with flags := none }.setReg 14 (m.reg 14 + (bv locals).signExtend 64), by jrun [st_addStk], ?_, rfl⟩
    have : m.reg 14 + (bv locals).signExtend 64 = Host.at H (s.vm.sp - 8 + locals) := by
      rw [h.stk, show (bv locals).signExtend 64 = BitVec.ofInt 64 (bv locals).toInt from rfl, bv_toInt, wrap32_id x0 (by omega), at_add]
      show Host.at H (s.vm.sp - 8 + 0 + locals) = _
      rw [Int.add_zero]
    exact ⟨nofun, nofun, h.frm, h.ctx, this, h.dat, h.df, h.mem, h.hpF, h.frmF, h.scopeF⟩

/-- Too little stack. -/
theorem run_low (ok : HostOk H) (joff : J.off = H.off) (hs : s.vm.sp ≤ H.memSize) (hh : 0 ≤ s.vm.hp) (hh1 : s.vm.hp + 64 ≤ H.memSize)
    (hm : H.memSize ≤ 2147483648) (h8 : 8 ≤ s.vm.sp) {max : Int}
    (x0 : 0 ≤ max) (x1 : max < 2147483648) (hb : max ≤ H.base.toNat) (h : Sim H false false m (framed s)) (he : ¬ EnoughStack max s) (rest : List Item) :
    ∃ m1, run H none (checkItems J max ++ rest) m = .error .stackLow m1 ∧ Sim H false false m1 (framed s) ∧ m1.outer = m.outer := by
  unfold checkItems
  split
  · rename_i e; exact absurd (.inl e) he
  · rename_i hm
    have he : ¬ s.vm.hp + 64 ≤ s.vm.sp - 8 - max := fun h => he (.inr h)
    have haddr : ∀ f, H.ctx + (H.off f).signExtend 64 = H.addr f := fun _ => rfl
    have hroom := ok.room
    have hfh : m.field .hp = BitVec.ofInt 32 s.vm.hp := h.hpF
    have hst : m.reg 14 = Host.at H (s.vm.sp - 8) := by rw [h.stk]; show Host.at H (s.vm.sp - 8 + 0) = _; rw [Int.add_zero]
    have e1 : H.base + (BitVec.ofInt 32 s.vm.hp).setWidth 64 + BitVec.ofInt 64 (64 : BitVec 32).toInt = Host.at H (s.vm.hp + 64) := by
      have e1 := bv_toNat (x := s.vm.hp) (by omega) (by omega)
      rw [bv] at e1
      rw [zext_ofInt, e1, show BitVec.ofInt 64 (64 : BitVec 32).toInt = BitVec.ofInt 64 64 from by decide, BitVec.add_assoc, ← BitVec.ofInt_add]
      rfl
    have e2 : Host.at H (s.vm.sp - 8) + BitVec.ofInt 64 (bv (-max)).toInt = Host.at H (s.vm.sp - 8 - max) := by
      rw [bv_toInt, wrap32_id (by omega) (by omega), at_add]; rfl
    have c : decide ((Host.at H (s.vm.sp - 8 - max)).toNat < (Host.at H (s.vm.hp + 64)).toNat) = true := by
      have a1 : ((Host.at H (s.vm.sp - 8 - max)).toNat : Int) = H.base.toNat + (s.vm.sp - 8 - max) := by
        unfold Host.at
        rw [BitVec.toNat_add, BitVec.toNat_ofInt]
        omega
      have a2 := at_toNat ok (a := s.vm.hp + 64) (by omega) (by omega)
      simp only [decide_eq_true_eq]
      omega
    refine ⟨{ m with
      reg := fun x => if x = 1 then Host.at H (s.vm.sp - 8 - max) else if x = 0 then Host.at H (s.vm.hp + 64) else m.reg x
      flags := some (cmpFlags (Host.at H (s.vm.sp - 8 - max)) (Host.at H (s.vm.hp + 64))) }, ?_, ?_, rfl⟩
    · jrun [st_movlRM H _ _ (J.field .hp) trivial, ea_field _ joff, h.ctx, haddr, load32_field ok, hfh,
        st_lea H _ _ (.bisd _ 0 _ _) (show (0 : Fin 16) ≠ 4 by decide), st_lea H _ _ (.bd _ _) trivial, ea_bisd0, ea_bd, h.dat, e1, hst, e2,
        st_alu64 H _ _ (.reg _) _ trivial, alu64, get64, cond_below, c]
      congr 1
      simp only [Mach.mk.injEq, and_true]
      funext x
      grind
    · exact ⟨nofun, nofun, h.frm, h.ctx, h.stk, h.dat, h.df, h.mem, h.hpF, h.frmF, h.scopeF⟩

/-- The whole of it. -/
theorem sim_enter (ok : HostOk H) (joff : J.off = H.off) (h : Sim H kp ka m s) (h0 : 8 ≤ s.vm.sp) (h1 : s.vm.sp ≤ H.memSize) (hh : 0 ≤ s.vm.hp)
    (hh1 : s.vm.hp < 2147483648) {max locals : Int} (z : Sizes max locals) (he : EnoughStack max s) :
    Runs H (frameItems J ++ checkItems J max ++ localItems locals) m false false (entered locals s) := by
  obtain ⟨m1, r1, s1, o1⟩ := run_frame ok joff h h0 h1 (checkItems J max ++ localItems locals)
  obtain ⟨m2, r2, s2, o2⟩ := run_check (J := J) ok joff h1 hh hh1 z.max0 z.max1 s1 he (localItems locals)
  obtain ⟨m3, r3, s3, o3⟩ := run_locals z.locals0 z.locals1 s2
  unfold Runs
  rw [List.append_assoc, r1, r2, r3, ends_done]
  exact ⟨s3, o3.trans (o2.trans o1)⟩

theorem sim_leave (ok : HostOk H) (joff : J.off = H.off) (h : Sim H kp ka m s) (h0 : 0 ≤ s.vm.frm) (h1 : s.vm.frm + 12 ≤ H.memSize)
    (h2 : 0 ≤ (left s).vm.frm) : Runs H (popItems J) m kp ka (left s) := by
  have haddr : ∀ f, H.ctx + (H.off f).signExtend 64 = H.addr f := fun _ => rfl
  have e4 : Host.at H s.vm.frm + BitVec.ofInt 64 (4 : BitVec 32).toInt = Host.at H (s.vm.frm + 4) := by
    rw [at_add]; rfl
  have e0 : ∀ a, Host.at H a + BitVec.ofInt 64 (0 : BitVec 32).toInt = Host.at H a := by
    intro a; rw [at_add]; congr 1; show a + 0 = _; omega
  have e8 : Host.at H s.vm.frm + BitVec.signExtend 64 (8 : BitVec 32) = Host.at H (s.vm.frm + 8) := by
    rw [show BitVec.signExtend 64 (8 : BitVec 32) = BitVec.ofInt 64 8 from by decide, at_add]
  have ef : (rd32 s.vm.mem (s.vm.frm + 4)).setWidth 64 + H.base = Host.at H (rd32 s.vm.mem (s.vm.frm + 4)).toInt := by
    rw [BitVec.add_comm]; exact dat_at h2
  have es : Host.at H (s.vm.frm + 8) + (rd32 s.vm.mem (s.vm.frm + 8)).setWidth 64 <<< 2 + BitVec.ofInt 64 (4 : BitVec 32).toInt =
      Host.at H (s.vm.frm + 12 + 4 * (rd32 s.vm.mem (s.vm.frm + 8)).toNat) := by
    have : (rd32 s.vm.mem (s.vm.frm + 8)).setWidth 64 <<< 2 = BitVec.ofInt 64 (4 * (rd32 s.vm.mem (s.vm.frm + 8)).toNat) := by
      generalize rd32 s.vm.mem (s.vm.frm + 8) = v
      apply BitVec.eq_of_toNat_eq
      simp only [BitVec.toNat_shiftLeft, BitVec.toNat_setWidth, BitVec.toNat_ofInt, Nat.shiftLeft_eq]
      have := v.isLt
      omega
    rw [this, at_add, at_add]
    congr 1
    show s.vm.frm + 8 + _ + 4 = _
    omega
  unfold Runs popItems
  jrun [st_movqRR H _ 14 3 (by decide), h.frm, st_movlRM H _ _ (.bd _ _) trivial, ea_bd, e4, e0,
    load32_at ok (show 0 ≤ s.vm.frm + 4 by omega) (show s.vm.frm + 4 + 4 ≤ H.memSize by omega),
    load32_at ok (show 0 ≤ s.vm.frm by omega) (show s.vm.frm + 4 ≤ H.memSize by omega),
    load32_at ok (show 0 ≤ s.vm.frm + 8 by omega) (show s.vm.frm + 8 + 4 ≤ H.memSize by omega),
    st_movlMR H _ (J.field .hp) _ trivial, st_movlMR H _ (J.field .frm) _ trivial, ea_field _ joff, h.ctx, haddr, store32_field ok, lo_zext,
    st_addStk, e8, st_alu64 H _ _ (.reg _) _ trivial, alu64, get64, put64, aluFn, h.dat, h.mem, ef,
    st_lea H _ _ (.bisd _ 1 _ _) (show (1 : Fin 16) ≠ 4 by decide), ea_bisd2, es]
  exact ⟨⟨h.pri, h.alt, rfl, h.ctx, rfl, h.dat, h.df, rfl, by show _ = BitVec.ofInt 32 (BitVec.toInt _); rw [BitVec.ofInt_toInt]; rfl,
    by show _ = BitVec.ofInt 32 (BitVec.toInt _); rw [BitVec.ofInt_toInt]; rfl, h.scopeF⟩, rfl⟩

end
end Verif.Jit

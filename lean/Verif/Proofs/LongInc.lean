import Verif.Proofs.LongMain

/-! `++` and `--` (C81). -/
namespace Verif.Long
open Verif.VM

section
variable {F : Frame} {K : List Kind} {b : State} {D : Scope} {t t' : Slots} {σ : Store} {E : Env} {m : Nat} {here : Int} {s : IState} {p q : Int}

/-- What a variable holds. -/
theorem ObjAt.val {x : Obj} (h : ObjAt F K b t x p) (hd : ∀ n, x = .loc n → n ∈ D.w) {v : State} (hH : Holds F K b D t σ v) : rd64 v.mem p = σ.w x := by
  cases x with
  | loc n =>
    obtain ⟨i, e1, e2⟩ := h
    obtain ⟨j, e3, e4⟩ := hH.loc n (hd n rfl)
    rw [e1] at e3
    cases e3
    rw [e2, e4]
  | par k => rw [h.2]; exact hH.outer _ h.1
  | glob k => rw [h.2]; exact hH.outer _ h.1
  | ext k => rw [h.2]; exact hH.outer _ h.1

theorem has_loc (hF : F.Fits K b) {x : Var} (hx : F.has D x) : ∀ n, x.obj F.tgt = .loc n → n ∈ D.w := by
  intro n hn
  cases x with
  | loc k => cases hn; exact hx
  | par k => cases hn
  | ref k => exact absurd (hn ▸ (hF.ref k hx).2) (hF.loc n)
  | glob a => cases hn

theorem store_same (h : t'.v64 = t.v64) (x : Var) : store t' x = store t x := by
  cases x <;> simp only [store, Slots.slot64, h]

theorem step {i : Insn} {c : List Insn} {s' : IState} {f : Ctl} (h : visit E m here i s = .ok s' f) : run E m here (i :: c) s = run E m here c s' := by
  simp only [run, h]

/-- A slot that is in use is not changed by an assignment to a variable. -/
theorem slot_put (hF : F.Fits K b) (hW : WF t) (hP : Pre t K) {mem : Int → BitVec 8} {i : Nat} (hi : (i, Kind.int64) ∈ t.used) {x : Obj}
    (hq : ObjAt F K b t x q) (v : BitVec 64) : rd64 (wr64 mem q v) (slotAddr K b.frm i) = rd64 mem (slotAddr K b.frm i) := by
  have hb : Kind.int64.bytes = 8 := rfl
  have hsz := size_nonneg K
  have hf := hF.frame
  have hki : K[i]? = some .int64 := hP.get (hW.kind _ (List.mem_append_right _ hi))
  have hr := slot_range hki b.frm
  rw [rd64_far]
  rcases hq.cases hW hP with ⟨n, j, _, hn, hkj, rfl⟩ | ⟨h2, rfl⟩
  · have := slot_apart hki hkj (fun hc => (hW.k64 n j hn).2 (List.mem_map.mpr ⟨_, List.mem_append_right _ hi, hc⟩)) b.frm
    omega
  · have := hF.range x h2
    omega

theorem add_one (up : Bool) (o : BitVec 64) : o + (if up then 1 else -1) = BitVec.ofInt 64 (o.toInt + if up then 1 else -1) := by
  rw [BitVec.ofInt_add, BitVec.ofInt_toInt]
  cases up <;> rfl

variable (hM : Meth E m K) (hF : F.Fits K b)
include hM hF

theorem sound_pre (up : Bool) (x : Var) : Sound64 F K b D E m here (.inc up true x) := by
  intro t σ s hW hP hH hk hc hr
  have hx : F.has D x := hk
  have hn : ∀ k, x ≠ .par k := hc
  have hneed : (need64 (.inc up true x) : Int) = 1 := rfl
  rw [hneed] at hr
  simp only [gen64, emitInc, eval64, if_true] at hP ⊢
  have hb : Kind.int64.bytes = 8 := rfl
  obtain ⟨hW1, k1, u1, n1, a1, c1⟩ := acquire_ok hW .int64
  have hi := acquire_slot hW hP
  have hg := acquire_grows t .int64
  generalize hd : (if up then 1 else -1 : BitVec 64) = d
  have hadd := add_one up (σ.w (x.obj F.tgt))
  rw [hd] at hadd
  rw [← hadd]
  -- the constant
  have g1 := got_temp (o := none) (s := s) hF hW hP hH d s.alt
  have hH1 := g1.holds
  have v1 := visit_const64 (E := E) (m := m) (here := here) hM hF hH hi d
  -- the variable
  obtain ⟨p, p1, p2, p3⟩ := run_address (E := E) (m := m) (here := here)
    (s := IState.mk { s.vm with mem := wr64 s.vm.mem (slotAddr K b.frm (t.acquire .int64).1) d } s.pri s.alt s.polls) hM hF hW1 hP hH1 hx
  have w1 := p1.wide hF hW1 hP hH1
  have w2 := slot_wide hi hF hH1
  have v2 := visit_addr (E := E) (m := m) (here := here)
    (s := IState.mk { s.vm with mem := wr64 s.vm.mem (slotAddr K b.frm (t.acquire .int64).1) d } (BitVec.ofInt 32 p) s.alt s.polls) hM hF hH1 hi .alt
  have v3 := visit_bin (E := E) (m := m) (here := here)
    (s := IState.mk { s.vm with mem := wr64 s.vm.mem (slotAddr K b.frm (t.acquire .int64).1) d } (BitVec.ofInt 32 p)
      (BitVec.ofInt 32 (slotAddr K b.frm (t.acquire .int64).1)) s.polls) hM hF hH1 hi w1 rfl w2 rfl .add
  dsimp only at p2
  simp only [p2, rd64_wr64_same, op64] at v3
  have g2 : Got F K b D t (t.acquire .int64).2 none s (IState.mk { s.vm with mem := wr64 (wr64 s.vm.mem (slotAddr K b.frm (t.acquire .int64).1) d) (slotAddr K b.frm (t.acquire .int64).1) (σ.w (x.obj F.tgt) + d) } (BitVec.ofInt 32 (slotAddr K b.frm (t.acquire .int64).1))
      (BitVec.ofInt 32 (slotAddr K b.frm (t.acquire .int64).1)) s.polls) σ (σ.w (x.obj F.tgt) + d) (slotAddr K b.frm (t.acquire .int64).1) := by
    refine ⟨hH1.temp hF hW1 hP hi (by rw [hg.v64]; exact a1) (by rw [hg.v32]; exact c1) _, rfl, rfl, rd64_wr64_same _ _ _, ?_, .inl ⟨_, u1, rfl⟩⟩
    exact g1.keep.trans (Keep.temp hW (hP.of_grows hg) hi n1 _) rfl Grows.rfl'
  obtain ⟨s5, r5, g5⟩ := got_store (E := E) (m := m) (here := here) hM hF hW1 hP g2 hg hx hn (by dsimp only; omega)
  refine ⟨s5, _, ?_, g5⟩
  simp only [List.append_assoc, List.cons_append, List.nil_append]
  rw [step v1, run_two p3, step v2]
  dsimp only [IState.setReg]
  rw [step v3]
  exact r5

theorem sound_post (up : Bool) (x : Var) : Sound64 F K b D E m here (.inc up false x) := by
  intro t σ s hW hP hH hk hc hr
  have hx : F.has D x := hk
  have hn : ∀ k, x ≠ .par k := hc
  have hneed : (need64 (.inc up false x) : Int) = 1 := rfl
  rw [hneed] at hr
  simp only [gen64, emitInc, eval64, Bool.false_eq_true, if_false] at hP ⊢
  have hb : Kind.int64.bytes = 8 := rfl
  have hf := hF.frame
  have hsz := size_nonneg K
  have hs := hF.small
  have hm := hF.mem
  obtain ⟨hW1, k1, u1, n1, a1, c1⟩ := acquire_ok hW .int64
  have hg := acquire_grows t .int64
  obtain ⟨t1, i, hti⟩ : ∃ t1 i, t.acquire .int64 = (i, t1) := ⟨_, _, rfl⟩
  rw [hti] at hP hW1 k1 u1 n1 a1 c1 hg ⊢
  dsimp only at hP hW1 k1 u1 n1 a1 c1 hg ⊢
  obtain ⟨hW2, k2, u2, n2, a2, c2⟩ := acquire_ok hW1 .int64
  have hg2 := acquire_grows t1 .int64
  obtain ⟨t2, j, htj⟩ : ∃ t2 j, t1.acquire .int64 = (j, t2) := ⟨_, _, rfl⟩
  rw [htj] at hP hW2 k2 u2 n2 a2 c2 hg2 ⊢
  dsimp only at hP hW2 k2 u2 n2 a2 c2 hg2 ⊢
  have hP1 := hP.of_grows hg2
  have hP0 := hP1.of_grows hg
  have hi := hP1.get k1
  have hj := hP.get k2
  have hij : i ≠ j := fun hc => n2 (List.mem_map.mpr ⟨_, u1, hc⟩)
  have nj : j ∉ t.used.map (·.1) := by
    intro hc
    obtain ⟨L, hL⟩ := hg.used
    exact n2 (by rw [hL, List.map_append]; exact List.mem_append_left _ hc)
  have ht := hH.top
  have hri := slot_range hi b.frm
  have hrj := slot_range hj b.frm
  generalize hd : (if up then 1 else -1 : BitVec 64) = d
  have hadd := add_one up (σ.w (x.obj F.tgt))
  rw [hd] at hadd
  rw [← hadd]
  generalize hA : slotAddr K b.frm i = A at *
  generalize hB : slotAddr K b.frm j = B at *
  have hAB := slot_apart hi hj hij b.frm
  rw [hA, hB] at hAB
  -- the constant
  have v1 := visit_const64 (E := E) (m := m) (here := here) hM hF hH hi d
  rw [hA] at v1
  have hH1 : Holds F K b D t1 σ { s.vm with mem := wr64 s.vm.mem A d } := by
    rw [← hA]
    exact (hH.slots hg).temp hF hW1 hP1 hi (by rw [hg.v64]; exact a1) (by rw [hg.v32]; exact c1) d
  obtain ⟨p, p1, p2, p3⟩ := run_address (E := E) (m := m) (here := here)
    (s := IState.mk { s.vm with mem := wr64 s.vm.mem A d } s.pri s.alt s.polls) hM hF hW1 hP1 hH1 hx
  dsimp only at p2
  obtain ⟨r1, r2, r3, r4⟩ := hH.regs
  have w1 := p1.wide hF hW1 hP1 hH1
  have w2 := slot_wide hj hF hH1
  -- the old value is kept
  have v2 := visit_addr (E := E) (m := m) (here := here)
    (s := IState.mk { s.vm with mem := wr64 s.vm.mem A d } (BitVec.ofInt 32 p) s.alt s.polls) hM hF hH1 hj .alt
  rw [hB] at v2 w2
  have v3 := visit_move (E := E) (m := m) (here := here)
    (s := IState.mk { s.vm with mem := wr64 s.vm.mem A d } (BitVec.ofInt 32 p) (BitVec.ofInt 32 B) s.polls) (by dsimp only; omega) (by dsimp only; omega)
    rfl rfl w1 w2
  simp only [p2] at v3
  have hH3 : Holds F K b D t2 σ { s.vm with mem := wr64 (wr64 s.vm.mem A d) B (σ.w (x.obj F.tgt)) } := by
    rw [← hB]
    exact (hH1.slots hg2).temp hF hW2 hP hj (by rw [hg2.v64]; exact a2) (by rw [hg2.v32]; exact c2) _
  have v4 := visit_push (E := E) (m := m) (here := here)
    (s := IState.mk { s.vm with mem := wr64 (wr64 s.vm.mem A d) B (σ.w (x.obj F.tgt)) } (BitVec.ofInt 32 p) (BitVec.ofInt 32 B) s.polls) hF hH3
    (by dsimp only; omega) .alt
  have hH4 := hH3.pushed hF hW2 hP (by dsimp only; omega) (BitVec.ofInt 32 B)
  dsimp only [IState.reg] at v4 hH4
  have v5 := visit_addr (E := E) (m := m) (here := here)
    (s := IState.mk { s.vm with mem := wr32 (wr64 (wr64 s.vm.mem A d) B (σ.w (x.obj F.tgt))) (s.vm.sp - 4) (BitVec.ofInt 32 B), sp := s.vm.sp - 4 }
      (BitVec.ofInt 32 p) (BitVec.ofInt 32 B) s.polls) hM hF hH4 hi .alt
  rw [hA] at v5
  have p4 := p1.slots hg2
  have w3 := p4.wide hF hW2 hP hH4
  have w4 := slot_wide hi hF hH4
  rw [hA] at w4
  have v6 := visit_bin (E := E) (m := m) (here := here)
    (s := IState.mk { s.vm with mem := wr32 (wr64 (wr64 s.vm.mem A d) B (σ.w (x.obj F.tgt))) (s.vm.sp - 4) (BitVec.ofInt 32 B), sp := s.vm.sp - 4 }
      (BitVec.ofInt 32 p) (BitVec.ofInt 32 A) s.polls) hM hF hH4 hi w3 rfl w4 rfl .add
  have e1 := p4.val (has_loc hF hx) hH4
  dsimp only at e1
  have e2 : rd64 (wr32 (wr64 (wr64 s.vm.mem A d) B (σ.w (x.obj F.tgt))) (s.vm.sp - 4) (BitVec.ofInt 32 B)) A = d := by
    rw [rd64_far32 (by omega), rd64_far (by omega), rd64_wr64_same]
  simp only [e1, e2, op64] at v6
  rw [hA] at v6
  have hH6 := hH4.temp hF hW2 hP hi (by rw [hg2.v64, hg.v64]; exact a1) (by rw [hg2.v32, hg.v32]; exact c1) (σ.w (x.obj F.tgt) + d)
  rw [hA] at hH6
  dsimp only at hH6
  have w5 := slot_wide hi hF hH6
  rw [hA] at w5
  -- the new value is assigned
  obtain ⟨q, al, q1, q2⟩ := run_store (E := E) (m := m) (here := here)
    (s := IState.mk { s.vm with mem := wr64 (wr32 (wr64 (wr64 s.vm.mem A d) B (σ.w (x.obj F.tgt))) (s.vm.sp - 4) (BitVec.ofInt 32 B)) A (σ.w (x.obj F.tgt) + d), sp := s.vm.sp - 4 } (BitVec.ofInt 32 A) (BitVec.ofInt 32 A) s.polls) hM hF hW2 hP hH6 hx hn w5 rfl
  simp only [rd64_wr64_same] at q2
  have hH7 := hH6.put hF hW2 hP q1 (σ.w (x.obj F.tgt) + d)
  dsimp only at hH7
  have v8 := visit_pop (E := E) (m := m) (here := here)
    (s := IState.mk { s.vm with mem := wr64 (wr64 (wr32 (wr64 (wr64 s.vm.mem A d) B (σ.w (x.obj F.tgt))) (s.vm.sp - 4) (BitVec.ofInt 32 B)) A (σ.w (x.obj F.tgt) + d)) q (σ.w (x.obj F.tgt) + d), sp := s.vm.sp - 4 } (BitVec.ofInt 32 A) al s.polls) hF hH7 (by dsimp only; omega)
    (by dsimp only; omega) .pri
  have q3 : q + 8 ≤ s.vm.sp - 4 ∨ s.vm.sp ≤ q := by
    rcases q1.cases hW2 hP with ⟨n, k, _, _, hk, rfl⟩ | ⟨h2, rfl⟩
    · have := slot_range hk b.frm
      omega
    · have := hF.range _ h2
      omega
  have e3 : rd32 (wr64 (wr64 (wr32 (wr64 (wr64 s.vm.mem A d) B (σ.w (x.obj F.tgt))) (s.vm.sp - 4) (BitVec.ofInt 32 B)) A
      (σ.w (x.obj F.tgt) + d)) q (σ.w (x.obj F.tgt) + d)) (s.vm.sp - 4) = BitVec.ofInt 32 B := by
    rw [rd32_far64 (by omega), rd32_far64 (by omega), rd32_wr32_same]
  dsimp only [IState.setReg] at v8
  rw [e3] at v8
  have qt := slot_put (mem := wr64 (wr32 (wr64 (wr64 s.vm.mem A d) B (σ.w (x.obj F.tgt))) (s.vm.sp - 4) (BitVec.ofInt 32 B)) A (σ.w (x.obj F.tgt) + d)) hF hW2 hP u2 q1 (σ.w (x.obj F.tgt) + d)
  rw [hB] at qt
  have q0 : ObjAt F K b t (x.obj F.tgt) q := by
    have h64 : t2.v64 = t.v64 := hg2.v64.trans hg.v64
    generalize x.obj F.tgt = y at q1
    cases y with
    | loc n => obtain ⟨a, b1, b2⟩ := q1; exact ⟨a, h64 ▸ b1, b2⟩
    | par k => exact q1
    | glob k => exact q1
    | ext k => exact q1
  refine ⟨IState.mk { s.vm with mem := wr64 (wr64 (wr32 (wr64 (wr64 s.vm.mem A d) B (σ.w (x.obj F.tgt))) (s.vm.sp - 4) (BitVec.ofInt 32 B)) A (σ.w (x.obj F.tgt) + d)) q (σ.w (x.obj F.tgt) + d), sp := s.vm.sp - 4 + 4 } (BitVec.ofInt 32 B) al s.polls, B, ?_, ⟨hH7.popped (sp := s.vm.sp - 4 + 4) (by omega), ?_, rfl, ?_, ?_, .inl ⟨j, u2, hB.symm⟩⟩⟩
  rotate_left
  · show s.vm.sp - 4 + 4 = s.vm.sp
    omega
  · dsimp only
    rw [qt, rd64_far (by omega), rd64_far32 (by omega), rd64_wr64_same]
  · have kA : ∀ (y : State) (w : BitVec 64), Keep K b t y { y with mem := wr64 y.mem A w } := fun y w => by rw [← hA]; exact Keep.temp hW hP0 hi n1 w
    have kB : ∀ (y : State) (w : BitVec 64), Keep K b t y { y with mem := wr64 y.mem B w } := fun y w => by rw [← hB]; exact Keep.temp hW hP0 hj nj w
    have k1 := (kA s.vm d).trans (kB _ (σ.w (x.obj F.tgt))) rfl Grows.rfl'
    have hH0 : Holds F K b D t σ { s.vm with mem := wr64 (wr64 s.vm.mem A d) B (σ.w (x.obj F.tgt)) } :=
      ⟨hH3.same, hH3.top, hH3.outer, by rw [← hg.v64, ← hg2.v64]; exact hH3.loc, by rw [← hg.v32, ← hg2.v32]; exact hH3.int, hH3.par, hH3.ref⟩
    have k2 := k1.trans (Keep.pushed _ hH0 hW hP0 (BitVec.ofInt 32 B)) rfl Grows.rfl'
    have k3 := k2.trans' (kA _ (σ.w (x.obj F.tgt) + d)) (by dsimp only; omega) Grows.rfl'
    have k4 := k3.trans' (Keep.put hF hW hP0 q0 (by dsimp only; omega) (σ.w (x.obj F.tgt) + d)) (by dsimp only; omega) Grows.rfl'
    exact ⟨k4.stack, k4.used⟩
  · simp only [List.append_assoc, List.cons_append, List.nil_append]
    rw [step v1, run_two p3, step v2]
    dsimp only [IState.setReg]
    rw [step v3, step v4, step v5]
    dsimp only [IState.setReg]
    rw [step v6, run_two q2, step v8]
    rfl

end

end Verif.Long

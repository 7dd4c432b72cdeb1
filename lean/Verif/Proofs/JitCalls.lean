import Verif.Proofs.JitCallSim
import Verif.Props.C65
import Verif.Proofs.X64World

/-! Compiled methods that call each other. -/
namespace Verif.Jit
open Verif.VM hiding Op
open Verif.X64 hiding Pre decode
open Verif.Graph

section
variable {code : List Cell} {J : JitEnv} {F : Parts} {start : Nat} {C : Compiled} {A : Asm} (M : Method code J F start C A)

/-- An instruction whose code is a parameter of the compiler, and the next one. -/
theorem Method.other (M : Method code J F start C A) {pc n next : Nat} {i : Insn} (hp : (pc, n) ∈ C.places) (hd : decode code pc = some (i, next)) (hi : Ends i = false)
    (hj : jit J i = .other) (chunk : BitVec 64) (H : Host) :
    Seg C.ops n (F.other pc).1 ∧ ∃ n', (next, n') ∈ C.places ∧
      ∀ m, Reach H (A.toImage chunk) (pos C.ops (n + (F.other pc).1.length)) m (pos C.ops n') m := by
  obtain ⟨fuel, P, B, G, blks, fin, f, h1, h2, h3, _, rfl, h5⟩ := M.parts
  obtain ⟨k, bs, c, R, at', hs⟩ := (h5 _ _).1 hp
  obtain ⟨fu, a, a', i', pc1, g2, g3, g4, hd', g1⟩ := at'.unfold M.tables h1 hs
  rw [hd] at hd'
  cases hd'
  rw [if_neg (by rw [hi]; decide)] at g1
  obtain ⟨a1, e1, e2⟩ := Option.bind_eq_some_iff.1 g1
  unfold emitPlain at e1
  rw [hj] at e1
  simp only [Option.some.injEq] at e1
  subst e1
  have hle := (le_run _ _ e2).trans g4
  have hseg : Seg (finish F fin).ops a.ops.length (F.other pc).1 := hle.seg (a := a) rfl
  rw [g2] at hseg
  obtain ⟨k2, n2, l2, ⟨go, _⟩ | ⟨_, _, h, _⟩⟩ := settle (n := n + (F.other pc).1.length) M.tables h1 h2 h3 M.linked H (follows_image M.linked chunk) at'.node
    (at'.node.next M.tables h1 at'.on hs hd (by rw [flow_ends]; exact hi)) e2
    (by show (a.ops ++ _).length = _; rw [List.length_append, g2]) g3 g4
  · exact ⟨hseg, n2, (h5 _ _).2 l2.live, go⟩
  · cases h

theorem Method.retn (M : Method code J F start C A) {pc n next : Nat} (hp : (pc, n) ∈ C.places) (hd : decode code pc = some (.retn, next)) :
    Seg C.ops n (F.other pc).1 := by
  obtain ⟨fuel, P, B, G, blks, fin, f, h1, h2, h3, _, rfl, h5⟩ := M.parts
  obtain ⟨k, bs, c, R, at', hs⟩ := (h5 _ _).1 hp
  obtain ⟨fu, a, a', i', pc1, g2, g3, g4, hd', g1⟩ := at'.unfold M.tables h1 hs
  rw [hd] at hd'
  cases hd'
  rw [if_pos (show Ends .retn = true from rfl)] at g1
  simp only [emitEnd] at g1
  split at g1
  · simp only [Option.some.injEq] at g1
    subst g1
    have hseg : Seg (finish F fin).ops a.ops.length (F.other pc).1 := g4.seg (a := a) rfl
    rwa [g2] at hseg
  · cases g1

theorem Method.base (M : Method code J F start C A) : ∃ fin, C = finish F fin ∧ Le { ops := F.prologue.1, thunks := F.prologue.2 } fin := by
  obtain ⟨fuel, P, B, G, blks, h1, h2, h3⟩ := M.compiled
  obtain ⟨fin, f, h4, _, _, h5, _⟩ := compiled_parts M.tables h1 h2 h3
  exact ⟨fin, h5, le_blocks _ _ h4⟩

end

/-- What does not depend on the method. -/
structure Base (H : Host) (P : Plugin) (s : IState) : Prop where
  host : HostOk H
  size : H.memSize = s.vm.memSize
  jsize : P.memSize = s.vm.memSize
  jdata : P.dataSize = s.vm.dataSize
  joff : P.off = H.off

section
variable {H : Host} {P : Plugin} {E : Env} {W : World} {t : Nat} {s s' : IState}

theorem Base.of (h : P.Has E W t) (S : Setup H (P.J t) E t s) : Base H P s := by
  have e := h.env
  refine ⟨S.host, S.size, ?_, ?_, ?_⟩
  · rw [← S.jsize, e]
  · rw [← S.jdata, e]
  · rw [← S.joff, e]

theorem Base.setup (b : Base H P s) (h : P.Has E W t) (L : Layout s.vm) (h0 : 0 ≤ s.vm.frm) (h1 : s.vm.frm ≤ s.vm.stp) : Setup H (P.J t) E t s := by
  have e := h.env
  refine ⟨b.host, b.size, ?_, ?_, ?_, ?_, L, h0, h1⟩
  · rw [← b.jsize, e]
  · rw [← b.jdata, e]
  · rw [← b.joff, e]
  · rw [e]

theorem Base.kept (b : Base H P s) (h1 : s'.vm.memSize = s.vm.memSize) (h2 : s'.vm.dataSize = s.vm.dataSize) : Base H P s' :=
  ⟨b.host, b.size.trans h1.symm, b.jsize.trans h1.symm, b.jdata.trans h2.symm, b.joff⟩

end

theorem dec_movRsp : X64.decode (Call.movqRR 5 4).bytes = some (.movL .q 5 (.reg 4), []) := by decide +kernel
theorem dec_subRsp : X64.decode (Call.aluI true .sub (.reg 4) 8).bytes = some (.aluI .sub .q (.reg 4) 8, []) := by decide +kernel
theorem dec_addRsp : X64.decode (Call.aluI true .add (.reg 4) 8).bytes = some (.aluI .add .q (.reg 4) 8, []) := by decide +kernel
theorem dec_leave : X64.decode Call.leave.bytes = some (.leave, []) := by decide +kernel
theorem dec_ret : X64.decode Call.ret.bytes = some (.ret, []) := by decide +kernel

/-- What enterFrame pushes. -/
def frameWord (t : Nat) : BitVec 64 := BitVec.ofNat 64 (t * 4 * 4294967296 + scripted)

theorem Sim.outer {H : Host} {kp ka : Bool} {m m' : Mach} {s : IState} (h : Sim H kp ka m s)
    (e0 : m'.reg 0 = m.reg 0 := by rfl) (e2 : m'.reg 2 = m.reg 2 := by rfl)
    (e3 : m'.reg 3 = m.reg 3 := by rfl) (e12 : m'.reg 12 = m.reg 12 := by rfl)
    (e14 : m'.reg 14 = m.reg 14 := by rfl) (e15 : m'.reg 15 = m.reg 15 := by rfl)
    (edf : m'.df = m.df := by rfl) (em : m'.mem = m.mem := by rfl) (ef : m'.field = m.field := by rfl) : Sim H kp ka m' s :=
  ⟨fun k => e0.trans (h.pri k), fun k => e2.trans (h.alt k), e3.trans h.frm, e12.trans h.ctx, e14.trans h.stk, e15.trans h.dat, edf.trans h.df,
    em.trans h.mem, by rw [ef]; exact h.hpF, by rw [ef]; exact h.frmF, by rw [ef]; exact h.scopeF⟩

section
variable {H : Host} {P : Plugin} {E : Env} {W : World} (ok : WorldOk H W) {t : Nat} (has : P.Has E W t)

include ok has in
/-- enterFrame, and the alignment of the stack. -/
theorem frame_ok (m : Mach) : ∃ m1, W.Reach H (P.image t).entry m ((P.image t).addr (pos (P.C t).ops 5)) m1 ∧
    m1.outer = (W.junk :: frameWord t :: m.reg 5 :: m.stack, W.rsp (m.stack.length + 1), m.reg 13) ∧
    (∀ kp ka s, Sim H kp ka m s → Sim H kp ka m1 s) ∧ m1.mem = m.mem ∧ m1.field = m.field := by
  obtain ⟨fin, hC, hle⟩ := has.method.base
  have hF := follows_image has.method.linked (P.chunk t)
  have hrun := has.method.linked
  have hseg : Seg (P.C t).ops 0 (P.F t).prologue.1 := by
    rw [hC]
    have := seg_fin (F := P.F t) (Seg.of_prefix (a := []) (l := (P.F t).prologue.1) hle.ops)
    exact this
  rw [has.prologue] at hseg
  have hs : Seg (P.C t).ops 0 ((frameCalls (t * 4)).map fun c => Op.raw c.bytes) := hseg.left
  have raw : ∀ {n : Nat} {c : Call} {m m' : Mach}, (P.C t).ops[n]? = some (.raw c.bytes) → stepCall H c m = some m' →
      W.cpu H ((P.image t).addr (pos (P.C t).ops n)) m = some ((P.image t).addr (pos (P.C t).ops (n + 1)), m') := by
    intro n c m m' h1 h2
    obtain ⟨i, hd, hx⟩ := stepCall_some h2
    exact lift_cpu ok has.image (cpu_raw hrun H hF h1 hd hx)
  have e0 : (P.image t).entry = (P.image t).addr (pos (P.C t).ops 0) := by
    unfold Image.addr
    exact (BitVec.add_zero _).symm
  have s0 := raw (m := m) (hs 0 _ rfl) (st_push H _ 5)
  have s1 := world_movRsp hrun ok has.image hF (hs 1 _ rfl) dec_movRsp { m with stack := m.reg 5 :: m.stack }
  have s2 := raw (m := Mach.setReg { m with stack := m.reg 5 :: m.stack } 5 (W.rsp (m.stack.length + 1))) (hs 2 _ rfl) (st_movqRI H _ 10 (frameWord t))
  have s3 := raw (m := Mach.setReg (Mach.setReg { m with stack := m.reg 5 :: m.stack } 5 (W.rsp (m.stack.length + 1))) 10 (frameWord t)) (hs 3 _ rfl) (st_push H _ 10)
  have s4 := world_subRsp hrun ok has.image hF (hs 4 _ rfl) dec_subRsp
    { Mach.setReg (Mach.setReg { m with stack := m.reg 5 :: m.stack } 5 (W.rsp (m.stack.length + 1))) 10 (frameWord t) with
      stack := frameWord t :: m.reg 5 :: m.stack }
  rw [e0]
  exact ⟨_, .step s0 (.step s1 (.step s2 (.step s3 (.step s4 (.here _ _))))), rfl, fun kp ka s h => h.outer, rfl, rfl⟩

/-- The prologue after enterFrame is a fragment. -/
theorem prologue_frag (has : P.Has E W t) :
    Wf (frameItems (P.J t) ++ checkItems (P.J t) (P.maxStack t) ++ localItems (stackSizeForLocals E t)) ∧
    Seg (P.C t).ops 5 (itemOps 5 5 (frameItems (P.J t) ++ checkItems (P.J t) (P.maxStack t) ++ localItems (stackSizeForLocals E t))) ∧
    ErrsBound (P.C t).ops 5 (frameItems (P.J t) ++ checkItems (P.J t) (P.maxStack t) ++ localItems (stackSizeForLocals E t)) := by
  obtain ⟨fin, hC, hle⟩ := has.method.base
  have hseg : Seg (P.C t).ops 0 (P.F t).prologue.1 := by
    rw [hC]
    exact seg_fin (F := P.F t) (Seg.of_prefix (a := []) (l := (P.F t).prologue.1) hle.ops)
  rw [has.prologue] at hseg
  have hs := hseg.right
  rw [Nat.zero_add] at hs
  have hw : Wf (frameItems (P.J t) ++ checkItems (P.J t) (P.maxStack t) ++ localItems (stackSizeForLocals E t)) := by
    refine wf_append (wf_append (by simp [frameItems, Wf]) ?_) ?_
    · unfold checkItems; split <;> simp [Wf]
    · unfold localItems; split <;> simp [Wf]
  have hnb : ∀ i ∈ frameItems (P.J t) ++ checkItems (P.J t) (P.maxStack t) ++ localItems (stackSizeForLocals E t), ∀ cc v, i ≠ .err cc (.bounds v) := by
    intro i hi cc v
    rcases List.mem_append.1 hi with hi | hi
    · rcases List.mem_append.1 hi with hi | hi
      · rintro rfl; simp [frameItems] at hi
      · rintro rfl; unfold checkItems at hi; split at hi <;> simp at hi
    · rintro rfl; unfold localItems at hi; split at hi <;> simp at hi
  have he : ErrsBound (P.C t).ops 5 (frameItems (P.J t) ++ checkItems (P.J t) (P.maxStack t) ++ localItems (stackSizeForLocals E t)) := by
    intro j cc e hj
    rcases item_err (cip := 0) _ 5 j cc e hj with ⟨v, rfl, _⟩ | ⟨_, h2⟩
    · exact absurd rfl (hnb _ (List.mem_of_getElem? hj) cc v)
    · have : (⟨4 * (5 + j) + 3, e.num, 0⟩ : Thunk) ∈ fin.thunks := by
        refine hle.thunks.subset ?_
        show _ ∈ (P.F t).prologue.2
        rw [has.prologue]
        exact h2
      obtain ⟨q, _, g⟩ := thunk_at (F := P.F t) this
      exact ⟨q, by rw [hC]; exact g.head⟩
  exact ⟨hw, hs, he⟩

include ok has in
/-- A method is entered. -/
theorem enter_ok {s s1 : IState} {kp ka : Bool} {m : Mach} (b : Base H P s) (L : Layout s.vm) (en : Enter P E t s s1) (sim : Sim H kp ka m s) :
    ∃ n m1, (t + 1, n) ∈ (P.C t).places ∧ W.Reach H (P.image t).entry m ((P.image t).addr (pos (P.C t).ops n)) m1 ∧
      Sim H false false m1 s1 ∧ Setup H (P.J t) E t s1 ∧
      m1.outer = (W.junk :: frameWord t :: m.reg 5 :: m.stack, W.rsp (m.stack.length + 1), m.reg 13) := by
  obtain ⟨z, st, L1, rfl⟩ := en
  obtain ⟨l1, l2, l3, l4, l5, l6⟩ := L
  obtain ⟨k1, k2, k3, k4, k5, k6⟩ := L1
  have hl := z.locals1
  have h8 : 8 ≤ s.vm.sp := by
    have : s.vm.hp ≤ s.vm.sp - 8 + stackSizeForLocals E t := k3
    omega
  obtain ⟨fin, hC, hle⟩ := has.method.base
  have hF := follows_image has.method.linked (P.chunk t)
  have hrun := has.method.linked
  have hsz := b.size
  have joff : (P.J t).off = H.off := by rw [has.env]; exact b.joff
  obtain ⟨m1, r1, o1, f1, _, _⟩ := frame_ok ok has m
  obtain ⟨m2, r2, s2, o2⟩ := (sim_enter (J := P.J t) b.host joff (f1 _ _ _ sim) h8 (by omega) (by omega) (by omega) z st).elim
  obtain ⟨hw, hs, he⟩ := prologue_frag (E := E) has
  have hlen : (P.F t).prologue.1.length = 5 + (frameItems (P.J t) ++ checkItems (P.J t) (P.maxStack t) ++ localItems (stackSizeForLocals E t)).length := by
    rw [has.prologue]
    show (_ ++ itemOps _ _ _).length = _
    rw [List.length_append, itemOps_length]
    rfl
  obtain ⟨q, hq, hdone, _⟩ := frag (H := H) hrun hF _ 5 none m1 hw hs he (fun l h => nomatch h)
  cases hq
  obtain ⟨n, p1, p2⟩ := C65_entry (H := H) (chunk := P.chunk t) has.method m2
  refine ⟨n, m2, p1, r1.trans ((lift ok has.image (hdone _ r2)).trans ?_), s2, ?_, o2.trans o1⟩
  · rw [← hlen]
    exact lift ok has.image p2
  · refine (b.kept (s' := entered (stackSizeForLocals E t) s) rfl rfl).setup has ⟨k1, k2, k3, k4, k5, k6⟩ ?_ ?_
    · show 0 ≤ s.vm.sp - 8
      omega
    · show s.vm.sp - 8 ≤ s.vm.stp
      omega

theorem run_append_ops {H : Host} {b : List Item} : ∀ {a : List Item} {m m1 : Mach}, (∀ i ∈ a, ∃ c, i = .op c) → run H none a m = .done m1 →
    run H none (a ++ b) m = run H none b m1
  | [], m, m1, _, h => by
    rw [run_nil] at h
    cases h
    rfl
  | i :: a, m, m1, ha, h => by
    obtain ⟨c, rfl⟩ := ha i (List.mem_cons_self ..)
    rw [run_op] at h
    rw [List.cons_append, run_op]
    cases hc : stepCall H c m with
    | none => rw [hc] at h; cases h
    | some m2 =>
      rw [hc, thenRun_some] at h
      rw [thenRun_some]
      exact run_append_ops (fun i hi => ha i (List.mem_cons_of_mem _ hi)) h

theorem restore_wf (J : JitEnv) : ∀ n, Wf (restoreItems J n)
  | 0 => trivial
  | n + 1 => wf_append (a := [_, _, _, _]) (by simp [Wf]) (restore_wf J n)

theorem restore_ops (J : JitEnv) : ∀ n, ∀ i ∈ restoreItems J n, ∃ c, i = Item.op c
  | 0, i, h => by cases h
  | n+1, i, h => by
    rcases List.mem_append.1 h with h | h
    · simp only [jit, List.mem_cons, List.not_mem_nil, or_false] at h
      rcases h with h | h | h | h <;> exact ⟨_, h⟩
    · exact restore_ops J n i h

/-- Heap scopes are left. -/
theorem run_restore (rest : List Item) : ∀ (n : Nat) {s s1 : IState} {kp ka : Bool} {m : Mach}, Setup H (P.J t) E t s → Sim H kp ka m s →
    ScopesLeft E t n s s1 → ∃ m1, run H none (restoreItems (P.J t) n ++ rest) m = run H none rest m1 ∧ Sim H kp false m1 s1 ∧ m1.outer = m.outer ∧
      Setup H (P.J t) E t s1 ∧ s1.vm.frm = s.vm.frm ∧ s1.vm.memSize = s.vm.memSize
  | 0, s, s1, kp, ka, m, S, sim, h => by
    cases h
    exact ⟨m, rfl, ⟨sim.pri, nofun, sim.frm, sim.ctx, sim.stk, sim.dat, sim.df, sim.mem, sim.hpF, sim.frmF, sim.scopeF⟩, rfl, S, rfl, rfl⟩
  | n+1, s, s2, kp, ka, m, S, sim, h => by
    obtain ⟨s1, hv, L, h⟩ := h
    obtain ⟨m1, r1, g1, o1⟩ := (sim_heapRestore S sim hv).elim
    have k := ik_visit (J := P.J t) (i := .heapRestore) rfl E t _ _ _ _ hv
    have S1 := S.kept k L
    obtain ⟨m2, r2, g2, o2, S2, e1, e2⟩ := run_restore rest n S1 g1 h
    refine ⟨m2, ?_, g2, o2.trans o1, S2, e1.trans k.frm, e2.trans k.block.1⟩
    rw [← r2]
    show run H none ([_, _, _, _] ++ _ ++ _) m = _
    rw [List.append_assoc]
    exact run_append_ops (a := [_, _, _, _]) (by simp) r1

include ok has in
/-- And left. -/
theorem leave_ok {s s1 : IState} {kp ka : Bool} {m : Mach} {pc n next : Nat} {rbp r13 w1 w2 ra : BitVec 64} {st : List (BitVec 64)}
    (S : Setup H (P.J t) E t s) (sim : Sim H kp ka m s) (hp : (pc, n) ∈ (P.C t).places) (hd : decode E.code pc = some (.retn, next))
    (lv : Leave P E t pc s s1) (ho : m.outer = (w1 :: w2 :: rbp :: ra :: st, W.rsp (st.length + 2), r13)) (hr : st.length + 4 ≤ W.room) :
    ∃ m1, W.Reach H ((P.image t).addr (pos (P.C t).ops n)) m ra m1 ∧ Sim H kp false m1 s1 ∧ m1.outer = (st, rbp, r13) ∧ Base H P s1 := by
  obtain ⟨⟨s2, hsc, rfl⟩, L1, f0, f1, hcell⟩ := lv
  have hF := follows_image has.method.linked (P.chunk t)
  have hrun := has.method.linked
  have joff := S.joff
  have hseg := has.method.retn hp hd
  rw [has.retn _ _ _ hp hd] at hseg
  obtain ⟨m1, r1, g1, o1, S1, e1, e2⟩ := run_restore (popItems (P.J t)) (P.depth pc) S sim hsc
  obtain ⟨m2, r2, g2, o2⟩ := (sim_leave (J := P.J t) S.host joff g1 S1.frm0 (by rw [e1, S.size]; exact hcell) f0).elim
  rw [r2] at r1
  have hs : Seg (P.C t).ops n (itemOps n n (restoreItems (P.J t) (P.depth pc) ++ popItems (P.J t))) := hseg.left
  have hs2 : Seg (P.C t).ops (n + (restoreItems (P.J t) (P.depth pc) ++ popItems (P.J t)).length) (leaveCalls.map fun c => .raw c.bytes) := by
    have := hseg.right
    rwa [itemOps_length] at this
  have hops : ∀ i ∈ restoreItems (P.J t) (P.depth pc) ++ popItems (P.J t), ∃ c, i = Item.op c := by
    intro i hi
    rcases List.mem_append.1 hi with hi | hi
    · exact restore_ops _ _ i hi
    · simp only [popItems, List.mem_cons, List.not_mem_nil, or_false] at hi
      rcases hi with h | h | h | h | h | h | h | h | h <;> exact ⟨_, h⟩
  have he : ErrsBound (P.C t).ops n (restoreItems (P.J t) (P.depth pc) ++ popItems (P.J t)) := by
    intro j cc e hj
    obtain ⟨c, hc⟩ := hops _ (List.mem_of_getElem? hj)
    cases hc
  obtain ⟨q, hq, hdone, _⟩ := frag (H := H) hrun hF _ n none m (wf_ops hops) hs he (fun l h => nomatch h)
  cases hq
  have t1 := lift ok has.image (hdone _ r1)
  generalize n + (restoreItems (P.J t) (P.depth pc) ++ popItems (P.J t)).length = k at t1 hs2
  have ho2 := o2.trans (o1.trans ho)
  have hst : m2.stack = w1 :: w2 :: rbp :: ra :: st := congrArg Prod.fst ho2
  have h5 : m2.reg 5 = W.rsp (st.length + 2) := congrArg (fun x => x.2.1) ho2
  have h13 : m2.reg 13 = r13 := congrArg (fun x => x.2.2) ho2
  have s0 := world_addRsp hrun ok has.image hF (hs2 0 _ rfl) dec_addRsp m2 hst
  have s1 := world_leave hrun ok has.image hF (pre := [w2]) (st := ra :: st) (x := rbp) (hs2 1 _ rfl) dec_leave
    { m2 with flags := none, stack := w2 :: rbp :: ra :: st } rfl (by show st.length + 3 ≤ _; omega) h5
  have s3 := world_ret (n := k + 1 + 1) hrun ok has.image hF (hs2 2 _ rfl) dec_ret
    (Mach.setReg { m2 with flags := none, stack := ra :: st } 5 rbp) rfl
  refine ⟨_, t1.trans (.step s0 (.step s1 (.step s3 (.here _ _)))), g2.outer, ?_, ?_⟩
  · show (st, rbp, m2.reg 13) = _
    rw [h13]
  · exact ((Base.of has S1).kept (s' := left s2) rfl rfl)

include ok in
/-- Runs with calls in them. -/
theorem trace_ok (FA : FloatsAgree E.floats H.fpu) {d t pc pc' : Nat} {s s' : IState} {kp ka kp' ka' : Bool}
    (tr : Trace H P E W d t pc s kp ka pc' s' kp' ka') : ∀ {n : Nat} {m : Mach}, P.Has E W t → Setup H (P.J t) E t s → Sim H kp ka m s →
    (pc, n) ∈ (P.C t).places → m.stack.length + 4 * d + 8 ≤ W.room →
    ∃ n' m', (pc', n') ∈ (P.C t).places ∧ W.Reach H ((P.image t).addr (pos (P.C t).ops n)) m ((P.image t).addr (pos (P.C t).ops n')) m' ∧
      Sim H kp' ka' m' s' ∧ m'.outer = m.outer ∧ Setup H (P.J t) E t s' := by
  induction tr with
  | none d t pc s kp ka =>
    intro n m has S sim hp _
    exact ⟨n, m, hp, .here _ _, sim, rfl, S⟩
  | @step d t pc pc1 pc' s s1 s' kp ka kp1 ka1 kp' ka' st _ ih =>
    intro n m has S sim hp hr
    obtain ⟨fuel, Q, B, G, blks, fin, f, h1, h2, h3, _, hC, h5⟩ := has.method.parts
    have hl := has.method.linked
    rw [hC] at hl
    obtain ⟨n1, m1, g1, g2, g3, g4, g5⟩ := many_steps H has.method.tables h1 h2 h3 hl (follows_image hl (P.chunk t)) (ok.image _ has.image)
      FA (.more st (.none _ _ _ _)) S sim ((h5 _ _).1 hp)
    rw [← hC] at g2
    obtain ⟨n2, m2, k1, k2, k3, k4, k5⟩ := ih has g5 g3 ((h5 _ _).2 g1)
      (by rw [show m1.stack = m.stack from congrArg Prod.fst g4]; exact hr)
    exact ⟨n2, m2, k1, (lift ok has.image g2).trans k2, k3, k4.trans g4, k5⟩
  | @call d t pc next pr nr pc' u o s s1 s2 s3 s' kp ka kp2 ka2 kp' ka' hd hu hasu en _ hdr lv _ ih1 ih2 =>
    intro n m has S sim hp hr
    obtain ⟨u', junk, hu', hcall⟩ := has.call _ _ _ _ hp hd
    rw [hu] at hu'
    cases hu'
    obtain ⟨hseg, n', p1, p2⟩ := has.method.other hp hd rfl rfl (P.chunk t) H
    rw [hcall] at hseg p2
    have c1 := world_call has.method.linked ok has.image rfl hseg.head m (by omega)
    have sim1 : Sim H kp ka { m with stack := (P.image t).addr (pos (P.C t).ops (n + 1)) :: m.stack } s := sim.outer
    have b := Base.of has S
    obtain ⟨n1, m1, q1, r1, sm1, S1, o1⟩ := enter_ok ok hasu b S.layout en sim1
    have hst1 : m1.stack.length = m.stack.length + 4 := by rw [show m1.stack = _ from congrArg Prod.fst o1]; rfl
    obtain ⟨n2, m2, q2, r2, sm2, o2, S2⟩ := ih1 hasu S1 sm1 q1 (by omega)
    obtain ⟨m3, r3, sm3, o3, b3⟩ := leave_ok (st := m.stack) ok hasu S2 sm2 q2 hdr lv (o2.trans o1) (by omega)
    have sm4 : Sim H kp2 false m3 { s3 with alt := s.alt } :=
      ⟨sm3.pri, nofun, sm3.frm, sm3.ctx, sm3.stk, sm3.dat, sm3.df, sm3.mem, sm3.hpF, sm3.frmF, sm3.scopeF⟩
    have S4 : Setup H (P.J t) E t { s3 with alt := s.alt } := (b3.kept (s' := { s3 with alt := s.alt }) rfl rfl).setup has lv.layout lv.frm0 lv.frm1
    obtain ⟨n5, m5, q5, r5, sm5, o5, S5⟩ := ih2 has S4 sm4 p1 (by rw [show m3.stack = m.stack from congrArg Prod.fst o3]; exact hr)
    refine ⟨n5, m5, q5, ?_, sm5, o5.trans o3, S5⟩
    exact .step c1 (r1.trans (r2.trans (r3.trans ((lift ok has.image (p2 m3)).trans r5))))
end
end Verif.Jit

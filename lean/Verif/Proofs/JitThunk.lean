import Verif.Proofs.JitSwitch
import Verif.Proofs.JitKeep
import Verif.Proofs.JitAll
import Verif.Proofs.JitErr

/-! What follows the blocks of a compiled method: the code that reports errors. -/
namespace Verif.Jit
open Verif.VM hiding Op
open Verif.X64 hiding Pre decode

theorem throwPaths_prefix : ∀ (es : List Nat) (ops : List Op), ops <+: throwPaths ops es
  | [], ops => List.prefix_rfl
  | e :: es, ops => by
    unfold throwPaths
    refine List.IsPrefix.trans ?_ (throwPaths_prefix es _)
    split
    · exact List.prefix_append _ _
    · exact List.prefix_rfl

/-- The parts of `finish`. -/
theorem finish_parts (F : Parts) (a : Acc) : ∃ o1 o3 o5 : List Op, a.ops <+: o1 ∧
    o1 ++ a.stubs.flatMap (stubOps F) ++ (a.thunks ++ F.handlers.2).flatMap thunkOps <+: o3 ∧ o5 = throwPaths o3 throwList ∧
    o5 <+: (finish F a).ops ∧
    (labelUsed o5 (throwLabel 0) = true → o5 ++ .bind (throwLabel 0) :: F.report <+: (finish F a).ops) ∧
    (finish F a).stubs = offsets o1.length (fun s => (stubOps F s).length) a.stubs ∧
    (offsets (o1 ++ a.stubs.flatMap (stubOps F)).length (fun _ => 2) (a.thunks ++ F.handlers.2)).map (fun (n, t) => (n + 2, t.cip)) <+: (finish F a).cips ∧
    (finish F a).places = a.places := by
  refine ⟨a.ops ++ F.handlers.1, a.ops ++ F.handlers.1 ++ a.stubs.flatMap (stubOps F) ++ (a.thunks ++ F.handlers.2).flatMap thunkOps ++
    a.edges.map (fun _ => .call timeoutLabel), _, List.prefix_append _ _, List.prefix_append _ _, rfl, ?_, ?_, rfl, List.prefix_append _ _, rfl⟩
  · unfold finish
    simp only
    refine List.IsPrefix.trans ?_ (List.prefix_append _ _)
    split
    · exact List.prefix_append _ _
    · exact List.prefix_rfl
  · intro h
    unfold finish
    simp only
    rw [if_pos h]
    exact List.prefix_append _ _

theorem finish_prefix (F : Parts) (a : Acc) : a.ops <+: (finish F a).ops := by
  obtain ⟨o1, o3, o5, h1, h2, h3, h4, _⟩ := finish_parts F a
  refine h1.trans (List.IsPrefix.trans ?_ (h2.trans ((h3 ▸ throwPaths_prefix _ _).trans h4)))
  rw [List.append_assoc]
  exact List.prefix_append _ _

theorem offsets_mem {α : Type} (len : α → Nat) (g : α → List Op) (hg : ∀ x, (g x).length = len x) : ∀ (xs : List α) (n : Nat) (x : α), x ∈ xs →
    ∃ q, (q, x) ∈ offsets n len xs ∧ ∀ ops : List Op, Seg ops n (xs.flatMap g) → Seg ops q (g x)
  | [], _, _, h => by cases h
  | y :: xs, n, x, h => by
    rcases List.mem_cons.1 h with rfl | h
    · refine ⟨n, List.mem_cons_self, ?_⟩
      intro ops hs
      rw [List.flatMap_cons] at hs
      exact hs.left
    · obtain ⟨q, h1, h2⟩ := offsets_mem len g hg xs (n + len y) x h
      refine ⟨q, List.mem_cons_of_mem _ h1, ?_⟩
      intro ops hs
      rw [List.flatMap_cons] at hs
      exact h2 ops (by rw [← hg]; exact hs.right)

theorem thunk_at {F : Parts} {a : Acc} {t : Thunk} (h : t ∈ a.thunks) : ∃ q, (q + 2, t.cip) ∈ (finish F a).cips ∧
    Seg (finish F a).ops q (thunkOps t) := by
  obtain ⟨o1, o3, o5, h1, h2, h3, h4, _, _, h5, _⟩ := finish_parts F a
  obtain ⟨q, g1, g2⟩ := offsets_mem (fun _ => 2) thunkOps (fun _ => rfl) (a.thunks ++ F.handlers.2)
    (o1 ++ a.stubs.flatMap (stubOps F)).length t (List.mem_append_left _ h)
  refine ⟨q, h5.subset (List.mem_map.2 ⟨(q, t), g1, rfl⟩), g2 _ ?_⟩
  exact Seg.of_prefix (h2.trans ((h3 ▸ throwPaths_prefix _ _).trans h4))

theorem stub_at {F : Parts} {a : Acc} {t : Stub} (h : t ∈ a.stubs) : ∃ q, (q, t) ∈ (finish F a).stubs ∧
    Seg (finish F a).ops q (stubOps F t) := by
  obtain ⟨o1, o3, o5, h1, h2, h3, h4, _, h6, _, _⟩ := finish_parts F a
  obtain ⟨q, g1, g2⟩ := offsets_mem (fun s => (stubOps F s).length) (stubOps F) (fun _ => rfl) a.stubs o1.length t h
  refine ⟨q, h6 ▸ g1, g2 _ ?_⟩
  refine Seg.of_prefix (List.IsPrefix.trans ?_ (h2.trans ((h3 ▸ throwPaths_prefix _ _).trans h4)))
  exact List.prefix_append _ _

/-! ## Labels stay used -/

theorem used_upd {lab : Nat → BitVec 32} {l k : Nat} {v : BitVec 32} (hv : usedSt v = true) (h : usedSt (lab l) = true) :
    usedSt (upd lab k v l) = true := by
  unfold upd
  split
  · exact hv
  · exact h

theorem usedSt_boundAt (n : Nat) : usedSt (boundAt n) = true := by
  unfold usedSt; rw [boundSt_boundAt]; rfl

theorem used_target {A : Asm} {l k : Nat} (hs : (A.target k).pc ≤ 536870912) (h : usedSt (A.lab l) = true ∨ l = k) : usedSt ((A.target k).lab l) = true := by
  unfold Asm.target at hs ⊢
  split
  · rename_i hb
    rcases h with h | rfl
    · exact h
    · show usedSt (A.lab l) = true
      unfold usedSt; rw [hb]; rfl
  · rename_i hb
    rw [if_neg hb] at hs
    have hpc : A.pc + 4 ≤ 536870912 := by
      have : (A.buf ++ le32 (A.lab k)).length ≤ 536870912 := hs
      rw [List.length_append, le32_length] at this
      exact this
    rcases h with h | rfl
    · exact used_upd (usedSt_pendingAt (by omega) hpc) h
    · show usedSt (upd A.lab l _ l) = true
      unfold upd; rw [if_pos rfl]
      exact usedSt_pendingAt (by omega) hpc

theorem used_small {A : Asm} {l k : Nat} {d : BitVec 8} (hs : A.small k = some d) (h : usedSt (A.lab l) = true ∨ l = k) : usedSt (A.lab l) = true := by
  rcases h with h | rfl
  · exact h
  · unfold Asm.small at hs
    split at hs
    · rename_i hb; unfold usedSt; rw [hb]; rfl
    · cases hs

theorem used_step {A A' : Asm} {op : Op} {l : Nat} (hs : A.step true op = some A') (hpc : A'.pc ≤ 536870912)
    (h : usedSt (A.lab l) = true ∨ (∃ f, op.jump = some (l, f))) : usedSt (A'.lab l) = true := by
  have old : ∀ {op : Op}, op.jump = none → (usedSt (A.lab l) = true ∨ (∃ f, op.jump = some (l, f))) → usedSt (A.lab l) = true := by
    intro op ho h
    rcases h with h | ⟨f, h⟩
    · exact h
    · rw [ho] at h; cases h
  have jmp : ∀ {op : Op} {k f}, op.jump = some (k, f) → (usedSt (A.lab l) = true ∨ (∃ f, op.jump = some (l, f))) → usedSt (A.lab l) = true ∨ l = k := by
    intro op k f ho h
    rcases h with h | ⟨f, h⟩
    · exact .inl h
    · rw [ho] at h; cases h; exact .inr rfl
  cases op with
  | raw bs => cases hs; exact old rfl h
  | jmp k =>
    simp only [Asm.step] at hs
    split at hs
    · rename_i e
      cases hs; exact (used_small e (jmp rfl h) : usedSt (A.lab l) = true)
    · cases hs; exact used_target hpc (jmp rfl h)
  | jmp32 k => cases hs; exact used_target hpc (jmp rfl h)
  | j cc k =>
    simp only [Asm.step] at hs
    split at hs
    · rename_i e
      cases hs; exact (used_small e (jmp rfl h) : usedSt (A.lab l) = true)
    · cases hs; exact used_target hpc (jmp rfl h)
  | j32 cc k => cases hs; exact used_target hpc (jmp rfl h)
  | call k => cases hs; exact used_target hpc (jmp rfl h)
  | bind k =>
    simp only [Asm.step, Asm.bind] at hs
    split at hs
    · cases hs
    · split at hs
      · cases hs
      · cases hs
        exact used_upd (usedSt_boundAt _) (old rfl h)
  | callConst v j =>
    simp only [Asm.step, Asm.ripConst] at hs
    split at hs
    · cases hs
    · split at hs
      · cases hs
      · cases hs; exact old rfl h
  | jmpConst v j =>
    simp only [Asm.step, Asm.ripConst] at hs
    split at hs
    · cases hs
    · split at hs
      · cases hs
      · cases hs; exact old rfl h
  | leaTab r k j =>
    simp only [Asm.step, Asm.leaTab] at hs
    split at hs
    · cases hs
    · split at hs
      · cases hs
      · cases hs; exact old rfl h
  | bindTab k =>
    simp only [Asm.step, Asm.bindTab] at hs
    split at hs
    · cases hs
    · split at hs
      · split at hs
        · cases hs
        · split at hs
          · cases hs
          · cases hs; exact old rfl h
      · cases hs; exact old rfl h
  | abs k =>
    simp only [Asm.step, Asm.abs] at hs
    split at hs
    · cases hs; exact old rfl h
    · split at hs
      · cases hs
      · split at hs
        · cases hs
        · cases hs; exact old rfl h
  | bindAdr k =>
    simp only [Asm.step, Asm.bindAdr] at hs
    split at hs
    · cases hs
    · split at hs
      · split at hs
        · cases hs
        · split at hs
          · cases hs; exact old rfl h
          · cases hs
      · cases hs; exact old rfl h

theorem used_run {l : Nat} : ∀ (ops : List Op) {A A' : Asm}, A.run true ops = some A' → usedSt (A.lab l) = true ∨ (∃ op ∈ ops, ∃ f, op.jump = some (l, f)) → usedSt (A'.lab l) = true
  | [], A, A', h, h0 => by
    cases h
    rcases h0 with h0 | ⟨_, h0, _⟩
    · exact h0
    · cases h0
  | op :: ops, A, A', h, h0 => by
    obtain ⟨C, hC, hs, hr⟩ := run_one h
    refine used_run ops hr ?_
    rcases h0 with h0 | ⟨o, h0, f, hf⟩
    · exact .inl (used_step hC hs (.inl h0))
    · rcases List.mem_cons.1 h0 with rfl | h0
      · exact .inl (used_step hC hs (.inr ⟨f, hf⟩))
      · exact .inr ⟨o, h0, f, hf⟩

theorem used_prefix {ops o : List Op} {A : Asm} {l : Nat} (hrun : Asm.run true {} ops = some A) (hp : o <+: ops)
    {op : Op} {f : Int → Instr} (hc : op ∈ o) (hf : op.jump = some (l, f)) :
    labelUsed o l = true := by
  obtain ⟨t, rfl⟩ := hp
  obtain ⟨B, h1, h2⟩ := run_split hrun
  unfold labelUsed
  rw [h1]
  exact used_run o h1 (.inr ⟨op, hc, f, hf⟩)

theorem throwPaths_mem {ops : List Op} {A : Asm} (hrun : Asm.run true {} ops = some A) : ∀ (es : List Nat) (o : List Op) (e : Nat),
    throwPaths o es <+: ops → e ∈ es → .call (throwLabel e) ∈ o →
    ∃ q, Seg ops q [.bind (throwLabel e), .raw (Call.movlRI 0 (BitVec.ofNat 32 e)).bytes, .jmp (throwLabel 0)] ∧ q + 3 ≤ (throwPaths o es).length
  | [], _, _, _, h, _ => by cases h
  | x :: es, o, e, hp, he, hc => by
    have hp0 := hp
    unfold throwPaths at hp
    by_cases hx : e = x
    · subst hx
      have hu : labelUsed o (throwLabel e) = true := by
        refine used_prefix hrun (List.IsPrefix.trans ?_ hp0) hc rfl
        exact throwPaths_prefix _ _
      rw [if_pos hu] at hp
      refine ⟨o.length, Seg.of_prefix ((throwPaths_prefix es _).trans hp), ?_⟩
      have := (throwPaths_prefix es (o ++ [.bind (throwLabel e), .raw (Call.movlRI 0 (BitVec.ofNat 32 e)).bytes, .jmp (throwLabel 0)])).length_le
      unfold throwPaths
      rw [if_pos hu]
      rw [List.length_append] at this
      exact this
    · have hmem : e ∈ es := (List.mem_cons.1 he).resolve_left hx
      obtain ⟨q, g1, g2⟩ := throwPaths_mem hrun es _ e hp hmem (by split; exact List.mem_append_left _ hc; exact hc)
      exact ⟨q, g1, by unfold throwPaths; exact g2⟩

/-- The label of a thunk is bound in front of a call to the path that reports its error, and that path leads
to `report_error_` with the error in eax. -/
theorem thunk_path {F : Parts} {a : Acc} {A : Asm} {t : Thunk} (hrun : Asm.run true {} (finish F a).ops = some A) (H : Host)
    {red : Nat → Option Nat} {I : Image} (hI : Follows (finish F a).ops A red I) (h : t ∈ a.thunks) (he : t.err ∈ throwList) :
    ∃ q r, (q, t.cip) ∈ (finish F a).cips ∧ Seg (finish F a).ops r (.bind (throwLabel 0) :: F.report) ∧
      ∃ k, (finish F a).ops[k]? = some (.bind t.label) ∧ ∀ m, ∃ m', Reach H I (pos (finish F a).ops k) m (pos (finish F a).ops r) m' ∧
        m'.reg 0 = BitVec.ofNat 64 t.err ∧
        m'.outer = ((I.entry + BitVec.ofNat 64 (pos (finish F a).ops q)) :: m.stack, m.outer.2) ∧
        m'.mem = m.mem ∧ m'.field = m.field := by
  obtain ⟨q, g1, g2⟩ := thunk_at (F := F) h
  obtain ⟨o1, o3, o5, h1, h2, h3, h4, h5, _⟩ := finish_parts F a
  have hin : .call (throwLabel t.err) ∈ o3 := by
    refine h2.subset (List.mem_append_right _ (List.mem_flatMap.2 ⟨t, List.mem_append_left _ h, ?_⟩))
    simp [thunkOps]
  obtain ⟨p, p1, p2⟩ := throwPaths_mem hrun throwList o3 t.err (h3 ▸ h4) he hin
  have hrep : labelUsed o5 (throwLabel 0) = true := by
    refine used_prefix hrun h4 (op := .jmp (throwLabel 0)) ?_ rfl
    have hj := p1 2 _ rfl
    have hlt : p + 2 < o5.length := by rw [h3]; omega
    obtain ⟨t, ht⟩ := h4
    rw [← ht, List.getElem?_append_left hlt] at hj
    exact List.mem_of_getElem? hj
  have p3 : Seg (finish F a).ops o5.length (.bind (throwLabel 0) :: F.report) := Seg.of_prefix (h5 hrep)
  refine ⟨q + 2, o5.length, g1, p3, q, g2.head, ?_⟩
  intro m
  have s1 := cpu_call hrun H hI (m := m) g2.tail.head rfl p1.head
  rw [pos_label hrun g2.head, red_call hI g2.tail.head] at s1
  have hst : ∀ m : Mach, stepCall H (.movlRI 0 (BitVec.ofNat 32 t.err)) m = some (m.setReg 0 ((BitVec.ofNat 32 t.err).setWidth 64)) := fun m => st_movlRI H m 0 _
  obtain ⟨i, hd, hx⟩ := stepCall_some (hst { m with stack := (I.entry + BitVec.ofNat 64 (pos (finish F a).ops (q + 2))) :: m.stack })
  have s2 := cpu_raw hrun H hI p1.tail.head hd hx
  rw [pos_label hrun p1.head] at s2
  have s3 := cpu_jmp hrun H hI (m := { m with stack := (I.entry + BitVec.ofNat 64 (pos (finish F a).ops (q + 2))) :: m.stack }.setReg 0 ((BitVec.ofNat 32 t.err).setWidth 64))
    p1.tail.tail.head rfl p3.head
  rw [red_jmp hI p1.tail.tail.head] at s3
  refine ⟨_, .step s1 (.step s2 (.one s3)), ?_, rfl, rfl, rfl⟩
  have : t.err < 64 := by
    revert he
    generalize t.err = x
    intro he
    simp only [throwList, List.mem_cons, List.not_mem_nil, or_false] at he
    omega
  show (BitVec.ofNat 32 t.err).setWidth 64 = _
  apply BitVec.eq_of_toNat_eq
  simp only [BitVec.toNat_setWidth, BitVec.toNat_ofNat]
  omega

end Verif.Jit

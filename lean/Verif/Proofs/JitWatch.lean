import Verif.Proofs.JitMethod
import Verif.Proofs.JitSwap

/-! The loop edges of a compiled method. -/
namespace Verif.Jit
open Verif.VM hiding Op
open Verif.X64 hiding Pre decode
open Verif.Graph

/-- The edges that the compiler has remembered are long jumps, in order. -/
structure EdgeInv (a : Acc) : Prop where
  long : ∀ e ∈ a.edges, 1 ≤ e.1 ∧ ∃ op, a.ops[e.1 - 1]? = some op ∧ IsLong op
  pw : a.edges.Pairwise fun x y => x.1 < y.1

theorem EdgeInv.le {a : Acc} (h : EdgeInv a) {e : Nat × Nat} (he : e ∈ a.edges) : e.1 ≤ a.ops.length := by
  obtain ⟨h1, op, h2, _⟩ := h.long e he
  have := (List.getElem?_eq_some_iff.1 h2).1
  omega

theorem EdgeInv.grow {a b : Acc} (h : EdgeInv a) (hp : a.ops <+: b.ops) (he : b.edges = a.edges) : EdgeInv b := by
  refine ⟨?_, by rw [he]; exact h.pw⟩
  intro e hm
  rw [he] at hm
  obtain ⟨h1, op, h2, h3⟩ := h.long e hm
  obtain ⟨t, ht⟩ := hp
  refine ⟨h1, op, ?_, h3⟩
  rw [← ht, List.getElem?_append_left (List.getElem?_eq_some_iff.1 h2).1]
  exact h2

theorem EdgeInv.edge {a : Acc} (h : EdgeInv a) {op : Op} (hl : IsLong op) : EdgeInv ((a.add [op]).edge a.ops.length) := by
  have hg : ((a.add [op]).edge a.ops.length).ops = a.ops ++ [op] := rfl
  have he : ((a.add [op]).edge a.ops.length).edges = a.edges ++ [(a.ops.length + 1, a.cip)] := rfl
  refine ⟨?_, ?_⟩
  · intro e hm
    rw [he] at hm
    rcases List.mem_append.1 hm with hm | hm
    · obtain ⟨h1, op', h2, h3⟩ := h.long e hm
      refine ⟨h1, op', ?_, h3⟩
      rw [hg, List.getElem?_append_left (List.getElem?_eq_some_iff.1 h2).1]
      exact h2
    · rw [List.mem_singleton.1 hm]
      refine ⟨by simp, op, ?_, hl⟩
      rw [hg, Nat.add_sub_cancel, List.getElem?_append_right (Nat.le_refl _)]
      simp
  · rw [he, List.pairwise_append]
    refine ⟨h.pw, List.pairwise_singleton _ _, ?_⟩
    intro x hx y hy
    rw [List.mem_singleton.1 hy]
    have := h.le hx
    show x.1 < a.ops.length + 1
    omega

theorem inv_add {a : Acc} (h : EdgeInv a) (o : List Op) : EdgeInv (a.add o) := h.grow (List.prefix_append _ _) rfl
theorem inv_jump {a : Acc} (h : EdgeInv a) (k t : Nat) : EdgeInv (a.jump k t) := by
  unfold Acc.jump
  split
  · exact h
  · split
    · exact h.edge ⟨_, .inl rfl⟩
    · exact inv_add h _
theorem inv_jcmp {a : Acc} (h : EdgeInv a) (k x t : Nat) (c : Cmp) : EdgeInv (a.jcmp k x t c) := by
  unfold Acc.jcmp
  simp only
  split
  · exact inv_add ((inv_add h _).edge ⟨_, .inr ⟨_, rfl⟩⟩) _
  · split
    · exact inv_add (inv_add h _) _
    · exact inv_add (inv_add h _) _

theorem inv_end {code : List Cell} {F : Parts} {k pc pc' : Nat} {b : Blk} {a a' : Acc} {i : Insn} (hi : EdgeInv a)
    (h : emitEnd code F k b pc pc' a i = some a') : EdgeInv a' := by
  have ha : EdgeInv (a.at pc) := hi.grow List.prefix_rfl rfl
  unfold emitEnd at h
  split at h
  · split at h
    · split at h
      · cases h; exact inv_jump ha _ _
      · cases h
    · cases h
  · split at h
    · split at h
      · cases h; exact inv_jcmp ha _ _ _ _
      · cases h
    · cases h
  · split at h
    · split at h
      · split at h
        · cases h; exact inv_add ha _
        · cases h
      · cases h
    · cases h
  · split at h
    · cases h; exact ha.grow (List.prefix_append _ _) rfl
    · cases h
  · cases h

theorem inv_run {code : List Cell} {J : JitEnv} {F : Parts} {k : Nat} {b : Blk} : ∀ (fuel pc : Nat) {a a' : Acc}, EdgeInv a →
    emitRun code J F k b fuel pc a = some a' → EdgeInv a'
  | 0, _, _, _, _, h => by cases h
  | fuel+1, pc, a, a', hi, h => by
    rw [emitRun_eq] at h
    split at h
    · split at h
      · cases h; exact inv_jump hi _ _
      · cases h
    · split at h
      · cases h
      · split at h
        · exact inv_end hi h
        · obtain ⟨a1, h1, h2⟩ := Option.bind_eq_some_iff.1 h
          refine inv_run fuel _ ?_ h2
          have ha : EdgeInv (a.at pc) := hi.grow List.prefix_rfl rfl
          unfold emitPlain at h1
          split at h1
          · cases h1
          · cases h1; exact ha.grow (List.prefix_append _ _) rfl
          · cases h1
            split
            · exact ha.grow (List.prefix_append _ _) rfl
            · exact ha.grow (List.prefix_append _ _) rfl

theorem inv_blocks {code : List Cell} {J : JitEnv} {F : Parts} : ∀ (blks : List Blk) (k : Nat) {a a' : Acc}, EdgeInv a →
    emitBlocks code J F k blks a = some a' → EdgeInv a'
  | [], _, _, _, hi, h => by cases h; exact hi
  | b :: blks, k, a, a', hi, h => by
    unfold emitBlocks at h
    split at h
    · cases h
    · rename_i a1 e
      exact inv_blocks blks (k + 1) (inv_run _ _ (inv_add hi _) e) h

theorem offsets_one {α : Type} : ∀ (xs : List α) (n : Nat), (offsets n (fun _ => 1) xs).map (·.2) = xs ∧
    ∀ e ∈ offsets n (fun _ => 1) xs, n ≤ e.1 ∧ e.1 < n + xs.length
  | [], n => ⟨rfl, by intro e he; cases he⟩
  | x :: xs, n => by
    obtain ⟨h1, h2⟩ := offsets_one xs (n + 1)
    refine ⟨by unfold offsets; rw [List.map_cons, h1], ?_⟩
    intro e he
    unfold offsets at he
    rw [List.length_cons]
    rcases List.mem_cons.1 he with rfl | he
    · simp only; omega
    · have := h2 e he
      omega

/-- The edges of the finished method. -/
theorem finish_edges {F : Parts} {fin : Acc} (h : EdgeInv fin) : EdgesOk (finish F fin).ops (finish F fin).edges ∧
    (finish F fin).edges.map (·.2) = fin.edges ∧
    ∀ e ∈ (finish F fin).edges, (finish F fin).ops[e.1]? = some (.call timeoutLabel) ∧ (e.1 + 1, e.2.2) ∈ (finish F fin).cips := by
  have ho : ∃ o3 : List Op, o3 ++ fin.edges.map (fun _ => .call timeoutLabel) <+: (finish F fin).ops ∧
      (finish F fin).edges = offsets o3.length (fun _ => 1) fin.edges ∧
      ∀ e ∈ (finish F fin).edges, (e.1 + 1, e.2.2) ∈ (finish F fin).cips := by
    refine ⟨fin.ops ++ F.handlers.1 ++ fin.stubs.flatMap (stubOps F) ++ (fin.thunks ++ F.handlers.2).flatMap thunkOps, ?_, rfl, ?_⟩
    · unfold finish
      simp only
      refine List.IsPrefix.trans (throwPaths_prefix throwList _) (List.IsPrefix.trans ?_ (List.prefix_append _ _))
      split
      · exact List.prefix_append _ _
      · exact List.prefix_rfl
    · intro e he
      exact List.mem_append_right _ (List.mem_map.2 ⟨e, he, rfl⟩)
  obtain ⟨o3, h1, h2, h3⟩ := ho
  obtain ⟨g1, g2⟩ := offsets_one fin.edges o3.length
  have hcall : ∀ e ∈ (finish F fin).edges, (finish F fin).ops[e.1]? = some (.call timeoutLabel) := by
    intro e he
    rw [h2] at he
    obtain ⟨k1, k2⟩ := g2 e he
    obtain ⟨t, ht⟩ := h1
    rw [← ht, List.getElem?_append_left (by rw [List.length_append, List.length_map]; omega), List.getElem?_append_right k1, List.getElem?_map,
      List.getElem?_eq_getElem (by omega)]
    rfl
  have hsnd : (finish F fin).edges.map (·.2) = fin.edges := by rw [h2]; exact g1
  refine ⟨⟨?_, ?_, ?_⟩, hsnd, fun e he => ⟨hcall e he, h3 e he⟩⟩
  · intro e he
    obtain ⟨q1, op, q2, q3⟩ := h.long e.2 (by rw [← hsnd]; exact List.mem_map.2 ⟨e, he, rfl⟩)
    obtain ⟨t, ht⟩ := finish_prefix F fin
    refine ⟨q1, op, ?_, q3⟩
    rw [← ht, List.getElem?_append_left (List.getElem?_eq_some_iff.1 q2).1]
    exact q2
  · intro e he
    exact (List.getElem?_eq_some_iff.1 (hcall e he)).1
  · have := h.pw
    rw [← hsnd, List.pairwise_map] at this
    exact this

theorem EdgesOk.sub {ops : List Op} {es es' : List (Nat × Nat × Nat)} (h : EdgesOk ops es) (hs : es'.Sublist es) : EdgesOk ops es' :=
  ⟨fun e he => h.long e (hs.subset he), fun e he => h.tgt e (hs.subset he), h.pw.sublist hs⟩

theorem redOf_mem {es : List (Nat × Nat × Nat)} {n q : Nat} (h : redOf es n = some q) : ∃ c, (q, n + 1, c) ∈ es := by
  unfold redOf at h
  obtain ⟨d, hd, rfl⟩ := Option.map_eq_some_iff.1 h
  have hmem := List.mem_of_find?_eq_some hd
  have heq : d.2.1 = n + 1 := by have := List.find?_some hd; simpa using this
  obtain ⟨a, b, c⟩ := d
  simp only at heq
  subst heq
  exact ⟨c, hmem⟩

/-- Only one edge belongs to a jump. -/
theorem edge_unique {ops : List Op} {es : List (Nat × Nat × Nat)} (h : EdgesOk ops es) {a b : Nat × Nat × Nat} (ha : a ∈ es) (hb : b ∈ es)
    (he : a.2.1 = b.2.1) : a = b := by
  have : ∀ (es : List (Nat × Nat × Nat)), es.Pairwise (fun a b => a.2.1 < b.2.1) → a ∈ es → b ∈ es → a = b := by
    intro es
    induction es with
    | nil => intro _ h; cases h
    | cons x xs ih =>
      intro hp ha hb
      obtain ⟨h1, h2⟩ := List.pairwise_cons.1 hp
      rcases List.mem_cons.1 ha with ea | ha' <;> rcases List.mem_cons.1 hb with eb | hb'
      · rw [ea, eb]
      · have := h1 b hb'; rw [← ea] at this; omega
      · have := h1 a ha'; rw [← eb] at this; omega
      · exact ih h2 ha' hb'
  exact this es h.pw ha hb

section
variable {code : List Cell} {start fuel : Nat} {P : Pre} {B : Build} {G : Verif.Cfg.Analysis} {blks : List Blk}
variable {J : JitEnv} {F : Parts} {fin : Acc} {f : Nat → Nat}
variable {A : Asm} (H : Host) {red : Nat → Option Nat} {I : Image}

theorem decode_lt {pc nx : Nat} {i : Insn} (hd : decode code pc = some (i, nx)) : pc < code.length := by
  rw [← Nat.not_le]
  intro hh
  unfold decode at hd
  rw [List.getElem?_eq_none hh] at hd
  cases hd

theorem LiveAt.bounds (hn : NoNegativeTable code start) (hb : build code start fuel = .ok (P, B, G)) {k pc n : Nat}
    (h : LiveAt code P B G.order blks J F fin f k pc n) : k < blks.length ∧ pc < code.length := by
  obtain ⟨bs, c, R, at', _⟩ := h
  obtain ⟨nxt, hok⟩ := at'.node.insnOk hn hb at'.on
  obtain ⟨i', hd'⟩ := hok.dec
  exact ⟨(List.getElem?_eq_some_iff.1 at'.node.blk).1, decode_lt hd'⟩

/-- A counted number of instructions, in code of which some jumps lead elsewhere. -/
theorem watched_steps {E : Env} {method : Nat} (hn : NoNegativeTable E.code start) (hb : build E.code start fuel = .ok (P, B, G))
    (hbl : blocksOf start B G.order G.order = some blks)
    (hf : ∀ (k : Nat) (b : Blk), blks[k]? = some b → Emitted E.code J F fin k b (f k) (f (k + 1)))
    (hrun : Asm.run true {} (finish F fin).ops = some A) (hI : Follows (finish F fin).ops A red I) (ok : ImageOk H I)
    (FA : FloatsAgree E.floats H.fpu)
    {count pc pc2 : Nat} {s s' : IState} {kp ka kp' ka' : Bool} (st : StepsN H J E method count pc s kp ka pc2 s' kp' ka') :
    ∀ {k n : Nat} {m : Mach}, Setup H J E method s → Sim H kp ka m s → LiveAt E.code P B G.order blks J F fin f k pc n →
    (∃ k2 n' m', LiveAt E.code P B G.order blks J F fin f k2 pc2 n' ∧ Reach H I (pos (finish F fin).ops n) m (pos (finish F fin).ops n') m' ∧
      Sim H kp' ka' m' s' ∧ m'.outer = m.outer ∧
      (NoHiddenLoop E.code (finish F fin) blks → (∀ e ∈ fin.edges, red (e.1 - 1) ≠ none) →
        k * (E.code.length + 1) + pc + count ≤ k2 * (E.code.length + 1) + pc2)) ∨
    (∃ count1 pc1 pc3 s1 s3 kp1 ka1 kp3 ka3 n0 q m', StepsN H J E method count1 pc s kp ka pc1 s1 kp1 ka1 ∧
      Step H J E method pc1 s1 kp1 ka1 pc3 s3 kp3 ka3 ∧ count1 < count ∧
      (n0 + 1, pc1) ∈ fin.edges ∧ red n0 = some q ∧ Reach H I (pos (finish F fin).ops n) m (pos (finish F fin).ops q) m' ∧
      Sim H kp3 ka3 m' s3 ∧ m'.outer = m.outer) := by
  induction st with
  | none pc s kp ka => intro k n m S sim hl; exact .inl ⟨k, n, m, hl, .here _ _, sim, rfl, fun _ _ => Nat.le_refl _⟩
  | more h1 _ ih =>
    intro k n m S sim hl
    rcases one_step H hn hb hbl hf hrun hI ok S FA sim hl h1 with ⟨k1, n1, m1, a1, a2, a3, a4, a5, a6⟩ | ⟨n0, q, m', b1, b2, b3, b4, b5⟩
    · rcases ih a5 a3 a1 with ⟨k2, n2, m2, c1, c2, c3, c4, c5⟩ | ⟨count1, pc1, pc3, s1, s3, kp1, ka1, kp3, ka3, n0, q, m', c1, c2, c3, c4, c5, c6, c7, c8⟩
      · refine .inl ⟨k2, n2, m2, c1, a2.trans c2, c3, c4.trans a4, ?_⟩
        intro g1 g2
        have h5 := c5 g1 g2
        rename_i count pc pc' pc'' _ _ _ _ _ _ _ _ _ _
        have hpc : pc < E.code.length + 1 := by
          obtain ⟨i, nx, ctl, hd, _⟩ := h1.ex
          have := decode_lt hd
          omega
        rcases a6 g1 g2 with ⟨rfl, h6⟩ | h6
        · omega
        · have : (k + 1) * (E.code.length + 1) ≤ k1 * (E.code.length + 1) := Nat.mul_le_mul_right _ h6
          rw [Nat.add_mul, Nat.one_mul] at this
          omega
      · exact .inr ⟨count1 + 1, pc1, pc3, s1, s3, kp1, ka1, kp3, ka3, n0, q, m', .more h1 c1, c2, by omega, c4, c5, a2.trans c6, c7, c8.trans a4⟩
    · exact .inr ⟨0, _, _, _, _, _, _, _, _, n0, q, m', .none _ _ _ _, h1, by omega, b1, b2, b3, b4, b5⟩

end

theorem _root_.Verif.X64.ImageOk.same {H : Host} {A : Asm} {chunk : BitVec 64} {bytes : List Byte} (h : ImageOk H (A.toImage chunk)) (hl : bytes.length = (A.image chunk).length) :
    ImageOk H ⟨bytes, chunk, A.table.length * 8⟩ :=
  ⟨by show bytes.length < _; rw [hl]; exact h.fits, fun p hp => h.apart p (by show p < (A.image chunk).length; rw [← hl]; exact hp)⟩

/-- The edges of a compiled method, and the code after some of them have been exchanged. -/
theorem patched_follows {F : Parts} {fin : Acc} {A : Asm} {chunk : BitVec 64} {les : List LoopEdge} {I : Image} (h : EdgeInv fin)
    (hrun : Asm.run true {} (finish F fin).ops = some A) (hp : Patched (finish F fin) A chunk les I) :
    ∃ es : List (Nat × Nat × Nat), es.Sublist (finish F fin).edges ∧ les = es.map (edgeOf (finish F fin).ops) ∧
      Follows (finish F fin).ops A (redOf es) I ∧ (∀ H, ImageOk H (A.toImage chunk) → ImageOk H I) := by
  obtain ⟨hs, bytes, old, h1, rfl⟩ := hp
  obtain ⟨es, h2, h3⟩ : ∃ es : List (Nat × Nat × Nat), es.Sublist (finish F fin).edges ∧ les = es.map (edgeOf (finish F fin).ops) :=
    List.sublist_map_iff.1 hs
  have eo := (finish_edges (F := F) h).1.sub h2
  subst h3
  have S := swapped _ h1 (edges_sep hrun eo)
  exact ⟨es, h2, rfl, follows_patched hrun eo chunk h1, fun H ok => ok.same S.len⟩

section
variable {H : Host} {J : JitEnv} {F : Parts} {E : Env} {method : Nat} {A : Asm}

theorem StepsN.steps {J : JitEnv} {count pc pc' : Nat} {s s' : IState} {kp ka kp' ka' : Bool} (h : StepsN H J E method count pc s kp ka pc' s' kp' ka') :
    Steps H J E method pc s kp ka pc' s' kp' ka' := by
  induction h with
  | none => exact .none _ _ _ _
  | more h1 _ ih => exact .more h1 ih

theorem start_inv {code : List Cell} {blks : List Blk} {fin : Acc}
    (h : emitBlocks code J F 0 blks { ops := F.prologue.1, thunks := F.prologue.2 } = some fin) : EdgeInv fin :=
  inv_blocks blks 0 ⟨fun _ he => (List.not_mem_nil he).elim, List.Pairwise.nil⟩ h

theorem stopped {code : List Cell} {blks : List Blk} {fin : Acc}
    (h : emitBlocks code J F 0 blks { ops := F.prologue.1, thunks := F.prologue.2 } = some fin)
    (hrun : Asm.run true {} (finish F fin).ops = some A) {I : Image} {es : List (Nat × Nat × Nat)} (hs : es.Sublist (finish F fin).edges)
    (hI : Follows (finish F fin).ops A (redOf es) I) {r : Nat} (hr : (finish F fin).ops[r]? = some (.bind timeoutLabel))
    {count count1 pc pc1 pc2 n n0 q : Nat} {s s1 s2 : IState} {kp ka kp1 ka1 kp2 ka2 : Bool} {m m' : Mach}
    (h1 : StepsN H J E method count1 pc s kp ka pc1 s1 kp1 ka1) (h2 : Step H J E method pc1 s1 kp1 ka1 pc2 s2 kp2 ka2) (h3 : count1 < count)
    (h4 : (n0 + 1, pc1) ∈ fin.edges) (h5 : redOf es n0 = some q) (h6 : Reach H I (pos (finish F fin).ops n) m (pos (finish F fin).ops q) m')
    (h7 : Sim H kp2 ka2 m' s2) (h8 : m'.outer = m.outer) : Stopped H J E method (finish F fin) I r count pc s kp ka n m := by
  obtain ⟨eo, e2, e3⟩ := finish_edges (F := F) (start_inv h)
  obtain ⟨c, hc⟩ := redOf_mem h5
  have hc := hs.subset hc
  obtain ⟨d, hd, e4⟩ := List.mem_map.1 (e2 ▸ h4)
  have := edge_unique eo hc hd (by rw [e4])
  subst this
  cases e4
  obtain ⟨g1, g2⟩ := e3 _ hc
  have s1 := cpu_call hrun H hI (m := m') g1 rfl hr
  rw [red_call hI g1, Option.getD_none] at s1
  refine ⟨count1, pc1, pc2, _, s2, kp1, ka1, kp2, ka2, q + 1, _, h1, h2, h3, g2, h6.trans (.one s1), ?_, ?_⟩
  · exact { h7 with }
  · show (_ :: m'.stack, m'.outer.2) = _
    rw [h8, show m'.stack = m.stack from congrArg Prod.fst h8]

end

end Verif.Jit

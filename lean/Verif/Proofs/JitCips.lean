import Verif.Model.JitTrace
import Verif.Proofs.JitCalls
import Verif.Proofs.JitSwap

/-! The map from addresses to instructions has one entry for an address. -/
namespace Verif.Jit
open Verif.VM hiding Op
open Verif.X64 hiding Pre decode
open Verif.Graph

/-- How long the code of a call is. -/
def callLen (code : List Cell) (F : Parts) (pc : Nat) : Nat :=
  match decode code pc with
  | some (.call _, _) => (F.other pc).1.length
  | _ => 0

/-- Instructions are emitted one after the other. -/
structure Sorted (code : List Cell) (F : Parts) (a : Acc) : Prop where
  pw : a.places.Pairwise fun p q => p.2 + callLen code F p.1 ≤ q.2
  le : ∀ p ∈ a.places, p.2 + callLen code F p.1 ≤ a.ops.length

section
variable {code : List Cell} {J : JitEnv} {F : Parts}

theorem Sorted.grow {a b : Acc} (h : Sorted code F a) (hp : b.places = a.places) (hl : a.ops.length ≤ b.ops.length) : Sorted code F b :=
  ⟨hp ▸ h.pw, fun p hm => Nat.le_trans (h.le p (hp ▸ hm)) hl⟩

theorem Sorted.at {a b : Acc} {pc : Nat} (h : Sorted code F a) (hp : b.places = (a.at pc).places) (hl : a.ops.length + callLen code F pc ≤ b.ops.length) :
    Sorted code F b := by
  constructor
  · rw [hp]
    show (a.places ++ [_]).Pairwise _
    rw [List.pairwise_append]
    refine ⟨h.pw, List.pairwise_singleton _ _, ?_⟩
    intro p hm q hq
    rw [List.mem_singleton.1 hq]
    exact h.le p hm
  · intro p hm
    rw [hp] at hm
    rcases List.mem_append.1 hm with hm | hm
    · have := h.le p hm
      omega
    · rw [List.mem_singleton.1 hm]
      exact hl

theorem jump_places (a : Acc) (k t : Nat) : (a.jump k t).places = a.places := by
  unfold Acc.jump; split
  · rfl
  · split <;> rfl

theorem plain_places {pc : Nat} {a a' : Acc} {i : Insn} (h : emitPlain J F pc a i = some a') : a'.places = (a.at pc).places := by
  unfold emitPlain at h
  split at h
  · cases h
  · cases h; rfl
  · cases h; split <;> rfl

theorem sorted_run {k : Nat} {b : Blk} : ∀ (fuel pc : Nat) {a a' : Acc}, emitRun code J F k b fuel pc a = some a' → Sorted code F a → Sorted code F a'
  | 0, _, _, _, h, _ => by cases h
  | fuel+1, pc, a, a', h, hs => by
    rw [emitRun_eq] at h
    split at h
    · split at h
      · cases h
        exact hs.grow (jump_places _ _ _) (le_jump _ _ _).ops.length_le
      · cases h
    · split at h
      · cases h
      · rename_i i pc' hd
        split at h
        · rename_i hi
          obtain ⟨h1, h2⟩ := le_end h
          refine hs.at h2 ?_
          have : callLen code F pc = 0 := by
            unfold callLen
            rw [hd]
            cases i <;> first | rfl | cases hi
          rw [this]
          exact h1.ops.length_le
        · obtain ⟨a1, h1, h2⟩ := Option.bind_eq_some_iff.1 h
          refine sorted_run fuel _ h2 (hs.at (plain_places h1) ?_)
          by_cases hc : ∃ o, i = .call o
          · obtain ⟨o, rfl⟩ := hc
            have e : callLen code F pc = (F.other pc).1.length := by unfold callLen; rw [hd]
            unfold emitPlain at h1
            simp only [jit, Option.some.injEq] at h1
            subst h1
            show _ ≤ (a.ops ++ (F.other pc).1).length
            rw [List.length_append, e]
            exact Nat.le_refl _
          · have : callLen code F pc = 0 := by
              unfold callLen
              rw [hd]
              cases i <;> first | rfl | exact absurd ⟨_, rfl⟩ hc
            rw [this]
            exact (le_plain h1).ops.length_le

theorem sorted_blocks : ∀ (blks : List Blk) (k : Nat) {a a' : Acc}, emitBlocks code J F k blks a = some a' → Sorted code F a → Sorted code F a'
  | [], _, _, _, h, hs => by cases h; exact hs
  | b :: blks, k, a, a', h, hs => by
    unfold emitBlocks at h
    split at h
    · cases h
    · rename_i a1 e
      exact sorted_blocks blks (k + 1) h (sorted_run _ _ e (hs.grow rfl (le_add _ _).ops.length_le))

end

/-- Two members of a list that is ordered strictly by a number are the same if the numbers are. -/
theorem pairwise_inj {α : Type} {f : α → Nat} : ∀ {l : List α}, l.Pairwise (fun x y => f x < f y) → ∀ x ∈ l, ∀ y ∈ l, f x = f y → x = y
  | [], _, x, hx, _, _, _ => by cases hx
  | a :: l, h, x, hx, y, hy, e => by
    obtain ⟨h1, h2⟩ := List.pairwise_cons.1 h
    rcases List.mem_cons.1 hx with ex | hx' <;> rcases List.mem_cons.1 hy with ey | hy'
    · rw [ex, ey]
    · have := h1 y hy'; rw [ex] at e; omega
    · have := h1 x hx'; rw [ey] at e; omega
    · exact pairwise_inj h2 x hx' y hy' e

theorem offsets_bounds {α : Type} (len : Nat) : ∀ (xs : List α) (n : Nat), ∀ e ∈ offsets n (fun _ => len) xs, n ≤ e.1 ∧ e.1 + len ≤ n + len * xs.length
  | [], _, _, h => by cases h
  | x :: xs, n, e, h => by
    rcases List.mem_cons.1 h with rfl | h
    · simp only [List.length_cons, Nat.mul_add, Nat.mul_one]; omega
    · have := offsets_bounds len xs (n + len) e h
      simp only [List.length_cons, Nat.mul_add, Nat.mul_one]; omega

theorem offsets_pw {α : Type} (len : Nat) (hl : 0 < len) : ∀ (xs : List α) (n : Nat), (offsets n (fun _ => len) xs).Pairwise fun a b => a.1 < b.1
  | [], _ => List.Pairwise.nil
  | x :: xs, n => by
    refine List.pairwise_cons.2 ⟨?_, offsets_pw len hl xs _⟩
    intro e he
    have : n + len ≤ e.1 := (offsets_bounds len xs _ e he).1
    show n < _
    omega

theorem offsets_seg {α : Type} (len : Nat) (g : α → List Op) (hg : ∀ x, (g x).length = len) : ∀ (xs : List α) (n : Nat) (ops : List Op),
    Seg ops n (xs.flatMap g) → ∀ e ∈ offsets n (fun _ => len) xs, Seg ops e.1 (g e.2)
  | [], _, _, _, _, h => by cases h
  | x :: xs, n, ops, hs, e, h => by
    rw [List.flatMap_cons] at hs
    rcases List.mem_cons.1 h with rfl | h
    · exact hs.left
    · exact offsets_seg len g hg xs _ ops (by rw [← hg x]; exact hs.right) e h

section
variable {code : List Cell} {J : JitEnv} {F : Parts} {start : Nat} {C : Compiled} {A : Asm}

/-- The entries that `finish` makes: they are in order, after the code of the blocks, and each is just after a call. -/
theorem finish_cips (F : Parts) (a : Acc) : (finish F a).cips.Pairwise (fun x y => x.1 < y.1) ∧
    ∀ e ∈ (finish F a).cips, a.ops.length < e.1 ∧ ∃ l, (finish F a).ops[e.1 - 1]? = some (.call l) := by
  have hpre : a.ops ++ F.handlers.1 ++ a.stubs.flatMap (stubOps F) ++ (a.thunks ++ F.handlers.2).flatMap thunkOps ++ a.edges.map (fun _ => .call timeoutLabel) <+: (finish F a).ops := by
    unfold finish
    simp only
    refine List.IsPrefix.trans ?_ (List.prefix_append _ _)
    refine List.IsPrefix.trans (throwPaths_prefix throwList _) ?_
    split
    · exact List.prefix_append _ _
    · exact List.prefix_rfl
  have hl3 : ((a.thunks ++ F.handlers.2).flatMap thunkOps).length = 2 * (a.thunks ++ F.handlers.2).length := by
    generalize a.thunks ++ F.handlers.2 = l
    induction l with
    | nil => rfl
    | cons x l ih => rw [List.flatMap_cons, List.length_append, ih, List.length_cons]; show 2 + _ = _; omega
  have hle : a.ops.length ≤ (a.ops ++ F.handlers.1 ++ a.stubs.flatMap (stubOps F)).length := by
    rw [List.append_assoc, List.length_append]; omega
  have hseg : Seg (finish F a).ops (a.ops ++ F.handlers.1 ++ a.stubs.flatMap (stubOps F)).length
      ((a.thunks ++ F.handlers.2).flatMap thunkOps ++ a.edges.map (fun _ => .call timeoutLabel)) := by
    refine Seg.of_prefix ?_
    rw [← List.append_assoc]
    exact hpre
  have heq : (finish F a).cips = (offsets (a.ops ++ F.handlers.1 ++ a.stubs.flatMap (stubOps F)).length (fun _ => 2) (a.thunks ++ F.handlers.2)).map (fun (n, t) => (n + 2, t.cip)) ++
      (offsets ((a.ops ++ F.handlers.1 ++ a.stubs.flatMap (stubOps F)) ++ (a.thunks ++ F.handlers.2).flatMap thunkOps).length (fun _ => 1) a.edges).map (fun (n, e) => (n + 1, e.2)) := rfl
  rw [heq]
  generalize hn : (a.ops ++ F.handlers.1 ++ a.stubs.flatMap (stubOps F)) = o2 at *
  have hr := hseg.right
  rw [← List.length_append] at hr
  have e3 : (o2 ++ (a.thunks ++ F.handlers.2).flatMap thunkOps).length = o2.length + 2 * (a.thunks ++ F.handlers.2).length := by rw [List.length_append, hl3]
  have hmapseg : a.edges.map (fun _ => Op.call timeoutLabel) = a.edges.flatMap (fun _ => [Op.call timeoutLabel]) := by
    generalize a.edges = l
    induction l with
    | nil => rfl
    | cons x l ih => rw [List.map_cons, List.flatMap_cons, ih]; rfl
  rw [hmapseg] at hr
  constructor
  · rw [List.pairwise_append]
    refine ⟨?_, ?_, ?_⟩
    · rw [List.pairwise_map]
      exact (offsets_pw 2 (by decide) _ _).imp fun h => Nat.add_lt_add_right h 2
    · rw [List.pairwise_map]
      exact (offsets_pw 1 (by decide) _ _).imp fun h => Nat.add_lt_add_right h 1
    · intro x hx y hy
      obtain ⟨x, hx', rfl⟩ := List.mem_map.1 hx
      obtain ⟨y, hy', rfl⟩ := List.mem_map.1 hy
      have h1 := (offsets_bounds 2 _ _ x hx').2
      have h2 := (offsets_bounds 1 _ _ y hy').1
      show x.1 + 2 < y.1 + 1
      omega
  · intro e he
    rcases List.mem_append.1 he with he | he
    · obtain ⟨x, hx, rfl⟩ := List.mem_map.1 he
      have h1 := (offsets_bounds 2 _ _ x hx).1
      have h2 := offsets_seg 2 thunkOps (fun _ => rfl) _ _ _ hseg.left x hx
      exact ⟨by show _ < x.1 + 2; omega, _, h2.tail.head⟩
    · obtain ⟨x, hx, rfl⟩ := List.mem_map.1 he
      have h1 := (offsets_bounds 1 _ _ x hx).1
      have h2 := offsets_seg 1 (fun _ => [Op.call timeoutLabel]) (fun _ => rfl) _ _ _ hr x hx
      exact ⟨by show _ < x.1 + 1; omega, _, h2.head⟩

theorem call_grows {ops : List Op} {A : Asm} (hrun : Asm.run true {} ops = some A) {n : Nat} {op : Op} (h : ops[n]? = some op)
    (hop : (∃ l, op = .call l) ∨ ∃ v junk, op = .callConst v junk) : pos ops n < pos ops (n + 1) := by
  obtain ⟨B, C, h1, e2, hC, hs, e3, _⟩ := pos_step hrun h
  obtain ⟨ch, sl, k⟩ := later_run _ inv_init h1
  rw [e2, e3]
  rcases hop with ⟨l, rfl⟩ | ⟨v, junk, rfl⟩
  · simp only [Asm.step, Option.some.injEq] at hC
    rw [← hC, target_pc, add_pc]
    show _ < _ + 1 + 4
    omega
  · simp only [Asm.step, call_bytes] at hC
    have := (ripConst_step k.inv _ junk v rfl hC hs).2.1
    omega

/-- All entries of the map, by call number. -/
theorem cips_ok (H : Host) (M : Method code J F start C A)
    (hcall : ∀ pc n o next, (pc, n) ∈ C.places → decode code pc = some (.call o, next) → ∃ v junk, F.other pc = callOf v junk) :
    (∀ e ∈ callCips code F C.places ++ C.cips, pos C.ops (e.1 - 1) < pos C.ops e.1 ∧ e.1 ≤ C.ops.length ∧ 1 ≤ e.1) ∧
    ∀ e ∈ callCips code F C.places ++ C.cips, ∀ e' ∈ callCips code F C.places ++ C.cips, e.1 = e'.1 → e.2 = e'.2 := by
  obtain ⟨fuel, P, B, G, blks, h1, h2, h3⟩ := M.compiled
  obtain ⟨fin, f, h4, _, _, hC, _⟩ := compiled_parts M.tables h1 h2 h3
  have hs : Sorted code F fin := sorted_blocks _ _ h4 ⟨List.Pairwise.nil, fun p hp => by cases hp⟩
  obtain ⟨hpw, hend⟩ := finish_cips F fin
  have hpl : C.places = fin.places := by rw [hC]; rfl
  rw [← hC] at hpw hend
  have isCall : ∀ e ∈ callCips code F C.places, ∃ n o next, (e.2, n) ∈ C.places ∧ decode code e.2 = some (.call o, next) ∧ e.1 = n + 1 := by
    intro e he
    obtain ⟨⟨pc, n⟩, hm, h⟩ := List.mem_filterMap.1 he
    simp only at h
    split at h
    · rename_i o next hd
      obtain rfl := Option.some.inj h
      obtain ⟨v, junk, hv⟩ := hcall pc n o next hm hd
      exact ⟨n, o, next, hm, hd, by simp only [hv]; rfl⟩
    · cases h
  have callIdx : ∀ e ∈ callCips code F C.places, e.1 ≤ fin.ops.length := by
    intro e he
    obtain ⟨n, o, next, hm, hd, e1⟩ := isCall e he
    have := hs.le _ (hpl ▸ hm)
    unfold callLen at this
    obtain ⟨v, junk, hv⟩ := hcall _ n o next hm hd
    rw [hd] at this
    simp only [hv] at this
    have : n + 1 ≤ fin.ops.length := this
    omega
  constructor
  · intro e he
    rcases List.mem_append.1 he with he | he
    · obtain ⟨n, o, next, hm, hd, e1⟩ := isCall e he
      obtain ⟨v, junk, hv⟩ := hcall _ n o next hm hd
      obtain ⟨hseg, _⟩ := M.other hm hd rfl rfl 0 H
      rw [hv] at hseg
      have := call_grows M.linked hseg.head (.inr ⟨v, junk, rfl⟩)
      have := (List.getElem?_eq_some_iff.1 hseg.head).1
      rw [e1]
      exact ⟨by rw [Nat.add_sub_cancel]; assumption, this, by omega⟩
    · obtain ⟨g1, l, g2⟩ := hend e he
      have := call_grows M.linked g2 (.inl ⟨l, rfl⟩)
      have h5 := (List.getElem?_eq_some_iff.1 g2).1
      rw [Nat.sub_add_cancel (by omega)] at this
      exact ⟨this, by omega, by omega⟩
  · intro e he e' he' hee
    rcases List.mem_append.1 he with he | he <;> rcases List.mem_append.1 he' with he' | he'
    · obtain ⟨n, o, next, hm, hd, e1⟩ := isCall e he
      obtain ⟨n', o', next', hm', hd', e1'⟩ := isCall e' he'
      have hn : n = n' := by omega
      subst hn
      obtain ⟨v, junk, hv⟩ := hcall _ n o next hm hd
      obtain ⟨v', junk', hv'⟩ := hcall _ n o' next' hm' hd'
      have l1 : callLen code F e.2 = 1 := by unfold callLen; rw [hd]; simp only [hv]; rfl
      have l2 : callLen code F e'.2 = 1 := by unfold callLen; rw [hd']; simp only [hv']; rfl
      obtain ⟨i, hi, ei⟩ := List.mem_iff_getElem.1 (hpl ▸ hm)
      obtain ⟨j, hj, ej⟩ := List.mem_iff_getElem.1 (hpl ▸ hm')
      have key := List.pairwise_iff_getElem.1 hs.pw
      rcases Nat.lt_trichotomy i j with h | h | h
      · have := key i j hi hj h
        rw [ei, ej] at this
        simp only [l1] at this
        omega
      · subst h
        rw [ei] at ej
        exact congrArg Prod.fst ej
      · have := key j i hj hi h
        rw [ei, ej] at this
        simp only [l2] at this
        omega
    · have := callIdx e he
      have := (hend e' he').1
      omega
    · have := callIdx e' he'
      have := (hend e he).1
      omega
    · exact congrArg Prod.snd (pairwise_inj (f := Prod.fst) hpw e he e' he' hee)

/-- And by address. -/
theorem cips_inj (H : Host) (M : Method code J F start C A)
    (hcall : ∀ pc n o next, (pc, n) ∈ C.places → decode code pc = some (.call o, next) → ∃ v junk, F.other pc = callOf v junk)
    {e e' : Nat × Nat} (he : e ∈ callCips code F C.places ++ C.cips) (he' : e' ∈ callCips code F C.places ++ C.cips)
    (h : pos C.ops e.1 = pos C.ops e'.1) : e.2 = e'.2 := by
  obtain ⟨h1, h2⟩ := cips_ok H M hcall
  obtain ⟨a1, a2, a3⟩ := h1 e he
  obtain ⟨b1, b2, b3⟩ := h1 e' he'
  refine h2 e he e' he' ?_
  rcases Nat.lt_trichotomy e.1 e'.1 with hlt | heq | hlt
  · have := pos_le M.linked (i := e.1) (j := e'.1 - 1) (by omega) (by omega)
    omega
  · exact heq
  · have := pos_le M.linked (i := e'.1) (j := e.1 - 1) (by omega) (by omega)
    omega

/-- What the map gives for the address of an entry. -/
theorem find_ok (H : Host) (M : Method code J F start C A) (chunk : BitVec 64)
    (hcall : ∀ pc n o next, (pc, n) ∈ C.places → decode code pc = some (.call o, next) → ∃ v junk, F.other pc = callOf v junk)
    (hfit : (A.toImage chunk).entry.toNat + ((A.toImage chunk).bytes.length - (A.toImage chunk).start) < 18446744073709551616)
    {q pc : Nat} (he : (q, pc) ∈ callCips code F C.places ++ C.cips) :
    findCip (A.toImage chunk).entry ((A.toImage chunk).bytes.length - (A.toImage chunk).start) (C.cipMap code F) ((A.toImage chunk).addr (pos C.ops q)) = some (pc * 4) := by
  obtain ⟨h1, _⟩ := cips_ok H M hcall
  obtain ⟨a1, a2, a3⟩ := h1 _ he
  simp only at a1 a2 a3
  have hop : ∃ op, C.ops[q - 1]? = some op := ⟨_, List.getElem?_eq_getElem (by omega)⟩
  obtain ⟨op, hop⟩ := hop
  obtain ⟨_, _, _, _, _, hs, e3, _, _, hbuf⟩ := pos_step M.linked hop
  rw [Nat.sub_add_cancel a3] at e3
  rw [← e3] at hs hbuf
  have hlen : (A.toImage chunk).bytes.length - (A.toImage chunk).start = A.buf.length := by
    show (A.image chunk).length - A.table.length * 8 = _
    rw [image_length]; omega
  rw [hlen] at hfit ⊢
  generalize hE : (A.toImage chunk).entry = entry at *
  have hpos : pos C.ops q < 18446744073709551616 := by omega
  have hb : 1 ≤ pos C.ops q := by omega
  have hsum : ((A.toImage chunk).addr (pos C.ops q) - entry).toNat = pos C.ops q := by
    unfold Image.addr
    rw [hE, BitVec.add_comm, BitVec.add_sub_cancel, BitVec.toNat_ofNat, Nat.mod_eq_of_lt hpos]
  unfold findCip
  rw [hsum]
  have hge : ¬ ((A.toImage chunk).addr (pos C.ops q)).toNat < entry.toNat := by
    unfold Image.addr
    rw [hE, BitVec.toNat_add, BitVec.toNat_ofNat, Nat.mod_eq_of_lt hpos]
    have := entry.isLt
    rw [Nat.mod_eq_of_lt (by omega)]
    omega
  have hm : pos C.ops q % 4294967296 = pos C.ops q := Nat.mod_eq_of_lt (by omega)
  rw [if_neg hge, hm, if_neg (by omega)]
  have hmem : (pos C.ops q, pc * 4) ∈ C.cipMap code F := List.mem_map.2 ⟨(q, pc), he, rfl⟩
  cases hf : (C.cipMap code F).find? fun e => decide (e.1 = pos C.ops q) with
  | none =>
    have := List.find?_eq_none.1 hf _ hmem
    simp at this
  | some e =>
    have h3 : e.1 = pos C.ops q := by simpa using List.find?_some hf
    obtain ⟨x, hx, rfl⟩ := List.mem_map.1 (List.mem_of_find?_eq_some hf)
    have := cips_inj H M hcall hx he h3
    simp only at this ⊢
    rw [this]
end
end Verif.Jit

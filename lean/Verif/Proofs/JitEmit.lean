import Verif.Proofs.JitGraph
import Verif.Proofs.JitFrag

/-! What the compiler has emitted where. -/
namespace Verif.Jit
open Verif.VM hiding Op
open Verif.X64 hiding Pre decode
open Verif.Graph

/-- The state of the compiler only grows. -/
structure Le (a b : Acc) : Prop where
  ops : a.ops <+: b.ops
  thunks : a.thunks <+: b.thunks
  stubs : a.stubs <+: b.stubs
  edges : a.edges <+: b.edges
  places : a.places <+: b.places

theorem Le.refl (a : Acc) : Le a a := ⟨List.prefix_rfl, List.prefix_rfl, List.prefix_rfl, List.prefix_rfl, List.prefix_rfl⟩
theorem Le.trans {a b c : Acc} (h : Le a b) (g : Le b c) : Le a c :=
  ⟨h.ops.trans g.ops, h.thunks.trans g.thunks, h.stubs.trans g.stubs, h.edges.trans g.edges, h.places.trans g.places⟩

theorem le_add (a : Acc) (o : List Op) : Le a (a.add o) :=
  ⟨List.prefix_append _ _, List.prefix_rfl, List.prefix_rfl, List.prefix_rfl, List.prefix_rfl⟩
theorem le_more (a : Acc) (p : List Op × List Thunk) : Le a (a.more p) :=
  ⟨List.prefix_append _ _, List.prefix_append _ _, List.prefix_rfl, List.prefix_rfl, List.prefix_rfl⟩
theorem le_code (a : Acc) (is : List Item) : Le a (a.code is) :=
  ⟨List.prefix_append _ _, List.prefix_append _ _, List.prefix_append _ _, List.prefix_rfl, List.prefix_rfl⟩
theorem le_at (a : Acc) (pc : Nat) : Le a (a.at pc) :=
  ⟨List.prefix_rfl, List.prefix_rfl, List.prefix_rfl, List.prefix_rfl, List.prefix_append _ _⟩
theorem le_edge (a : Acc) (n : Nat) : Le a (a.edge n) :=
  ⟨List.prefix_rfl, List.prefix_rfl, List.prefix_rfl, List.prefix_append _ _, List.prefix_rfl⟩
theorem le_jump (a : Acc) (k t : Nat) : Le a (a.jump k t) := by
  unfold Acc.jump
  split
  · exact .refl _
  · split
    · exact (le_add _ _).trans (le_edge _ _)
    · exact le_add _ _
theorem le_jcmp (a : Acc) (k f t : Nat) (c : Cmp) : Le a (a.jcmp k f t c) := by
  unfold Acc.jcmp
  simp only
  split
  · exact (((le_add _ _).trans (le_add _ _)).trans (le_edge _ _)).trans (le_add _ _)
  · split
    · exact (le_add _ _).trans (le_add _ _)
    · exact (le_add _ _).trans (le_add _ _)

/-- An instruction that ends a block. -/
def Ends : Insn → Bool
  | .jump _ | .jcmp _ _ | .switch _ | .retn => true
  | _ => false

theorem flow_ends (i : Insn) : i.flow = Ends i := by cases i <;> rfl

/-- What emitRun does with an instruction that does not end a block. -/
def emitPlain (J : JitEnv) (F : Parts) (pc : Nat) (a : Acc) (i : Insn) : Option Acc :=
  match jit J i with
  | .refused => none
  | .other => some ((a.at pc).more (F.other pc))
  | .code is => some (if hasCall is then (a.at pc).more (F.other pc) else (a.at pc).code is)

/-- And with one that does. -/
def emitEnd (code : List Cell) (F : Parts) (k : Nat) (b : Blk) (pc pc' : Nat) (a : Acc) : Insn → Option Acc
  | .jump _ => match b.succs with
    | [t] => if pc' = b.stop then some ((a.at pc).jump k t) else none
    | _ => none
  | .jcmp c _ => match b.succs with
    | [f, t] => if pc' = b.stop then some ((a.at pc).jcmp k f t c) else none
    | _ => none
  | .switch o => match b.succs, caseTable code o with
    | d :: ts, some (_, cases) =>
      if pc' = b.stop ∧ ts.length = cases.length then
        match switchOps a.ops.length k (cases.map (·.1)) d ts (F.junk pc) with
        | some ops => some ((a.at pc).add ops)
        | none => none
      else none
    | _, _ => none
  | .retn => if pc' = b.stop then some ((a.at pc).more (F.other pc)) else none
  | _ => none

theorem emitRun_eq (code : List Cell) (J : JitEnv) (F : Parts) (k : Nat) (b : Blk) (fuel pc : Nat) (a : Acc) :
    emitRun code J F k b (fuel + 1) pc a =
      if b.stop ≤ pc then
        match b.succs with
        | [t] => some (a.jump k t)
        | _ => none
      else match decode code pc with
        | none => none
        | some (i, pc') => if Ends i then emitEnd code F k b pc pc' a i else (emitPlain J F pc a i).bind (emitRun code J F k b fuel pc') := by
  rw [emitRun]
  split
  · rfl
  · split
    · rename_i e; rw [e]
    · rename_i i pc' e
      rw [e]
      simp only
      cases i
      case jump => rfl
      case jcmp => rfl
      case switch => rfl
      case retn => rfl
      all_goals
        simp only [Ends, emitPlain, Bool.false_eq_true, if_false]
        split <;> (rename_i e2; rw [e2]; rfl)

theorem le_plain {J : JitEnv} {F : Parts} {pc : Nat} {a a' : Acc} {i : Insn} (h : emitPlain J F pc a i = some a') : Le (a.at pc) a' := by
  unfold emitPlain at h
  split at h
  · cases h
  · cases h; exact le_more _ _
  · cases h
    split
    · exact le_more _ _
    · exact le_code _ _

theorem le_end {code : List Cell} {F : Parts} {k pc pc' : Nat} {b : Blk} {a a' : Acc} {i : Insn}
    (h : emitEnd code F k b pc pc' a i = some a') : Le (a.at pc) a' ∧ a'.places = (a.at pc).places := by
  have hj : ∀ (a : Acc) t, (a.jump k t).places = a.places := by
    intro a t; unfold Acc.jump; split
    · rfl
    · split <;> rfl
  have hc : ∀ (a : Acc) f t c, (a.jcmp k f t c).places = a.places := by
    intro a f t c; unfold Acc.jcmp; simp only; split
    · rfl
    · split <;> rfl
  unfold emitEnd at h
  split at h
  · split at h
    · split at h
      · cases h; exact ⟨le_jump _ _ _, hj _ _⟩
      · cases h
    · cases h
  · split at h
    · split at h
      · cases h; exact ⟨le_jcmp _ _ _ _ _, hc _ _ _ _⟩
      · cases h
    · cases h
  · split at h
    · split at h
      · split at h
        · cases h; exact ⟨le_add _ _, rfl⟩
        · cases h
      · cases h
    · cases h
  · split at h
    · cases h; exact ⟨le_more _ _, rfl⟩
    · cases h
  · cases h

theorem le_run {code : List Cell} {J : JitEnv} {F : Parts} {k : Nat} {b : Blk} : ∀ (fuel pc : Nat) {a a' : Acc},
    emitRun code J F k b fuel pc a = some a' → Le a a'
  | 0, _, _, _, h => by cases h
  | fuel+1, pc, a, a', h => by
    rw [emitRun_eq] at h
    split at h
    · split at h
      · cases h; exact le_jump _ _ _
      · cases h
    · split at h
      · cases h
      · split at h
        · exact (le_at _ _).trans (le_end h).1
        · obtain ⟨a1, h1, h2⟩ := Option.bind_eq_some_iff.1 h
          exact ((le_at _ _).trans (le_plain h1)).trans (le_run fuel _ h2)

theorem le_blocks {code : List Cell} {J : JitEnv} {F : Parts} : ∀ (blks : List Blk) (k : Nat) {a a' : Acc},
    emitBlocks code J F k blks a = some a' → Le a a'
  | [], _, _, _, h => by cases h; exact .refl _
  | b :: blks, k, a, a', h => by
    unfold emitBlocks at h
    split at h
    · cases h
    · rename_i a1 e
      exact ((le_add _ _).trans (le_run _ _ e)).trans (le_blocks blks (k + 1) h)

/-- Block `k` of the list was emitted as calls number `x` to `y`. -/
def Emitted (code : List Cell) (J : JitEnv) (F : Parts) (fin : Acc) (k : Nat) (b : Blk) (x y : Nat) : Prop :=
  ∃ a a' : Acc, emitRun code J F k b (code.length + 1) b.first (a.add [.bind (4 * k), .bindAdr k]) = some a' ∧
    a.ops.length = x ∧ a'.ops.length = y ∧ Le a' fin

theorem emitted {code : List Cell} {J : JitEnv} {F : Parts} {fin : Acc} : ∀ (blks : List Blk) (k : Nat) (a : Acc),
    emitBlocks code J F k blks a = some fin → ∃ f : Nat → Nat, f k = a.ops.length ∧ f (k + blks.length) = fin.ops.length ∧
      (∀ (j : Nat) (b : Blk), blks[j]? = some b → Emitted code J F fin (k + j) b (f (k + j)) (f (k + j + 1))) ∧
      ∀ q ∈ fin.places, q ∈ a.places ∨ ∃ (j : Nat) (b : Blk) (a1 a2 : Acc), blks[j]? = some b ∧
        emitRun code J F (k + j) b (code.length + 1) b.first (a1.add [.bind (4 * (k + j)), .bindAdr (k + j)]) = some a2 ∧
        a2.ops.length = f (k + j + 1) ∧ Le a2 fin ∧ q ∈ a2.places ∧ q ∉ a1.places
  | [], k, a, h => by
    cases h
    exact ⟨fun _ => fin.ops.length, rfl, rfl, (by intro j b hb; cases hb), fun q hq => .inl hq⟩
  | b :: blks, k, a, h => by
    have h0 := h
    unfold emitBlocks at h
    split at h
    · cases h
    · rename_i a1 e
      obtain ⟨f, h1, h3, h2, h5⟩ := emitted blks (k + 1) a1 h
      have hle := le_blocks _ _ h
      refine ⟨fun i => if i = k then a.ops.length else f i, if_pos rfl, ?_, ?_, ?_⟩
      · simp only [List.length_cons]
        rw [if_neg (by omega), ← h3]
        congr 1; omega
      · intro j b' hb
        cases j with
        | zero =>
          cases hb
          refine ⟨a, a1, e, ?_, ?_, hle⟩
          · exact (if_pos (by omega)).symm
          · simp only
            rw [if_neg (by omega), ← h1]
        | succ j =>
          have := h2 j b' hb
          simp only
          rw [if_neg (by omega), if_neg (by omega), show k + (j + 1) = k + 1 + j by omega]
          exact this
      · intro q hq
        rcases h5 q hq with hq | ⟨j, b', x, y, g1, g2, g3, g4, g5⟩
        · by_cases hqa : q ∈ a.places
          · exact .inl hqa
          · refine .inr ⟨0, b, a, a1, rfl, e, ?_, hle, hq, hqa⟩
            simp only
            rw [if_neg (by omega), ← h1]
        · refine .inr ⟨j + 1, b', x, y, g1, ?_, ?_, g4, g5⟩
          · rw [show k + (j + 1) = k + 1 + j by omega]; exact g2
          · simp only
            rw [if_neg (by omega), show k + (j + 1) + 1 = k + 1 + j + 1 by omega]; exact g3

/-- The processor's place in block `k`, in front of the code for the instruction at `pc`. -/
structure Here (code : List Cell) (J : JitEnv) (F : Parts) (fin : Acc) (f : Nat → Nat) (k : Nat) (b : Blk) (pc n : Nat) : Prop where
  ex : ∃ fuel a a', emitRun code J F k b fuel pc a = some a' ∧ a.ops.length = n ∧ a'.ops.length = f (k + 1) ∧ Le a' fin

theorem mem_places_append {a b : Acc} {q : Nat × Nat} (h : Le a b) (hq : q ∈ a.places) : q ∈ b.places := h.places.subset hq

section
variable {code : List Cell} {start fuel : Nat} {P : Pre} {B : Build} {A : Verif.Cfg.Analysis} {blks : List Blk}
variable (hn : NoNegativeTable code start) (hb : build code start fuel = .ok (P, B, A))
variable (hbl : blocksOf start B A.order A.order = some blks)
variable {J : JitEnv} {F : Parts} {fin : Acc} {f : Nat → Nat}
variable (hf : ∀ (k : Nat) (b : Blk), blks[k]? = some b → Emitted code J F fin k b (f k) (f (k + 1)))

/-- In block `k`, in front of `pc`. -/
structure AtRun (code : List Cell) (P : Pre) (B : Build) (order : List Nat) (blks : List Blk) (J : JitEnv) (F : Parts) (fin : Acc) (f : Nat → Nat)
    (k bs c : Nat) (R : RunEnd) (pc n : Nat) : Prop where
  node : Node code P B order blks k bs c R
  on : OnRun code P bs c pc
  here : Here code J F fin f k ⟨c, R.stop, R.links.map fun x => order.idxOf (B.blockAt x)⟩ pc n

include hf in
/-- The beginning of a block. -/
theorem block_start {k bs c : Nat} {R : RunEnd} (N : Node code P B A.order blks k bs c R) :
    AtRun code P B A.order blks J F fin f k bs c R c (f k + 2) ∧ Seg fin.ops (f k) [.bind (4 * k), .bindAdr k] := by
  obtain ⟨a, a', h1, h2, h3, h4⟩ := hf k _ N.blk
  refine ⟨⟨N, .here, ⟨_, _, a', h1, ?_, h3, h4⟩⟩, ?_⟩
  · show (a.ops ++ _).length = _
    rw [List.length_append, h2]; rfl
  · rw [← h2]
    exact Seg.of_prefix (((le_run _ _ h1).trans h4).ops)

include hn hb hbl hf in
/-- The target of a link. -/
theorem link_start {k bs c x : Nat} {R : RunEnd} (N : Node code P B A.order blks k bs c R) (hx : x ∈ R.links) :
    ∃ R', AtRun code P B A.order blks J F fin f (A.order.idxOf (B.blockAt x)) x x R' x (f (A.order.idxOf (B.blockAt x)) + 2) ∧
      Seg fin.ops (f (A.order.idxOf (B.blockAt x))) [.bind (4 * A.order.idxOf (B.blockAt x)), .bindAdr (A.order.idxOf (B.blockAt x))] := by
  obtain ⟨R', N'⟩ := node_link hn hb hbl N hx
  exact ⟨R', block_start hf N'⟩

/-- In front of the code for an instruction. -/
def Live (code : List Cell) (P : Pre) (B : Build) (order : List Nat) (blks : List Blk) (J : JitEnv) (F : Parts) (fin : Acc) (f : Nat → Nat)
    (pc n : Nat) : Prop :=
  ∃ k bs c R, AtRun code P B order blks J F fin f k bs c R pc n ∧ ¬ Stops P bs pc

include hn hb in
theorem AtRun.unfold {k bs c pc n : Nat} {R : RunEnd} (h : AtRun code P B A.order blks J F fin f k bs c R pc n) (hs : ¬ Stops P bs pc) :
    ∃ fuel a a' i pc', a.ops.length = n ∧ a'.ops.length = f (k + 1) ∧ Le a' fin ∧ decode code pc = some (i, pc') ∧
      (if Ends i then emitEnd code F k ⟨c, R.stop, R.links.map fun x => A.order.idxOf (B.blockAt x)⟩ pc pc' a i
        else (emitPlain J F pc a i).bind (emitRun code J F k ⟨c, R.stop, R.links.map fun x => A.order.idxOf (B.blockAt x)⟩ fuel pc')) = some a' := by
  obtain ⟨fu, a, a', h1, h2, h3, h4⟩ := h.here.ex
  cases fu with
  | zero => cases h1
  | succ fu =>
    rw [emitRun_eq, if_neg (Nat.not_le.2 (h.node.before hn hb h.on hs))] at h1
    split at h1
    · cases h1
    · rename_i i pc' hd
      exact ⟨fu, a, a', i, pc', h2, h3, h4, hd, h1⟩

include hn hb in
theorem Live.place {pc n : Nat} (h : Live code P B A.order blks J F fin f pc n) : (pc, n) ∈ fin.places := by
  obtain ⟨k, bs, c, R, h, hs⟩ := h
  obtain ⟨fu, a, a', i, pc', h2, _, h4, hd, h1⟩ := h.unfold hn hb hs
  have : Le (a.at pc) a' := by
    split at h1
    · exact (le_end h1).1
    · obtain ⟨a1, g1, g2⟩ := Option.bind_eq_some_iff.1 h1
      exact (le_plain g1).trans (le_run _ _ g2)
  refine mem_places_append (this.trans h4) ?_
  show _ ∈ a.places ++ [_]
  rw [h2]
  simp

include hn hb in
theorem run_places {k bs c : Nat} {R : RunEnd} (N : Node code P B A.order blks k bs c R) : ∀ (fu pc : Nat) (a a' : Acc),
    OnRun code P bs c pc → emitRun code J F k ⟨c, R.stop, R.links.map fun x => A.order.idxOf (B.blockAt x)⟩ fu pc a = some a' →
    a'.ops.length = f (k + 1) → Le a' fin →
    ∀ q ∈ a'.places, q ∈ a.places ∨ Live code P B A.order blks J F fin f q.1 q.2
  | 0, _, _, _, _, h, _, _ => by cases h
  | fu+1, pc, a, a', ho, h, hl, hle => by
    intro q hq
    have h0 := h
    rw [emitRun_eq] at h
    split at h
    · split at h
      · cases h
        left
        unfold Acc.jump at hq
        split at hq
        · exact hq
        · split at hq <;> exact hq
      · cases h
    · rename_i hs
      have hs' : ¬ Stops P bs pc := by
        intro hh
        have := N.stops ho hh
        rw [this] at hs
        exact hs (Nat.le_refl _)
      have live : Live code P B A.order blks J F fin f pc a.ops.length := ⟨k, bs, c, R, ⟨N, ho, ⟨_, a, a', h0, rfl, hl, hle⟩⟩, hs'⟩
      have hat : ∀ q ∈ (a.at pc).places, q ∈ a.places ∨ Live code P B A.order blks J F fin f q.1 q.2 := by
        intro q hq
        rcases List.mem_append.1 hq with hq | hq
        · exact .inl hq
        · rw [List.mem_singleton.1 hq]; exact .inr live
      split at h
      · cases h
      · rename_i i pc' hd
        split at h
        · rw [(le_end h).2] at hq
          exact hat q hq
        · rename_i hi
          obtain ⟨a1, g1, g2⟩ := Option.bind_eq_some_iff.1 h
          have hn' := N.next hn hb ho hs' hd (by rw [flow_ends]; simpa using hi)
          rcases run_places N fu pc' a1 a' hn' g2 hl hle q hq with hq | hq
          · refine hat q ?_
            have : a1.places = (a.at pc).places := by
              unfold emitPlain at g1
              split at g1
              · cases g1
              · cases g1; rfl
              · cases g1; split <;> rfl
            rw [this] at hq
            exact hq
          · exact .inr hq

include hn hb hbl in
/-- The places of a method's instructions. -/
theorem places {a : Acc} (ha : a.places = []) (h : emitBlocks code J F 0 blks a = some fin) : ∃ f : Nat → Nat,
    (∀ (k : Nat) (b : Blk), blks[k]? = some b → Emitted code J F fin k b (f k) (f (k + 1))) ∧ f 0 = a.ops.length ∧
    ∀ pc n, (pc, n) ∈ fin.places ↔ Live code P B A.order blks J F fin f pc n := by
  obtain ⟨f, h1, _, h2, h3⟩ := emitted blks 0 a h
  refine ⟨f, ?_, h1, ?_⟩
  · intro k b hk
    have := h2 k b hk
    rwa [Nat.zero_add] at this
  · intro pc n
    constructor
    · intro hq
      rcases h3 _ hq with hq | ⟨k, b, x, y, g1, g2, g3, g4, g5, g6⟩
      · rw [ha] at hq; cases hq
      · rw [Nat.zero_add] at g2 g3
        obtain ⟨bs, c, R, N⟩ := node_get hn hb hbl g1
        have := N.blk
        rw [g1] at this
        cases this
        rcases run_places hn hb N _ _ _ _ .here g2 g3 g4 _ g5 with hq | hq
        · exact absurd hq g6
        · exact hq
    · exact fun h => h.place hn hb

end
end Verif.Jit

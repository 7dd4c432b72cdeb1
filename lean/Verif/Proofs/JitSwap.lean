import Verif.Proofs.X64Bytes
import Verif.Model.JitEdges

/-! Exchanging the distances of jumps in linked code. -/
namespace Verif.Jit
open Verif.X64

/-- The places where an edge's distance is not. -/
def Apart (start : Nat) (es : List LoopEdge) (x : Nat) : Prop := ∀ e ∈ es, x < start + e.offset - 4 ∨ start + e.offset ≤ x

/-- Distances that do not overlap. -/
structure Sep (es : List LoopEdge) : Prop where
  pw : es.Pairwise fun a b => a.offset + 4 ≤ b.offset
  four : ∀ e ∈ es, 4 ≤ e.offset

theorem Sep.tail {e : LoopEdge} {es : List LoopEdge} (h : Sep (e :: es)) : Sep es ∧ ∀ x, x < e.offset → ∀ d ∈ es, x < d.offset - 4 ∧ 4 ≤ d.offset := by
  obtain ⟨h1, h2⟩ := List.pairwise_cons.1 h.pw
  refine ⟨⟨h2, fun d hd => h.four d (List.mem_cons_of_mem _ hd)⟩, ?_⟩
  intro x hx d hd
  have := h1 d hd
  omega

theorem poke_inv {buf buf' : List Byte} {p : Nat} {v : BitVec 32} (h : poke32 buf p v = some buf') : p + 4 ≤ buf.length ∧ buf'.length = buf.length ∧
    At buf' p (le32 v) ∧ ∀ q, (q < p ∨ p + 4 ≤ q) → buf'[q]? = buf[q]? := by
  have h0 : p + 4 ≤ buf.length := by
    unfold poke32 at h
    split at h
    · assumption
    · cases h
  obtain ⟨b, h1, h2⟩ := poke32_ok v h0
  rw [h] at h1
  cases h1
  exact ⟨h0, h2⟩

theorem peek_at {buf : List Byte} {p : Nat} {v : BitVec 32} (h : peek32 buf p = some v) : At buf p (le32 v) := by
  unfold peek32 at h
  split at h
  · rename_i a b c d t e
    cases h
    have hg : ∀ i, buf[p + i]? = (a :: b :: c :: d :: t)[i]? := by
      intro i; rw [← e, List.getElem?_drop]
    have hle : le32 (d ++ c ++ b ++ a) = [a, b, c, d] := by
      unfold le32
      congr 1
      · ext i hi; simp only [BitVec.getElem_extractLsb', BitVec.getLsbD_append]; grind
      congr 1
      · ext i hi; simp only [BitVec.getElem_extractLsb', BitVec.getLsbD_append]; grind
      congr 1
      · ext i hi; simp only [BitVec.getElem_extractLsb', BitVec.getLsbD_append]; grind
      congr 1
      · ext i hi; simp only [BitVec.getElem_extractLsb', BitVec.getLsbD_append]; grind
    rw [hle]
    intro i hi
    rw [hg i]
    simp only [List.length_cons, List.length_nil] at hi
    match i, hi with
    | 0, _ => rfl
    | 1, _ => rfl
    | 2, _ => rfl
    | 3, _ => rfl
  · cases h

theorem _root_.Verif.X64.At.congr {a b : List Byte} {p : Nat} {bs : List Byte} (h : At a p bs) (he : ∀ x, p ≤ x → x < p + bs.length → b[x]? = a[x]?) : At b p bs :=
  fun i hi => by rw [he _ (by omega) (by omega)]; exact h i hi

theorem swap_inv {start : Nat} {bytes b : List Byte} {e e' : LoopEdge} (h : swapEdge start bytes e = some (b, e')) :
    peek32 bytes (start + e.offset - 4) = some e'.disp32 ∧ poke32 bytes (start + e.offset - 4) e.disp32 = some b ∧ e'.offset = e.offset := by
  unfold swapEdge at h
  split at h
  · rename_i old b' h1 h2
    cases h
    exact ⟨h1, h2, rfl⟩
  · cases h

/-- What the exchange does. -/
structure Swapped (start : Nat) (bytes : List Byte) (es : List LoopEdge) (b : List Byte) (es' : List LoopEdge) : Prop where
  len : b.length = bytes.length
  keep : ∀ x, Apart start es x → b[x]? = bytes[x]?
  new : ∀ e ∈ es, At b (start + e.offset - 4) (le32 e.disp32)
  offs : es'.map (·.offset) = es.map (·.offset)
  old : ∀ e ∈ es', At bytes (start + e.offset - 4) (le32 e.disp32)

theorem swapped {start : Nat} : ∀ (es : List LoopEdge) {bytes b : List Byte} {es' : List LoopEdge}, swapEdges start bytes es = some (b, es') → Sep es →
    Swapped start bytes es b es'
  | [], bytes, b, es', h, _ => by
    cases h
    exact ⟨rfl, fun _ _ => rfl, (by simp), rfl, (by simp)⟩
  | e :: es, bytes, b, es', h, hs => by
    unfold swapEdges at h
    split at h
    · cases h
    · rename_i b1 e1 h1
      split at h
      · cases h
      · rename_i b2 es2 h2
        cases h
        obtain ⟨hs', hlt⟩ := hs.tail
        have ih := swapped es h2 hs'
        obtain ⟨g1, g2, g3⟩ := swap_inv h1
        obtain ⟨p1, p2, p3, p4⟩ := poke_inv g2
        have h4 := hs.four e (List.mem_cons_self ..)
        have hap : ∀ x, start + e.offset - 4 ≤ x → x < start + e.offset - 4 + 4 → Apart start es x := by
          intro x hx1 hx2 d hd
          obtain ⟨q1, q2⟩ := hlt (e.offset - 1) (by omega) d hd
          left; omega
        refine ⟨ih.len.trans p2, ?_, ?_, ?_, ?_⟩
        · intro x hx
          rw [ih.keep x (fun d hd => hx d (List.mem_cons_of_mem _ hd)), p4 x]
          rcases hx e (List.mem_cons_self ..) with hx | hx
          · exact .inl hx
          · right; omega
        · intro d hd
          rcases List.mem_cons.1 hd with rfl | hd
          · exact p3.congr fun x hx1 hx2 => ih.keep x (hap x hx1 hx2)
          · exact ih.new d hd
        · rw [List.map_cons, List.map_cons, ih.offs, g3]
        · intro d hd
          rcases List.mem_cons.1 hd with rfl | hd
          · rw [g3]; exact peek_at g1
          · have hm : d.offset ∈ es.map (·.offset) := by rw [← ih.offs]; exact List.mem_map.2 ⟨d, hd, rfl⟩
            obtain ⟨d', hd', e'⟩ := List.mem_map.1 hm
            obtain ⟨q1, q2⟩ := hlt (e.offset - 1) (by omega) d' hd'
            rw [e'] at q1 q2
            refine (ih.old d hd).congr fun x hx1 hx2 => ?_
            rw [p4 x]
            right; omega

theorem swap_total {start : Nat} : ∀ (es : List LoopEdge) (bytes : List Byte), Sep es → (∀ e ∈ es, start + e.offset ≤ bytes.length) →
    ∃ b es', swapEdges start bytes es = some (b, es')
  | [], bytes, _, _ => ⟨bytes, [], rfl⟩
  | e :: es, bytes, hs, hl => by
    have h4 := hs.four e (List.mem_cons_self ..)
    have hl0 := hl e (List.mem_cons_self ..)
    obtain ⟨b, h1, h2, _⟩ := poke32_ok (buf := bytes) (p := start + e.offset - 4) e.disp32 (by omega)
    have hpk : ∃ v, peek32 bytes (start + e.offset - 4) = some v := by
      unfold peek32
      split
      · exact ⟨_, rfl⟩
      · rename_i hno
        exfalso
        have hll : 4 ≤ (bytes.drop (start + e.offset - 4)).length := by rw [List.length_drop]; omega
        match hb : bytes.drop (start + e.offset - 4), hll with
        | a :: b :: c :: d :: t, _ => exact hno _ _ _ _ _ hb
    obtain ⟨v, hv⟩ := hpk
    obtain ⟨b', es', h3⟩ := swap_total (start := start) es b hs.tail.1 (fun d hd => by rw [h2]; exact hl d (List.mem_cons_of_mem _ hd))
    refine ⟨b', { e with disp32 := v } :: es', ?_⟩
    unfold swapEdges swapEdge
    rw [hv, h1]
    simp only [h3]

theorem le32_inj {a b : BitVec 32} (h : le32 a = le32 b) : a = b := by
  have h1 : peek32 (le32 a) 0 = some a := peek32_at (by intro i hi; rw [Nat.zero_add])
  have h2 : peek32 (le32 b) 0 = some b := peek32_at (by intro i hi; rw [Nat.zero_add])
  rw [h, h2] at h1
  exact (Option.some.inj h1).symm

theorem _root_.Verif.X64.At.same {a : List Byte} {p : Nat} {v w : BitVec 32} (h1 : At a p (le32 v)) (h2 : At a p (le32 w)) : v = w := by
  apply le32_inj
  apply List.ext_getElem?
  intro i
  by_cases hi : i < 4
  · rw [← h1 i hi, ← h2 i hi]
  · rw [List.getElem?_eq_none (by rw [le32_length]; omega), List.getElem?_eq_none (by rw [le32_length]; omega)]

theorem sep_offs {a b : List LoopEdge} (h : b.map (·.offset) = a.map (·.offset)) (hs : Sep a) : Sep b := by
  have e1 : ∀ l : List LoopEdge, Sep l ↔ (l.map (·.offset)).Pairwise (fun a b => a + 4 ≤ b) ∧ ∀ o ∈ l.map (·.offset), 4 ≤ o := by
    intro l
    rw [List.pairwise_map, List.forall_mem_map]
    exact ⟨fun h => ⟨h.pw, h.four⟩, fun h => ⟨h.1, h.2⟩⟩
  rw [e1, h, ← e1]
  exact hs

/-- Exchanging twice. -/
theorem swap_twice {start : Nat} {es es' : List LoopEdge} {bytes b : List Byte} (h : swapEdges start bytes es = some (b, es')) (hs : Sep es)
    (hl : ∀ e ∈ es, start + e.offset ≤ bytes.length) : swapEdges start b es' = some (bytes, es) := by
  have s1 := swapped es h hs
  have hs' := sep_offs s1.offs hs
  have hmem : ∀ {a b : List LoopEdge}, a.map (·.offset) = b.map (·.offset) → ∀ e ∈ a, ∃ d ∈ b, d.offset = e.offset := by
    intro a b h e he
    have : e.offset ∈ b.map (·.offset) := by rw [← h]; exact List.mem_map.2 ⟨e, he, rfl⟩
    obtain ⟨d, h1, h2⟩ := List.mem_map.1 this
    exact ⟨d, h1, h2⟩
  obtain ⟨b2, es2, h2⟩ := swap_total (start := start) es' b hs' (fun e he => by
    obtain ⟨d, hd, e1⟩ := hmem s1.offs e he
    rw [s1.len, ← e1]; exact hl d hd)
  have s2 := swapped es' h2 hs'
  rw [h2]
  have hb : b2 = bytes := by
    apply List.ext_getElem?
    intro x
    by_cases ha : Apart start es x
    · have ha' : Apart start es' x := by
        intro e he
        obtain ⟨d, hd, e1⟩ := hmem s1.offs e he
        rw [← e1]; exact ha d hd
      rw [s2.keep x ha', s1.keep x ha]
    · have : ∃ e ∈ es, ¬ (x < start + e.offset - 4 ∨ start + e.offset ≤ x) := by
        apply Classical.byContradiction
        intro hn
        exact ha fun e he => Classical.byContradiction fun hh => hn ⟨e, he, hh⟩
      obtain ⟨e, he, hx⟩ := this
      obtain ⟨d, hd, e1⟩ := hmem s1.offs.symm e he
      have n1 := s2.new d hd
      have n2 := s1.old d hd
      rw [e1] at n1 n2
      have h4 := hs.four e he
      have i1 := n1 (x - (start + e.offset - 4)) (by rw [le32_length]; omega)
      have i2 := n2 (x - (start + e.offset - 4)) (by rw [le32_length]; omega)
      rw [show start + e.offset - 4 + (x - (start + e.offset - 4)) = x by omega] at i1 i2
      rw [i1, i2]
  have he : es2 = es := by
    have hlen : es2.length = es.length := by
      have := congrArg List.length (s2.offs.trans s1.offs)
      simpa using this
    apply List.ext_getElem hlen
    intro i h1 h2
    have ho : es2[i].offset = es[i].offset := by
      have := congrArg (fun l : List Nat => l[i]?) (s2.offs.trans s1.offs)
      simp only [List.getElem?_map, List.getElem?_eq_getElem h1, List.getElem?_eq_getElem h2, Option.map_some, Option.some.injEq] at this
      exact this
    have o := s2.old es2[i] (List.getElem_mem h1)
    have n := s1.new es[i] (List.getElem_mem h2)
    rw [← ho] at n
    have hd := o.same n
    cases h : es2[i]
    cases h' : es[i]
    rw [h, h'] at ho hd
    simp only at ho hd
    rw [ho, hd]
  rw [hb, he]

/-- Where the jumps lead after the exchange. -/
def redOf (es : List (Nat × Nat × Nat)) (n : Nat) : Option Nat := (es.find? fun e => e.2.1 == n + 1).map (·.1)

/-- The edges of a compiled method. -/
structure EdgesOk (ops : List Op) (es : List (Nat × Nat × Nat)) : Prop where
  long : ∀ e ∈ es, 1 ≤ e.2.1 ∧ ∃ op, ops[e.2.1 - 1]? = some op ∧ IsLong op
  tgt : ∀ e ∈ es, e.1 < ops.length
  pw : es.Pairwise fun a b => a.2.1 < b.2.1

/-- As `Compiled.loopEdges`. -/
def edgeOf (ops : List Op) (e : Nat × Nat × Nat) : LoopEdge := ⟨pcAt ops e.2.1, BitVec.ofInt 32 ((pcAt ops e.1 : Int) - pcAt ops e.2.1)⟩

theorem pcAt_pos (ops : List Op) (n : Nat) : pcAt ops n = pos ops n := rfl

section
variable {ops : List Op} {A : Asm} (hrun : Asm.run true {} ops = some A)

include hrun in
theorem long_pos {n : Nat} {op : Op} (h : ops[n]? = some op) (hl : IsLong op) : pos ops n + 5 ≤ pos ops (n + 1) := by
  have : ∃ l f, op.jump = some (l, f) := by
    obtain ⟨l, rfl | ⟨cc, rfl⟩⟩ := hl <;> exact ⟨_, _, rfl⟩
  obtain ⟨l, f, hj⟩ := this
  obtain ⟨opc, h1, _, _, h2⟩ := bytes_long hrun h hl hj
  omega

include hrun in
theorem edge_site {es : List (Nat × Nat × Nat)} (ok : EdgesOk ops es) {e : Nat × Nat × Nat} (he : e ∈ es) :
    pos ops (e.2.1 - 1) + 5 ≤ pos ops e.2.1 ∧ pos ops e.2.1 ≤ A.buf.length ∧ e.2.1 ≤ ops.length ∧ 1 ≤ e.2.1 := by
  obtain ⟨h1, op, h2, h3⟩ := ok.long e he
  have := long_pos hrun h2 h3
  have h4 := (pos_mono hrun h2).2.1
  have h5 := (List.getElem?_eq_some_iff.1 h2).1
  rw [Nat.sub_add_cancel h1] at this h4
  omega

include hrun in
theorem edges_sep {es : List (Nat × Nat × Nat)} (ok : EdgesOk ops es) : Sep (es.map (edgeOf ops)) := by
  constructor
  · rw [List.pairwise_map]
    refine List.Pairwise.imp_of_mem ?_ ok.pw
    intro a b ha hb hab
    show pos ops a.2.1 + 4 ≤ pos ops b.2.1
    have h1 := edge_site hrun ok hb
    have := pos_le hrun (i := a.2.1) (j := b.2.1 - 1) (by omega) (by omega)
    omega
  · intro e he
    obtain ⟨d, hd, rfl⟩ := List.mem_map.1 he
    have := edge_site hrun ok hd
    show 4 ≤ pos ops d.2.1
    omega

theorem image_length (A : Asm) (chunk : BitVec 64) : (A.image chunk).length = A.table.length * 8 + A.buf.length := by
  unfold Asm.image
  rw [List.length_append, flat_length, List.length_reverse, relocate_length]
  omega

include hrun in
/-- The exchange can be made. -/
theorem edges_total {es : List (Nat × Nat × Nat)} (ok : EdgesOk ops es) (chunk : BitVec 64) :
    ∀ e ∈ es.map (edgeOf ops), A.table.length * 8 + e.offset ≤ (A.image chunk).length := by
  intro e he
  obtain ⟨d, hd, rfl⟩ := List.mem_map.1 he
  have := edge_site hrun ok hd
  rw [image_length]
  show _ + pos ops d.2.1 ≤ _
  omega

include hrun in
/-- The code after the exchange. -/
theorem follows_patched {es : List (Nat × Nat × Nat)} (ok : EdgesOk ops es) (chunk : BitVec 64) {bytes : List Byte} {es' : List LoopEdge}
    (hsw : swapEdges (A.table.length * 8) (A.image chunk) (es.map (edgeOf ops)) = some (bytes, es')) :
    Follows ops A (redOf es) ⟨bytes, chunk, A.table.length * 8⟩ := by
  have S := swapped _ hsw (edges_sep hrun ok)
  -- bytes of a call that is not that of an edge
  have keep : ∀ {n : Nat} {op : Op}, ops[n]? = some op → redOf es n = none → ∀ x, pos ops n ≤ x → x < pos ops (n + 1) →
      bytes[A.table.length * 8 + x]? = (A.image chunk)[A.table.length * 8 + x]? := by
    intro n op hop hr x hx1 hx2
    refine S.keep _ ?_
    intro e he
    obtain ⟨d, hd, rfl⟩ := List.mem_map.1 he
    have hne : d.2.1 ≠ n + 1 := by
      intro hh
      unfold redOf at hr
      rw [Option.map_eq_none_iff, List.find?_eq_none] at hr
      exact hr d hd (by simpa using hh)
    have h1 := edge_site hrun ok hd
    have hn := (List.getElem?_eq_some_iff.1 hop).1
    show _ < _ + pos ops d.2.1 - 4 ∨ _ + pos ops d.2.1 ≤ _
    rcases Nat.lt_or_ge d.2.1 (n + 1) with h | h
    · right
      have := pos_le hrun (i := d.2.1) (j := n) (by omega) (by omega)
      omega
    · left
      have := pos_le hrun (i := n + 1) (j := d.2.1 - 1) (by omega) (by omega)
      omega
  have none_of : ∀ {n : Nat} {op : Op}, ops[n]? = some op → ¬ IsLong op → redOf es n = none := by
    intro n op hop hl
    unfold redOf
    rw [Option.map_eq_none_iff, List.find?_eq_none]
    intro d hd hh
    obtain ⟨h1, op', h2, h3⟩ := ok.long d hd
    have : d.2.1 - 1 = n := by
      have := eq_of_beq hh
      omega
    rw [this, hop] at h2
    cases h2
    exact hl h3
  refine ⟨?_, ?_, ?_, ?_, ?_⟩
  · intro p
    show (bytes.drop (A.table.length * 8 + p)).length = _
    rw [List.length_drop, S.len, image_length]
    omega
  · intro n bs i h hd
    obtain ⟨h1, h2⟩ := bytes_raw hrun h
    have hr := none_of h (by rintro ⟨l, h | ⟨cc, h⟩⟩ <;> cases h)
    have := (At.image (chunk := chunk) (bytes := bytes) h1 (fun x g1 g2 => keep h hr x g1 (by omega))).drop
    show decode (bytes.drop (A.table.length * 8 + pos ops n)) = some (i, bytes.drop (A.table.length * 8 + pos ops (n + 1)))
    rw [this, decode_append hd, h2, Nat.add_assoc]; rfl
  · intro n k l op f h hop hk
    cases hr : redOf es n with
    | none =>
      obtain ⟨bs, rel, g1, g2, g3, g4⟩ := bytes_jump hrun h hop hk
      refine ⟨rel, ?_, g4⟩
      have := (At.image (chunk := chunk) (bytes := bytes) g2 (fun x q1 q2 => keep h hr x q1 (by omega))).drop
      show decode (bytes.drop (A.table.length * 8 + pos ops n)) = some (f rel, bytes.drop (A.table.length * 8 + pos ops (n + 1)))
      rw [this, g1, g3, Nat.add_assoc]
    | some q =>
      unfold redOf at hr
      obtain ⟨d, hd, rfl⟩ := Option.map_eq_some_iff.1 hr
      have hmem := List.mem_of_find?_eq_some hd
      have heq : d.2.1 = n + 1 := by have := List.find?_some hd; simpa using this
      obtain ⟨h1, op', h2, h3⟩ := ok.long d hmem
      rw [heq, Nat.add_sub_cancel, h] at h2
      cases h2
      obtain ⟨opc, k1, k2, k3, k4⟩ := bytes_long hrun h h3 hop
      have hnew := S.new (edgeOf ops d) (List.mem_map.2 ⟨d, hmem, rfl⟩)
      have ho : (edgeOf ops d).offset = pos ops (n + 1) := by rw [← heq]; rfl
      have hdisp : (edgeOf ops d).disp32 = BitVec.ofInt 32 ((pos ops d.1 : Int) - pos ops (n + 1)) := by rw [← heq]; rfl
      rw [ho, hdisp] at hnew
      have hopc : At bytes (A.table.length * 8 + pos ops n) opc := by
        refine At.image (chunk := chunk) k3 ?_
        intro x x1 x2
        refine S.keep _ ?_
        intro e he
        obtain ⟨d', hd', rfl⟩ := List.mem_map.1 he
        have h1 := edge_site hrun ok hd'
        have hn := (List.getElem?_eq_some_iff.1 h).1
        show _ < _ + pos ops d'.2.1 - 4 ∨ _ + pos ops d'.2.1 ≤ _
        rcases Nat.lt_trichotomy d'.2.1 (n + 1) with g | g | g
        · right
          have := pos_le hrun (i := d'.2.1) (j := n) (by omega) (by omega)
          omega
        · left
          rw [g]
          omega
        · left
          have := pos_le hrun (i := n + 1) (j := d'.2.1 - 1) (by omega) (by omega)
          omega
      have hall := at_append hopc (b := le32 (BitVec.ofInt 32 ((pos ops d.1 : Int) - pos ops (n + 1))))
        (by rw [show A.table.length * 8 + pos ops n + opc.length = A.table.length * 8 + pos ops (n + 1) - 4 by omega]; exact hnew)
      have p1 := (pos_mono hrun (List.getElem?_eq_getElem (ok.tgt d hmem))).2.2
      obtain ⟨_, _, _, _, _, p2, e2, _⟩ := pos_step hrun h
      refine ⟨(pos ops d.1 : Int) - pos ops (n + 1), ?_, by show _ = (pos ops d.1 : Int); omega⟩
      show decode (bytes.drop (A.table.length * 8 + pos ops n)) = some (f _, bytes.drop (A.table.length * 8 + pos ops (n + 1)))
      rw [hall.drop, k2, toInt_small (by omega) (by omega)]
      congr 2
      rw [List.length_append, le32_length, k4]
      congr 1
      omega
  · intro n k i j junk mid q cs h0 hmid hi hj
    obtain ⟨h7, d, g1, g2, g3, g4⟩ := bytes_lea hrun chunk h0 hmid hi hj
    have hr := none_of h0 (by rintro ⟨l, h | ⟨cc, h⟩⟩ <;> cases h)
    have hlen : (leaHead 6 ++ le32 (BitVec.ofInt 32 d)).length = 7 := rfl
    have := (At.image (chunk := chunk) (bytes := bytes) g1 (fun x q1 q2 => keep h0 hr x q1 (by rw [hlen] at q2; omega))).drop
    refine ⟨d, ?_, ?_⟩
    · show decode (bytes.drop (A.table.length * 8 + pos ops n)) = some (_, bytes.drop (A.table.length * 8 + pos ops (n + 1)))
      rw [this, dec_lea, g2, hlen, h7, Nat.add_assoc]
    · show qword bytes (((A.table.length * 8 : Nat) : Int) + pos ops (n + 1) + d + 8 * i) = some (A.entry chunk + _)
      have e : ((A.table.length * 8 : Nat) : Int) + pos ops (n + 1) + d + 8 * i = (A.table.length * 8 + pos ops (n + 1) + d + 8 * i : Int) := by omega
      rw [e, qword_same S.len, g3]
      intro x x1 x2
      refine S.keep _ ?_
      intro e he
      obtain ⟨d', hd', rfl⟩ := List.mem_map.1 he
      have h1 := edge_site hrun ok hd'
      left
      show _ < _ + pos ops d'.2.1 - 4
      omega
  · intro n q hr
    unfold redOf at hr
    obtain ⟨d, hd, rfl⟩ := Option.map_eq_some_iff.1 hr
    have hmem := List.mem_of_find?_eq_some hd
    have heq : d.2.1 = n + 1 := by have := List.find?_some hd; simpa using this
    obtain ⟨h1, op', h2, l, h3⟩ := ok.long d hmem
    rw [heq, Nat.add_sub_cancel] at h2
    refine ⟨l, ?_⟩
    rcases h3 with rfl | ⟨cc, rfl⟩
    · exact .inl h2
    · exact .inr ⟨cc, h2⟩

end
end Verif.Jit

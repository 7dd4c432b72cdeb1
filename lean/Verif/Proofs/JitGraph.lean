import Verif.Model.JitFlow
import Verif.Proofs.Blocks
import Verif.Props.C18

/-! The blocks of a scanned method in the order of emission. -/
namespace Verif.Jit
open Verif.VM Verif.Graph

theorem onRun_scan {code : List Cell} {P : Pre} {bs c pc : Nat} (hr : OnRun code P bs c pc) : ∀ {fuel : Nat} {R : RunEnd},
    scanRun code P bs fuel c = .ok R → ∃ fuel', scanRun code P bs fuel' pc = .ok R := by
  induction hr with
  | here => intro fuel R h; exact ⟨fuel, h⟩
  | next h1 h2 h3 h4 h5 ih =>
    intro fuel R h
    match fuel with
    | 0 => cases h
    | fuel+1 =>
      unfold scanRun at h
      split at h
      · cases h
      · split at h
        · rename_i hs
          exact absurd ⟨by simpa using hs.1, hs.2⟩ h1
        · obtain ⟨op, g1, h⟩ := bind_ok_iff.1 h
          rw [readAt_ok, h2] at g1
          cases g1
          rw [if_neg (by rw [h3]; decide)] at h
          obtain ⟨nx, g2, h⟩ := bind_ok_iff.1 h
          rw [h4] at g2
          cases g2
          exact ih h

theorem onRun_le {code : List Cell} {start bs c pc : Nat} {P : Pre} (I : PInv code start P) (hc : c ∈ P.insns)
    (hb : ∀ pc, OnRun code P bs c pc → pc < P.cip) (h : OnRun code P bs c pc) : c ≤ pc := by
  induction h with
  | here => exact Nat.le_refl _
  | next h1 h2 h3 h4 h5 ih =>
    rename_i c c' pc op
    obtain ⟨_, _, _, nxt, hok, hnx⟩ := I.insns c hc
    obtain ⟨op', h6, _, _, _, _, h7, _⟩ := hok.op
    rw [h2] at h6; cases h6
    rw [h4] at h7; cases h7
    have := hok.lt
    have hc' : c' ∈ P.insns := onRun_insns I hc hb (.next h1 h2 h3 h4 .here)
    have := ih hc' (fun pc hpc => hb pc (.next h1 h2 h3 h4 hpc))
    omega

/-- Block number `k` in the order of emission. -/
structure Node (code : List Cell) (P : Pre) (B : Build) (order : List Nat) (blks : List Blk) (k bs c : Nat) (R : RunEnd) : Prop where
  blk : blks[k]? = some ⟨c, R.stop, R.links.map fun x => order.idxOf (B.blockAt x)⟩
  scanned : ∃ fuel, scanRun code P bs fuel c = .ok R
  insn : c ∈ P.insns
  num : ∃ b, order[k]? = some b ∧ (b, R) ∈ B.runs

theorem blocksOf_get {start : Nat} {B : Build} {order : List Nat} : ∀ (bs : List Nat) {blks : List Blk},
    blocksOf start B order bs = some blks → blks.length = bs.length ∧ ∀ (k b : Nat), bs[k]? = some b → ∃ R c, B.runs.lookup b = some R ∧
      (if b = 0 then some (start + 1) else B.starts[b - 1]?) = some c ∧
      blks[k]? = some ⟨c, R.stop, R.links.map fun x => order.idxOf (B.blockAt x)⟩
  | [], blks, h => by
    cases h
    exact ⟨rfl, by intro k b hb; cases hb⟩
  | x :: bs, blks, h => by
    unfold blocksOf at h
    split at h
    · rename_i R c ks h1 h2 h3
      cases h
      obtain ⟨g1, g2⟩ := blocksOf_get bs h3
      refine ⟨by simp [g1], ?_⟩
      intro k b hb
      cases k with
      | zero => cases hb; exact ⟨R, c, h1, h2, rfl⟩
      | succ k => exact g2 k b hb
    · cases h

theorem lookup_mem {β : Type} {b : Nat} {R : β} : ∀ {l : List (Nat × β)}, l.lookup b = some R → (b, R) ∈ l
  | [], h => by cases h
  | (x, y) :: l, h => by
    rw [List.lookup_cons] at h
    split at h
    · rename_i e
      cases h
      rw [beq_iff_eq.1 e]
      exact List.mem_cons_self
    · exact List.mem_cons_of_mem _ (lookup_mem h)

theorem readCases_eq {code : List Cell} : ∀ (n pos : Nat) (ts : List Nat), readCases code n pos = .ok ts →
    ts = (List.range n).map fun j => (code.getD (pos + 1 + 2 * j) 0).toNat / 4
  | 0, _, _, h => by cases h; rfl
  | n+1, pos, ts, h => by
    unfold readCases at h
    obtain ⟨t, h1, h⟩ := bind_ok_iff.1 h
    rw [readAt_ok] at h1
    split at h
    · cases h
    · obtain ⟨ts', h2, h⟩ := bind_ok_iff.1 h
      cases h
      rw [List.range_succ_eq_map, List.map_cons, List.map_map, readCases_eq n _ _ h2]
      congr 1
      · rw [List.getD_eq_getElem?_getD, Nat.mul_zero, Nat.add_zero, h1]; rfl
      · apply List.map_congr_left
        intro j _
        show _ = (code.getD (pos + 1 + 2 * (j + 1)) 0).toNat / 4
        rw [show pos + 1 + 2 * (j + 1) = pos + 2 + 1 + 2 * j by omega]

section
variable {code : List Cell} {start fuel : Nat} {P : Pre} {B : Build} {A : Verif.Cfg.Analysis} {blks : List Blk}
variable (hn : NoNegativeTable code start) (hb : build code start fuel = .ok (P, B, A))
variable (hbl : blocksOf start B A.order A.order = some blks)

include hn hb hbl in
theorem node_all {k b : Nat} (h : A.order[k]? = some b) : ∃ bs c R, Node code P B A.order blks k bs c R ∧ BlockOf start B b bs c := by
  have S := build_linked hn hb
  obtain ⟨R, c, h1, h2, h3⟩ := (blocksOf_get _ hbl).2 k b h
  have hm := lookup_mem h1
  obtain ⟨bs, c', fu, g1, g2, _⟩ := S.blocks.runs b R hm
  cases g1 with
  | entry =>
    cases h2
    exact ⟨start, start + 1, R, ⟨h3, ⟨fu, g2⟩, first_insn S.pre g2, 0, h, hm⟩, .entry⟩
  | other hk =>
    rw [if_neg (by omega), Nat.add_sub_cancel, hk] at h2
    cases h2
    exact ⟨_, _, R, ⟨h3, ⟨fu, g2⟩, S.blocks.insns _ (List.mem_of_getElem? hk), _, h, hm⟩, .other hk⟩

include hn hb hbl in
theorem node_get {k : Nat} {b : Blk} (h : blks[k]? = some b) : ∃ bs c R, Node code P B A.order blks k bs c R := by
  have := (blocksOf_get _ hbl).1
  have hk : k < A.order.length := by
    have := (List.getElem?_eq_some_iff.1 h).1
    omega
  obtain ⟨bs, c, R, h, _⟩ := node_all hn hb hbl (List.getElem?_eq_getElem hk)
  exact ⟨bs, c, R, h⟩

include hn hb hbl in
theorem node_first : ∃ R, Node code P B A.order blks 0 start (start + 1) R := by
  obtain ⟨h0, _⟩ := C25_built code start fuel P B A hb
  have : A.order[0]? = some 0 := by rw [← List.head?_eq_getElem?]; exact h0
  obtain ⟨bs, c, R, h1, h2⟩ := node_all hn hb hbl this
  cases h2
  exact ⟨R, h1⟩

include hn hb hbl in
/-- A successor. -/
theorem node_link {k bs c x : Nat} {R : RunEnd} (N : Node code P B A.order blks k bs c R) (hx : x ∈ R.links) :
    ∃ R', Node code P B A.order blks (A.order.idxOf (B.blockAt x)) x x R' := by
  have S := build_linked hn hb
  obtain ⟨_, _, hr, _⟩ := C25_built code start fuel P B A hb
  obtain ⟨b, h1, h2⟩ := N.num
  obtain ⟨g1, g2⟩ := S.links.links b R h2 x hx
  have hreach := (hr b).1 (List.mem_of_getElem? h1)
  have hmem : B.blockAt x ∈ A.order := (hr _).2 (hreach.elim fun ns w => ⟨_, .snoc w g2⟩)
  have hlt := List.idxOf_lt_length_of_mem hmem
  have hget : A.order[A.order.idxOf (B.blockAt x)]? = some (B.blockAt x) := by
    rw [List.getElem?_eq_getElem hlt, List.getElem_idxOf hlt]
  obtain ⟨bs', c', R', h3, h4⟩ := node_all hn hb hbl hget
  have hlt2 := List.idxOf_lt_length_of_mem g1
  have hst : B.starts[B.starts.idxOf x]? = some x := by rw [List.getElem?_eq_getElem hlt2, List.getElem_idxOf hlt2]
  unfold Build.blockAt at h4
  cases h4 with
  | other h =>
    rw [hst] at h
    cases h
    exact ⟨R', h3⟩

variable {k bs c pc : Nat} {R : RunEnd} (N : Node code P B A.order blks k bs c R) (hr : OnRun code P bs c pc)

include N hr in
theorem Node.stops (hs : Stops P bs pc) : R = ⟨pc, [pc], [pc]⟩ := by
  obtain ⟨fu, h⟩ := N.scanned
  exact (scanRun_ok fu c R h pc hr).2.1 hs

include hn hb N hr in
theorem Node.insnOk : ∃ nxt, InsnOk code start pc nxt := by
  have S := build_linked hn hb
  obtain ⟨fu, h⟩ := N.scanned
  have hp := onRun_insns S.pre N.insn (fun pc hpc => (scanRun_ok fu c R h pc hpc).1) hr
  obtain ⟨_, _, _, nxt, hok, _⟩ := S.pre.insns pc hp
  exact ⟨nxt, hok⟩

include hn hb N hr in
theorem Node.before (hs : ¬ Stops P bs pc) : pc < R.stop := by
  have S := build_linked hn hb
  obtain ⟨fu, h⟩ := N.scanned
  have hlt : ∀ q, OnRun code P bs c q → q < P.cip := fun q hq => (scanRun_ok fu c R h q hq).1
  have hp := onRun_insns S.pre N.insn hlt hr
  obtain ⟨fu', h'⟩ := onRun_scan hr h
  have hlt' : ∀ q, OnRun code P bs pc q → q < P.cip := fun q hq => (scanRun_ok fu' pc R h' q hq).1
  obtain ⟨e, he, hend⟩ := run_last fu' pc R h'
  have hle := onRun_le S.pre hp hlt' he
  obtain ⟨_, k1, k2⟩ := scanRun_ok fu' pc R h' e he
  by_cases hse : Stops P bs e
  · rw [k1 hse]
    show pc < e
    rcases Nat.lt_or_eq_of_le hle with hlt | heq
    · exact hlt
    · exact absurd (heq ▸ hse) hs
  · rcases hend with hh | ⟨op, g1, g2⟩
    · exact absurd hh hse
    · have hcf := k2 hse op g1 g2
      have hep := onRun_insns S.pre hp hlt' he
      have := (controlFlow_heads S.pre S.recorded hep g1 g2 hcf).2.1
      obtain ⟨_, _, _, nxt, hok, _⟩ := S.pre.insns e hep
      obtain ⟨op', h6, _, _, _, _, h7, _⟩ := hok.op
      rw [g1] at h6; cases h6
      rw [this] at h7; cases h7
      have := hok.lt
      omega

include hn hb N hr in
/-- An instruction without flow: the run goes on. -/
theorem Node.next (hs : ¬ Stops P bs pc) {i : Insn} {pc' : Nat} (hd : decode code pc = some (i, pc')) (hf : i.flow = false) :
    OnRun code P bs c pc' := by
  obtain ⟨nxt, hok⟩ := N.insnOk hn hb hr
  obtain ⟨op, h1, _, _, h0, hlt, hnx, hk, hck, _⟩ := hok.op
  obtain ⟨i', hd'⟩ := hok.dec
  rw [hd] at hd'
  cases hd'
  refine hr.snoc hs h1 ?_ hnx
  cases hctl : isControl op.toNat with
  | false => rfl
  | true =>
    exfalso
    have h130 : op ≠ 130 := by
      intro hh; subst hh; exact absurd hctl (by decide)
    rcases control_cases hctl with h48 | h129 | h51 | ⟨⟨h48, h129, h51⟩, q, hrd⟩
    · have := decode_zero (i := .retn) h1 h130 (by rw [h48]; rfl)
      rw [hd] at this; cases this; cases hf
    · obtain ⟨t, ht, _⟩ := hck hctl (by omega)
      have := decode_one (g := fun a => .switch a.toInt) h1 h130 (by rw [h129]; rfl) ht
      rw [hd] at this; cases this; cases hf
    · obtain ⟨t, ht, _⟩ := hck hctl (by omega)
      have := decode_one (g := fun a => .jump a.toInt) h1 h130 (by rw [h51]; rfl) ht
      rw [hd] at this; cases this; cases hf
    · obtain ⟨t, ht, _⟩ := hck hctl h48
      have := decode_one (g := fun a => .jcmp q a.toInt) h1 h130 hrd ht
      rw [hd] at this; cases this; cases hf

/-- The cell of a code address. -/
def cellOf (a : Cell) : Nat := a.toNat / 4

include hn hb N hr in
/-- The control instruction at the end of a run. -/
theorem Node.control (hs : ¬ Stops P bs pc) {i : Insn} {pc' : Nat} (hd : decode code pc = some (i, pc')) (hf : i.flow = true) :
    (i = .retn) ∨
    (∃ t : Cell, i = .jump t.toInt ∧ Checked code start t ∧ R.links = [cellOf t]) ∨
    (∃ q, ∃ t : Cell, i = .jcmp q t.toInt ∧ Checked code start t ∧ R.links = [pc', cellOf t]) ∨
    (∃ t d : Cell, ∃ cs, i = .switch t.toInt ∧ caseTable code t.toInt = some (d, cs) ∧ Checked code start d ∧
      (∀ p ∈ cs, Checked code start p.2) ∧ R.links = cellOf d :: cs.map fun p => cellOf p.2) := by
  have S := build_linked hn hb
  obtain ⟨nxt, hok⟩ := N.insnOk hn hb hr
  obtain ⟨op, h1, _, _, h0, hlt, hnx, hk, hck, _⟩ := hok.op
  obtain ⟨i', hd'⟩ := hok.dec
  rw [hd] at hd'
  cases hd'
  have hctl : isControl op.toNat = true := by
    cases hc : isControl op.toNat with
    | true => rfl
    | false => rw [decode_flow_false hok h1 hc hd] at hf; cases hf
  have h130 : op ≠ 130 := by
    intro hh; subst hh; exact absurd hctl (by decide)
  obtain ⟨fu, h⟩ := N.scanned
  have hcf := (scanRun_ok fu c R h pc hr).2.2 hs op h1 hctl
  rcases control_cases hctl with h48 | h129 | h51 | ⟨⟨h48, h129, h51⟩, q, hrd⟩
  · have := decode_zero (i := .retn) h1 h130 (by rw [h48]; rfl)
    rw [hd] at this; cases this
    exact .inl rfl
  · obtain ⟨t, ht, hch⟩ := hck hctl (by omega)
    have := decode_one (g := fun a => .switch a.toInt) h1 h130 (by rw [h129]; rfl) ht
    rw [hd] at this; cases this
    refine .inr (.inr (.inr ?_))
    rw [h129] at hcf
    unfold controlFlow at hcf
    rw [if_neg (by decide)] at hcf
    obtain ⟨t', e1, hcf⟩ := bind_ok_iff.1 hcf
    rw [readAt_ok, ht] at e1
    cases e1
    split at hcf
    · cases hcf
    · simp only at hcf
      split at hcf
      · cases hcf
      · rename_i hin
        rw [if_pos trivial] at hcf
        unfold switchFlow at hcf
        obtain ⟨o, h2, hcf⟩ := bind_ok_iff.1 hcf
        rw [readAt_ok] at h2
        split at hcf
        · cases hcf
        · rename_i ho
          obtain ⟨n, h3, hcf⟩ := bind_ok_iff.1 hcf
          obtain ⟨d, h4, hcf⟩ := bind_ok_iff.1 hcf
          rw [readAt_ok] at h3 h4
          split at hcf
          · cases hcf
          · obtain ⟨ts, h5, hcf⟩ := bind_ok_iff.1 hcf
            simp only at hcf
            split at hcf
            · cases hcf
              have ho' : o = 130 := Decidable.byContradiction ho
              subst ho'
              obtain ⟨_, _, _, nxt', hok', _⟩ := S.pre.insns _ (by simpa using hin)
              obtain ⟨op', g1, _, _, _, _, _, _, _, htb'⟩ := hok'.op
              rw [h2] at g1; cases g1
              obtain ⟨n', d', e1, e2, e3, e4, e5, e6⟩ := htb' rfl
              rw [h3] at e1; cases e1
              rw [h4] at e3; cases e3
              have hle := hok'.le
              have hnn := toNat_of_nonneg e2
              refine ⟨t, d, (List.range n.toNat).map fun k =>
                (code.getD (t.toNat / 4 + 3 + 2 * k) 0, code.getD (t.toNat / 4 + 4 + 2 * k) 0), rfl, ?_, e4, ?_, ?_⟩
              · rw [hch.toInt]
                unfold caseTable
                rw [if_neg (by omega)]
                simp only
                rw [show ((t.toNat : Int) / 4).toNat = t.toNat / 4 by omega, h2, h3, h4]
                simp only
                rw [if_pos ⟨trivial, e2, by omega⟩]
              · intro p hp
                obtain ⟨j, hj, rfl⟩ := List.mem_map.1 hp
                rw [List.mem_range] at hj
                obtain ⟨a, ha, hca⟩ := e6 j (by omega)
                show Checked code start (code.getD (t.toNat / 4 + 4 + 2 * j) 0)
                rw [List.getD_eq_getElem?_getD, ha]
                exact hca
              · show d.toNat / 4 :: ts = _
                congr 1
                rw [hnn] at h5
                rw [readCases_eq _ _ _ h5, List.map_map]
                apply List.map_congr_left
                intro j _
                show (code.getD (t.toNat / 4 + 3 + 1 + 2 * j) 0).toNat / 4 = (code.getD (t.toNat / 4 + 4 + 2 * j) 0).toNat / 4
                rw [show t.toNat / 4 + 3 + 1 + 2 * j = t.toNat / 4 + 4 + 2 * j by omega]
            · cases hcf
  · obtain ⟨t, ht, hch⟩ := hck hctl (by omega)
    have := decode_one (g := fun a => .jump a.toInt) h1 h130 (by rw [h51]; rfl) ht
    rw [hd] at this; cases this
    refine .inr (.inl ⟨t, rfl, hch, ?_⟩)
    unfold controlFlow at hcf
    rw [if_neg (by omega)] at hcf
    obtain ⟨t', e1, hcf⟩ := bind_ok_iff.1 hcf
    rw [readAt_ok, ht] at e1
    cases e1
    split at hcf
    · cases hcf
    · simp only at hcf
      split at hcf
      · cases hcf
      · rw [if_neg (by omega : ¬ op.toNat = 129)] at hcf
        cases hcf; rfl
  · obtain ⟨t, ht, hch⟩ := hck hctl h48
    have := decode_one (g := fun a => .jcmp q a.toInt) h1 h130 hrd ht
    rw [hd] at this; cases this
    refine .inr (.inr (.inl ⟨q, t, rfl, hch, ?_⟩))
    unfold controlFlow at hcf
    rw [if_neg h48] at hcf
    obtain ⟨t', e1, hcf⟩ := bind_ok_iff.1 hcf
    rw [readAt_ok, ht] at e1
    cases e1
    split at hcf
    · cases hcf
    · simp only at hcf
      split at hcf
      · cases hcf
      · split at hcf
        · cases hcf
        · cases hcf; rfl

end
end Verif.Jit

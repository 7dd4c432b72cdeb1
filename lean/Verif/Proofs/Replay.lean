import Verif.Proofs.Joins
import Verif.Proofs.Blocks
import Verif.Props.C18

/-! Runs of the interpreter follow the verifier's pass over the blocks. -/
namespace Verif.Graph
open Verif.VM

/-- A run ends no earlier than any of its positions. -/
theorem scanRun_stop {code : List Cell} {start bs : Nat} {P : Pre} (I : PInv code start P) (T : TInv code P) :
    ∀ (fuel c : Nat) (R : RunEnd), c ∈ P.insns → scanRun code P bs fuel c = .ok R → ∀ pc, OnRun code P bs c pc →
      pc ≤ R.stop ∧ (¬ Stops P bs pc → pc < R.stop)
  | 0, _, _, _, h, _, _ => by cases h
  | fuel+1, c, R, hc, h, pc, hr => by
    unfold scanRun at h
    split at h
    · cases h
    · split at h
      · rename_i hst
        have hst : Stops P bs c := ⟨by simpa using hst.1, hst.2⟩
        cases h
        cases hr with
        | here => exact ⟨Nat.le_refl _, fun hh => absurd hst hh⟩
        | next h1 => exact absurd hst h1
      · obtain ⟨op, h1, h⟩ := bind_ok_iff.1 h
        rw [readAt_ok] at h1
        obtain ⟨_, _, _, nxt, hok, hnx⟩ := I.insns c hc
        obtain ⟨op', g1, _, _, _, _, g2, _⟩ := hok.op
        rw [h1] at g1; cases g1
        have hlt := hok.lt
        split at h
        · rename_i hctl
          have := (controlFlow_heads I T hc h1 hctl h).2.1
          rw [g2] at this
          injection this with this
          cases hr with
          | here => exact ⟨by omega, fun _ => by omega⟩
          | next _ k1 k2 => rw [h1] at k1; cases k1; rw [hctl] at k2; cases k2
        · obtain ⟨nxt', h2, h⟩ := bind_ok_iff.1 h
          rw [g2] at h2; cases h2
          have hin : nxt ∈ P.insns := by
            rcases hnx with hh | hh
            · exact hh
            · exfalso
              subst hh
              cases fuel with
              | zero => cases h
              | succ fuel =>
                unfold scanRun at h
                rw [if_pos (Nat.le_refl _)] at h
                cases h
          cases hr with
          | here =>
            have := (scanRun_stop I T fuel nxt R hin h nxt .here).1
            exact ⟨by omega, fun _ => by omega⟩
          | next _ k1 _ k3 k4 =>
            rw [h1] at k1; cases k1
            rw [g2] at k3; cases k3
            exact scanRun_stop I T fuel nxt R hin h pc k4

theorem lookup_mem {l : List (Nat × RunEnd)} {b : Nat} {R : RunEnd} (hn : (l.map (·.1)).Nodup) (h : (b, R) ∈ l) : l.lookup b = some R := by
  induction l with
  | nil => cases h
  | cons x l ih =>
    obtain ⟨a, Q⟩ := x
    rw [List.map_cons, List.nodup_cons] at hn
    rcases List.mem_cons.1 h with h' | h'
    · cases h'
      simp [List.lookup]
    · have hne : b ≠ a := by
        intro hh; subst hh
        exact hn.1 (List.mem_map.2 ⟨_, h', rfl⟩)
      have : (b == a) = false := by simpa using hne
      simp only [List.lookup, this]
      exact ih hn.2 h'

end Verif.Graph

namespace Verif.Verifier
open Verif.VM
open Verif.Graph (Out bind_ok_iff readAt readAt_ok readAt RunEnd Pre Build OnRun Stops BlockOf Linked isControl nextInsn scanRun
  controlFlow scanRun_ok scanRun_stop lookup_mem build_linked NoNegativeTable)
open Verif.Cfg (mem_pred Reaches)

/-- The pass over a block from `first` to `stop` comes to `pc` with `S` after `n` instructions, the last of them at `prev`. -/
inductive AtN (C : Ctx) (stop first : Nat) (S0 : Cur) : Nat → Option Nat → Nat → Cur → Prop where
  | here : AtN C stop first S0 0 none first S0
  | next {n : Nat} {prev : Option Nat} {pc pc' : Nat} {op : Cell} {S S' : Cur} : AtN C stop first S0 n prev pc S → pc < stop →
      C.code[pc]? = some op → verifyOp C prev pc op S = .ok (pc', S') → pc < pc' → AtN C stop first S0 (n + 1) (some pc) pc' S'

theorem AtN.rest {C : Ctx} {stop first fuel n : Nat} {prev : Option Nat} {pc : Nat} {S0 S T : Cur}
    (h : AtN C stop first S0 n prev pc S) (hr : verifyRun C stop fuel none first S0 = .ok T) :
    ∃ f, verifyRun C stop f prev pc S = .ok T := by
  induction h with
  | here => exact ⟨fuel, hr⟩
  | next _ h1 h2 h3 h4 ih =>
    obtain ⟨f, hf⟩ := ih
    cases f with
    | zero => cases hf
    | succ f =>
      unfold verifyRun at hf
      rw [if_neg (by omega)] at hf
      obtain ⟨op, k1, hf⟩ := bind_ok_iff.1 hf
      rw [readAt_ok, h2] at k1; cases k1
      obtain ⟨⟨a, b⟩, k1, hf⟩ := bind_ok_iff.1 hf
      rw [h3] at k1; cases k1
      exact ⟨f, hf⟩

theorem AtN.step {C : Ctx} {stop first fuel n : Nat} {prev : Option Nat} {pc : Nat} {S0 S T : Cur}
    (h : AtN C stop first S0 n prev pc S) (hr : verifyRun C stop fuel none first S0 = .ok T) (hlt : pc < stop) :
    ∃ op pc' S', C.code[pc]? = some op ∧ verifyOp C prev pc op S = .ok (pc', S') := by
  obtain ⟨f, hf⟩ := h.rest hr
  cases f with
  | zero => cases hf
  | succ f =>
    unfold verifyRun at hf
    rw [if_neg (by omega)] at hf
    obtain ⟨op, k1, hf⟩ := bind_ok_iff.1 hf
    rw [readAt_ok] at k1
    obtain ⟨⟨a, b⟩, k2, hf⟩ := bind_ok_iff.1 hf
    exact ⟨op, a, b, k1, k2⟩

theorem AtN.last {C : Ctx} {stop first fuel n : Nat} {prev : Option Nat} {pc : Nat} {S0 S T : Cur}
    (h : AtN C stop first S0 n prev pc S) (hr : verifyRun C stop fuel none first S0 = .ok T) (hge : stop ≤ pc) : S = T := by
  obtain ⟨f, hf⟩ := h.rest hr
  cases f with
  | zero => cases hf
  | succ f =>
    unfold verifyRun at hf
    rw [if_pos hge] at hf
    cases hf; rfl

theorem AtN.rises {C : Ctx} {stop first n : Nat} {prev : Option Nat} {pc : Nat} {S0 S : Cur} (h : AtN C stop first S0 n prev pc S) :
    Rises S0 S := by
  induction h with
  | here => exact .refl _
  | next _ _ _ h3 _ ih => exact ih.trans (verifyOp_rises h3)

theorem AtN.flat {C : Ctx} {stop first n : Nat} {prev : Option Nat} {pc : Nat} {S0 S : Cur} (h : AtN C stop first S0 n prev pc S)
    (hs : C.scopes = true) (ht : S0.data.trk = []) : S.data.trk = [] := by
  induction h with
  | here => exact ht
  | next _ _ _ h3 _ ih => exact verifyOp_flat hs h3 ih

theorem AtN.det {C : Ctx} {stop first n : Nat} {prev prev' : Option Nat} {pc pc' : Nat} {S0 S S' : Cur}
    (h : AtN C stop first S0 n prev pc S) (h' : AtN C stop first S0 n prev' pc' S') : prev = prev' ∧ pc = pc' ∧ S = S' := by
  induction h generalizing prev' pc' S' with
  | here => cases h'; exact ⟨rfl, rfl, rfl⟩
  | next _ _ h2 h3 _ ih =>
    cases h' with
    | next k1 _ k2 k3 _ =>
      obtain ⟨rfl, rfl, rfl⟩ := ih k1
      rw [h2] at k2; cases k2
      rw [h3] at k3; cases k3
      exact ⟨rfl, rfl, rfl⟩

theorem AtN.mono {C : Ctx} {stop first n m : Nat} {prev prev' : Option Nat} {pc pc' : Nat} {S0 S S' : Cur}
    (h : AtN C stop first S0 n prev pc S) (h' : AtN C stop first S0 m prev' pc' S') (hlt : n < m) : pc < pc' := by
  induction h' with
  | here => omega
  | next k1 _ _ _ k5 ih =>
    rename_i m' _ _ _ _ _ _ _ _ _
    by_cases hm : n = m'
    · subst hm
      obtain ⟨_, rfl, _⟩ := h.det k1
      exact k5
    · have := ih (by omega)
      omega

theorem AtN.unique {C : Ctx} {stop first n m : Nat} {prev prev' : Option Nat} {pc : Nat} {S0 S S' : Cur}
    (h : AtN C stop first S0 n prev pc S) (h' : AtN C stop first S0 m prev' pc S') : S = S' := by
  rcases Nat.lt_trichotomy n m with hlt | rfl | hlt
  · exact absurd (h.mono h' hlt) (Nat.lt_irrefl _)
  · exact (h.det h').2.2
  · exact absurd (h'.mono h hlt) (Nat.lt_irrefl _)

/-- The verifier's pass over a block of an accepted method, at `pc`; `d` and `m` are what the blocks start from. -/
structure Point (C : Ctx) (start fuel : Nat) (V : Verified) (d : Nat → Data) (m : Nat → Nat) (prev : Option Nat) (pc : Nat) (S : Cur) :
    Prop where
  mk ::
  ex : ∃ b bs c R f n T, BlockOf start V.method.build b bs c ∧ (b, R) ∈ V.method.build.runs ∧ scanRun C.code V.pre bs f c = .ok R ∧
    OnRun C.code V.pre bs c pc ∧ ¬ Stops V.pre bs pc ∧ b ∈ V.method.info.order ∧ Facts C fuel V b (d b) (m b) ∧
    AtN C R.stop bs ⟨d b, m b⟩ n prev pc S ∧ verifyRun C R.stop fuel none bs ⟨d b, m b⟩ = .ok T ∧
    T.data = V.state.data b ∧ 4 * T.max ≤ V.maxStack

theorem first_eq {start b bs c : Nat} {V : Verified} (hs : V.method.start = start) (h : BlockOf start V.method.build b bs c) :
    V.method.first b = some bs := by
  unfold Method.first
  cases h with
  | entry => rw [if_pos rfl, hs]
  | other h => rw [if_neg (by omega)]; exact h

/-- The pass over a block, with the facts about it. -/
theorem run_facts {C : Ctx} {start fuel b bs c : Nat} {V : Verified} {d : Data} {m : Nat} {R : RunEnd}
    (L : Linked C.code start V.pre V.method.build) (hs : V.method.start = start) (h1 : BlockOf start V.method.build b bs c)
    (h2 : (b, R) ∈ V.method.build.runs) (F : Facts C fuel V b d m) :
    ∃ T, verifyRun C R.stop fuel none bs ⟨d, m⟩ = .ok T ∧ T.data = V.state.data b ∧ 4 * T.max ≤ V.maxStack := by
  obtain ⟨first, stop, T, g1, g2, g3, g4, g5⟩ := F.run
  rw [first_eq hs h1] at g1; cases g1
  unfold Method.stop at g2
  rw [lookup_mem L.blocks.rnodup h2] at g2
  cases g2
  exact ⟨T, g3, g4, g5⟩

theorem block_insn {code : List Cell} {start b bs c f : Nat} {P : Pre} {B : Build} {R : RunEnd} (L : Linked code start P B)
    (h1 : BlockOf start B b bs c) (h2 : scanRun code P bs f c = .ok R) : c ∈ P.insns := by
  cases h1 with
  | entry => exact Verif.Graph.first_insn L.pre h2
  | other h => exact L.blocks.insns _ (List.mem_of_getElem? h)

/-- An accepted method with its graph. -/
structure Ready (C : Ctx) (start fuel : Nat) (V : Verified) (d : Nat → Data) (m : Nat → Nat) : Prop where
  linked : Linked C.code start V.pre V.method.build
  at_ : V.method.start = start
  order : ∀ b, b ∈ V.method.info.order ↔ Reaches V.method.build.edges 0 b
  entry : ∀ u, (u, 0) ∉ V.method.build.edges
  proc : C.code[start]? = some 46
  facts : ∀ b ∈ V.method.info.order, Facts C fuel V b (d b) (m b)

/-- Control arrives at `x` when the pass over the last instruction, at `q`, gave `S`. -/
def Arrives (C : Ctx) (start fuel : Nat) (V : Verified) (d : Nat → Data) (m : Nat → Nat) (q : Nat) (S : Cur) (x : Nat) : Prop :=
  ∃ prev S', Point C start fuel V d m prev x S' ∧ (prev = none ∨ prev = some q) ∧ Joins V.state.bug S.data S'.data ∧
    (C.scopes = true → S.data.trk = [] ∧ S'.data.trk = [])

theorem Ready.start_of {C : Ctx} {start fuel : Nat} {V : Verified} {d : Nat → Data} {m : Nat → Nat} (Y : Ready C start fuel V d m)
    {b x q : Nat} {R : RunEnd} {S : Cur} (hR : (b, R) ∈ V.method.build.runs) (hb : b ∈ V.method.info.order)
    (hx : x ∈ R.links) (hS : S.data = V.state.data b) : Arrives C start fuel V d m q S x := by
  obtain ⟨g1, g2⟩ := Y.linked.links.links b R hR x hx
  have hb' : V.method.build.blockAt x ∈ V.method.info.order := (Y.order _).2 (((Y.order b).1 hb).step g2)
  have F := Y.facts _ hb'
  have hlt := List.idxOf_lt_length_of_mem g1
  obtain ⟨R', hR'⟩ := Y.linked.all (V.method.build.blockAt x) (by unfold Build.blockAt; omega)
  obtain ⟨bs, c, f, k1, k2, _⟩ := Y.linked.blocks.runs _ _ hR'
  have hbo : BlockOf start V.method.build (V.method.build.blockAt x) x x := by
    refine .other ?_
    rw [List.getElem?_eq_getElem hlt, List.getElem_idxOf]
  have hxe : bs = x ∧ c = x := by
    unfold Build.blockAt at hbo k1
    cases hbo with
    | other h => cases k1 with
      | other h' => rw [h] at h'; cases h'; exact ⟨rfl, rfl⟩
  obtain ⟨rfl, rfl⟩ := hxe
  obtain ⟨T, t1, t2, t3⟩ := run_facts Y.linked Y.at_ k1 hR' F
  have hj := F.joins b (mem_pred.2 g2)
  refine ⟨none, ⟨d _, m _⟩, ⟨_, _, _, R', f, 0, T, k1, hR', k2, .here, ?_, hb', F, .here, t1, t2, t3⟩, Or.inl rfl, ?_, ?_⟩
  · rintro ⟨_, hh⟩; exact hh rfl
  · rw [hS]; exact hj
  · intro hs
    obtain ⟨f1, f2⟩ := F.flat hs
    exact ⟨by rw [hS]; exact f2 b, f1⟩

/-- One instruction of an accepted method. -/
theorem Ready.step {C : Ctx} {start fuel : Nat} {V : Verified} {d : Nat → Data} {m : Nat → Nat} (Y : Ready C start fuel V d m)
    {prev : Option Nat} {pc : Nat} {S : Cur} (h : Point C start fuel V d m prev pc S) (E : Env) (hE : E.code = C.code) :
    ∃ i pc' S', decode C.code pc = some (i, pc') ∧ runChecks C prev (checksOf i) S = .ok S' ∧ Small i ∧
      ∀ s s' c, visit E start (pc' * 4) i s = .ok s' c →
        (c = .next → Arrives C start fuel V d m pc S' pc') ∧ (∀ o, c = .call o → Arrives C start fuel V d m pc S' pc') ∧
        ∀ o, c = .goto o → ∃ t, jumpIndex E o = some t ∧ Arrives C start fuel V d m pc S' t := by
  obtain ⟨b, bs, c, R, f, n, T, h1, h2, h3, h4, h5, h6, h7, h8, h9, h10, h11⟩ := h.ex
  have hc := block_insn Y.linked h1 h3
  have hin := Verif.Graph.onRun_insns Y.linked.pre hc (fun pc hpc => (scanRun_ok f c R h3 pc hpc).1) h4
  have hlt := (scanRun_stop Y.linked.pre Y.linked.recorded f c R hc h3 pc h4).2 h5
  obtain ⟨op, pc', S', k1, k2⟩ := h8.step h9 hlt
  obtain ⟨_, _, _, nxt, hok, hnx⟩ := Y.linked.pre.insns pc hin
  obtain ⟨i, hd⟩ := hok.dec
  obtain ⟨rfl, k3, k4⟩ := verifyOp_ok k1 k2 hd
  obtain ⟨op', e1, _, _, _, _, e2, _⟩ := hok.op
  rw [k1] at e1; cases e1
  have hnext := h8.next hlt k1 k2 hok.lt
  have fl := Verif.Graph.PInv.flows (E := E) (hE ▸ Y.linked.pre) (Q := Arrives C start fuel V d m pc S') hin (by
    intro op1 pc1 o1 o2 o3
    rw [hE] at o1 o3
    rw [k1] at o1; cases o1
    rw [e2] at o3; cases o3
    have hrun := h4.snoc h5 k1 o2 e2
    by_cases hst : Stops V.pre bs pc'
    · have hR := (scanRun_ok f c R h3 _ hrun).2.1 hst
      have hS : S' = T := hnext.last h9 (by rw [hR]; exact Nat.le_refl _)
      exact Y.start_of h2 h6 (by rw [hR]; simp) (by rw [hS]; exact h10)
    · refine ⟨some pc, S', ⟨b, bs, c, R, f, n + 1, T, h1, h2, h3, hrun, hst, h6, h7, hnext, h9, h10, h11⟩, Or.inr rfl, .refl _ _, ?_⟩
      intro hs
      have := hnext.flat hs (h7.flat hs).1
      exact ⟨this, this⟩) (by
    intro op1 o1 o2
    rw [hE] at o1 ⊢
    rw [k1] at o1; cases o1
    have hcf := (scanRun_ok f c R h3 pc h4).2.2 h5 op k1 o2
    refine ⟨R, hcf, ?_⟩
    intro x hx
    have hst := (Verif.Graph.controlFlow_heads Y.linked.pre Y.linked.recorded hin k1 o2 hcf).2.1
    rw [e2] at hst
    injection hst with hst
    have hS : S' = T := hnext.last h9 (by omega)
    exact Y.start_of h2 h6 hx (by rw [hS]; exact h10))
  obtain ⟨i1, pc1, o1, o2⟩ := fl.dec
  rw [hE, hd] at o1; cases o1
  exact ⟨i, pc', S', hd, k3, k4, o2⟩

theorem verify_proc {C : Ctx} {start : Nat} (S : Cur) (h : C.code[start]? = some 46) : verifyOp C none start 46 S = .ok (start + 1, S) := by
  have hl := (List.getElem?_eq_some_iff.1 h).1
  unfold verifyOp
  rw [if_neg (by decide), show rule (BitVec.toNat (46 : Cell)) = r0 [] from rfl]
  simp only [r0]
  unfold operands
  rw [if_pos (by omega)]
  rfl

theorem Ready.enter {C : Ctx} {start fuel : Nat} {V : Verified} {d : Nat → Data} {m : Nat → Nat} (Y : Ready C start fuel V d m) :
    ∃ S, S.data = fresh ∧ Arrives C start fuel V d m start S (start + 1) := by
  have hb : 0 ∈ V.method.info.order := (Y.order 0).2 .refl
  have F := Y.facts 0 hb
  obtain ⟨R, hR⟩ := Y.linked.all 0 (by omega)
  obtain ⟨bs, c, f, k1, k2, _⟩ := Y.linked.blocks.runs _ _ hR
  have hxe : bs = start ∧ c = start + 1 := by cases k1; exact ⟨rfl, rfl⟩
  obtain ⟨rfl, rfl⟩ := hxe
  obtain ⟨T, t1, t2, t3⟩ := run_facts Y.linked Y.at_ k1 hR F
  have hc := block_insn Y.linked k1 k2
  have hle := (scanRun_stop Y.linked.pre Y.linked.recorded f _ R hc k2 _ .here).1
  have hf : d 0 = fresh := by
    refine F.alone ?_
    rw [List.eq_nil_iff_forall_not_mem]
    intro u hu
    exact Y.entry u (mem_pred.1 hu)
  have hat : AtN C R.stop bs ⟨d 0, m 0⟩ (0 + 1) (some bs) (bs + 1) ⟨d 0, m 0⟩ :=
    .next .here (by omega) Y.proc (verify_proc _ Y.proc) (by omega)
  by_cases hst : Stops V.pre bs (bs + 1)
  · have hRe := (scanRun_ok f _ R k2 _ .here).2.1 hst
    have hS := hat.last t1 (by rw [hRe]; exact Nat.le_refl _)
    exact ⟨⟨d 0, m 0⟩, hf, Y.start_of hR hb (by rw [hRe]; simp) (by rw [hS]; exact t2)⟩
  · refine ⟨⟨d 0, m 0⟩, hf, some bs, ⟨d 0, m 0⟩, ⟨0, bs, _, R, f, _, T, k1, hR, k2, .here, hst, hb, F, hat, t1, t2, t3⟩, Or.inr rfl,
      .refl _ _, ?_⟩
    intro _
    rw [hf]
    exact ⟨rfl, rfl⟩

/-- What is known at a position does not depend on how it was reached. -/
theorem Ready.unique {C : Ctx} {start fuel : Nat} {V : Verified} {d : Nat → Data} {m : Nat → Nat} (Y : Ready C start fuel V d m)
    {prev prev' : Option Nat} {pc : Nat} {S S' : Cur} (h : Point C start fuel V d m prev pc S) (h' : Point C start fuel V d m prev' pc S') :
    S = S' := by
  obtain ⟨b, bs, c, R, f, n, T, h1, h2, h3, h4, h5, h6, h7, h8, h9, _⟩ := h.ex
  obtain ⟨b', bs', c', R', f', n', T', h1', h2', h3', h4', h5', h6', h7', h8', h9', _⟩ := h'.ex
  have hb := Y.linked.unique h1 h1' h3 h3' pc pc (Nat.le_refl _) h4 h4' h5 h5'
  subst hb
  have hbs : bs' = bs := by
    cases h1 with
    | entry => cases h1'; rfl
    | other g => cases h1' with
      | other g' => rw [g] at g'; cases g'; rfl
  subst hbs
  have hRR : R' = R := by
    have a := lookup_mem Y.linked.blocks.rnodup h2
    have b := lookup_mem Y.linked.blocks.rnodup h2'
    rw [a] at b; cases b; rfl
  subst hRR
  exact h8.unique h8'

theorem Point.bound {C : Ctx} {start fuel : Nat} {V : Verified} {d : Nat → Data} {m : Nat → Nat} {prev : Option Nat} {pc : Nat} {S : Cur}
    (h : Point C start fuel V d m prev pc S) : 4 * S.data.bal ≤ V.maxStack := by
  obtain ⟨b, bs, c, R, f, n, T, h1, h2, h3, h4, h5, h6, h7, h8, h9, h10, h11⟩ := h.ex
  obtain ⟨_, r2⟩ := h8.rises
  have := r2 h7.bal
  obtain ⟨f', hf⟩ := h8.rest h9
  have := (verifyRun_rises _ _ _ _ _ hf).1
  omega

theorem verify_ready {C : Ctx} {start fuel : Nat} {V : Verified} (h : verify C start fuel = .ok V) (hn : NoNegativeTable C.code start) :
    ∃ d m, Ready C start fuel V d m := by
  have A := verify_accepted h fun P B A hb => (Verif.Graph.C25_built _ _ _ P B A hb).2.1
  obtain ⟨d, m, hf⟩ := A.blocks
  have L := build_linked hn A.built
  obtain ⟨_, _, g3, _⟩ := Verif.Graph.C25_built _ _ _ _ _ _ A.built
  refine ⟨d, m, L, A.start, g3, Verif.Graph.built_entry A.built, ?_, hf⟩
  obtain ⟨h1, _, _⟩ := Verif.Graph.build_ok A.built
  unfold Verif.Graph.prescan at h1
  split at h1
  · assumption
  · cases h1

/-! ## Executions -/

/-- The constant a CALL is told to expect is the last one pushed. -/
theorem pushedConst_decode {code : List Cell} {q q' : Nat} {v : Cell} {i : Insn} (h : pushedConst code q = .ok (some v))
    (hd : decode code q = some (i, q')) : ∃ vs, i = .pushC vs ∧ vs.getLast? = some v := by
  unfold pushedConst at h
  obtain ⟨op, h1, h⟩ := bind_ok_iff.1 h
  rw [readAt_ok] at h1
  have key : ∀ n, 0 < n → op ≠ 130 → reader op.toNat = an n .pushC → code[q + n]? = some v → ∃ vs, i = .pushC vs ∧ vs.getLast? = some v := by
    intro n hn0 h130 hr hv
    unfold decode at hd
    rw [h1] at hd
    simp only at hd
    rw [if_neg h130, hr] at hd
    simp only [an] at hd
    split at hd
    · cases hd
    · rename_i vs hvs
      cases hd
      refine ⟨vs, rfl, ?_⟩
      unfold operands at hvs
      split at hvs
      · cases hvs
        rw [List.getLast?_eq_getElem?, List.length_take, List.length_drop, Nat.min_eq_left (by omega),
          List.getElem?_take_of_lt (by omega), List.getElem?_drop, ← hv]
        congr 1; omega
      · cases hvs
  split at h
  · rename_i ho; subst ho
    obtain ⟨w, h2, h⟩ := bind_ok_iff.1 h
    rw [readAt_ok] at h2; cases h
    exact key 1 (by omega) (by decide) rfl h2
  split at h
  · rename_i ho; subst ho
    obtain ⟨w, h2, h⟩ := bind_ok_iff.1 h
    rw [readAt_ok] at h2; cases h
    exact key 2 (by omega) (by decide) rfl h2
  split at h
  · rename_i ho; subst ho
    obtain ⟨w, h2, h⟩ := bind_ok_iff.1 h
    rw [readAt_ok] at h2; cases h
    exact key 3 (by omega) (by decide) rfl h2
  split at h
  · rename_i ho; subst ho
    obtain ⟨w, h2, h⟩ := bind_ok_iff.1 h
    rw [readAt_ok] at h2; cases h
    exact key 4 (by omega) (by decide) rfl h2
  split at h
  · rename_i ho; subst ho
    obtain ⟨w, h2, h⟩ := bind_ok_iff.1 h
    rw [readAt_ok] at h2; cases h
    exact key 5 (by omega) (by decide) rfl h2
  · cases h

/-- What is known about the stack at `pc`. -/
structure Knows (C : Ctx) (start fuel : Nat) (V : Verified) (d : Nat → Data) (m : Nat → Nat) (s0 : IState) (pc : Nat)
    (s : IState) (prev : Option Nat) (S : Cur) : Prop where
  point : Point C start fuel V d m prev pc S
  sp : s.vm.sp = wrap32 (s0.vm.sp - 4 * S.data.bal)
  top : ∀ q v, prev = some q → pushedConst C.code q = .ok (some v) → rd32 s.vm.mem s.vm.sp = v

/-- What is known about the heap at `pc`. -/
structure HeapAt (C : Ctx) (start fuel : Nat) (V : Verified) (d : Nat → Data) (m : Nat → Nat) (tr : List Insn) (pc : Nat)
    (prev : Option Nat) (S : Cur) : Prop where
  point : Point C start fuel V d m prev pc S
  opened : C.scopes = true → scopesOpen tr = S.data.depth
  kept : C.scopes = false → (∀ b, V.state.bug b = false) → tracked tr = S.data.trk.length

theorem scopesOpen_cons (i : Insn) (tr : List Insn) : scopesOpen (i :: tr) = scopesOpen tr + scopes i := by
  unfold scopes
  cases i
  case heapSave => simp only [scopesOpen]; omega
  case heapRestore => simp only [scopesOpen]; omega
  all_goals exact (Int.add_zero _).symm

theorem tracked_cons (i : Insn) (tr : List Insn) : tracked (i :: tr) = tracked tr + tracks i := by
  unfold tracks
  cases i
  case trackPushC => simp only [tracked]; omega
  case genarray => simp only [tracked]; omega
  case trackPop => simp only [tracked]; omega
  all_goals exact (Int.add_zero _).symm

/-- The next position, when what the instruction does is known. -/
theorem Knows.go {C : Ctx} {start fuel : Nat} {V : Verified} {d : Nat → Data} {m : Nat → Nat} {s0 s' : IState}
    {pc x : Nat} {S' : Cur} (ha : Arrives C start fuel V d m pc S' x) (hsp : s'.vm.sp = wrap32 (s0.vm.sp - 4 * S'.data.bal))
    (htop : ∀ v, pushedConst C.code pc = .ok (some v) → rd32 s'.vm.mem s'.vm.sp = v) :
    ∃ prev S, Knows C start fuel V d m s0 x s' prev S := by
  obtain ⟨prev', S'', p1, p2, p3, p4⟩ := ha
  refine ⟨prev', S'', p1, ?_, ?_⟩
  · rw [← p3.1]; exact hsp
  · intro q v hq hv
    rcases p2 with rfl | rfl
    · cases hq
    · cases hq; exact htop v hv

theorem HeapAt.go {C : Ctx} {start fuel : Nat} {V : Verified} {d : Nat → Data} {m : Nat → Nat} {tr : List Insn}
    {pc x : Nat} {prev : Option Nat} {S S' : Cur} {i : Insn} (K : HeapAt C start fuel V d m tr pc prev S)
    (ha : Arrives C start fuel V d m pc S' x) (hdep : (S'.data.depth : Int) = S.data.depth + scopes i)
    (htrk : (S'.data.trk.length : Int) = S.data.trk.length + if C.scopes then 0 else tracks i) :
    ∃ prev S, HeapAt C start fuel V d m (i :: tr) x prev S := by
  obtain ⟨prev', S'', p1, p2, p3, p4⟩ := ha
  refine ⟨prev', S'', p1, ?_, ?_⟩
  · intro hs
    obtain ⟨t1, t2⟩ := p4 hs
    rw [scopesOpen_cons, K.opened hs, ← p3.2.1 (by rw [t1, t2]), hdep]
  · intro hs hbug
    rw [if_neg (by rw [hs]; decide)] at htrk
    rw [tracked_cons, K.kept hs hbug, ← htrk]
    by_cases hl : S'.data.trk.length = S''.data.trk.length
    · rw [hl]
    · obtain ⟨b, hb⟩ := p3.2.2 hl
      rw [hbug b] at hb; cases hb

/-- What an accepted CALL does. -/
theorem call_ok {C : Ctx} {prev : Option Nat} {o : Int} {S S' : Cur} (h : runChecks C prev (checksOf (.call o)) S = .ok S') :
    ∃ p n, prev = some p ∧ pushedConst C.code p = .ok (some n) ∧ popStack (n.toInt + 1) S = .ok S' := by
  have hco : callOk C prev o S = .ok S' := run_one h
  unfold callOk at hco
  split at hco
  · cases hco
  · rename_i p
    obtain ⟨r, k1, hco⟩ := bind_ok_iff.1 hco
    split at hco
    · cases hco
    · rename_i n
      refine ⟨p, n, rfl, k1, ?_⟩
      repeat' split at hco
      all_goals first
        | (cases hco; done)
        | exact hco

/-- What an accepted instruction does to the heap. -/
theorem heap_effect {C : Ctx} {prev : Option Nat} {i : Insn} {S S' : Cur} (h : runChecks C prev (checksOf i) S = .ok S') (hs : Small i) :
    (S'.data.depth : Int) = S.data.depth + scopes i ∧
    (S'.data.trk.length : Int) = S.data.trk.length + if C.scopes then 0 else tracks i := by
  by_cases hc : ∃ o, i = .call o
  · obtain ⟨o, rfl⟩ := hc
    obtain ⟨p, n, _, _, hp⟩ := call_ok h
    rw [(popStack_ok hp).2]
    refine ⟨(Int.add_zero _).symm, ?_⟩
    show (S.data.trk.length : Int) = S.data.trk.length + if C.scopes then 0 else (0 : Int)
    split <;> exact (Int.add_zero _).symm
  · obtain ⟨⟨e, _⟩, _⟩ := effect h hs fun o ho => hc ⟨o, ho⟩
    exact ⟨e.depth, e.trk⟩

theorem nativeFits {E : Env} (h : ReplacementsFit E) {pc pc' : Nat} {i : Insn} (hd : decode E.code pc = some (i, pc')) : NativeFits E i := by
  cases i
  case sysreqN i n => exact fun nat k f h1 h2 h3 h4 => h pc i n pc' nat k f hd h1 h2 h3 h4
  all_goals exact trivial

theorem visit_not_ret {E : Env} {m : Nat} {h : Int} {i : Insn} {s s' : IState} {c : Ctl} (hv : visit E m h i s = .ok s' c) (hc : c ≠ .ret) :
    i ≠ .retn := by
  intro hh; subst hh
  exact hc (Verif.Graph.visit_retn hv)

theorem pushC_top {E : Env} {m : Nat} {h : Int} {vs : List Cell} {v : Cell} {s s' : IState} {c : Ctl}
    (hv : visit E m h (.pushC vs) s = .ok s' c) (hl : vs.getLast? = some v) : rd32 s'.vm.mem s'.vm.sp = v := by
  have hv : (do vmOp (pushAll vs); pure Ctl.next : IM Ctl) s = .ok s' c := hv
  obtain ⟨s1, a, h1, h2⟩ := ibind_ok hv
  cases h2
  exact pushAll_top vs _ _ a v (vmOp_ok h1) hl

theorem visit_call {E : Env} {m : Nat} {h : Int} {i : Insn} {s s' : IState} {o : Int} (hv : visit E m h i s = .ok s' (.call o)) :
    i = .call o ∧ s' = s := by
  cases i
  case call o' => cases hv; exact ⟨rfl, rfl⟩
  case jump o' => have := Verif.Graph.visit_jump hv; cases this
  case jcmp k o' => rcases Verif.Graph.visit_jcmp hv with hh | hh <;> cases hh
  case retn => have := Verif.Graph.visit_retn hv; cases this
  case switch o' =>
    unfold visit at hv
    simp only at hv
    split at hv <;> cases hv
  all_goals first
    | (have := Verif.Graph.done_next hv; cases this; done)
    | (cases hv; done)
    | (unfold visit at hv; simp only at hv; split at hv <;> cases hv; done)

theorem Ready.runs {C : Ctx} {start fuel : Nat} {V : Verified} {d : Nat → Data} {m : Nat → Nat} (Y : Ready C start fuel V d m)
    (E : Env) (hE : E.code = C.code) (hr : ReplacementsFit E) {s0 : IState} (hs0 : Is32 s0.vm.sp) {tr : List Insn} {pc : Nat} {s : IState}
    (h : Runs E start s0 tr pc s) : ∃ prev S, Knows C start fuel V d m s0 pc s prev S := by
  have plain : ∀ {pc pc1 x : Nat} {s s' : IState} {i : Insn} {c : Ctl} {prev : Option Nat} {S S' : Cur},
      Knows C start fuel V d m s0 pc s prev S → decode E.code pc = some (i, pc1) → visit E start (pc1 * 4) i s = .ok s' c →
      c ≠ .ret → (∀ o, i ≠ .call o) → runChecks C prev (checksOf i) S = .ok S' → Small i →
      Arrives C start fuel V d m pc S' x → ∃ prev S, Knows C start fuel V d m s0 x s' prev S := by
    intro pc pc1 x s s' i c prev S S' K hd hv hc hi hch hsm ha
    obtain ⟨⟨e1, e2⟩, e3⟩ := effect hch hsm hi
    have hmv := visit_moves E start (pc1 * 4) i (e3 E (nativeFits hr hd)) (visit_not_ret hv hc) s s' c hv (by rw [K.sp]; exact is32_wrap _)
    refine Knows.go ha ?_ ?_
    · rw [hmv, K.sp]
      unfold wrap32; omega
    · intro v hpv
      rw [← hE] at hpv
      obtain ⟨vs, rfl, hl⟩ := pushedConst_decode hpv hd
      exact pushC_top hv hl
  induction h with
  | enter =>
    obtain ⟨S, hS, ha⟩ := Y.enter
    refine Knows.go ha ?_ ?_
    · rw [hS]
      have : wrap32 (s0.vm.sp - 4 * ((fresh.bal : Nat) : Int)) = s0.vm.sp := by
        rw [show s0.vm.sp - 4 * ((fresh.bal : Nat) : Int) = s0.vm.sp by show s0.vm.sp - 4 * ((0 : Nat) : Int) = _; omega]
        exact wrap32_id hs0.1 hs0.2
      exact this.symm
    · intro v hv
      unfold pushedConst at hv
      obtain ⟨op, h1, hv⟩ := bind_ok_iff.1 hv
      rw [readAt_ok, Y.proc] at h1; cases h1
      revert hv; simp
      intro hv; cases hv
  | next _ hd hv ih =>
    rename_i tr pc pc1 s s' i _
    obtain ⟨prev, S, K⟩ := ih
    obtain ⟨i', pc', S', g1, g2, g3, g4⟩ := Y.step K.point E hE
    rw [← hE, hd] at g1; cases g1
    refine plain K hd hv nofun ?_ g2 g3 ((g4 _ _ _ hv).1 rfl)
    intro o ho; subst ho
    cases hv
  | jump _ hd hv ht ih =>
    rename_i tr pc pc1 t s s' i o _
    obtain ⟨prev, S, K⟩ := ih
    obtain ⟨i', pc', S', g1, g2, g3, g4⟩ := Y.step K.point E hE
    rw [← hE, hd] at g1; cases g1
    obtain ⟨t', ht', ha⟩ := (g4 _ _ _ hv).2.2 o rfl
    rw [ht] at ht'; cases ht'
    refine plain K hd hv nofun ?_ g2 g3 ha
    intro o ho; subst ho
    cases hv
  | back _ hd hv hret ih =>
    rename_i tr pc pc1 s s' s'' i o _
    obtain ⟨prev, S, K⟩ := ih
    obtain ⟨i', pc', S', g1, g2, g3, g4⟩ := Y.step K.point E hE
    rw [← hE, hd] at g1; cases g1
    have ha := (g4 _ _ _ hv).2.1 o rfl
    obtain ⟨rfl, rfl⟩ := visit_call hv
    obtain ⟨p, n, rfl, k1, hpop⟩ := call_ok g2
    have htop := K.top p n rfl k1
    obtain ⟨q1, q2⟩ := popStack_ok hpop
    refine Knows.go ha ?_ ?_
    · unfold Returned at hret
      rw [hret, htop, K.sp, q2]
      simp only
      rw [Int.ofNat_sub q1]
      unfold wrap32
      omega
    · intro v hpv
      rw [← hE] at hpv
      obtain ⟨vs, hh, _⟩ := pushedConst_decode hpv hd
      cases hh

theorem Ready.traces {C : Ctx} {start fuel : Nat} {V : Verified} {d : Nat → Data} {m : Nat → Nat} (Y : Ready C start fuel V d m)
    (E : Env) (hE : E.code = C.code) {s0 : IState} {tr : List Insn} {pc : Nat} {s : IState}
    (h : Traces E start s0 tr pc s) : ∃ prev S, HeapAt C start fuel V d m tr pc prev S := by
  induction h with
  | enter =>
    obtain ⟨S, hS, prev', S'', p1, p2, p3, p4⟩ := Y.enter
    rw [hS] at p3 p4
    refine ⟨prev', S'', p1, ?_, ?_⟩
    · intro hs
      obtain ⟨t1, t2⟩ := p4 hs
      rw [← p3.2.1 (by rw [t1, t2])]
      rfl
    · intro hs hbug
      by_cases hl : fresh.trk.length = S''.data.trk.length
      · rw [← hl]; rfl
      · obtain ⟨b, hb⟩ := p3.2.2 hl
        rw [hbug b] at hb; cases hb
  | next _ hd hv ih =>
    obtain ⟨prev, S, K⟩ := ih
    obtain ⟨i', pc', S', g1, g2, g3, g4⟩ := Y.step K.point E hE
    rw [← hE, hd] at g1; cases g1
    obtain ⟨e1, e2⟩ := heap_effect g2 g3
    exact K.go ((g4 _ _ _ hv).1 rfl) e1 e2
  | jump _ hd hv ht ih =>
    obtain ⟨prev, S, K⟩ := ih
    obtain ⟨i', pc', S', g1, g2, g3, g4⟩ := Y.step K.point E hE
    rw [← hE, hd] at g1; cases g1
    obtain ⟨t', ht', ha⟩ := (g4 _ _ _ hv).2.2 _ rfl
    rw [ht] at ht'; cases ht'
    obtain ⟨e1, e2⟩ := heap_effect g2 g3
    exact K.go ha e1 e2
  | back _ hd hv ih =>
    obtain ⟨prev, S, K⟩ := ih
    obtain ⟨i', pc', S', g1, g2, g3, g4⟩ := Y.step K.point E hE
    rw [← hE, hd] at g1; cases g1
    obtain ⟨e1, e2⟩ := heap_effect g2 g3
    exact K.go ((g4 _ _ _ hv).2.1 _ rfl) e1 e2

end Verif.Verifier

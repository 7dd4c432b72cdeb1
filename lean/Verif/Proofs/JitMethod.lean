import Verif.Proofs.JitThunk
import Verif.Spec.JitEdges
import Verif.Proofs.Exec

/-! Compiled code follows the interpreter. -/
namespace Verif.Jit
open Verif.VM hiding Op
open Verif.X64 hiding Pre decode
open Verif.Graph

theorem ctl_next {J : JitEnv} {i : Insn} {is : List Item} {E : Env} {method : Nat} {here : Int} {s s' : IState} {ctl : Ctl}
    (hj : jit J i = .code is) (hi : Ends i = false) (hv : visit E method here i s = .ok s' ctl) : ctl = .next := by
  rcases visit_plain (by rw [flow_ends]; exact hi) hv with h | ⟨o, h⟩
  · exact h
  · subst h
    cases i <;> first
      | exact (nomatch done_next hv)
      | (cases hi; done)
      | (cases hv; done)
      | (cases hj; done)
      | (unfold visit at hv; simp only at hv; split at hv <;> cases hv; done)

theorem item_err {cip : Nat} : ∀ (is : List Item) (p j : Nat) (cc : Cc) (e : JErr), is[j]? = some (.err cc e) →
    (∃ v, e = .bounds v ∧ ⟨4 * (p + j) + 3, v, cip⟩ ∈ itemStubs cip p is) ∨
    ((∀ v, e ≠ .bounds v) ∧ ⟨4 * (p + j) + 3, e.num, cip⟩ ∈ itemThunks cip p is)
  | [], _, _, _, _, h => by simp at h
  | i :: is, p, 0, cc, e, h => by
    cases h
    cases e with
    | bounds v => exact .inl ⟨v, rfl, by simp [itemStubs]⟩
    | _ => exact .inr ⟨by rintro v ⟨⟩, by simp [itemThunks]⟩
  | i :: is, p, j+1, cc, e, h => by
    have hs : ∀ t : Stub, t ∈ itemStubs cip (p + 1) is → t ∈ itemStubs cip p (i :: is) := by
      intro t ht
      unfold itemStubs
      split
      · rename_i h1; cases h1
      · rename_i h1; cases h1; exact List.mem_cons_of_mem _ ht
      · rename_i h1; cases h1; exact ht
    have ht : ∀ t : Thunk, t ∈ itemThunks cip (p + 1) is → t ∈ itemThunks cip p (i :: is) := by
      intro t ht
      unfold itemThunks
      split
      · rename_i h1; cases h1
      · rename_i h1; cases h1; exact ht
      · rename_i h1; cases h1; exact List.mem_cons_of_mem _ ht
      · rename_i h1; cases h1; exact ht
    rw [show p + (j + 1) = p + 1 + j by omega]
    rcases item_err is (p + 1) j cc e h with ⟨v, h1, h2⟩ | ⟨h1, h2⟩
    · exact .inl ⟨v, h1, hs _ h2⟩
    · exact .inr ⟨h1, ht _ h2⟩

theorem num_throw {e : JErr} (h : ∀ v, e ≠ .bounds v) : e.num ∈ throwList := by
  cases e with
  | bounds v => exact absurd rfl (h v)
  | _ => decide

theorem pick_target {α : Cell → Nat} {d : Cell} {p : Cell} : ∀ (cs : List (Cell × Cell)),
    pick (α d) ((cs.map (·.1)).zip (cs.map fun c => α c.2)) p = α (switchTarget d cs p)
  | [] => rfl
  | (v, t) :: cs => by
    show (if p = v then α t else pick (α d) _ p) = α (switchTarget d ((v, t) :: cs) p)
    unfold switchTarget
    by_cases h : p = v
    · rw [if_pos h]
      simp [h]
    · have : ¬ v = p := fun hh => h hh.symm
      rw [if_neg h, if_neg this]
      exact pick_target cs

section
variable {code : List Cell} {start fuel : Nat} {P : Pre} {B : Build} {G : Verif.Cfg.Analysis} {blks : List Blk}
variable (hn : NoNegativeTable code start) (hb : build code start fuel = .ok (P, B, G))
variable (hbl : blocksOf start B G.order G.order = some blks)
variable {J : JitEnv} {F : Parts} {fin : Acc} {f : Nat → Nat}
variable (hf : ∀ (k : Nat) (b : Blk), blks[k]? = some b → Emitted code J F fin k b (f k) (f (k + 1)))
variable {A : Asm} (hrun : Asm.run true {} (finish F fin).ops = some A) (H : Host)
variable {red : Nat → Option Nat} {I : Image} (hI : Follows (finish F fin).ops A red I)

theorem seg_fin {n : Nat} {l : List Op} (h : Seg fin.ops n l) : Seg (finish F fin).ops n l := by
  intro j x hx
  obtain ⟨t, ht⟩ := finish_prefix F fin
  have := h j x hx
  rw [← ht, List.getElem?_append_left (List.getElem?_eq_some_iff.1 this).1]
  exact this

theorem Le.seg {a a' : Acc} {l : List Op} (h : Le a' fin) (he : a'.ops = a.ops ++ l) : Seg (finish F fin).ops a.ops.length l :=
  seg_fin (Seg.of_prefix (he ▸ h.ops))

/-- In block `k`, in front of the code for an instruction. -/
def LiveAt (code : List Cell) (P : Pre) (B : Build) (order : List Nat) (blks : List Blk) (J : JitEnv) (F : Parts) (fin : Acc) (f : Nat → Nat)
    (k pc n : Nat) : Prop :=
  ∃ bs c R, AtRun code P B order blks J F fin f k bs c R pc n ∧ ¬ Stops P bs pc

theorem LiveAt.live {k pc n : Nat} (h : LiveAt code P B G.order blks J F fin f k pc n) : Live code P B G.order blks J F fin f pc n := ⟨k, h⟩

include hn hb hbl hf in
/-- A link leads to a live place. -/
theorem link_live {k bs c x : Nat} {R : RunEnd} (N : Node code P B G.order blks k bs c R) (hx : x ∈ R.links) :
    LiveAt code P B G.order blks J F fin f (G.order.idxOf (B.blockAt x)) x (f (G.order.idxOf (B.blockAt x)) + 2) ∧
      Starts (finish F fin).ops f (G.order.idxOf (B.blockAt x)) := by
  obtain ⟨R', h1, h2⟩ := link_start hn hb hbl hf N hx
  exact ⟨⟨_, _, _, h1, fun hs => hs.2 rfl⟩, seg_fin h2⟩

/-- A jump back is remembered. -/
theorem jump_edge (a : Acc) {k t : Nat} (h : t ≤ k) : (a.ops.length + 1, a.cip) ∈ (a.jump k t).edges := by
  unfold Acc.jump
  rw [if_neg (by omega), if_pos h]
  exact List.mem_append_right _ (List.mem_singleton.2 rfl)
theorem jcmp_edge (a : Acc) {k x t : Nat} {c : Cmp} (h : t ≤ k) : (a.ops.length + 2, a.cip) ∈ (a.jcmp k x t c).edges := by
  unfold Acc.jcmp
  simp only
  rw [if_pos h]
  refine List.mem_append_right _ (List.mem_singleton.2 ?_)
  show (_, _) = ((a.ops ++ [_]).length + 1, a.cip)
  rw [List.length_append]
  rfl

include hn hb hbl hf hrun hI in
/-- At the end of a block that falls through, the processor reaches the next one. -/
theorem settle {k bs c pc n fu : Nat} {R : RunEnd} {a a' : Acc} (N : Node code P B G.order blks k bs c R) (ho : OnRun code P bs c pc)
    (h1 : emitRun code J F k ⟨c, R.stop, R.links.map fun x => G.order.idxOf (B.blockAt x)⟩ fu pc a = some a')
    (h2 : a.ops.length = n) (h3 : a'.ops.length = f (k + 1)) (h4 : Le a' fin) :
    ∃ k2 n', LiveAt code P B G.order blks J F fin f k2 pc n' ∧
      ((∀ m, Reach H I (pos (finish F fin).ops n) m (pos (finish F fin).ops n') m) ∧ (k2 = k ∨ k < k2 ∨ ((n + 1, a.cip) ∈ fin.edges ∧ red n = none)) ∨
        (n + 1, a.cip) ∈ fin.edges ∧ ∃ q, red n = some q ∧ ∀ m, Reach H I (pos (finish F fin).ops n) m (pos (finish F fin).ops q) m) := by
  by_cases hs : Stops P bs pc
  · have hR := N.stops ho hs
    obtain ⟨l1, l2⟩ := link_live hn hb hbl hf N (x := pc) (by rw [hR]; exact List.mem_singleton.2 rfl)
    refine ⟨_, _, l1, ?_⟩
    cases fu with
    | zero => cases h1
    | succ fu =>
      rw [emitRun_eq] at h1
      simp only [hR] at h1
      rw [if_pos (Nat.le_refl _)] at h1
      simp only [List.map_cons, List.map_nil, Option.some.injEq] at h1
      have he : a'.ops = a.ops ++ jumpOps k (G.order.idxOf (B.blockAt pc)) := by rw [← h1, jump_ops]
      have hseg := h4.seg (F := F) he
      rw [h2] at hseg
      have hgo := fun m => go_jump hrun H hI hseg (by rw [← h3, he, List.length_append, h2]) l2 m
      have hedge : G.order.idxOf (B.blockAt pc) ≤ k → (n + 1, a.cip) ∈ fin.edges := by
        intro hk
        refine h4.edges.subset ?_
        rw [← h1, ← h2]
        exact jump_edge a hk
      by_cases hk : G.order.idxOf (B.blockAt pc) ≤ k
      · cases hr : red n with
        | none =>
          refine .inl ⟨fun m => ?_, .inr (.inr ⟨hedge hk, rfl⟩)⟩
          rcases hgo m with ⟨g, _⟩ | ⟨_, q, g, _⟩
          · exact g
          · rw [hr] at g; cases g
        | some q =>
          refine .inr ⟨hedge hk, q, rfl, fun m => ?_⟩
          rcases hgo m with ⟨_, g⟩ | ⟨_, q', g, g'⟩
          · have := g hk; rw [hr] at this; cases this
          · rw [hr] at g; cases g; exact g'
      · refine .inl ⟨fun m => ?_, .inr (.inl (by omega))⟩
        rcases hgo m with ⟨g, _⟩ | ⟨h, _⟩
        · exact g
        · exact absurd h hk
  · exact ⟨k, n, ⟨_, _, _, ⟨N, ho, ⟨fu, a, a', h1, h2, h3, h4⟩⟩, hs⟩, .inl ⟨fun m => .here _ _, .inl rfl⟩⟩

include hn hb in
theorem LiveAt.lt {k pc pc' n : Nat} {i : Insn} (h : LiveAt code P B G.order blks J F fin f k pc n) (hd : decode code pc = some (i, pc')) : pc < pc' := by
  obtain ⟨bs, c, R, at', _⟩ := h
  obtain ⟨nxt, hok⟩ := at'.node.insnOk hn hb at'.on
  obtain ⟨i', hd'⟩ := hok.dec
  rw [hd] at hd'
  cases hd'
  exact hok.lt

/-- The code of an instruction: its labels. -/
theorem errs_bound {a : Acc} {pc : Nat} {is : List Item} (h : Le ((a.at pc).code is) fin) : ErrsBound (finish F fin).ops a.ops.length is := by
  intro j cc e hj
  rcases item_err (cip := pc) is a.ops.length j cc e hj with ⟨v, _, h2⟩ | ⟨_, h2⟩
  · have : (⟨4 * (a.ops.length + j) + 3, v, pc⟩ : Stub) ∈ fin.stubs := h.stubs.subset (List.mem_append_right _ h2)
    obtain ⟨q, _, g⟩ := stub_at (F := F) this
    exact ⟨q, g.head⟩
  · have : (⟨4 * (a.ops.length + j) + 3, e.num, pc⟩ : Thunk) ∈ fin.thunks := h.thunks.subset (List.mem_append_right _ h2)
    obtain ⟨q, _, g⟩ := thunk_at (F := F) this
    exact ⟨q, g.head⟩

include hn hb in
/-- An instruction that goes on with the next one. -/
theorem plain {k bs c pc pc' n : Nat} {R : RunEnd} {i : Insn} {is : List Item} (h : AtRun code P B G.order blks J F fin f k bs c R pc n)
    (hs : ¬ Stops P bs pc) (hd : decode code pc = some (i, pc')) (hi : Ends i = false) (hj : jit J i = .code is) (hc : hasCall is = false) :
    ∃ (fu : Nat) (a a' : Acc), a.ops.length = n ∧ OnRun code P bs c pc' ∧
      emitRun code J F k ⟨c, R.stop, R.links.map fun x => G.order.idxOf (B.blockAt x)⟩ fu pc' ((a.at pc).code is) = some a' ∧
      ((a.at pc).code is).ops.length = n + is.length ∧ a'.ops.length = f (k + 1) ∧ Le a' fin ∧ Le ((a.at pc).code is) fin ∧
      Seg (finish F fin).ops n (itemOps n n is) := by
  obtain ⟨fu, a, a', i', pc1, h2, h3, h4, hd', h1⟩ := h.unfold hn hb hs
  rw [hd] at hd'
  cases hd'
  rw [if_neg (by rw [hi]; decide)] at h1
  obtain ⟨a1, g1, g2⟩ := Option.bind_eq_some_iff.1 h1
  unfold emitPlain at g1
  rw [hj] at g1
  simp only [hc, Bool.false_eq_true, if_false, Option.some.injEq] at g1
  subst g1
  have hle := (le_run _ _ g2).trans h4
  have hseg : Seg (finish F fin).ops a.ops.length (itemOps a.ops.length a.ops.length is) := hle.seg (a := a) rfl
  rw [h2] at hseg
  refine ⟨fu, a, a', h2, h.node.next hn hb h.on hs hd (by rw [flow_ends]; exact hi), g2, ?_, h3, h4, hle, hseg⟩
  show (a.ops ++ itemOps _ _ is).length = _
  rw [List.length_append, itemOps_length, h2]


end

theorem takeJump_ok {E : Env} {h o : Int} {s s' : IState} {c : Ctl} (hv : takeJump E h o s = .ok s' c) :
    c = .goto o ∧ s'.pri = s.pri ∧ s'.alt = s.alt ∧ s'.vm = s.vm := by
  unfold takeJump at hv
  split at hv
  · split at hv
    · cases hv; exact ⟨rfl, rfl, rfl, rfl⟩
    · cases hv
  · cases hv; exact ⟨rfl, rfl, rfl, rfl⟩

theorem Sim.polls {H : Host} {kp ka : Bool} {m : Mach} {s s' : IState} (h : Sim H kp ka m s) (h1 : s'.pri = s.pri) (h2 : s'.alt = s.alt)
    (h3 : s'.vm = s.vm) : Sim H kp ka m s' where
  pri hk := by rw [h1]; exact h.pri hk
  alt hk := by rw [h2]; exact h.alt hk
  frm := by rw [h3]; exact h.frm
  ctx := h.ctx
  stk := by rw [h3]; exact h.stk
  dat := h.dat
  df := h.df
  mem := by rw [h3]; exact h.mem
  hpF := by rw [h3]; exact h.hpF
  frmF := by rw [h3]; exact h.frmF
  scopeF := by rw [h3]; exact h.scopeF

theorem table_small {code : List Cell} {t : Int} {d : Cell} {cs : List (Cell × Cell)} (h : caseTable code t = some (d, cs)) : cs.length < 2147483648 := by
  unfold caseTable at h
  split at h
  · cases h
  · simp only at h
    split at h
    · rename_i op n d' _ _ _
      split at h
      · rename_i hc
        simp only [Option.some.injEq, Prod.mk.injEq] at h
        rw [← h.2, List.length_map, List.length_range]
        have := hc.2.1
        rw [BitVec.toInt_eq_toNat_cond] at this
        have := n.isLt
        omega
      · cases h
    · cases h

theorem zip_snd {α β : Type} : ∀ {a : List α} {b : List β} {x : α × β}, x ∈ a.zip b → x.2 ∈ b
  | [], _, _, h => by simp at h
  | _ :: _, [], _, h => by simp at h
  | a :: as, b :: bs, x, h => by
    rw [List.zip_cons_cons, List.mem_cons] at h
    rcases h with rfl | h
    · exact List.mem_cons_self ..
    · exact List.mem_cons_of_mem _ (zip_snd h)

section
variable {ops : List Op} {A : Asm} (hrun : Asm.run true {} ops = some A) (H : Host) {f : Nat → Nat}
variable {red : Nat → Option Nat} {I : Image} (hI : Follows ops A red I)

include hrun hI in
theorem go_switch {n k d : Nat} {vals : List Cell} {ts : List Nat} {junk : Byte} {l q : List Op} {m : Mach} {p : Cell}
    (hl : switchOps n k vals d ts junk = some l) (hdrop : ops.drop n = l ++ q) (he : n + l.length = f (k + 1))
    (hlen : ts.length = vals.length) (hsmall : ts.length < 2147483648) (hd : Starts ops f d) (hts : ∀ t ∈ ts, Starts ops f t)
    (ok : ImageOk H I) (hp : m.reg 0 = p.setWidth 64) :
    ∃ m', Near m m' ∧ Reach H I (pos ops n) m (pos ops (f (pick d (vals.zip ts) p) + 2)) m' := by
  have hlo : m.lo 0 = p := by show (m.reg 0).setWidth 32 = p; rw [hp, lo_zext]
  have hseg : Seg ops n l := by
    intro j x hx
    have h1 : (ops.drop n)[j]? = some x := by
      rw [hdrop, List.getElem?_append_left (List.getElem?_eq_some_iff.1 hx).1]; exact hx
    rw [List.getElem?_drop] at h1
    exact h1
  unfold switchOps at hl
  split at hl
  · simp only [Option.some.injEq] at hl
    subst hl
    exact ⟨m, .refl m, go_unless hrun H hI hseg he hd m⟩
  · rename_i v
    simp only [Option.some.injEq] at hl
    subst hl
    obtain ⟨m', h1, h2⟩ := go_chain hrun H hI (d := d) ([v].zip ts) n m hseg.left (fun x hx => hts _ (zip_snd hx)) hlo
    refine ⟨m', h1, ?_⟩
    rcases h2 with ⟨e, h2⟩ | h2
    · rw [e]
      refine h2.trans (go_unless hrun H hI hseg.right ?_ hd m')
      rw [List.length_append] at he
      omega
    · exact h2
  · rename_i v w vs
    split at hl
    · cases hl
    · rename_i b hb
      split at hl
      · rename_i hc
        simp only [Option.some.injEq] at hl
        subst hl
        rw [hc.2] at hb
        exact go_table hrun H hI hdrop hlen hsmall hb hd hts ok hp
      · simp only [Option.some.injEq] at hl
        subst hl
        obtain ⟨m', h1, h2⟩ := go_chain hrun H hI (d := d) ((v :: w :: vs).zip ts) n m hseg.left (fun x hx => hts _ (zip_snd hx)) hlo
        refine ⟨m', h1, ?_⟩
        rcases h2 with ⟨e, h2⟩ | h2
        · rw [e]
          exact h2.trans (go_jmp hrun H hI hseg.right.head hd m')
        · exact h2
end

section
variable {code : List Cell} {start fuel : Nat} {P : Pre} {B : Build} {G : Verif.Cfg.Analysis} {blks : List Blk}
variable {J : JitEnv} {F : Parts} {fin : Acc} {f : Nat → Nat}
variable {A : Asm} (H : Host) {red : Nat → Option Nat} {I : Image}

/-- One instruction. -/
theorem one_step {E : Env} {method : Nat} (hn : NoNegativeTable E.code start) (hb : build E.code start fuel = .ok (P, B, G))
    (hbl : blocksOf start B G.order G.order = some blks)
    (hf : ∀ (k : Nat) (b : Blk), blks[k]? = some b → Emitted E.code J F fin k b (f k) (f (k + 1)))
    (hrun : Asm.run true {} (finish F fin).ops = some A) (hI : Follows (finish F fin).ops A red I) (ok : ImageOk H I)
    {k pc pc2 n : Nat} {s s' : IState} {m : Mach} {kp ka kp' ka' : Bool} (S : Setup H J E method s) (FA : FloatsAgree E.floats H.fpu)
    (sim : Sim H kp ka m s) (hl : LiveAt E.code P B G.order blks J F fin f k pc n) (st : Step H J E method pc s kp ka pc2 s' kp' ka') :
    (∃ k2 n' m', LiveAt E.code P B G.order blks J F fin f k2 pc2 n' ∧ Reach H I (pos (finish F fin).ops n) m (pos (finish F fin).ops n') m' ∧
      Sim H kp' ka' m' s' ∧ m'.outer = m.outer ∧ Setup H J E method s' ∧
      (NoHiddenLoop E.code (finish F fin) blks → (∀ e ∈ fin.edges, red (e.1 - 1) ≠ none) → k2 = k ∧ pc < pc2 ∨ k < k2)) ∨
    (∃ n0 q m', (n0 + 1, pc) ∈ fin.edges ∧ red n0 = some q ∧ Reach H I (pos (finish F fin).ops n) m (pos (finish F fin).ops q) m' ∧
      Sim H kp' ka' m' s' ∧ m'.outer = m.outer) := by
  obtain ⟨i, pc', ctl, hd, hin, hp, ha, side, hv, hland, e1, e2⟩ := st.ex
  have hplace := hl.live.place hn hb
  have hlt := hl.lt hn hb hd
  obtain ⟨bs, c, R, at', hs⟩ := hl
  cases hi : Ends i with
  | false =>
    have hpn : readsPri i = needsPri i := by cases i <;> first | rfl | cases hi
    have han : readsAlt i = needsAlt i := by cases i <;> first | rfl | cases hi
    have hin' : ∃ is, jit J i = .code is ∧ hasCall is = false := by
      cases i <;> first | exact hin | cases hi
    obtain ⟨is, hj, hc⟩ := hin'
    have hctl : ctl = .next := ctl_next hj hi hv
    subst hctl
    cases hland
    obtain ⟨m1, r1, r2, r3⟩ := (sim_all S FA sim (hpn ▸ hp) (han ▸ ha) side hj hv).elim
    obtain ⟨fu, a, a', ea, on2, g2, g3, g4, g5, hle, hseg⟩ := plain hn hb at' hs hd hi hj hc
    obtain ⟨q, hq, hdone, _⟩ := frag hrun hI is n none m (wf_jit hj hc) hseg (ea ▸ errs_bound hle) (fun l h => nomatch h)
    cases hq
    obtain ⟨k2, n2, l2, ⟨go, hk⟩ | ⟨he, q, hq, go⟩⟩ := settle hn hb hbl hf hrun H hI at'.node on2 g2 g3 g4 g5
    · refine .inl ⟨k2, n2, m1, l2, (hdone _ r1).trans (go _), e1 ▸ e2 ▸ r2, r3, S.kept (ik_visit hj E method _ _ _ _ hv) st.layout, ?_⟩
      intro _ hall
      rcases hk with hk | hk | ⟨hk, hk'⟩
      · exact .inl ⟨hk, hlt⟩
      · exact .inr hk
      · exact absurd hk' (hall _ hk)
    · exact .inr ⟨_, q, m1, he, hq, (hdone _ r1).trans (go _), e1 ▸ e2 ▸ r2, r3⟩
  | true =>
    obtain ⟨fu, a, a', i', pc1, h2, h3, h4, hd', h1⟩ := at'.unfold hn hb hs
    rw [hd] at hd'
    cases hd'
    rw [if_pos hi] at h1
    rcases at'.node.control hn hb at'.on hs hd (by rw [flow_ends]; exact hi) with h | ⟨t, h, hck, hR⟩ | ⟨q, t, h, hck, hR⟩ | ⟨t, d, cs, h, htab, hcd, hcc, hR⟩
    · subst h
      obtain ⟨is, hj, _⟩ := hin
      cases hj
    · subst h
      obtain ⟨g1, g2, g3, g4⟩ := takeJump_ok hv
      subst g1
      have hx : pc2 = cellOf t := by
        have := hck.index (E := E)
        rw [show jumpIndex E t.toInt = some pc2 from hland] at this
        exact Option.some.inj this
      subst hx
      obtain ⟨l1, l2⟩ := link_live hn hb hbl hf at'.node (x := cellOf t) (by rw [hR]; exact List.mem_singleton.2 rfl)
      unfold emitEnd at h1
      simp only [hR, List.map_cons, List.map_nil] at h1
      split at h1
      · simp only [Option.some.injEq] at h1
        have he : a'.ops = a.ops ++ jumpOps k (G.order.idxOf (B.blockAt (cellOf t))) := by rw [← h1, jump_ops]; rfl
        have hseg := h4.seg (F := F) he
        rw [h2] at hseg
        have hedge : G.order.idxOf (B.blockAt (cellOf t)) ≤ k → (n + 1, pc) ∈ fin.edges := by
          intro hk
          refine h4.edges.subset ?_
          rw [← h1, ← h2]
          exact jump_edge (a.at pc) hk
        rcases go_jump hrun H hI hseg (by rw [← h3, he, List.length_append, h2]) l2 m with ⟨hgo, hr⟩ | ⟨hk, q, hq, hgo⟩
        · refine .inl ⟨_, _, m, l1, hgo, e1 ▸ e2 ▸ sim.polls g2 g3 g4, rfl, S.kept (g4 ▸ Kept.refl _) st.layout, ?_⟩
          intro _ hall
          rcases Nat.lt_or_ge k (G.order.idxOf (B.blockAt (cellOf t))) with hk | hk
          · exact .inr hk
          · exact absurd (hr hk) (hall _ (hedge hk))
        · exact .inr ⟨n, q, m, hedge hk, hq, hgo, e1 ▸ e2 ▸ sim.polls g2 g3 g4, rfl⟩
      · cases h1
    · subst h
      obtain ⟨lf, sf⟩ := link_live hn hb hbl hf at'.node (x := pc') (by rw [hR]; simp)
      obtain ⟨lt, st'⟩ := link_live hn hb hbl hf at'.node (x := cellOf t) (by rw [hR]; simp)
      obtain ⟨fl, t1, t2⟩ := jcmp_test H (c := q) sim (hp rfl) (fun c1 c2 => ha (by cases q <;> first | rfl | exact absurd rfl c1 | exact absurd rfl c2))
      unfold emitEnd at h1
      simp only [hR, List.map_cons, List.map_nil] at h1
      split at h1
      · rename_i hstop
        simp only [Option.some.injEq] at h1
        have he : a'.ops = a.ops ++ jcmpOps k (G.order.idxOf (B.blockAt pc')) (G.order.idxOf (B.blockAt (cellOf t))) q := by rw [← h1, jcmp_ops]; rfl
        have hseg := h4.seg (F := F) he
        rw [h2] at hseg
        have hedge : G.order.idxOf (B.blockAt (cellOf t)) ≤ k → (n + 1 + 1, pc) ∈ fin.edges := by
          intro hk
          refine h4.edges.subset ?_
          rw [← h1, ← h2]
          exact jcmp_edge (a.at pc) hk
        have hgo := go_jcmp hrun H hI hseg (by rw [← h3, he, List.length_append, h2]) sf st' t1
        rw [t2] at hgo
        have hnear : Sim H kp ka { m with flags := some fl } s := (near_flags m fl).sim sim
        rw [visit] at hv
        simp only at hv
        split at hv
        · rename_i hc
          obtain ⟨g1, g2, g3, g4⟩ := takeJump_ok hv
          subst g1
          have hx : pc2 = cellOf t := by
            have := hck.index (E := E)
            rw [show jumpIndex E t.toInt = some pc2 from hland] at this
            exact Option.some.inj this
          subst hx
          rw [hc] at hgo
          rcases hgo with ⟨hgo, hr⟩ | ⟨_, hk, x, hx, hgo⟩
          · refine .inl ⟨_, _, _, lt, hgo, e1 ▸ e2 ▸ hnear.polls g2 g3 g4, rfl, S.kept (g4 ▸ Kept.refl _) st.layout, ?_⟩
            intro _ hall
            rcases Nat.lt_or_ge k (G.order.idxOf (B.blockAt (cellOf t))) with hk | hk
            · exact .inr hk
            · exact absurd (hr rfl hk) (hall _ (hedge hk))
          · exact .inr ⟨n + 1, x, _, hedge hk, hx, hgo, e1 ▸ e2 ▸ hnear.polls g2 g3 g4, rfl⟩
        · rename_i hc
          cases hv
          cases hland
          rcases hgo with ⟨hgo, _⟩ | ⟨hh, _⟩
          · rw [if_neg hc] at hgo
            refine .inl ⟨_, _, _, lf, hgo, e1 ▸ e2 ▸ hnear, rfl, S.kept (Kept.refl _) st.layout, ?_⟩
            intro hid _
            refine .inr ((hid k _ at'.node.blk pc n hplace).1 q t.toInt (hstop ▸ hd) _ ?_)
            rw [hR]; rfl
          · exact absurd hh hc
      · cases h1
    · subst h
      have hall : ∀ x ∈ R.links, LiveAt E.code P B G.order blks J F fin f (G.order.idxOf (B.blockAt x)) x (f (G.order.idxOf (B.blockAt x)) + 2) ∧ Starts (finish F fin).ops f (G.order.idxOf (B.blockAt x)) :=
        fun x hx => link_live hn hb hbl hf at'.node hx
      have hv' : s' = s ∧ ctl = .goto (switchTarget d cs s.pri).toInt := by
        rw [visit] at hv
        simp only [htab] at hv
        cases hv
        exact ⟨rfl, rfl⟩
      obtain ⟨rfl, rfl⟩ := hv'
      have hsel : ∀ (cs : List (Cell × Cell)), (∀ p ∈ cs, Checked E.code start p.2) → Checked E.code start (switchTarget d cs s'.pri) ∧
          (switchTarget d cs s'.pri = d ∨ ∃ p ∈ cs, p.2 = switchTarget d cs s'.pri) := by
        intro cs
        induction cs with
        | nil => intro _; exact ⟨hcd, .inl rfl⟩
        | cons x xs ih =>
          intro hh
          obtain ⟨v, w⟩ := x
          unfold switchTarget
          split
          · exact ⟨hh _ (List.mem_cons_self ..), .inr ⟨_, List.mem_cons_self .., rfl⟩⟩
          · obtain ⟨i1, i2⟩ := ih (fun p hp => hh p (List.mem_cons_of_mem _ hp))
            refine ⟨i1, ?_⟩
            rcases i2 with i2 | ⟨p, i2, i3⟩
            · exact .inl i2
            · exact .inr ⟨p, List.mem_cons_of_mem _ i2, i3⟩
      obtain ⟨hck, hmem⟩ := hsel cs hcc
      have hx : pc2 = cellOf (switchTarget d cs s'.pri) := by
        have := hck.index (E := E)
        rw [show jumpIndex E (switchTarget d cs s'.pri).toInt = some pc2 from hland] at this
        exact Option.some.inj this
      subst hx
      have hin2 : cellOf (switchTarget d cs s'.pri) ∈ R.links := by
        rw [hR]
        rcases hmem with hmem | ⟨p, hm1, hm2⟩
        · rw [hmem]; exact List.mem_cons_self ..
        · rw [← hm2]; exact List.mem_cons_of_mem _ (List.mem_map.2 ⟨p, hm1, rfl⟩)
      unfold emitEnd at h1
      simp only [hR, List.map_cons, List.map_map, htab] at h1
      split at h1
      · rename_i hstop
        split at h1
        · rename_i l hl
          simp only [Option.some.injEq] at h1
          have he : a'.ops = a.ops ++ l := by rw [← h1]; rfl
          rw [h2] at hl
          obtain ⟨q, hq⟩ : ∃ q, (finish F fin).ops.drop n = l ++ q := by
            obtain ⟨x, hx⟩ := h4.ops
            obtain ⟨y, hy⟩ := finish_prefix F fin
            refine ⟨x ++ y, ?_⟩
            rw [← hy, ← hx, he, ← h2, List.append_assoc, List.append_assoc, List.drop_left]
          obtain ⟨m', r1, r2⟩ := go_switch hrun H hI (f := f) (p := s'.pri) hl hq (by rw [← h3, he, List.length_append, h2])
            (by simp) (by rw [List.length_map]; exact table_small htab)
            (hall (cellOf d) (by rw [hR]; exact List.mem_cons_self ..)).2
            (by
              intro t ht
              obtain ⟨p, hp1, rfl⟩ := List.mem_map.1 ht
              exact (hall (cellOf p.2) (by rw [hR]; exact List.mem_cons_of_mem _ (List.mem_map.2 ⟨p, hp1, rfl⟩))).2)
            ok (sim.pri (hp rfl))
          have hpk := pick_target (α := fun x => G.order.idxOf (B.blockAt (cellOf x))) (d := d) (p := s'.pri) cs
          have e0 : pick (G.order.idxOf (B.blockAt (cellOf d))) ((cs.map (·.1)).zip (cs.map ((fun x => G.order.idxOf (B.blockAt x)) ∘ fun p => cellOf p.2))) s'.pri =
              G.order.idxOf (B.blockAt (cellOf (switchTarget d cs s'.pri))) := hpk
          rw [e0] at r2
          refine .inl ⟨_, _, m', (hall _ hin2).1, r2, e1 ▸ e2 ▸ r1.sim sim, r1.stack, S.kept (Kept.refl _) st.layout, ?_⟩
          intro hid _
          exact .inr ((hid k _ at'.node.blk pc n hplace).2 t.toInt (hstop.1 ▸ hd) _ (List.mem_map.2 ⟨_, hin2, rfl⟩))
        · cases h1
      · cases h1


/-- Many, in the code as it was linked. -/
theorem many_steps {E : Env} {method : Nat} (hn : NoNegativeTable E.code start) (hb : build E.code start fuel = .ok (P, B, G))
    (hbl : blocksOf start B G.order G.order = some blks)
    (hf : ∀ (k : Nat) (b : Blk), blks[k]? = some b → Emitted E.code J F fin k b (f k) (f (k + 1)))
    (hrun : Asm.run true {} (finish F fin).ops = some A) (hI : Follows (finish F fin).ops A (fun _ => none) I) (ok : ImageOk H I)
    (FA : FloatsAgree E.floats H.fpu)
    {pc pc2 : Nat} {s s' : IState} {kp ka kp' ka' : Bool} (st : Steps H J E method pc s kp ka pc2 s' kp' ka') :
    ∀ {n : Nat} {m : Mach}, Setup H J E method s → Sim H kp ka m s → Live E.code P B G.order blks J F fin f pc n →
    ∃ n' m', Live E.code P B G.order blks J F fin f pc2 n' ∧ Reach H I (pos (finish F fin).ops n) m (pos (finish F fin).ops n') m' ∧
      Sim H kp' ka' m' s' ∧ m'.outer = m.outer ∧ Setup H J E method s' := by
  induction st with
  | none pc s kp ka => intro n m S sim hl; exact ⟨n, m, hl, .here _ _, sim, rfl, S⟩
  | more h1 _ ih =>
    intro n m S sim ⟨k, hl⟩
    rcases one_step H hn hb hbl hf hrun hI ok S FA sim hl h1 with ⟨_, n1, m1, a1, a2, a3, a4, a5, _⟩ | ⟨_, _, _, _, h, _⟩
    · obtain ⟨n2, m2, b1, b2, b3, b4, b5⟩ := ih a5 a3 a1.live
      exact ⟨n2, m2, b1, a2.trans b2, b3, b4.trans a4, b5⟩
    · cases h

/-- A failing instruction. -/
theorem fail_step {E : Env} {method : Nat} {here : Int} (hn : NoNegativeTable E.code start) (hb : build E.code start fuel = .ok (P, B, G))
    (hrun : Asm.run true {} (finish F fin).ops = some A) (hI : Follows (finish F fin).ops A red I)
    {pc pc' n : Nat} {s s' : IState} {m : Mach} {kp ka : Bool} {i : Insn} {is : List Item} {e : Err} (S : Setup H J E method s)
    (sim : Sim H kp ka m s) (hp : needsPri i = true → kp = true) (ha : needsAlt i = true → ka = true) (side : ErrSide s i)
    (hl : Live E.code P B G.order blks J F fin f pc n) (hd : decode E.code pc = some (i, pc')) (hj : jit J i = .code is) (hc : hasCall is = false)
    (hi : Ends i = false) (hv : visit E method here i s = .fail s' e) :
    s'.vm = s.vm ∧ ∃ (je : JErr) (m' : Mach), je.code = e ∧ m'.mem = m.mem ∧ m'.field = m.field ∧
      (((∀ v, je ≠ .bounds v) ∧ ∃ q r : Nat, (q, pc) ∈ (finish F fin).cips ∧ Seg (finish F fin).ops r (.bind (throwLabel 0) :: F.report) ∧
          Reach H I (pos (finish F fin).ops n) m (pos (finish F fin).ops r) m' ∧ m'.reg 0 = BitVec.ofNat 64 je.num ∧
          m'.outer = ((I.entry + BitVec.ofNat 64 (pos (finish F fin).ops q)) :: m.stack, m.outer.2)) ∨
        ∃ v q lab, je = .bounds v ∧ (q, (⟨lab, v, pc⟩ : Stub)) ∈ (finish F fin).stubs ∧
          Reach H I (pos (finish F fin).ops n) m (pos (finish F fin).ops q) m' ∧ m'.outer = m.outer) := by
  obtain ⟨⟨je, m1, r1, r2, r3, r4, r5⟩, hvm⟩ := err_all S sim hp ha side hj hv
  refine ⟨hvm, je, ?_⟩
  obtain ⟨k, bs, c, R, at', hs⟩ := hl
  obtain ⟨_, a, _, ea, _, _, _, _, _, hle, hseg⟩ := plain hn hb at' hs hd hi hj hc
  obtain ⟨q, hq, _, herr⟩ := frag hrun hI is n none m (wf_jit hj hc) hseg (ea ▸ errs_bound hle) (fun l h => nomatch h)
  cases hq
  obtain ⟨j, cc, hjj, hgo⟩ := herr _ _ r1
  rcases item_err (cip := pc) is n j cc je hjj with ⟨v, g1, g2⟩ | ⟨g1, g2⟩
  · rw [← ea] at g2
    have hm : (⟨4 * (a.ops.length + j) + 3, v, pc⟩ : Stub) ∈ fin.stubs := hle.stubs.subset (List.mem_append_right _ g2)
    obtain ⟨q, t1, t2⟩ := stub_at (F := F) hm
    refine ⟨m1, r2, r3, r4, .inr ⟨v, q, _, g1, t1, hgo q ?_, r5⟩⟩
    rw [← ea]; exact t2.head
  · rw [← ea] at g2
    have hm : (⟨4 * (a.ops.length + j) + 3, je.num, pc⟩ : Thunk) ∈ fin.thunks := hle.thunks.subset (List.mem_append_right _ g2)
    obtain ⟨q, r, t1, t2, k, t3, t4⟩ := thunk_path hrun H hI hm (num_throw g1)
    obtain ⟨m2, u1, u2, u3, u4, u5⟩ := t4 m1
    refine ⟨m2, r2, u4.trans r3, u5.trans r4, .inl ⟨g1, q, r, t1, t2, (hgo k ?_).trans u1, u2, ?_⟩⟩
    · rw [← ea]; exact t3
    · rw [u3, r5, show m1.stack = m.stack from congrArg Prod.fst r5]

end

/-- What a compiled method is made of. -/
theorem compiled_parts {code : List Cell} {J : JitEnv} {F : Parts} {start fuel : Nat} {C : Compiled} {P : Pre} {B : Build} {G : Verif.Cfg.Analysis}
    {blks : List Blk} (hn : NoNegativeTable code start) (h1 : build code start fuel = .ok (P, B, G)) (h2 : blocksOf start B G.order G.order = some blks)
    (h3 : compile code J F blks = some C) :
    ∃ fin f, emitBlocks code J F 0 blks { ops := F.prologue.1, thunks := F.prologue.2 } = some fin ∧
      (∀ (k : Nat) (b : Blk), blks[k]? = some b → Emitted code J F fin k b (f k) (f (k + 1))) ∧ f 0 = F.prologue.1.length ∧ C = finish F fin ∧
      ∀ pc n, (pc, n) ∈ C.places ↔ Live code P B G.order blks J F fin f pc n := by
  unfold compile at h3
  split at h3
  · cases h3
  · rename_i fin hfin
    obtain rfl := Option.some.inj h3
    obtain ⟨f, g1, g2, g3⟩ := places hn h1 h2 rfl hfin
    exact ⟨fin, f, hfin, g1, g2, rfl, g3⟩

theorem Method.parts {code : List Cell} {J : JitEnv} {F : Parts} {start : Nat} {C : Compiled} {A : Asm} (M : Method code J F start C A) :
    ∃ fuel P B G blks fin f, build code start fuel = .ok (P, B, G) ∧ blocksOf start B G.order G.order = some blks ∧
      (∀ (k : Nat) (b : Blk), blks[k]? = some b → Emitted code J F fin k b (f k) (f (k + 1))) ∧ f 0 = F.prologue.1.length ∧ C = finish F fin ∧
      ∀ pc n, (pc, n) ∈ C.places ↔ Live code P B G.order blks J F fin f pc n := by
  obtain ⟨fuel, P, B, G, blks, h1, h2, h3⟩ := M.compiled
  obtain ⟨fin, f, _, g1, g2, g3, g4⟩ := compiled_parts M.tables h1 h2 h3
  exact ⟨fuel, P, B, G, blks, fin, f, h1, h2, g1, g2, g3, g4⟩

end Verif.Jit

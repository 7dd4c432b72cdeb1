import Verif.Proofs.AcceptBuild
import Verif.Proofs.Replay

/-! The verification of a method that has a certificate. -/
namespace Verif.Verifier
open Verif.VM
open Verif.Graph
open Verif.Cfg (upd rpoId)

variable {C : Ctx} {start stop : Nat} {ns : List Nd} {Lv : Nat → Prop} {R : List (Nat × Nat)} {P : Pre}

/-- A call is verified right behind its push. -/
def PrevOk (n : Nd) (prev : Option Nat) : Prop := ∀ d k, n.st = .arg d k → prev = some (n.pos - 2)

theorem verifyOp_of {prev : Option Nat} {pc k : Nat} {op : Cell} {S S' : Cur} {f : List Cell → Option (List Check)} {vs : List Cell} {cs : List Check}
    (h130 : op ≠ 130) (hr : rule op.toNat = some (k, f)) (ho : operands C.code pc k = some vs) (hf : f vs = some cs)
    (hc : runChecks C prev cs S = .ok S') : verifyOp C prev pc op S = .ok (pc + 1 + k, S') := by
  unfold verifyOp
  rw [if_neg h130, hr]
  simp only
  rw [ho]
  simp only
  rw [hf]
  simp only
  rw [bind_ok_iff]
  exact ⟨S', hc, rfl⟩

theorem pushStack_flat {d max : Nat} (hd : d < top) (hm : max ≤ top) : ∃ max', max' ≤ top ∧ pushStack 1 ⟨flat d, max⟩ = .ok ⟨flat (d + 1), max'⟩ := by
  unfold pushStack
  simp only
  rw [if_neg (by unfold top at *; omega), if_neg (by unfold top at *; omega)]
  refine ⟨_, ?_, rfl⟩
  split
  · unfold top at *; omega
  · exact hm

theorem branches_rule : ∀ op ∈ branches, ∃ f, rule op.toNat = some (1, f) ∧ ∀ x, f [x] = some [] := by
  intro op h
  simp only [branches, List.mem_cons, List.not_mem_nil, or_false] at h
  rcases h with rfl | rfl | rfl | rfl | rfl | rfl | rfl | rfl <;> exact ⟨_, rfl, fun _ => rfl⟩

/-- The verifier accepts an instruction. -/
theorem Typed.verify {n : Nd} (h : Typed C n) (hl : C.code.length < 536870912) {prev : Option Nat} (hp : PrevOk n prev) {max : Nat} (hm : max ≤ top)
    (hd : n.st.depth < top) : ∃ op, C.code[n.pos]? = some op ∧ ∃ d' max', max' ≤ top ∧
      verifyOp C prev n.pos op ⟨flat n.st.depth, max⟩ = .ok (n.nxt, ⟨flat d', max'⟩) ∧
      ∀ s ∈ n.succs, s.2.depth = d' ∧ ∀ d k, s.2 = .arg d k → s.1 = n.pos + 2 := by
  cases h with
  | @plain i d d' k op f vs cs h1 h2 h3 h4 h5 h6 h7 h8 h9 h10 h11 h12 =>
    obtain ⟨max', g1, g2⟩ := h12 prev max hd hm
    refine ⟨_, h1, d', max', g1, verifyOp_of h4 h9 h10 h11 g2, ?_⟩
    intro s hs
    cases List.mem_singleton.1 hs
    exact ⟨rfl, nofun⟩
  | @pushC i d k h1 h2 =>
    obtain ⟨max', g1, g2⟩ := pushStack_flat hd hm
    refine ⟨_, h1, d + 1, max', g1, ?_, ?_⟩
    · refine verifyOp_of (k := 1) (by decide) rfl (operands_one h2) rfl ?_
      show (Check.run C prev (.push 1) _ >>= fun S => Out.ok S) = _
      rw [bind_ok_iff]
      exact ⟨_, g2, rfl⟩
    · intro s hs
      cases List.mem_singleton.1 hs
      exact ⟨rfl, fun _ _ _ => rfl⟩
  | @call q d k t h1 h2 h3 h4 h5 h6 h7 h8 =>
    have hprev := hp d k rfl
    refine ⟨_, h4, d - (k + 1), max, hm, ?_, ?_⟩
    · refine verifyOp_of (k := 1) (by decide) rfl (operands_one h5) rfl ?_
      show (callOk C prev _ _ >>= fun S => Out.ok S) = _
      rw [bind_ok_iff]
      refine ⟨_, ?_, rfl⟩
      rw [hprev]
      show callOk C (some q) _ _ = _
      unfold callOk
      simp only
      rw [bind_ok_iff]
      refine ⟨some (BitVec.ofNat 32 k), ?_, ?_⟩
      · unfold pushedConst
        rw [bind_ok_iff]
        refine ⟨_, readAt_ok.2 h1, ?_⟩
        rw [if_pos rfl, bind_ok_iff]
        exact ⟨_, readAt_ok.2 h2, rfl⟩
      · simp only
        rw [ofs_toInt h6, if_neg (by omega), show ((4 * (t : Int)) / 4).toNat = t by omega, h7]
        simp only
        rw [if_neg (by simp), count_toInt (by omega), if_neg (by omega)]
        unfold popStack
        rw [show (((k : Int) + 1) % 4294967296).toNat = k + 1 by omega]
        exact if_neg (show ¬ k + 1 > d by omega)
    · intro s hs
      cases List.mem_singleton.1 hs
      exact ⟨rfl, nofun⟩
  | @jump i d t h1 h2 =>
    refine ⟨_, h1, d, max, hm, verifyOp_of (k := 1) (by decide) rfl (operands_one h2) rfl rfl, ?_⟩
    intro s hs
    cases List.mem_singleton.1 hs
    exact ⟨rfl, nofun⟩
  | @branch i d t op h1 h2 h3 =>
    obtain ⟨f1, f2, f3, f4, f5, f6, f7, f8, f9, f10, f11, f12⟩ := branches_facts _ h2
    obtain ⟨f, g1, g2⟩ := branches_rule _ h2
    refine ⟨_, h1, d, max, hm, verifyOp_of (k := 1) f3 g1 (operands_one h3) (g2 _) rfl, ?_⟩
    intro s hs
    rcases List.mem_cons.1 hs with rfl | hs
    · exact ⟨rfl, nofun⟩
    · cases List.mem_singleton.1 hs
      exact ⟨rfl, nofun⟩
  | @retn i d h1 =>
    have hlen := len_of h1
    obtain ⟨vs, hvs, _⟩ := operands_some (code := C.code) (pc := i) (n := 0) (by omega)
    exact ⟨_, h1, d, max, hm, verifyOp_of (k := 0) (by decide) rfl hvs rfl rfl, nofun⟩
  | @switch i d tbl dflt cs h1 h2 h3 =>
    refine ⟨_, h1, d, max, hm, verifyOp_of (k := 1) (by decide) rfl (operands_one h2) rfl rfl, ?_⟩
    intro s hs
    obtain ⟨y, _, rfl⟩ := List.mem_map.1 hs
    exact ⟨rfl, nofun⟩
  | @table i d dflt cs h1 =>
    have hle := h1.le
    refine ⟨_, h1.op, d, max, hm, ?_, ?_⟩
    · unfold verifyOp
      rw [if_pos rfl, bind_ok_iff]
      refine ⟨_, readAt_ok.2 h1.count, ?_⟩
      rw [count_toInt (by omega)]
      simp only
      rw [if_neg (by omega)]
      congr 2
      omega
    · intro s hs
      cases List.mem_singleton.1 hs
      exact ⟨rfl, nofun⟩

/-- The verifier accepts a run of a block. -/
theorem Tied.verifyRun (K : Tied C start stop ns Lv R P) {bs : Nat} : ∀ (fuel : Nat) (n : Nd) (E : RunEnd), n ∈ ns → Lv n.pos →
    scanRun C.code P bs fuel n.pos = .ok E → ∀ (prev : Option Nat) (max vf : Nat), PrevOk n prev → max ≤ top → E.stop < vf + n.pos →
    n.pos ≤ E.stop ∧ E.stop ≤ stop ∧ ∃ d' max', max' ≤ top ∧ Verifier.verifyRun C E.stop vf prev n.pos ⟨flat n.st.depth, max⟩ = .ok ⟨flat d', max'⟩ ∧
      ∀ j ∈ E.links, ∃ m ∈ ns, m.pos = j ∧ m.st = .norm d'
  | 0, _, _, _, _, h => by cases h
  | fuel+1, n, E, hn, hv, h => by
    intro prev max vf hp hm hf
    have hlive : LiveAt ns Lv n.pos := ⟨n, hn, rfl, hv⟩
    have hb := K.below hlive
    unfold scanRun at h
    rw [if_neg (by omega)] at h
    by_cases hst : P.targets.contains n.pos ∧ bs ≠ n.pos
    · rw [if_pos hst] at h
      cases h
      refine ⟨Nat.le_refl _, by have := K.cip; simp only; omega, n.st.depth, max, hm, ?_, ?_⟩
      · simp only at hf
        match vf, hf with
        | vf+1, _ =>
          unfold Verifier.verifyRun
          simp
        | 0, hf => omega
      · intro j hj
        obtain rfl : j = n.pos := by simpa using hj
        obtain ⟨m, hm, g1, g2, d, g3⟩ := K.target_joint (by simpa using hst.1) hlive
        have := K.chain.pos_inj hm hn g1
        subst this
        exact ⟨m, hm, rfl, by rw [g3]; rfl⟩
    · rw [if_neg hst] at h
      obtain ⟨op, h1, h2⟩ := K.step hn hv
      have hty := (K.chain.mem hn).2.2
      have hlt := hty.lt
      obtain ⟨op', e1, d', max', g1, g2, g3⟩ := hty.verify K.size hp hm (K.depth n hn)
      rw [h1] at e1
      cases e1
      have hrd : readAt C.code n.pos = .ok op := readAt_ok.2 h1
      rw [hrd] at h
      replace h : (if isControl op.toNat = true then controlFlow C.code P n.pos op.toNat else (nextInsn C.code n.pos op).bind fun next =>
        scanRun C.code P bs fuel next) = .ok E := h
      have one : ∀ {vf T}, n.pos < E.stop → Verifier.verifyRun C E.stop vf (some n.pos) n.nxt ⟨flat d', max'⟩ = .ok T →
          Verifier.verifyRun C E.stop (vf + 1) prev n.pos ⟨flat n.st.depth, max⟩ = .ok T := by
        intro vf T hlt' hT
        unfold Verifier.verifyRun
        rw [if_neg (by omega), bind_ok_iff]
        refine ⟨op, hrd, ?_⟩
        rw [bind_ok_iff]
        exact ⟨_, g2, hT⟩
      rcases h2 with ⟨h2, h3, st, h4⟩ | ⟨h2, E', h3, h5, h6, d, h7, h8⟩
      · rw [if_neg (by rw [h2]; simp), h3] at h
        replace h : scanRun C.code P bs fuel n.nxt = .ok E := h
        have hsm : (n.nxt, st) ∈ n.succs := by rw [h4]; simp
        obtain ⟨m, hm', k1, k2, k3⟩ := K.go n hn hv (n.nxt, st) hsm
        obtain ⟨k4, k5⟩ := g3 _ hsm
        simp only at k1 k2 k3 k4
        rw [← k1] at h k3
        have hpm : PrevOk m (some n.pos) := by
          intro a b hab
          have := k5 a b (by rw [← k2]; exact hab)
          simp only at this
          rw [k1, this]
          simp
        have ih := fun vf hvf => K.verifyRun fuel m E hm' k3 h (some n.pos) max' vf hpm g1 hvf
        have hge : m.pos ≤ E.stop := (ih (E.stop + 1) (by omega)).1
        match vf, hf with
        | 0, hf => omega
        | vf+1, hf =>
          obtain ⟨_, hsl, d2, max2, q1, q2, q3⟩ := ih vf (by omega)
          refine ⟨by omega, hsl, d2, max2, q1, one (by omega) ?_, q3⟩
          rw [← k1, ← k4, ← k2]
          exact q2
      · rw [if_pos h2, h3] at h
        cases h
        refine ⟨by omega, by have := (K.chain.mem hn).2.1; omega, d', max', g1, ?_, ?_⟩
        · match vf, hf with
          | 0, hf => omega
          | 1, hf => omega
          | vf+2, hf =>
            refine one (by omega) ?_
            unfold Verifier.verifyRun
            rw [if_pos (by omega)]
        · intro j hj
          obtain ⟨s, hs, rfl⟩ := (h6 j).1 hj
          obtain ⟨m, hm, k1, k2, k3⟩ := K.go n hn hv s hs
          refine ⟨m, hm, k1, ?_⟩
          have := (g3 s hs).1
          rw [h8 s hs] at this
          rw [k2, h8 s hs, ← this]
          rfl

/-! ### Joins -/

theorem verifyJoin_flat {M : Method} {cur d : Nat} {bug : Nat → Bool} : verifyJoin M cur (flat d) (flat d) bug = .ok bug := by
  simp [verifyJoin]

theorem joinPreds_flat {M : Method} {b d : Nat} : ∀ (ps : List Nat) (found later : Bool) (S : VState),
    (∀ p ∈ ps, M.id p < M.id b → p ≠ b ∧ S.data p = flat d) → (found = true → S.data b = flat d ∧ S.entry b = some (flat d)) →
    (found = true ∨ ∃ p ∈ ps, M.id p < M.id b) →
    ∃ later' S', joinPreds C M b ps found later S = .ok (later', S') ∧ Frame b S S' ∧ S'.data b = flat d ∧ S'.entry b = some (flat d)
  | [], found, later, S, _, h2, h3 => by
    have hf : found = true := by simpa using h3
    exact ⟨later, S, rfl, .refl _ _, (h2 hf).1, (h2 hf).2⟩
  | p :: ps, found, later, S, h1, h2, h3 => by
    unfold joinPreds
    by_cases hid : M.id p ≥ M.id b
    · rw [if_pos hid]
      exact joinPreds_flat ps found true S (fun q hq => h1 q (by simp [hq])) h2 (by
        rcases h3 with h3 | ⟨q, hq, h3⟩
        · exact Or.inl h3
        · rcases List.mem_cons.1 hq with rfl | hq
          · omega
          · exact Or.inr ⟨q, hq, h3⟩)
    · rw [if_neg hid]
      obtain ⟨hpb, hdp⟩ := h1 p (by simp) (by omega)
      have hrest : ∀ T : VState, Frame b S T → ∀ q ∈ ps, M.id q < M.id b → q ≠ b ∧ T.data q = flat d := by
        intro T hT q hq hlt
        obtain ⟨a1, a2⟩ := h1 q (by simp [hq]) hlt
        exact ⟨a1, (hT.data q a1).trans a2⟩
      by_cases hfound : found = true
      · rw [if_neg (by simp [hfound])]
        obtain ⟨e1, e2⟩ := h2 hfound
        have hmt : ∃ T, mergeTracker C M b (S.data p) S = .ok T ∧ Frame b S T ∧ T.data b = flat d ∧ T.entry b = some (flat d) := by
          unfold mergeTracker
          rw [e1, hdp, verifyJoin_flat]
          by_cases hs : C.scopes = true
          · exact ⟨{ S with bug := S.bug }, by
              rw [bind_ok_iff]
              exact ⟨S.bug, rfl, by rw [if_pos hs]⟩, ⟨fun _ _ => rfl, fun _ _ => rfl, rfl, rfl, .refl _⟩, e1, e2⟩
          · by_cases hbug : S.bug b = true
            · exact ⟨{ S with bug := S.bug }, by
                rw [bind_ok_iff]
                exact ⟨S.bug, rfl, by rw [if_neg hs, if_pos hbug]⟩, ⟨fun _ _ => rfl, fun _ _ => rfl, rfl, rfl, .refl _⟩, e1, e2⟩
            · refine ⟨{ S with bug := S.bug, data := upd S.data b { flat d with trk := [], heap := [] } }, ?_,
                ⟨fun q hq => by simp [upd, hq], fun _ _ => rfl, rfl, rfl, .refl _⟩, by simp [upd], e2⟩
              rw [bind_ok_iff]
              refine ⟨S.bug, rfl, ?_⟩
              rw [if_neg hs, if_neg hbug, bind_ok_iff]
              exact ⟨([], []), by simp [mergeEntries], rfl⟩
        obtain ⟨T, t1, t2, t3, t4⟩ := hmt
        obtain ⟨l', S', k1, k2, k3, k4⟩ := joinPreds_flat ps found later T (hrest T t2) (fun _ => ⟨t3, t4⟩) (Or.inl hfound)
        refine ⟨l', S', ?_, t2.trans k2, k3, k4⟩
        rw [bind_ok_iff]
        exact ⟨T, t1, k1⟩
      · rw [if_pos (by simp [hfound])]
        have hT : Frame b S { S with data := upd S.data b (S.data p), entry := upd S.entry b (some (S.data p)) } :=
          ⟨fun q hq => by simp [upd, hq], fun q hq => by simp [upd, hq], rfl, rfl, .refl _⟩
        obtain ⟨l', S', k1, k2, k3, k4⟩ := joinPreds_flat ps true later _ (hrest _ hT) (fun _ => ⟨by simp [upd, hdp], by simp [upd, hdp]⟩)
          (Or.inl rfl)
        exact ⟨l', S', k1, hT.trans k2, k3, k4⟩

/-- What is known when some of the blocks have been verified. -/
structure Known (ns : List Nd) (B : Build) (dn : List Nat) (S : VState) : Prop where
  out : ∀ p ∈ dn, ∃ d, S.data p = flat d ∧ ∀ E, (p, E) ∈ B.runs → ∀ j ∈ E.links, ∃ m ∈ ns, m.pos = j ∧ m.st = .norm d
  entry : ∀ k, k + 1 ∈ dn → ∃ d m, S.entry (k + 1) = some (flat d) ∧ m ∈ ns ∧ m.st = .norm d ∧ B.starts[k]? = some m.pos
  fresh : ∀ b, b ∉ dn → S.data b = flat 0
  later : ∀ b ∈ S.later, b ∈ dn ∧ b ≠ 0
  max : S.max ≤ top

/-- All that is known of a method that was built. -/
structure Built (C : Ctx) (start stop : Nat) (ns : List Nd) (Lv : Nat → Prop) (R : List (Nat × Nat)) (P : Pre) (B : Build) (A : Verif.Cfg.Analysis) : Prop
    extends Tied C start stop ns Lv R P where
  joint : ∀ c ∈ B.starts, Joint ns Lv c
  binv : BInv C.code start P B
  einv : EInv B
  all : ∀ b, b ≤ B.starts.length → ∃ E, (b, E) ∈ B.runs
  rpo : Verif.Cfg.Rpo B.edges A.order
  covers : ∀ b, b ≤ B.starts.length → b ∈ A.order

variable {B : Build} {A : Verif.Cfg.Analysis}

theorem Chain.at_eq {p e : Nat} (h : Chain C p ns e) {n m : Nd} (hn : n ∈ ns) (hm : m ∈ ns) (he : n.pos = m.pos) : n = m := h.pos_inj hn hm he

theorem Built.block (K : Built C start stop ns Lv R P B A) {fuel : Nat} (hf : C.code.length + 2 ≤ fuel) {dn rest : List Nat} {b : Nat}
    (hL : A.order = dn ++ b :: rest) {S : VState} (I : Known ns B dn S) :
    ∃ S', verifyBlock C ⟨start, B, A⟩ fuel b S = .ok S' ∧ Known ns B (dn ++ [b]) S' := by
  have hnd := K.rpo.nodup
  have hbL : b ∈ A.order := by rw [hL]; simp
  have hbdn : b ∉ dn := by
    have := hnd
    rw [hL, List.nodup_append] at this
    intro hh
    exact this.2.2 b hh b (by simp) rfl
  have hid : ∀ p, (Method.mk start B A).id p < (Method.mk start B A).id b ↔ p ∈ dn := fun p => idxOf_lt_iff hL hnd p
  have hstoplt := K.stop_lt
  -- the run of the block, once its data are known
  have finish : ∀ (T : VState) (n : Nd) (first : Nat), (Method.mk start B A).first b = some first → handleJoins C ⟨start, B, A⟩ b S = .ok T →
      T.data b = flat n.st.depth → (∀ p ∈ dn, T.data p = S.data p) → (∀ p, p ∉ dn → p ≠ b → T.data p = flat 0) → T.max ≤ top →
      (∀ p ∈ dn, T.entry p = S.entry p) → (∀ x ∈ T.later, x ∈ dn ++ [b] ∧ x ≠ 0) →
      (∀ k, k + 1 = b → ∃ d m, T.entry (k + 1) = some (flat d) ∧ m ∈ ns ∧ m.st = .norm d ∧ B.starts[k]? = some m.pos) →
      (∀ E, (b, E) ∈ B.runs → ∃ d' max', max' ≤ top ∧ Verifier.verifyRun C E.stop fuel none first ⟨flat n.st.depth, T.max⟩ = .ok ⟨flat d', max'⟩ ∧
        ∀ j ∈ E.links, ∃ m ∈ ns, m.pos = j ∧ m.st = .norm d') → (∃ E, (b, E) ∈ B.runs) →
      ∃ S', verifyBlock C ⟨start, B, A⟩ fuel b S = .ok S' ∧ Known ns B (dn ++ [b]) S' := by
    intro T n first hfirst hj h1 h2 h3 h4 h5 h6 h7 h8 ⟨E, hE⟩
    obtain ⟨d', max', q1, q2, q3⟩ := h8 E hE
    refine ⟨{ T with data := upd T.data b (flat d'), max := max' }, ?_, ?_⟩
    · unfold verifyBlock
      rw [bind_ok_iff]
      refine ⟨T, hj, ?_⟩
      have hstop : (Method.mk start B A).stop b = some E.stop := by
        unfold Method.stop
        rw [lookup_mem K.binv.rnodup hE]
        rfl
      rw [hfirst, hstop]
      simp only
      rw [bind_ok_iff]
      rw [h1]
      exact ⟨_, q2, rfl⟩
    · constructor
      · intro p hp
        rcases List.mem_append.1 hp with hp | hp
        · have hne : p ≠ b := fun hh => hbdn (hh ▸ hp)
          obtain ⟨d, a1, a2⟩ := I.out p hp
          refine ⟨d, ?_, a2⟩
          simp only [upd, if_neg hne]
          rw [h2 p hp, a1]
        · obtain rfl : p = b := by simpa using hp
          refine ⟨d', by simp [upd], ?_⟩
          intro E' hE'
          have e1 := lookup_mem K.binv.rnodup hE
          have e2 := lookup_mem K.binv.rnodup hE'
          rw [e1] at e2
          cases e2
          exact q3
      · intro k hk
        rcases List.mem_append.1 hk with hk | hk
        · obtain ⟨d, m, a1, a2⟩ := I.entry k hk
          exact ⟨d, m, by rw [← a1]; exact h5 _ hk, a2⟩
        · exact h7 k (by simpa using hk)
      · intro p hp
        have hp1 : p ∉ dn := fun hh => hp (List.mem_append_left _ hh)
        have hp2 : p ≠ b := fun hh => hp (by rw [hh]; simp)
        simp only [upd, if_neg hp2]
        exact h3 p hp1 hp2
      · exact h6
      · exact q1
  by_cases hb0 : b = 0
  · -- the entry
    subst hb0
    obtain ⟨n, hn, hp, hst⟩ := K.first
    obtain ⟨E, hE⟩ := K.all 0 (by omega)
    have hpreds : (Method.mk start B A).preds 0 = [] := by
      cases hpp : (Method.mk start B A).preds 0 with
      | nil => rfl
      | cons p ps =>
        have : p ∈ Verif.Cfg.pred B.edges 0 := by
          show p ∈ (Method.mk start B A).preds 0
          rw [hpp]; simp
        exact absurd (Verif.Cfg.mem_pred.1 this) (K.rpo.noEntry p)
    refine finish S n start rfl ?_ ?_ (fun _ _ => rfl) (fun p hp _ => I.fresh p hp) I.max (fun _ _ => rfl) ?_ (by simp) ?_ ⟨E, hE⟩
    · unfold handleJoins
      rw [if_pos hpreds]
    · rw [I.fresh 0 hbdn, hst]
      rfl
    · intro x hx
      obtain ⟨a, c⟩ := I.later x hx
      exact ⟨List.mem_append_left _ a, c⟩
    · intro E hE
      obtain ⟨bs, c, fl, g1, g2, g3⟩ := K.binv.runs 0 E hE
      cases g1
      rw [← hp] at g2
      have hpo : PrevOk n (some start) := by
        intro a k hh
        rw [hst] at hh
        cases hh
      have hlv : Lv n.pos := by rw [hp]; exact K.live
      have hfull := K.verifyRun fl n E hn hlv g2 (some start) S.max (E.stop + 1) hpo I.max (by omega)
      have hEs : E.stop ≤ stop := hfull.2.1
      match fuel, hf with
      | fuel+1, hf =>
        obtain ⟨w1, _, d', max', w2, w3, w4⟩ := K.verifyRun fl n E hn hlv g2 (some start) S.max fuel hpo I.max (by omega)
        refine ⟨d', max', w2, ?_, w4⟩
        unfold Verifier.verifyRun
        rw [if_neg (by omega), bind_ok_iff]
        refine ⟨46, readAt_ok.2 K.head, ?_⟩
        rw [bind_ok_iff]
        have hlen := len_of K.head
        obtain ⟨vs, hvs, _⟩ := operands_some (code := C.code) (pc := start) (n := 0) (by omega)
        refine ⟨(start + 1 + 0, ⟨flat n.st.depth, S.max⟩), verifyOp_of (k := 0) (by decide) rfl hvs rfl rfl, ?_⟩
        rw [hp] at w3
        exact w3
  · -- any other block
    obtain ⟨k, rfl⟩ : ∃ k, b = k + 1 := ⟨b - 1, by omega⟩
    obtain ⟨p0, hp0, hbef⟩ := K.rpo.parent _ hbL hb0
    have hp0dn : p0 ∈ dn := (hid p0).1 (Verif.Cfg.before_lt hnd hbef)
    obtain ⟨E0, c0, r1, r2, r3, r4⟩ := K.einv.edges _ _ hp0
    obtain ⟨k', e1, e2⟩ := blockAt_starts r3
    obtain rfl : k = k' := by omega
    obtain ⟨n, hn, hp, hlv, d, hst⟩ := K.joint c0 r3
    subst hp
    have hpred : ∀ p ∈ dn, (p, k + 1) ∈ B.edges → S.data p = flat d := by
      intro p hpdn hedge
      obtain ⟨dp, a1, a2⟩ := I.out p hpdn
      obtain ⟨E, c, b1, b2, b3, b4⟩ := K.einv.edges _ _ hedge
      obtain ⟨k', f1, f2⟩ := blockAt_starts b3
      obtain rfl : k = k' := by omega
      rw [e2] at f2
      cases f2
      obtain ⟨m, hm, m1, m2⟩ := a2 E b1 _ b2
      have := K.chain.pos_inj hm hn m1
      subst this
      rw [hst] at m2
      cases m2
      exact a1
    have hne : (Method.mk start B A).preds (k + 1) ≠ [] := by
      intro hh
      have : p0 ∈ Verif.Cfg.pred B.edges (k + 1) := Verif.Cfg.mem_pred.2 hp0
      have hh' : Verif.Cfg.pred B.edges (k + 1) = [] := hh
      rw [hh'] at this
      cases this
    obtain ⟨l', T, t1, t2, t3, t4⟩ := joinPreds_flat (C := C) (M := ⟨start, B, A⟩) (b := k + 1) (d := d) ((Method.mk start B A).preds (k + 1)) false false S (by
      intro p hp hlt
      have hpdn := (hid p).1 hlt
      exact ⟨fun hh => hbdn (hh ▸ hpdn), hpred p hpdn (Verif.Cfg.mem_pred.1 hp)⟩) (by simp)
      (Or.inr ⟨p0, Verif.Cfg.mem_pred.2 hp0, (hid p0).2 hp0dn⟩)
    have hkl : k < B.starts.length := (List.getElem?_eq_some_iff.1 e2).1
    refine finish (if l' then { T with later := T.later ++ [k + 1] } else T) n n.pos e2 ?_ ?_ ?_ ?_ ?_ ?_ ?_ ?_ ?_ (K.all (k + 1) (by omega))
    · unfold handleJoins
      rw [if_neg hne, bind_ok_iff]
      exact ⟨_, t1, rfl⟩
    · rw [hst]
      cases l' <;> exact t3
    · intro p hp'
      have : p ≠ k + 1 := fun hh => hbdn (hh ▸ hp')
      cases l' <;> exact t2.data p this
    · intro p hp' hne'
      have := (t2.data p hne').trans (I.fresh p hp')
      cases l' <;> exact this
    · have := t2.max ▸ I.max
      cases l' <;> exact this
    · intro p hp'
      have : p ≠ k + 1 := fun hh => hbdn (hh ▸ hp')
      cases l' <;> exact t2.entry p this
    · intro x hx
      have hx' : x ∈ T.later ∨ x = k + 1 := by
        cases l'
        · exact Or.inl hx
        · simpa using hx
      rcases hx' with hx' | rfl
      · rw [t2.later] at hx'
        obtain ⟨a, c⟩ := I.later x hx'
        exact ⟨List.mem_append_left _ a, c⟩
      · simp
    · intro k' hk'
      obtain rfl : k' = k := by omega
      refine ⟨d, n, ?_, hn, hst, e2⟩
      cases l' <;> exact t4
    · intro E hE
      obtain ⟨bs, c, fl, g1, g2, g3⟩ := K.binv.runs (k + 1) E hE
      cases g1 with
      | other hk =>
        rw [e2] at hk
        cases hk
        have hpo : PrevOk n none := by
          intro a k hh
          rw [hst] at hh
          cases hh
        have hmax : (if l' = true then { T with later := T.later ++ [k + 1] } else T).max ≤ top := by
          have := t2.max ▸ I.max
          cases l' <;> exact this
        have hEs := (K.verifyRun fl n E hn hlv g2 none _ (E.stop + 1) hpo hmax (by omega)).2.1
        exact (K.verifyRun fl n E hn hlv g2 none _ fuel hpo hmax (by omega)).2.2

theorem Built.blocks (K : Built C start stop ns Lv R P B A) {fuel : Nat} (hf : C.code.length + 2 ≤ fuel) : ∀ (rest dn : List Nat) (S : VState),
    A.order = dn ++ rest → Known ns B dn S → ∃ S', verifyBlocks C ⟨start, B, A⟩ fuel rest S = .ok S' ∧ Known ns B A.order S'
  | [], dn, S, hL, I => by
    rw [List.append_nil] at hL
    rw [hL]
    exact ⟨S, rfl, I⟩
  | b :: rest, dn, S, hL, I => by
    obtain ⟨S1, h1, h2⟩ := K.block hf hL I
    obtain ⟨S2, h3, h4⟩ := K.blocks hf rest (dn ++ [b]) S1 (by rw [hL]; simp) h2
    refine ⟨S2, ?_, h4⟩
    unfold verifyBlocks
    rw [bind_ok_iff]
    exact ⟨S1, h1, h3⟩

theorem joinAgain_flat {M : Method} {cur d : Nat} {data : Nat → Data} {bug : Nat → Bool} : ∀ (ps : List Nat), (∀ p ∈ ps, data p = flat d) →
    joinAgain M cur (flat d) data ps bug = .ok bug
  | [], _ => rfl
  | p :: ps, h => by
    unfold joinAgain
    rw [h p (by simp), verifyJoin_flat]
    exact joinAgain_flat ps (fun q hq => h q (by simp [hq]))

theorem Built.later (K : Built C start stop ns Lv R P B A) {cur : Nat} : ∀ (l : List Nat) (S : VState), (∀ b ∈ l, b ∈ A.order ∧ b ≠ 0) → Known ns B A.order S →
    ∃ S', verifyLater ⟨start, B, A⟩ cur l S = .ok S' ∧ S'.max = S.max
  | [], S, _, _ => ⟨S, rfl, rfl⟩
  | b :: l, S, hl, I => by
    obtain ⟨hb, hb0⟩ := hl b (by simp)
    obtain ⟨k, rfl⟩ : ∃ k, b = k + 1 := ⟨b - 1, by omega⟩
    obtain ⟨d, n, h1, h2, h3, h4⟩ := I.entry k hb
    obtain ⟨S', g1, g2⟩ := K.later l { S with bug := S.bug } (fun x hx => hl x (by simp [hx])) I
    refine ⟨S', ?_, g2⟩
    unfold verifyLater
    rw [h1]
    simp only
    rw [joinAgain_flat]
    · exact g1
    · intro p hp
      have hedge := Verif.Cfg.mem_pred.1 (show p ∈ Verif.Cfg.pred B.edges (k + 1) from hp)
      obtain ⟨E, c, b1, b2, b3, b4⟩ := K.einv.edges _ _ hedge
      obtain ⟨k', f1, f2⟩ := blockAt_starts b3
      obtain rfl : k = k' := by omega
      rw [h4] at f2
      cases f2
      obtain ⟨dp, a1, a2⟩ := I.out p (K.covers p (K.binv.rlt p (List.mem_map.2 ⟨_, b1, rfl⟩)))
      obtain ⟨m, hm, m1, m2⟩ := a2 E b1 _ b2
      have := K.chain.pos_inj hm h2 m1
      subst this
      rw [h3] at m2
      cases m2
      exact a1

/-- **A method that has a certificate is accepted.** -/
theorem Cert.accepted (K : Cert C start stop ns Lv R) (hloc : C.locals.foldl (· + ·) 0 ≤ top) {fuel : Nat} (hf : C.code.length + 2 ≤ fuel) :
    ∃ V, verify C start fuel = .ok V := by
  obtain ⟨P, B, A, h1, h2, h3, h4, h5, h6, h7, h8⟩ := K.build (fuel := fuel) (by omega)
  have KB : Built C start stop ns Lv R P B A := { h2 with joint := h3, binv := h4, einv := h5, all := h6, rpo := h7, covers := h8 }
  obtain ⟨S1, g1, g2⟩ := KB.blocks hf A.order [] ⟨fun _ => ⟨0, [], [], 0⟩, fun _ => none, fun _ => false, if C.typed then C.locals.foldl (· + ·) 0 else 0, []⟩
    rfl ⟨by simp, by simp, fun _ _ => rfl, by simp, by
      simp only
      split
      · exact hloc
      · unfold top; omega⟩
  obtain ⟨S2, g3, g4⟩ := KB.later (cur := A.order.getLast?.getD 0) S1.later S1 g2.later g2
  refine ⟨⟨P, ⟨start, B, A⟩, 4 * S2.max, S2⟩, ?_⟩
  unfold verify
  rw [bind_ok_iff]
  refine ⟨(P, B, A), h1, ?_⟩
  simp only
  rw [bind_ok_iff]
  refine ⟨S1, g1, ?_⟩
  rw [bind_ok_iff]
  refine ⟨S2, g3, ?_⟩
  have := g2.max
  unfold top at this
  rw [if_neg (by omega)]

end Verif.Verifier

import Verif.Proofs.AcceptScan
import Verif.Proofs.Blocks

/-! The graph of a method that has a certificate. -/
namespace Verif.Verifier
open Verif.VM
open Verif.Graph
open Verif.Cfg (Walk Reaches Dominates Reducible ForwardPath)

variable {C : Ctx} {start stop : Nat} {ns : List Nd} {Lv : Nat → Prop} {R : List (Nat × Nat)} {P : Pre}

/-- A live instruction. -/
def LiveAt (ns : List Nd) (Lv : Nat → Prop) (x : Nat) : Prop := ∃ n ∈ ns, n.pos = x ∧ Lv x

/-- A live instruction that is not a call. -/
def Joint (ns : List Nd) (Lv : Nat → Prop) (x : Nat) : Prop := ∃ n ∈ ns, n.pos = x ∧ Lv x ∧ ∃ d, n.st = .norm d

theorem Joint.live {x : Nat} (h : Joint ns Lv x) : LiveAt ns Lv x := by
  obtain ⟨n, h1, h2, h3, _⟩ := h
  exact ⟨n, h1, h2, h3⟩

/-- What ties the certificate to the prescan. -/
structure Tied (C : Ctx) (start stop : Nat) (ns : List Nd) (Lv : Nat → Prop) (R : List (Nat × Nat)) (P : Pre) : Prop extends
    Cert C start stop ns Lv R, Scan C start stop ns P

namespace Tied
variable (K : Tied C start stop ns Lv R P)
include K

theorem below {x : Nat} (h : LiveAt ns Lv x) : start < x ∧ x < P.cip := by
  obtain ⟨n, hn, rfl, _⟩ := h
  obtain ⟨g1, g2, g3⟩ := K.chain.mem hn
  have := g3.lt
  rw [K.cip]
  omega

theorem step {n : Nd} (hn : n ∈ ns) (hl : Lv n.pos) :
    ∃ op, C.code[n.pos]? = some op ∧
      ((isControl op.toNat = false ∧ nextInsn C.code n.pos op = .ok n.nxt ∧ ∃ st, n.succs = [(n.nxt, st)]) ∨
       (isControl op.toNat = true ∧ ∃ E, controlFlow C.code P n.pos op.toNat = .ok E ∧ E.stop = n.nxt ∧ (∀ x, x ∈ E.links ↔ ∃ s ∈ n.succs, s.1 = x) ∧
        ∃ d, n.st = .norm d ∧ ∀ s ∈ n.succs, s.2 = .norm d)) := by
  refine (K.chain.mem hn).2.2.scan K.size ?_ ?_ ?_ ?_
  · intro x hx
    obtain ⟨m, hm, rfl⟩ := (K.insns x).1 hx
    obtain ⟨g1, g2, g3⟩ := K.chain.mem hm
    have := g3.lt
    rw [K.cip]
    omega
  · rw [K.cip]; have := K.stop_lt; omega
  · intro s hs
    obtain ⟨m, hm, h1, _⟩ := K.go n hn hl s hs
    exact (K.insns _).2 ⟨m, hm, h1⟩
  · intro t ht
    obtain ⟨m, hm, h, _⟩ := K.heads n hn t ht
    exact (K.insns _).2 ⟨m, hm, h⟩

theorem target_joint {x : Nat} (h : x ∈ P.targets) (hl : LiveAt ns Lv x) : Joint ns Lv x := by
  obtain ⟨n, hn, hx⟩ := (K.targets x).1 h
  obtain ⟨m, hm, rfl, hv⟩ := hl
  exact ⟨m, hm, rfl, hv, (K.refs n hn _ hx).2.2 m hm rfl⟩

/-- A run from a live instruction is not rejected, and ends in live instructions. -/
theorem run {bs : Nat} : ∀ (fuel c : Nat), LiveAt ns Lv c → scanRun C.code P bs fuel c ≠ .rejected ∧
    ∀ E, scanRun C.code P bs fuel c = .ok E → ∀ j ∈ E.links, Joint ns Lv j
  | 0, _, _ => ⟨by simp [scanRun], by simp [scanRun]⟩
  | fuel+1, c, hc => by
    have hb := K.below hc
    unfold scanRun
    rw [if_neg (by omega)]
    by_cases hst : P.targets.contains c ∧ bs ≠ c
    · rw [if_pos hst]
      refine ⟨by simp, ?_⟩
      intro E hE j hj
      cases hE
      have : j = c := by simpa using hj
      subst this
      exact K.target_joint (by simpa using hst.1) hc
    · rw [if_neg hst]
      obtain ⟨n, hn, rfl, hv⟩ := hc
      obtain ⟨op, h1, h2⟩ := K.step hn hv
      have hrd : readAt C.code n.pos = .ok op := readAt_ok.2 h1
      rw [hrd]
      rcases h2 with ⟨h2, h3, st, h4⟩ | ⟨h2, E, h3, h5, h6, d, h7, h8⟩
      · have hx : LiveAt ns Lv n.nxt := by
          obtain ⟨m, hm, g1, g2, g3⟩ := K.go n hn hv (n.nxt, st) (by rw [h4]; simp)
          exact ⟨m, hm, g1, g3⟩
        have ih := run (bs := bs) fuel n.nxt hx
        show (if isControl op.toNat = true then _ else _) ≠ _ ∧ ∀ E, (if isControl op.toNat = true then _ else _) = _ → _
        rw [if_neg (by rw [h2]; simp), h3]
        exact ih
      · show (if isControl op.toNat = true then _ else _) ≠ _ ∧ ∀ E, (if isControl op.toNat = true then _ else _) = _ → _
        rw [if_pos h2, h3]
        refine ⟨by simp, ?_⟩
        intro E' hE' j hj
        cases hE'
        obtain ⟨s, hs, rfl⟩ := (h6 j).1 hj
        obtain ⟨m, hm, g1, g2, g3⟩ := K.go n hn hv s hs
        exact ⟨m, hm, g1, g3, d, by rw [g2, h8 s hs]⟩

theorem loop (len : Nat) : ∀ (fuel : Nat) (B : Build), (∀ c ∈ B.starts, Joint ns Lv c) → scanLoop C.code P len fuel B ≠ .rejected ∧
    ∀ B', scanLoop C.code P len fuel B = .ok B' → ∀ c ∈ B'.starts, Joint ns Lv c
  | 0, _, _ => ⟨by simp [scanLoop], by simp [scanLoop]⟩
  | fuel+1, B, hB => by
    unfold scanLoop
    split
    · refine ⟨by simp, ?_⟩
      intro B' h
      cases h
      exact hB
    · rename_i b q hq
      split
      · exact ⟨by simp, by simp⟩
      · rename_i c hc
        have hj := hB c (List.mem_of_getElem? hc)
        obtain ⟨h1, h2⟩ := K.run (bs := c) len c hj.live
        cases hr : scanRun C.code P c len c with
        | rejected => exact absurd hr h1
        | ub => exact ⟨nofun, nofun⟩
        | fuel => exact ⟨nofun, nofun⟩
        | ok E =>
          have ha := scanRun_acquire _ _ _ hr
          have := loop len fuel (finishBlock { B with queue := q } b E) (by
            obtain ⟨new, g1, _, _, g4, _⟩ := acquire_fold E.acquire { B with queue := q }
            intro x hx
            have hx : x ∈ B.starts ++ new := by rw [← g1]; exact hx
            rcases List.mem_append.1 hx with hx | hx
            · exact hB x hx
            · exact h2 E hr x ((ha x).1 (g4 x hx)))
          exact this

theorem scan (fuel : Nat) : Graph.scan C.code start P fuel ≠ .rejected ∧
    ∀ B, Graph.scan C.code start P fuel = .ok B → ∀ c ∈ B.starts, Joint ns Lv c := by
  obtain ⟨n, hn, hp, hs⟩ := K.first
  have hlive : LiveAt ns Lv (start + 1) := ⟨n, hn, hp, K.live⟩
  unfold Graph.scan
  obtain ⟨h1, h2⟩ := K.run (bs := start) fuel (start + 1) hlive
  cases hr : scanRun C.code P start fuel (start + 1) with
  | rejected => exact absurd hr h1
  | ub => exact ⟨nofun, nofun⟩
  | fuel => exact ⟨nofun, nofun⟩
  | ok E =>
    have ha := scanRun_acquire _ _ _ hr
    exact K.loop fuel fuel _ (by
      obtain ⟨new, g1, _, _, g4, _⟩ := acquire_fold E.acquire ⟨[], [], [], []⟩
      intro x hx
      have hx : x ∈ new := by
        have : x ∈ [] ++ new := by rw [← g1]; exact hx
        simpa using this
      exact h2 E hr x ((ha x).1 (g4 x hx)))

end Tied

/-! ### Edges -/

/-- Every edge is a link of a run. -/
structure EInv (B : Build) : Prop where
  edges : ∀ u v, (u, v) ∈ B.edges → ∃ E c, (u, E) ∈ B.runs ∧ c ∈ E.links ∧ c ∈ B.starts ∧ v = B.blockAt c

theorem finish_einv {B : Build} {b : Nat} {E : RunEnd} (I : EInv B) (ha : ∀ x, x ∈ E.acquire ↔ x ∈ E.links) : EInv (finishBlock B b E) := by
  obtain ⟨new, h1, h2, h3, h4, h5, h6, h7⟩ := acquire_fold E.acquire B
  have hst : (finishBlock B b E).starts = B.starts ++ new := h1
  have hru : (finishBlock B b E).runs = (b, E) :: B.runs := by
    show (b, E) :: (E.acquire.foldl acquireBlock B).runs = _
    rw [h3]
  constructor
  intro u v he
  have he : (u, v) ∈ (E.acquire.foldl acquireBlock B).edges ++ E.links.map fun c => (b, (E.acquire.foldl acquireBlock B).blockAt c) := he
  rw [h2, List.mem_append, List.mem_map] at he
  rcases he with he | ⟨c, hc, he⟩
  · obtain ⟨E', c, g1, g2, g3, g4⟩ := I.edges u v he
    refine ⟨E', c, by rw [hru]; simp [g1], g2, by rw [hst]; simp [g3], ?_⟩
    rw [g4]
    unfold Build.blockAt
    rw [hst, List.idxOf_append, if_pos g3]
  · cases he
    refine ⟨E, c, by rw [hru]; simp, hc, ?_, rfl⟩
    rw [hst]
    exact h5 c ((ha c).2 hc)

theorem scanLoop_einv {code : List Cell} {P : Pre} {len : Nat} : ∀ (fuel : Nat) (B B' : Build), EInv B →
    scanLoop code P len fuel B = .ok B' → EInv B'
  | 0, _, _, _, h => by cases h
  | fuel+1, B, B', hB, h => by
    unfold scanLoop at h
    split at h
    · cases h; exact hB
    · split at h
      · cases h
      · obtain ⟨R, h1, h2⟩ := bind_ok_iff.1 h
        exact scanLoop_einv fuel _ B' (finish_einv (by exact ⟨hB.edges⟩) (scanRun_acquire _ _ _ h1)) h2

theorem scan_einv {code : List Cell} {start fuel : Nat} {P : Pre} {B : Build} (h : Graph.scan code start P fuel = .ok B) : EInv B := by
  unfold Graph.scan at h
  obtain ⟨R, h1, h2⟩ := bind_ok_iff.1 h
  exact scanLoop_einv fuel _ B (finish_einv ⟨by simp⟩ (scanRun_acquire _ _ _ h1)) h2

/-- Every block is reached. -/
structure RInv (B : Build) : Prop where
  reach : ∀ k, k < B.starts.length → Reaches B.edges 0 (k + 1)
  nodup : B.starts.Nodup
  queue : ∀ b ∈ B.queue, ∃ k, b = k + 1 ∧ k < B.starts.length

theorem reaches_mono {G G' : Verif.Cfg.Graph} (h : ∀ e ∈ G, e ∈ G') {u v : Nat} (hr : Reaches G u v) : Reaches G' u v := by
  obtain ⟨xs, hw⟩ := hr
  induction hw with
  | nil => exact ⟨_, .nil⟩
  | snoc _ e ih =>
    obtain ⟨ys, hy⟩ := ih
    exact ⟨_, .snoc hy (h _ e)⟩

theorem finish_rinv {B : Build} {b : Nat} {E : RunEnd} (I : RInv B) (ha : ∀ x, x ∈ E.acquire ↔ x ∈ E.links)
    (hb : Reaches B.edges 0 b) : RInv (finishBlock B b E) := by
  obtain ⟨new, h1, h2, h3, h4, h5, h6, h7⟩ := acquire_fold E.acquire B
  have hst : (finishBlock B b E).starts = B.starts ++ new := h1
  have hed : (finishBlock B b E).edges = B.edges ++ E.links.map fun c => (b, (finishBlock B b E).blockAt c) := by
    show (E.acquire.foldl acquireBlock B).edges ++ _ = _
    rw [h2]
    rfl
  have hm : ∀ e ∈ B.edges, e ∈ (finishBlock B b E).edges := by
    intro e he
    rw [hed]
    exact List.mem_append_left _ he
  refine ⟨?_, by rw [hst]; exact h6 I.nodup, ?_⟩
  rotate_left
  · intro x hx
    have hx : x ∈ ((List.range new.length).map (· + B.starts.length + 1)).reverse ++ B.queue := by rw [← h7]; exact hx
    rw [hst, List.length_append]
    rcases List.mem_append.1 hx with hx | hx
    · rw [List.mem_reverse, List.mem_map] at hx
      obtain ⟨y, hy, rfl⟩ := hx
      rw [List.mem_range] at hy
      exact ⟨y + B.starts.length, rfl, by omega⟩
    · obtain ⟨k, rfl, hk⟩ := I.queue x hx
      exact ⟨k, rfl, by omega⟩
  intro k hk
  rw [hst] at hk
  by_cases hkl : k < B.starts.length
  · exact reaches_mono hm (I.reach k hkl)
  · have hmem : (B.starts ++ new)[k] ∈ new := by
      rw [List.getElem_append_right (by omega)]
      exact List.getElem_mem _
    have hl := (ha _).1 (h4 _ hmem)
    have hat : (finishBlock B b E).blockAt (B.starts ++ new)[k] = k + 1 := by
      unfold Build.blockAt
      rw [hst, List.Nodup.idxOf_getElem (h6 I.nodup) k hk]
    have he : (b, k + 1) ∈ (finishBlock B b E).edges := by
      rw [hed, List.mem_append, List.mem_map]
      exact Or.inr ⟨_, hl, by rw [hat]⟩
    exact (reaches_mono hm hb).step he

theorem scanLoop_rinv {code : List Cell} {P : Pre} {len : Nat} : ∀ (fuel : Nat) (B B' : Build), RInv B → scanLoop code P len fuel B = .ok B' → RInv B'
  | 0, _, _, _, h => by cases h
  | fuel+1, B, B', hR, h => by
    unfold scanLoop at h
    cases hq : B.queue with
    | nil => rw [hq] at h; cases h; exact hR
    | cons b q =>
      rw [hq] at h
      simp only at h
      split at h
      · cases h
      · obtain ⟨E, h1, h2⟩ := bind_ok_iff.1 h
        obtain ⟨k, rfl, hk⟩ := hR.queue b (by rw [hq]; simp)
        exact scanLoop_rinv fuel _ B' (finish_rinv (B := { B with queue := q })
          ⟨hR.reach, hR.nodup, fun x hx => hR.queue x (by rw [hq]; exact List.mem_cons_of_mem _ hx)⟩ (scanRun_acquire _ _ _ h1) (hR.reach k hk)) h2

theorem scan_rinv {code : List Cell} {start fuel : Nat} {P : Pre} {B : Build} (h : Graph.scan code start P fuel = .ok B) : RInv B := by
  unfold Graph.scan at h
  obtain ⟨E, h1, h2⟩ := bind_ok_iff.1 h
  exact scanLoop_rinv fuel _ B (finish_rinv ⟨by simp, by simp, by simp⟩ (scanRun_acquire _ _ _ h1) .refl) h2

/-- The run of a block ends in front of a target it came to, or with an instruction that leads where the block leads. -/
structure Leads (ns : List Nd) (Lv : Nat → Prop) (P : Pre) (bs c j : Nat) : Prop where
  by' : (Stops P bs c ∧ j = c) ∨ ∃ n ∈ ns, Lv n.pos ∧ c ≤ n.pos ∧ (∃ s ∈ n.succs, s.1 = j) ∧
    ∀ t ∈ P.targets, t ≠ bs → (∃ m ∈ ns, m.pos = t) → c ≤ t → n.pos < t

theorem Tied.leads (K : Tied C start stop ns Lv R P) {bs : Nat} : ∀ (fuel c : Nat) (E : RunEnd), LiveAt ns Lv c →
    scanRun C.code P bs fuel c = .ok E → ∀ j ∈ E.links, Leads ns Lv P bs c j
  | 0, _, _, _, h => by cases h
  | fuel+1, c, E, hc, h => by
    have hb := K.below hc
    unfold scanRun at h
    rw [if_neg (by omega)] at h
    by_cases hst : P.targets.contains c ∧ bs ≠ c
    · rw [if_pos hst] at h
      cases h
      intro j hj
      exact ⟨Or.inl ⟨⟨by simpa using hst.1, hst.2⟩, by simpa using hj⟩⟩
    · rw [if_neg hst] at h
      obtain ⟨n, hn, rfl, hv⟩ := hc
      have hns : ∀ t ∈ P.targets, t ≠ bs → t ≠ n.pos := by
        intro t ht hne heq
        subst heq
        exact hst ⟨by simpa using ht, fun hh => hne hh.symm⟩
      obtain ⟨op, h1, h2⟩ := K.step hn hv
      have hrd : readAt C.code n.pos = .ok op := readAt_ok.2 h1
      rw [hrd] at h
      replace h : (if isControl op.toNat = true then controlFlow C.code P n.pos op.toNat else (nextInsn C.code n.pos op).bind fun next =>
        scanRun C.code P bs fuel next) = .ok E := h
      rcases h2 with ⟨h2, h3, st, h4⟩ | ⟨h2, E', h3, h5, h6, d, h7, h8⟩
      · rw [if_neg (by rw [h2]; simp), h3] at h
        have hlt := (K.chain.mem hn).2.2.lt
        have hx : LiveAt ns Lv n.nxt := by
          obtain ⟨m, hm, g1, g2, g3⟩ := K.go n hn hv (n.nxt, st) (by rw [h4]; simp)
          exact ⟨m, hm, g1, g3⟩
        intro j hj
        rcases (K.leads fuel n.nxt E hx h j hj).by' with ⟨g1, rfl⟩ | ⟨m, hm, g1, g2, g3, g4⟩
        · refine ⟨Or.inr ⟨n, hn, hv, Nat.le_refl _, ⟨_, by rw [h4]; exact List.mem_singleton.2 rfl, rfl⟩, ?_⟩⟩
          intro t ht hne _ hle
          have := hns t ht hne
          omega
        · refine ⟨Or.inr ⟨m, hm, g1, by omega, g3, ?_⟩⟩
          intro t ht hne hnode hle
          obtain ⟨k, hk, rfl⟩ := hnode
          rcases K.chain.gap hn hk with hh | hh
          · have := hns _ ht hne
            omega
          · exact g4 _ ht hne ⟨k, hk, rfl⟩ hh
      · rw [if_pos h2, h3] at h
        cases h
        intro j hj
        refine ⟨Or.inr ⟨n, hn, hv, Nat.le_refl _, (h6 j).1 hj, ?_⟩⟩
        intro t ht hne _ hle
        have := hns t ht hne
        omega

/-- A jump back goes to a target. -/
theorem Tied.back_target (K : Tied C start stop ns Lv R P) {n : Nd} (hn : n ∈ ns) {s : Nat × St} (hs : s ∈ n.succs) : s.1 = n.nxt ∨ s.1 ∈ P.targets := by
  have hh := K.heads n hn
  have hr : ∀ x ∈ n.refs, x ∈ P.targets := fun x hx => (K.targets x).2 ⟨n, hn, hx⟩
  have hty := (K.chain.mem hn).2.2
  cases hty with
  | plain => left; cases List.mem_singleton.1 hs; rfl
  | pushC => left; cases List.mem_singleton.1 hs; rfl
  | call => left; cases List.mem_singleton.1 hs; rfl
  | jump => right; cases List.mem_singleton.1 hs; exact hr _ (by simp)
  | branch =>
    rcases List.mem_cons.1 hs with rfl | hs
    · exact Or.inl rfl
    · right; cases List.mem_singleton.1 hs; exact hr _ (by simp)
  | retn => cases hs
  | @switch i d tbl dflt cs h1 h2 h3 =>
    obtain ⟨m, hm, _, h⟩ := hh tbl (by simp)
    exact Or.inr ((K.targets _).2 ⟨m, hm, h s hs⟩)
  | table => left; cases List.mem_singleton.1 hs; rfl

/-! ### Loops -/

theorem starts_inj {B : Build} (hn : B.starts.Nodup) {k k' c : Nat} (h : B.starts[k]? = some c) (h' : B.starts[k']? = some c) : k = k' := by
  obtain ⟨g, e⟩ := List.getElem?_eq_some_iff.1 h
  obtain ⟨g', e'⟩ := List.getElem?_eq_some_iff.1 h'
  have := List.Nodup.idxOf_getElem hn k g
  have := List.Nodup.idxOf_getElem hn k' g'
  rw [e] at *
  rw [e'] at *
  omega

/-- An edge of the graph: the run of the first block leads to the start of the second. -/
structure Edge (ns : List Nd) (Lv : Nat → Prop) (start : Nat) (P : Pre) (B : Build) (u v : Nat) : Prop where
  by' : ∃ bs c j k, BlockOf start B u bs c ∧ v = k + 1 ∧ B.starts[k]? = some j ∧ Leads ns Lv P bs c j

theorem blockAt_starts {B : Build} {c : Nat} (h : c ∈ B.starts) : ∃ k, B.blockAt c = k + 1 ∧ B.starts[k]? = some c := by
  refine ⟨B.starts.idxOf c, rfl, ?_⟩
  have := List.idxOf_lt_length_of_mem h
  rw [List.getElem?_eq_getElem this, List.getElem_idxOf this]

theorem Tied.edge (K : Tied C start stop ns Lv R P) {B : Build} (S : BInv C.code start P B) (I : EInv B) (hj : ∀ c ∈ B.starts, Joint ns Lv c) {u v : Nat}
    (h : (u, v) ∈ B.edges) : Edge ns Lv start P B u v := by
  obtain ⟨E, c, h1, h2, h3, h4⟩ := I.edges u v h
  obtain ⟨bs, c', fuel, g1, g2, g3⟩ := S.runs u E h1
  obtain ⟨k, e1, e2⟩ := blockAt_starts h3
  refine ⟨bs, c', c, k, g1, by rw [h4, e1], e2, K.leads fuel c' E ?_ g2 c h2⟩
  cases g1 with
  | entry =>
    obtain ⟨n, hn, hp, hs⟩ := K.first
    exact ⟨n, hn, hp, K.live⟩
  | other hk => exact (hj _ (List.mem_of_getElem? hk)).live

/-- In a loop every walk has passed the top. -/
theorem Tied.enters (K : Tied C start stop ns Lv R P) {B : Build} (hd : B.starts.Nodup) (he : ∀ u v, (u, v) ∈ B.edges → Edge ns Lv start P B u v)
    {t x kt : Nat} (hr : (t, x) ∈ R) (ht : B.starts[kt]? = some t) (htt : t ∈ P.targets) (htn : ∃ m ∈ ns, m.pos = t) :
    ∀ {xs w}, Walk B.edges 0 xs w → ∀ k c, w = k + 1 → B.starts[k]? = some c → t ≤ c → c < x → kt + 1 ∈ xs := by
  have hts : start < t := by
    obtain ⟨m, hm, rfl⟩ := htn
    have := (K.chain.mem hm).1
    omega
  intro xs w h
  induction h with
  | nil => intro k c hw; omega
  | @snoc xs u w hw e ih =>
    intro k c hk hc h1 h2
    obtain ⟨bs, c', j, k', g1, g2, g3, g4⟩ := (he _ _ e).by'
    obtain rfl : k = k' := by omega
    rw [hc] at g3
    cases g3
    by_cases hct : c = t
    · subst hct
      have := starts_inj hd hc ht
      subst this
      rw [hk]
      simp
    · rcases g4.by' with ⟨g5, g6⟩ | ⟨n, hn, hv, g5, ⟨s, hs, rfl⟩, g6⟩
      · cases g1 with
        | entry => omega
        | other => exact absurd rfl g5.2
      · have hin : t ≤ n.pos ∧ n.pos < x := Decidable.byContradiction fun hh => hct (K.single _ hr n hn hv hh s hs h1 h2)
        cases g1 with
        | entry =>
          have := g6 t htt (by omega) htn (by omega)
          omega
        | @other ku c' hu =>
          by_cases hle : t ≤ bs
          · have := ih ku bs rfl hu hle (by omega)
            exact List.mem_append_left _ this
          · have := g6 t htt (by omega) htn (by omega)
            omega

/-- Where a block begins. -/
def origin (start : Nat) (B : Build) (b : Nat) : Nat :=
  match b with
  | 0 => start
  | k+1 => (B.starts[k]?).getD 0

theorem Tied.forward (K : Tied C start stop ns Lv R P) {B : Build} (hd : B.starts.Nodup) (he : ∀ u v, (u, v) ∈ B.edges → Edge ns Lv start P B u v)
    {u v : Nat} (h : (u, v) ∈ B.edges) (hn : ¬ Dominates B.edges v u) : origin start B u < origin start B v := by
  obtain ⟨bs, c, j, k, g1, g2, g3, g4⟩ := (he _ _ h).by'
  subst g2
  have hov : origin start B (k + 1) = j := by
    show (B.starts[k]?).getD 0 = j
    rw [g3]; rfl
  have hou : origin start B u ≤ c ∧ (u = 0 → origin start B u = start ∧ c = start + 1) := by
    cases g1 with
    | entry => exact ⟨Nat.le_succ _, fun _ => ⟨rfl, rfl⟩⟩
    | @other ku c hu =>
      refine ⟨?_, by simp⟩
      show (B.starts[ku]?).getD 0 ≤ bs
      rw [hu]; exact Nat.le_refl _
  rw [hov]
  rcases g4.by' with ⟨g5, rfl⟩ | ⟨n, hn', hv, g5, ⟨s, hs, rfl⟩, g6⟩
  · cases g1 with
    | entry => have := hou.2 rfl; omega
    | other => exact absurd rfl g5.2
  · by_cases hb : s.1 ≤ n.pos
    · exfalso
      obtain ⟨x, hx, hlt⟩ := K.back n hn' hv s hs hb
      have htt : s.1 ∈ P.targets := by
        have := (K.chain.mem hn').2.2.lt
        rcases K.back_target hn' hs with hh | hh
        · omega
        · exact hh
      obtain ⟨m, hm, hp, _⟩ := K.go n hn' hv s hs
      have hlow := (K.chain.mem hm).1
      apply hn
      intro xs hw
      cases g1 with
      | entry =>
        have := g6 _ htt (by omega) ⟨m, hm, hp⟩ (by omega)
        omega
      | @other ku c hu =>
        by_cases hle : s.1 ≤ bs
        · exact K.enters hd he hx g3 htt ⟨m, hm, hp⟩ hw ku bs rfl hu hle (by omega)
        · have := g6 _ htt (by omega) ⟨m, hm, hp⟩ (by omega)
          omega
    · omega

theorem Tied.reducible (K : Tied C start stop ns Lv R P) {B : Build} (hd : B.starts.Nodup) (he : ∀ u v, (u, v) ∈ B.edges → Edge ns Lv start P B u v) :
    Reducible B.edges := by
  have h : ∀ {u v}, ForwardPath B.edges u v → origin start B u < origin start B v := by
    intro u v h
    induction h with
    | one _ e hn => exact K.forward hd he e hn
    | more _ e hn ih => have := K.forward hd he e hn; omega
  intro u hu
  have := h hu
  omega

/-- The graph of a method that has a certificate is built. -/
theorem Cert.build (K : Cert C start stop ns Lv R) {fuel : Nat} (hf : C.code.length + 1 ≤ fuel) :
    ∃ P B A, Graph.build C.code start fuel = .ok (P, B, A) ∧ Tied C start stop ns Lv R P ∧ (∀ c ∈ B.starts, Joint ns Lv c) ∧
      BInv C.code start P B ∧ EInv B ∧ (∀ b, b ≤ B.starts.length → ∃ E, (b, E) ∈ B.runs) ∧ Verif.Cfg.Rpo B.edges A.order ∧
      (∀ b, b ≤ B.starts.length → b ∈ A.order) := by
  obtain ⟨P, h1, h2⟩ := K.prescan hf
  have T : Tied C start stop ns Lv R P := { K, h2 with }
  have IP := prescan_inv K.tables h1
  have hfuel := C19_scan_terminates_partial C.code start fuel K.tables hf
  have hub := C58_scan_defined_partial C.code start fuel K.tables
  obtain ⟨hr, hj⟩ := T.scan fuel
  unfold Graph.build at *
  rw [h1] at *
  replace hfuel : ((Graph.scan C.code start P fuel).bind fun B => match Verif.Cfg.analyse B.edges with
    | none => .fuel
    | some none => .rejected
    | some (some A) => .ok (P, B, A)) ≠ .fuel := hfuel
  replace hub : ((Graph.scan C.code start P fuel).bind fun B => match Verif.Cfg.analyse B.edges with
    | none => .fuel
    | some none => .rejected
    | some (some A) => .ok (P, B, A)) ≠ .ub := hub
  cases hs : Graph.scan C.code start P fuel with
  | rejected => exact absurd hs hr
  | ub => rw [hs] at hub; exact absurd rfl hub
  | fuel => rw [hs] at hfuel; exact absurd rfl hfuel
  | ok B =>
    obtain ⟨I, hall⟩ := scan_inv IP hs
    have hjB := hj B hs
    have he := fun u v h => T.edge I (scan_einv hs) hjB (u := u) (v := v) h
    have hred := T.reducible I.nodup he
    obtain ⟨r, g1, g2, g3⟩ := Verif.Cfg.C25_reducible B.edges (fun u hu => I.edges _ hu rfl)
    cases r with
    | none => exact absurd (g2.2 hred) (by simp)
    | some A =>
      have hrpo : Verif.Cfg.Rpo B.edges A.order := by
        obtain ⟨L, k1, k2, _⟩ := Verif.Cfg.order_rpo (G := B.edges) (fun u hu => I.edges _ hu rfl)
        rw [(g3 A rfl).1] at k1
        cases k1
        exact k2
      refine ⟨P, B, A, ?_, T, hjB, I, scan_einv hs, hall, hrpo, ?_⟩
      rotate_left
      · intro b hb
        refine (hrpo.mem b).2 ?_
        cases b with
        | zero => exact .refl
        | succ k => exact (scan_rinv hs).reach k hb
      rw [bind_ok_iff]
      refine ⟨P, rfl, ?_⟩
      rw [bind_ok_iff]
      exact ⟨B, hs, by rw [g1]⟩

end Verif.Verifier

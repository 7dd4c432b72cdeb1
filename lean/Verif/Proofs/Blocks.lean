import Verif.Proofs.Exec
import Verif.Proofs.Order

/-! The blocks of a scanned method: their links, and that each instruction is in one block. -/
namespace Verif.Graph
open Verif.VM

/-! ## Jump targets -/

theorem jumpTarget_mem {code : List Cell} {start : Nat} {sw : Bool} {t : Cell} {tg tg' : List Nat}
    (h : jumpTarget code start sw t tg = .ok tg') : (∀ x ∈ tg, x ∈ tg') ∧ (sw = false → t.toNat / 4 ∈ tg') := by
  unfold jumpTarget at h
  split at h
  · cases h
  · split at h
    · cases h
    · split at h
      · cases h
      · split at h
        · cases h
        · split at h
          · rename_i hsw
            cases h
            exact ⟨fun _ hx => hx, fun hh => by rw [hsw] at hh; cases hh⟩
          · cases h
            exact ⟨fun _ hx => List.mem_cons_of_mem _ hx, fun _ => List.mem_cons_self ..⟩

theorem caseTargets_mem {code : List Cell} {start : Nat} : ∀ (n pos : Nat) (tg tg' : List Nat),
    caseTargets code start n pos tg = .ok tg' → (∀ x ∈ tg, x ∈ tg') ∧
      ∀ k, k < n → ∀ t, code[pos + 1 + 2 * k]? = some t → t.toNat / 4 ∈ tg'
  | 0, _, _, _, h => by cases h; exact ⟨fun _ hx => hx, fun k hk => by omega⟩
  | n+1, pos, tg, tg', h => by
    unfold caseTargets at h
    obtain ⟨t, h1, h⟩ := bind_ok_iff.1 h
    obtain ⟨tg1, h2, h⟩ := bind_ok_iff.1 h
    rw [readAt_ok] at h1
    obtain ⟨g1, g2⟩ := jumpTarget_mem h2
    obtain ⟨k1, k2⟩ := caseTargets_mem n (pos + 2) tg1 tg' h
    refine ⟨fun x hx => k1 x (g1 x hx), ?_⟩
    intro k hk t' ht'
    match k with
    | 0 =>
      rw [show pos + 1 + 2 * 0 = pos + 1 by omega, h1] at ht'
      cases ht'
      exact k1 _ (g2 rfl)
    | k+1 =>
      rw [show pos + 1 + 2 * (k + 1) = pos + 2 + 1 + 2 * k by omega] at ht'
      exact k2 k (by omega) t' ht'

/-- The targets of the instruction at `i` are recorded. -/
def Recorded (code : List Cell) (tg : List Nat) (i : Nat) : Prop := ∀ op, code[i]? = some op →
  (isControl op.toNat = true → op.toNat ≠ 48 → op.toNat ≠ 129 → ∀ t, code[i + 1]? = some t → t.toNat / 4 ∈ tg) ∧
  (op = 130 → ∀ n d, code[i + 1]? = some n → code[i + 2]? = some d → d.toNat / 4 ∈ tg ∧
    ∀ k, k < n.toInt.toNat → ∀ t, code[i + 4 + 2 * k]? = some t → t.toNat / 4 ∈ tg)

theorem Recorded.mono {code : List Cell} {tg tg' : List Nat} {i : Nat} (h : Recorded code tg i) (hm : ∀ x ∈ tg, x ∈ tg') :
    Recorded code tg' i := by
  intro op hop
  obtain ⟨h1, h2⟩ := h op hop
  refine ⟨fun a b c t ht => hm _ (h1 a b c t ht), ?_⟩
  intro a n d hn hd
  obtain ⟨h3, h4⟩ := h2 a n d hn hd
  exact ⟨hm _ h3, fun k hk t ht => hm _ (h4 k hk t ht)⟩

theorem prescanTable_targets {code : List Cell} {start : Nat} {S S' : Pre} (hop : code[S.cip]? = some 130)
    (h : prescanTable code start S = .ok S') : (∀ x ∈ S.targets, x ∈ S'.targets) ∧ Recorded code S'.targets S.cip := by
  unfold prescanTable at h
  split at h
  · cases h
  · obtain ⟨c, h1, h⟩ := bind_ok_iff.1 h
    rw [readAt_ok] at h1
    simp only at h
    split at h
    · cases h
    · split at h
      · cases h
      · split at h
        · cases h
        · obtain ⟨tg, h2, h⟩ := bind_ok_iff.1 h
          split at h
          · cases h
          · cases h
            unfold prescanCases at h2
            obtain ⟨d, h3, h2⟩ := bind_ok_iff.1 h2
            obtain ⟨tg1, h4, h5⟩ := bind_ok_iff.1 h2
            rw [readAt_ok] at h3
            obtain ⟨g1, g2⟩ := jumpTarget_mem h4
            obtain ⟨k1, k2⟩ := caseTargets_mem _ _ _ _ h5
            refine ⟨fun x hx => k1 x (g1 x hx), ?_⟩
            intro op hop'
            rw [hop] at hop'; cases hop'
            refine ⟨fun hc => absurd hc (by decide), ?_⟩
            intro _ n d' hn hd
            rw [h1] at hn; cases hn
            rw [h3] at hd; cases hd
            refine ⟨k1 _ (g2 rfl), ?_⟩
            intro k hk t ht
            exact k2 k hk t (by rw [show S.cip + 2 + 1 + 1 + 2 * k = S.cip + 4 + 2 * k by omega]; exact ht)

theorem prescanPlain_targets {code : List Cell} {start : Nat} {S S' : Pre} {op : Cell} (hop : code[S.cip]? = some op)
    (h130 : op ≠ 130) (h : prescanPlain code start S op.toNat = .ok S') :
    (∀ x ∈ S.targets, x ∈ S'.targets) ∧ Recorded code S'.targets S.cip := by
  unfold prescanPlain at h
  split at h
  · cases h
  · simp only at h
    split at h
    · cases h
    · split at h
      · obtain ⟨t, h1, h⟩ := bind_ok_iff.1 h
        obtain ⟨tg, h2, h⟩ := bind_ok_iff.1 h
        rw [readAt_ok] at h1
        cases h
        obtain ⟨g1, g2⟩ := jumpTarget_mem h2
        refine ⟨g1, ?_⟩
        intro op' hop'
        rw [hop] at hop'; cases hop'
        refine ⟨?_, fun hh => absurd hh h130⟩
        intro _ _ h129 t' ht'
        rw [h1] at ht'; cases ht'
        exact g2 (by simpa using h129)
      · rename_i hc
        cases h
        refine ⟨fun _ hx => hx, ?_⟩
        intro op' hop'
        rw [hop] at hop'; cases hop'
        exact ⟨fun a b => absurd ⟨a, b⟩ hc, fun hh => absurd hh h130⟩

/-- Further facts about the prescan: the targets of all instructions are recorded, and instructions do not overlap. -/
structure TInv (code : List Cell) (S : Pre) : Prop where
  marks : ∀ i ∈ S.insns, Recorded code S.targets i
  lt : ∀ i ∈ S.insns, i < S.cip
  gap : ∀ i ∈ S.insns, ∀ op nxt, code[i]? = some op → nextInsn code i op = .ok nxt → nxt ≤ S.cip ∧ ∀ j ∈ S.insns, j ≤ i ∨ nxt ≤ j

theorem TInv.step {code : List Cell} {start : Nat} {S S' : Pre} (I : TInv code S)
    (h : InsnOk code start S.cip S'.cip ∧ S'.insns = S.cip :: S.insns)
    (ht : (∀ x ∈ S.targets, x ∈ S'.targets) ∧ Recorded code S'.targets S.cip) : TInv code S' := by
  obtain ⟨hi, hs⟩ := h
  have hlt := hi.lt
  constructor
  · intro i hi'
    rw [hs] at hi'
    rcases List.mem_cons.1 hi' with rfl | hi'
    · exact ht.2
    · exact (I.marks i hi').mono ht.1
  · intro i hi'
    rw [hs] at hi'
    rcases List.mem_cons.1 hi' with rfl | hi'
    · exact hlt
    · have := I.lt i hi'; omega
  · intro i hi' op nxt hop hnx
    rw [hs] at hi' ⊢
    rcases List.mem_cons.1 hi' with rfl | hi'
    · obtain ⟨op', h1, _, _, _, _, h2, _⟩ := hi.op
      rw [hop] at h1; cases h1
      rw [hnx] at h2; cases h2
      refine ⟨Nat.le_refl _, ?_⟩
      intro j hj
      rcases List.mem_cons.1 hj with rfl | hj
      · exact Or.inl (Nat.le_refl _)
      · have := I.lt j hj; omega
    · obtain ⟨g1, g2⟩ := I.gap i hi' op nxt hop hnx
      refine ⟨by omega, ?_⟩
      intro j hj
      rcases List.mem_cons.1 hj with rfl | hj
      · exact Or.inr g1
      · exact g2 j hj

theorem prescanLoop_tinv {code : List Cell} {start : Nat} (hn : NoNegativeTable code start) :
    ∀ (fuel : Nat) (S S' : Pre), PInv code start S → TInv code S → prescanLoop code start fuel S = .ok S' → TInv code S'
  | 0, _, _, _, _, h => by cases h
  | fuel+1, S, S', I, T, h => by
    unfold prescanLoop at h
    cases hop : code[S.cip]? with
    | none => rw [hop] at h; cases h; exact T
    | some op =>
      rw [hop] at h
      simp only at h
      split at h
      · cases h; exact T
      · rename_i hproc
        rw [not_or] at hproc
        split at h
        · cases h
        · rename_i hr
          obtain ⟨h0, hlt⟩ := op_range hr
          split at h
          · rename_i h130
            subst h130
            obtain ⟨S1, h1, h2⟩ := bind_ok_iff.1 h
            have hok := prescanTable_ok hop (fun n hh => hn _ n I.bound hop hh) h1
            exact prescanLoop_tinv hn fuel S1 S' (I.step hok) (T.step hok (prescanTable_targets hop h1)) h2
          · rename_i h130
            obtain ⟨S1, h1, h2⟩ := bind_ok_iff.1 h
            have hok := prescanPlain_ok hop hproc.1 hproc.2 h130 h0 hlt h1
            exact prescanLoop_tinv hn fuel S1 S' (I.step hok) (T.step hok (prescanPlain_targets hop h130 h1)) h2

theorem prescan_tinv {code : List Cell} {start fuel : Nat} {P : Pre} (hn : NoNegativeTable code start)
    (h : prescan code start fuel = .ok P) : TInv code P := by
  unfold prescan at h
  split at h
  · rename_i hs
    have := (List.getElem?_eq_some_iff.1 hs).1
    exact prescanLoop_tinv hn fuel _ P ⟨by simp only; omega, by simp only; omega, .first, by simp, Or.inr rfl⟩ ⟨by simp, by simp, by simp⟩ h
  · cases h

/-! ## Starts of blocks -/

/-- A cell where a block has to start: a jump target, or the cell after a control instruction. -/
def Heads (code : List Cell) (P : Pre) (c : Nat) : Prop := c ∈ P.targets ∨
  ∃ q op, q ∈ P.insns ∧ code[q]? = some op ∧ isControl op.toNat = true ∧ nextInsn code q op = .ok c

/-- Where a run ends: it runs over `pc`, and if the method goes on after a control instruction, it does so at the cell after it. -/
theorem controlFlow_heads {code : List Cell} {start cip : Nat} {op : Cell} {P : Pre} {R : RunEnd} (I : PInv code start P) (T : TInv code P)
    (hc : cip ∈ P.insns) (hop : code[cip]? = some op) (hctl : isControl op.toNat = true)
    (h : controlFlow code P cip op.toNat = .ok R) :
    (∀ x ∈ R.links, Heads code P x) ∧ nextInsn code cip op = .ok R.stop ∧ ∀ x, x ∈ R.acquire ↔ x ∈ R.links := by
  obtain ⟨_, _, _, nxt, hok, _⟩ := I.insns cip hc
  obtain ⟨op', h6, _, _, _, hlt, hnx, hk, _⟩ := hok.op
  rw [hop] at h6; cases h6
  have h130 : op ≠ 130 := by
    intro hh; subst hh; exact absurd hctl (by decide)
  have hrec := (T.marks cip hc op hop).1 hctl
  have hnext : op.toNat ≠ 48 → nextInsn code cip op = .ok (cip + 2) := by
    intro h48
    have := control_size ⟨op.toNat, hlt⟩ hctl h48
    simp only at this
    unfold nextInsn
    rw [if_neg h130, this]
    rfl
  unfold controlFlow at h
  split at h
  · rename_i h48
    cases h
    refine ⟨by simp, ?_, by simp⟩
    unfold nextInsn
    rw [if_neg h130, h48]
    rfl
  · rename_i h48
    obtain ⟨t, h1, h⟩ := bind_ok_iff.1 h
    rw [readAt_ok] at h1
    split at h
    · cases h
    · simp only at h
      split at h
      · cases h
      · rename_i htc
        have htc' : t.toNat / 4 ∈ P.insns := by simpa using htc
        split at h
        · rename_i h129
          unfold switchFlow at h
          obtain ⟨o, h2, h⟩ := bind_ok_iff.1 h
          rw [readAt_ok] at h2
          split at h
          · cases h
          · rename_i ho
            have ho : o = 130 := Decidable.byContradiction ho
            subst ho
            obtain ⟨n, h3, h⟩ := bind_ok_iff.1 h
            obtain ⟨d, h4, h⟩ := bind_ok_iff.1 h
            rw [readAt_ok] at h3 h4
            split at h
            · cases h
            · obtain ⟨ts, h5, h⟩ := bind_ok_iff.1 h
              simp only at h
              obtain ⟨r1, r2⟩ := (T.marks _ htc' _ h2).2 rfl n d h3 h4
              split at h
              · cases h
                refine ⟨?_, hnext h48, by simp⟩
                have hts : ∀ (n pos : Nat) (ts : List Nat), readCases code n pos = .ok ts →
                    (∀ k, k < n → ∀ t, code[pos + 1 + 2 * k]? = some t → t.toNat / 4 ∈ P.targets) → ∀ x ∈ ts, x ∈ P.targets := by
                  intro n
                  induction n with
                  | zero => intro pos ts h; cases h; simp
                  | succ n ih =>
                    intro pos ts h hall
                    unfold readCases at h
                    obtain ⟨t, e1, h⟩ := bind_ok_iff.1 h
                    rw [readAt_ok] at e1
                    split at h
                    · cases h
                    · obtain ⟨ts', e2, h⟩ := bind_ok_iff.1 h
                      cases h
                      intro x hx
                      rcases List.mem_cons.1 hx with rfl | hx
                      · exact hall 0 (by omega) t e1
                      · refine ih (pos + 2) ts' e2 ?_ x hx
                        intro k hk t ht
                        exact hall (k + 1) (by omega) t (by rw [show pos + 1 + 2 * (k + 1) = pos + 2 + 1 + 2 * k by omega]; exact ht)
                intro x hx
                rcases List.mem_cons.1 hx with rfl | hx
                · exact Or.inl r1
                · refine Or.inl (hts _ _ _ h5 ?_ x hx)
                  intro k hk t' ht'
                  exact r2 k hk t' (by rw [show t.toNat / 4 + 4 + 2 * k = t.toNat / 4 + 3 + 1 + 2 * k by omega]; exact ht')
              · cases h
        · rename_i h129
          have hin := hrec h48 h129 t h1
          split at h
          · cases h
            refine ⟨?_, hnext h48, by simp⟩
            intro x hx
            simp at hx; subst hx; exact Or.inl hin
          · split at h
            · cases h
            · cases h
              refine ⟨?_, hnext h48, by intro c; simp; grind⟩
              intro x hx
              simp at hx
              rcases hx with rfl | rfl
              · exact Or.inr ⟨cip, op, hc, hop, hctl, hnext h48⟩
              · exact Or.inl hin

/-- A run has an end. -/
theorem run_last {code : List Cell} {bs : Nat} {P : Pre} : ∀ (fuel c : Nat) (R : RunEnd), scanRun code P bs fuel c = .ok R →
    ∃ pc, OnRun code P bs c pc ∧ (Stops P bs pc ∨ ∃ op, code[pc]? = some op ∧ isControl op.toNat = true)
  | 0, _, _, h => by cases h
  | fuel+1, c, R, h => by
    unfold scanRun at h
    split at h
    · cases h
    · split at h
      · rename_i hstop
        exact ⟨c, .here, Or.inl ⟨by simpa using hstop.1, hstop.2⟩⟩
      · rename_i hstop
        obtain ⟨op, h1, h⟩ := bind_ok_iff.1 h
        rw [readAt_ok] at h1
        split at h
        · rename_i hc
          exact ⟨c, .here, Or.inr ⟨op, h1, hc⟩⟩
        · rename_i hc
          obtain ⟨nx, h3, h4⟩ := bind_ok_iff.1 h
          obtain ⟨pc, hp1, hp2⟩ := run_last fuel nx R h4
          refine ⟨pc, .next ?_ h1 (by simpa using hc) h3 hp1, hp2⟩
          intro hs; apply hstop; exact ⟨by simpa using hs.1, hs.2⟩

theorem run_heads {code : List Cell} {start bs c fuel : Nat} {P : Pre} {R : RunEnd} (I : PInv code start P) (T : TInv code P)
    (hc : c ∈ P.insns) (h : scanRun code P bs fuel c = .ok R) :
    (∀ x ∈ R.links, Heads code P x) ∧ ∀ x, x ∈ R.acquire ↔ x ∈ R.links := by
  obtain ⟨pc, hpc, hst⟩ := run_last fuel c R h
  obtain ⟨g1, g2, g3⟩ := scanRun_ok fuel c R h pc hpc
  have hpi := onRun_insns I hc (fun pc hpc => (scanRun_ok fuel c R h pc hpc).1) hpc
  by_cases hs : Stops P bs pc
  · rw [g2 hs]
    refine ⟨?_, by simp⟩
    intro x hx
    simp at hx; subst hx; exact Or.inl hs.1
  · rcases hst with h' | ⟨op, h1, h2⟩
    · exact absurd h' hs
    · have := controlFlow_heads I T hpi h1 h2 (g3 hs op h1 h2)
      exact ⟨this.1, this.2.2⟩

/-! ## Links -/

/-- The edges follow the links, and every block was linked. -/
structure LInv (B : Build) : Prop where
  links : ∀ b R, (b, R) ∈ B.runs → ∀ c ∈ R.links, c ∈ B.starts ∧ (b, B.blockAt c) ∈ B.edges
  linked : ∀ c ∈ B.starts, ∃ b R, (b, R) ∈ B.runs ∧ c ∈ R.links

theorem finish_links {B : Build} {b : Nat} {R : RunEnd} (I : LInv B) (ha : ∀ x, x ∈ R.acquire ↔ x ∈ R.links) :
    LInv (finishBlock B b R) := by
  obtain ⟨new, h1, h2, h3, h4, h5, h6, h7⟩ := acquire_fold R.acquire B
  have hst : (finishBlock B b R).starts = B.starts ++ new := h1
  have hru : (finishBlock B b R).runs = (b, R) :: B.runs := by
    show (b, R) :: (R.acquire.foldl acquireBlock B).runs = _
    rw [h3]
  have hed : (finishBlock B b R).edges = B.edges ++ R.links.map fun c => (b, (finishBlock B b R).blockAt c) := by
    show (R.acquire.foldl acquireBlock B).edges ++ R.links.map (fun c => (b, (R.acquire.foldl acquireBlock B).blockAt c)) = _
    rw [h2]
    rfl
  constructor
  · intro b' R' hm c hc
    rw [hru] at hm
    rw [hed, hst]
    rcases List.mem_cons.1 hm with hm | hm
    · cases hm
      refine ⟨h5 c ((ha c).2 hc), List.mem_append_right _ ?_⟩
      rw [List.mem_map]
      exact ⟨c, hc, rfl⟩
    · obtain ⟨g1, g2⟩ := I.links b' R' hm c hc
      refine ⟨List.mem_append_left _ g1, List.mem_append_left _ ?_⟩
      have : (finishBlock B b R).blockAt c = B.blockAt c := by
        unfold Build.blockAt
        rw [hst, List.idxOf_append, if_pos g1]
      rw [this]
      exact g2
  · intro c hc
    rw [hst, List.mem_append] at hc
    rw [hru]
    rcases hc with hc | hc
    · obtain ⟨b', R', g1, g2⟩ := I.linked c hc
      exact ⟨b', R', List.mem_cons_of_mem _ g1, g2⟩
    · exact ⟨b, R, List.mem_cons_self .., (ha c).1 (h4 c hc)⟩

theorem LInv.queue {B : Build} (I : LInv B) (q : List Nat) : LInv { B with queue := q } := ⟨I.links, I.linked⟩

theorem scanRun_acquire {code : List Cell} {P : Pre} {bs : Nat} : ∀ (fuel c : Nat) (R : RunEnd), scanRun code P bs fuel c = .ok R →
    ∀ x, x ∈ R.acquire ↔ x ∈ R.links
  | 0, _, _, h => by cases h
  | fuel+1, c, R, h => by
    unfold scanRun at h
    split at h
    · cases h
    · split at h
      · cases h; simp
      · obtain ⟨op, h1, h⟩ := bind_ok_iff.1 h
        split at h
        · unfold controlFlow at h
          split at h
          · cases h; simp
          · obtain ⟨t, h1, h⟩ := bind_ok_iff.1 h
            split at h
            · cases h
            · simp only at h
              split at h
              · cases h
              · split at h
                · unfold switchFlow at h
                  obtain ⟨o, _, h⟩ := bind_ok_iff.1 h
                  split at h
                  · cases h
                  · obtain ⟨n, _, h⟩ := bind_ok_iff.1 h
                    obtain ⟨d, _, h⟩ := bind_ok_iff.1 h
                    split at h
                    · cases h
                    · obtain ⟨ts, _, h⟩ := bind_ok_iff.1 h
                      simp only at h
                      split at h
                      · cases h; simp
                      · cases h
                · split at h
                  · cases h; simp
                  · split at h
                    · cases h
                    · cases h
                      intro x
                      simp
                      grind
        · obtain ⟨nx, h3, h4⟩ := bind_ok_iff.1 h
          exact scanRun_acquire fuel nx R h4

theorem scanLoop_links {code : List Cell} {P : Pre} (len : Nat) : ∀ (fuel : Nat) (B B' : Build), LInv B →
    scanLoop code P len fuel B = .ok B' → LInv B'
  | 0, _, _, _, h => by cases h
  | fuel+1, B, B', I, h => by
    unfold scanLoop at h
    split at h
    · cases h; exact I
    · split at h
      · cases h
      · obtain ⟨R, h1, h2⟩ := bind_ok_iff.1 h
        exact scanLoop_links len fuel _ B' (finish_links (I.queue _) (scanRun_acquire _ _ _ h1)) h2

theorem scan_links {code : List Cell} {start fuel : Nat} {P : Pre} {B : Build} (h : scan code start P fuel = .ok B) : LInv B := by
  unfold scan at h
  obtain ⟨R, h1, h2⟩ := bind_ok_iff.1 h
  exact scanLoop_links fuel fuel _ B (finish_links ⟨by simp, by simp⟩ (scanRun_acquire _ _ _ h1)) h2

/-! ## Each instruction is in one block -/

/-- A scanned method with its links. -/
structure Linked (code : List Cell) (start : Nat) (P : Pre) (B : Build) : Prop extends Scanned code start P B where
  recorded : TInv code P
  links : LInv B

theorem build_linked {code : List Cell} {start fuel : Nat} {P : Pre} {B : Build} {A : Verif.Cfg.Analysis}
    (hn : NoNegativeTable code start) (h : build code start fuel = .ok (P, B, A)) : Linked code start P B := by
  obtain ⟨h1, h2, _⟩ := build_ok h
  exact ⟨build_scanned hn h, prescan_tinv hn h1, scan_links h2⟩

theorem Linked.heads {code : List Cell} {start : Nat} {P : Pre} {B : Build} (S : Linked code start P B) {c : Nat} (hc : c ∈ B.starts) :
    Heads code P c := by
  obtain ⟨b, R, h1, h2⟩ := S.links.linked c hc
  obtain ⟨bs, c', fuel, g1, g2, _⟩ := S.blocks.runs b R h1
  refine (run_heads S.pre S.recorded ?_ g2).1 c h2
  cases g1 with
  | entry => exact first_insn S.pre g2
  | other h => exact S.blocks.insns _ (List.mem_of_getElem? h)

/-- Two instructions with the same next one are the same. -/
theorem Linked.unique_prev {code : List Cell} {start : Nat} {P : Pre} {B : Build} (S : Linked code start P B) {p q nxt : Nat} {op op' : Cell}
    (hp : p ∈ P.insns) (hq : q ∈ P.insns) (h1 : code[p]? = some op) (h2 : code[q]? = some op') (h3 : nextInsn code p op = .ok nxt)
    (h4 : nextInsn code q op' = .ok nxt) : p = q := by
  have hlt : ∀ i op, i ∈ P.insns → code[i]? = some op → nextInsn code i op = .ok nxt → i < nxt := by
    intro i op hi ho hn
    obtain ⟨_, _, _, nx, hok, _⟩ := S.pre.insns i hi
    obtain ⟨op', g1, _, _, _, _, g2, _⟩ := hok.op
    rw [ho] at g1; cases g1
    rw [hn] at g2; cases g2
    exact hok.lt
  have a1 := hlt p op hp h1 h3
  have a2 := hlt q op' hq h2 h4
  have b1 := (S.recorded.gap p hp op nxt h1 h3).2 q hq
  have b2 := (S.recorded.gap q hq op' nxt h2 h4).2 p hp
  omega

/-- A run, from the end. -/
theorem OnRun.last {code : List Cell} {P : Pre} {bs c pc : Nat} (h : OnRun code P bs c pc) : pc = c ∨
    ∃ q op, OnRun code P bs c q ∧ ¬ Stops P bs q ∧ code[q]? = some op ∧ isControl op.toNat = false ∧ nextInsn code q op = .ok pc := by
  induction h with
  | here => exact Or.inl rfl
  | next h1 h2 h3 h4 h5 ih =>
    right
    rcases ih with rfl | ⟨q, op, g1, g2, g3, g4, g5⟩
    · exact ⟨_, _, .here, h1, h2, h3, h4⟩
    · exact ⟨q, op, .next h1 h2 h3 h4 g1, g2, g3, g4, g5⟩

theorem BlockOf.le {start b bs c : Nat} {B : Build} (h : BlockOf start B b bs c) : bs ≤ c := by
  cases h with
  | entry => omega
  | other h => omega

/-- A cell is covered by one block. -/
theorem Linked.unique {code : List Cell} {start : Nat} {P : Pre} {B : Build} (S : Linked code start P B) {b b' bs bs' c c' f f' : Nat}
    {R R' : RunEnd} (h1 : BlockOf start B b bs c) (h1' : BlockOf start B b' bs' c') (h2 : scanRun code P bs f c = .ok R)
    (h2' : scanRun code P bs' f' c' = .ok R') : ∀ (n pc : Nat), pc ≤ n → OnRun code P bs c pc → OnRun code P bs' c' pc →
      ¬ Stops P bs pc → ¬ Stops P bs' pc → b = b'
  | n, pc, hle, h3, h3', h4, h4' => by
    have hin : ∀ {b bs c f R}, BlockOf start B b bs c → scanRun code P bs f c = .ok R → c ∈ P.insns := by
      intro b bs c f R h1 h2
      cases h1 with
      | entry => exact first_insn S.pre h2
      | other h => exact S.blocks.insns _ (List.mem_of_getElem? h)
    have hi1 := hin h1 h2
    have hi2 := hin h1' h2'
    have hpi : ∀ {pc}, OnRun code P bs c pc → pc ∈ P.insns := fun h =>
      onRun_insns S.pre hi1 (fun pc hpc => (scanRun_ok f c R h2 pc hpc).1) h
    have hpi' : ∀ {pc}, OnRun code P bs' c' pc → pc ∈ P.insns := fun h =>
      onRun_insns S.pre hi2 (fun pc hpc => (scanRun_ok f' c' R' h2' pc hpc).1) h
    have hge : ∀ {bs c pc}, c ∈ P.insns → (∀ x, OnRun code P bs c x → x ∈ P.insns) → OnRun code P bs c pc → c ≤ pc := by
      intro bs c pc hc hall h
      induction h with
      | here => exact Nat.le_refl _
      | next a1 a2 a3 a4 a5 ih =>
        rename_i c c1 pc op
        obtain ⟨_, _, _, nx, hok, _⟩ := S.pre.insns c hc
        obtain ⟨op', g1, _, _, _, _, g2, _⟩ := hok.op
        rw [a2] at g1; cases g1
        rw [a4] at g2; cases g2
        have := hok.lt
        have := ih (hall c1 (.next a1 a2 a3 a4 .here)) fun x hx => hall x (.next a1 a2 a3 a4 hx)
        omega
    have hlt : ∀ {i op nxt}, i ∈ P.insns → code[i]? = some op → nextInsn code i op = .ok nxt → i < nxt := by
      intro i op nxt hi ho hn
      obtain ⟨_, _, _, nx, hok, _⟩ := S.pre.insns i hi
      obtain ⟨op', g1, _, _, _, _, g2, _⟩ := hok.op
      rw [ho] at g1; cases g1
      rw [hn] at g2; cases g2
      exact hok.lt
    -- the cell a block starts at is not run into from another one
    have hstart : ∀ {b bs c b' bs' c' q op}, BlockOf start B b bs c → BlockOf start B b' bs' c' → q ∈ P.insns → c' ≤ q → 
        code[q]? = some op → isControl op.toNat = false → nextInsn code q op = .ok c → ¬ Stops P bs' c → False := by
      intro b bs c b' bs' c' q op k1 k1' hq hcq hop hctl hnx hns
      have hqc := hlt hq hop hnx
      cases k1 with
      | entry =>
        have := (S.pre.insns q hq).2.1
        omega
      | other hk =>
        rcases S.heads (List.mem_of_getElem? hk) with ht | ⟨q', op', e1, e2, e3, e4⟩
        · apply hns
          refine ⟨ht, ?_⟩
          have := k1'.le
          omega
        · have := S.unique_prev hq e1 hop e2 hnx e4
          subst this
          rw [hop] at e2; cases e2
          rw [hctl] at e3; cases e3
    rcases h3.last with hc | ⟨q, op, a1, a2, a3, a4, a5⟩
    · rcases h3'.last with hc' | ⟨q', op', a1', a2', a3', a4', a5'⟩
      · subst hc
        subst hc'
        have hent : ∀ {k : Nat}, B.starts[k]? = some (start + 1) → Stops P start (start + 1) := by
          intro k hk
          rcases S.heads (List.mem_of_getElem? hk) with ht | ⟨q', op', e1, e2, e3, e4⟩
          · exact ⟨ht, by omega⟩
          · have := hlt e1 e2 e4
            have := (S.pre.insns q' e1).2.1
            omega
        cases h1 with
        | entry =>
          cases h1' with
          | entry => rfl
          | other hk => exact absurd (hent hk) h4
        | other hk =>
          cases h1' with
          | entry => exact absurd (hent hk) h4'
          | other hk' =>
            have := (List.getElem?_inj (List.getElem?_eq_some_iff.1 hk).1 S.blocks.nodup).1 (hk.trans hk'.symm)
            rw [this]
      · subst hc
        exact (hstart h1 h1' (hpi' a1') (hge hi2 (fun x hx => hpi' hx) a1') a3' a4' a5' h4').elim
    · rcases h3'.last with hc' | ⟨q', op', a1', a2', a3', a4', a5'⟩
      · subst hc'
        exact (hstart h1' h1 (hpi a1) (hge hi1 (fun x hx => hpi hx) a1) a3 a4 a5 h4).elim
      · have hqq := S.unique_prev (hpi a1) (hpi' a1') a3 a3' a5 a5'
        subst hqq
        have := hlt (hpi a1) a3 a5
        match n, hle with
        | 0, hle => omega
        | n+1, hle => exact Linked.unique S h1 h1' h2 h2' n q (by omega) a1 a1' a2 a2'

end Verif.Graph

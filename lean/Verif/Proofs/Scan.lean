import Verif.Proofs.ReaderTotal
import Verif.Spec.Graph

/-! The prescan and the block scan of vm/graph-builder.cpp. -/
namespace Verif.Graph
open Verif.VM

theorem bind_ok_iff {α β : Type} {x : Out α} {f : α → Out β} {b : β} : (x >>= f) = .ok b ↔ ∃ a, x = .ok a ∧ f a = .ok b := by
  show Out.bind x f = _ ↔ _
  cases x <;> simp [Out.bind]

theorem readAt_ok {code : List Cell} {i : Nat} {c : Cell} : readAt code i = .ok c ↔ code[i]? = some c := by
  unfold readAt
  cases h : code[i]? <;> simp

/-- A jump operand that passed the prescan. -/
def Checked (code : List Cell) (start : Nat) (t : Cell) : Prop :=
  0 ≤ t.toInt ∧ t.toNat % 4 = 0 ∧ t.toNat / 4 < code.length ∧ start < t.toNat / 4

theorem jumpTarget_ok {code : List Cell} {start : Nat} {sw : Bool} {t : Cell} {tg tg' : List Nat}
    (h : jumpTarget code start sw t tg = .ok tg') : Checked code start t := by
  unfold jumpTarget at h
  split at h
  · cases h
  · split at h
    · cases h
    · split at h
      · cases h
      · split at h
        · cases h
        · refine ⟨by omega, by omega, by omega, by omega⟩

theorem caseTargets_ok {code : List Cell} {start : Nat} : ∀ (n pos : Nat) (tg tg' : List Nat),
    caseTargets code start n pos tg = .ok tg' → ∀ k, k < n → ∃ t, code[pos + 1 + 2 * k]? = some t ∧ Checked code start t
  | 0, _, _, _, _, k, hk => by omega
  | n+1, pos, tg, tg', h, k, hk => by
    unfold caseTargets at h
    obtain ⟨t, h1, h⟩ := bind_ok_iff.1 h
    obtain ⟨tg1, h2, h⟩ := bind_ok_iff.1 h
    rw [readAt_ok] at h1
    match k with
    | 0 => exact ⟨t, h1, jumpTarget_ok h2⟩
    | k+1 =>
      obtain ⟨t', h3, h4⟩ := caseTargets_ok n (pos + 2) tg1 tg' h k (by omega)
      exact ⟨t', by rw [show pos + 1 + 2 * (k + 1) = pos + 2 + 1 + 2 * k by omega]; exact h3, h4⟩

/-- What the prescan established about the instruction at `i`, the next one being at `nxt`. -/
structure InsnOk (code : List Cell) (start i nxt : Nat) : Prop where
  op : ∃ op, code[i]? = some op ∧ op ≠ 46 ∧ op ≠ 166 ∧ op.toNat ≠ 0 ∧ op.toNat < 236 ∧ nextInsn code i op = .ok nxt ∧
    (op ≠ 130 → ∃ k, opcodeSize op.toNat = some k ∧ nxt = i + k.toNat) ∧
    (isControl op.toNat = true → op.toNat ≠ 48 → ∃ t, code[i + 1]? = some t ∧ Checked code start t) ∧
    (op = 130 → ∃ n d, code[i + 1]? = some n ∧ 0 ≤ n.toInt ∧ code[i + 2]? = some d ∧ Checked code start d ∧
      nxt = i + 3 + 2 * n.toInt.toNat ∧
      ∀ k, k < n.toInt.toNat → ∃ t, code[i + 4 + 2 * k]? = some t ∧ Checked code start t)
  dec : ∃ ins, decode code i = some (ins, nxt)
  lt : i < nxt
  le : nxt ≤ code.length

theorem not_control_130 : isControl 130 = false := by decide

theorem prescanTable_ok {code : List Cell} {start : Nat} {S S' : Pre} (hop : code[S.cip]? = some 130)
    (hn : ∀ n, code[S.cip + 1]? = some n → 0 ≤ n.toInt) (h : prescanTable code start S = .ok S') :
    InsnOk code start S.cip S'.cip ∧ S'.insns = S.cip :: S.insns := by
  unfold prescanTable at h
  split at h
  · cases h
  · obtain ⟨c, h1, h⟩ := bind_ok_iff.1 h
    rw [readAt_ok] at h1
    have hc := hn c h1
    simp only at h
    split at h
    · cases h
    · split at h
      · cases h
      · split at h
        · cases h
        · rename_i hle
          obtain ⟨tg, h2, h⟩ := bind_ok_iff.1 h
          split at h
          · cases h
          · cases h
            unfold prescanCases at h2
            obtain ⟨d, h3, h2⟩ := bind_ok_iff.1 h2
            obtain ⟨tg1, h4, h5⟩ := bind_ok_iff.1 h2
            rw [readAt_ok] at h3
            have hall := caseTargets_ok _ _ _ _ h5
            have hnx : ((S.cip : Int) + 2 + (2 * c.toInt + 1)).toNat = S.cip + 3 + 2 * c.toInt.toNat := by omega
            refine ⟨⟨⟨130, hop, by decide, by decide, by decide, by decide, ?_, ?_, ?_, ?_⟩, ?_, ?_, ?_⟩, rfl⟩
            · unfold nextInsn
              rw [if_pos rfl]
              rw [bind_ok_iff]
              refine ⟨c, readAt_ok.2 h1, ?_⟩
              simp only
              rw [if_neg (by omega)]
              congr 1
              omega
            · intro h; exact absurd rfl h
            · intro h
              exact absurd h (by decide)
            · intro _
              refine ⟨c, d, h1, hc, h3, jumpTarget_ok h4, hnx, ?_⟩
              intro k hk
              obtain ⟨t, ht, hch⟩ := hall k hk
              exact ⟨t, by rw [show S.cip + 4 + 2 * k = S.cip + 2 + 1 + 1 + 2 * k by omega]; exact ht, hch⟩
            · simp only
              rw [hnx]
              exact ⟨_, decode_table hop h1 hc (by omega)⟩
            · show S.cip < ((S.cip : Int) + 2 + (2 * c.toInt + 1)).toNat
              omega
            · show ((S.cip : Int) + 2 + (2 * c.toInt + 1)).toNat ≤ code.length
              omega

theorem prescanPlain_ok {code : List Cell} {start : Nat} {S S' : Pre} {op : Cell} (hop : code[S.cip]? = some op)
    (h46 : op ≠ 46) (h166 : op ≠ 166) (h130 : op ≠ 130) (h0 : op.toNat ≠ 0) (hlt : op.toNat < 236)
    (h : prescanPlain code start S op.toNat = .ok S') :
    InsnOk code start S.cip S'.cip ∧ S'.insns = S.cip :: S.insns := by
  unfold prescanPlain at h
  cases hk : opcodeSize op.toNat with
  | none => rw [hk] at h; cases h
  | some k =>
    rw [hk] at h
    simp only at h
    have h130' : op.toNat ≠ 130 := by
      intro hh; apply h130; apply BitVec.eq_of_toNat_eq; rw [hh]; rfl
    have hpos := sizes_pos ⟨op.toNat, hlt⟩ h130' k hk
    have hnext : nextInsn code S.cip op = .ok (S.cip + k.toNat) := by
      unfold nextInsn
      rw [if_neg h130, hk]
    split at h
    · cases h
    · rename_i hle
      have hdec : ∃ ins, decode code S.cip = some (ins, S.cip + k.toNat) := by
        obtain ⟨i, _, _, _, hd, _⟩ := decode_plain hop h130 h0 hlt hk (by omega)
        exact ⟨i, hd⟩
      split at h
      · rename_i hc
        obtain ⟨t, h1, h⟩ := bind_ok_iff.1 h
        obtain ⟨tg, h2, h⟩ := bind_ok_iff.1 h
        rw [readAt_ok] at h1
        cases h
        exact ⟨⟨⟨op, hop, h46, h166, h0, hlt, hnext, fun _ => ⟨k, hk, rfl⟩, fun _ _ => ⟨t, h1, jumpTarget_ok h2⟩,
          fun hh => absurd hh h130⟩, hdec, by simp only; omega, by simp only; omega⟩, rfl⟩
      · rename_i hc
        cases h
        refine ⟨⟨⟨op, hop, h46, h166, h0, hlt, hnext, fun _ => ⟨k, hk, rfl⟩, ?_, fun hh => absurd hh h130⟩, hdec,
          by simp only; omega, by simp only; omega⟩, rfl⟩
        intro hc1 hc2
        exact absurd ⟨hc1, hc2⟩ hc

/-- The invariant of the prescan. -/
structure PInv (code : List Cell) (start : Nat) (S : Pre) : Prop where
  above : start < S.cip
  within : S.cip ≤ code.length
  bound : Boundary code start S.cip
  insns : ∀ i ∈ S.insns, Boundary code start i ∧ start < i ∧ i < S.cip ∧
    ∃ nxt, InsnOk code start i nxt ∧ (nxt ∈ S.insns ∨ nxt = S.cip)
  first : start + 1 ∈ S.insns ∨ S.cip = start + 1

theorem PInv.step {code : List Cell} {start : Nat} {S S' : Pre} (I : PInv code start S)
    (h : InsnOk code start S.cip S'.cip ∧ S'.insns = S.cip :: S.insns) : PInv code start S' := by
  obtain ⟨hi, hs⟩ := h
  have hlt := hi.lt
  constructor
  · have := I.above; omega
  · exact hi.le
  · obtain ⟨op, h1, h46, h166, _⟩ := hi.op
    obtain ⟨ins, hd⟩ := hi.dec
    refine .next I.bound ?_ ?_ hd
    · rw [h1]; intro h; cases h; exact h46 rfl
    · rw [h1]; intro h; cases h; exact h166 rfl
  · intro i hi'
    rw [hs] at hi' ⊢
    rcases List.mem_cons.1 hi' with rfl | hi'
    · exact ⟨I.bound, I.above, hlt, _, hi, Or.inr rfl⟩
    · obtain ⟨h1, h2, h3, nxt, h4, h5⟩ := I.insns i hi'
      refine ⟨h1, h2, by omega, nxt, h4, ?_⟩
      rcases h5 with h5 | h5
      · exact Or.inl (List.mem_cons_of_mem _ h5)
      · exact Or.inl (by rw [h5]; simp)
  · rw [hs]
    rcases I.first with h | h
    · exact Or.inl (List.mem_cons_of_mem _ h)
    · exact Or.inl (by rw [h]; simp)

theorem op_range {op : Cell} (h : ¬ (op.toInt ≤ 0 ∨ op.toInt ≥ 236)) : op.toNat ≠ 0 ∧ op.toNat < 236 := by
  rw [not_or] at h
  have := BitVec.toInt_eq_toNat_cond (x := op)
  have hl := op.isLt
  split at this <;> omega

theorem prescanLoop_inv {code : List Cell} {start : Nat} (hn : NoNegativeTable code start) :
    ∀ (fuel : Nat) (S S' : Pre), PInv code start S → prescanLoop code start fuel S = .ok S' → PInv code start S'
  | 0, _, _, _, h => by cases h
  | fuel+1, S, S', I, h => by
    unfold prescanLoop at h
    cases hop : code[S.cip]? with
    | none => rw [hop] at h; cases h; exact I
    | some op =>
      rw [hop] at h
      simp only at h
      split at h
      · cases h; exact I
      · rename_i hproc
        rw [not_or] at hproc
        split at h
        · cases h
        · rename_i hr
          obtain ⟨h0, hlt⟩ := op_range hr
          split at h
          · rename_i h130
            subst h130
            obtain ⟨S1, h1, h2⟩ := bind_ok_iff.1 h
            exact prescanLoop_inv hn fuel S1 S' (I.step (prescanTable_ok hop (fun n hh => hn _ n I.bound hop hh) h1)) h2
          · rename_i h130
            obtain ⟨S1, h1, h2⟩ := bind_ok_iff.1 h
            exact prescanLoop_inv hn fuel S1 S' (I.step (prescanPlain_ok hop hproc.1 hproc.2 h130 h0 hlt h1)) h2

theorem prescan_inv {code : List Cell} {start fuel : Nat} {P : Pre} (hn : NoNegativeTable code start)
    (h : prescan code start fuel = .ok P) : PInv code start P := by
  unfold prescan at h
  split at h
  · rename_i hs
    have := (List.getElem?_eq_some_iff.1 hs).1
    exact prescanLoop_inv hn fuel _ P ⟨by simp only; omega, by simp only; omega, .first, by simp, Or.inr rfl⟩ h
  · cases h

/-! ## Termination of the prescan -/

theorem bind_fuel_iff {α β : Type} {x : Out α} {f : α → Out β} : (x >>= f) = .fuel ↔ x = .fuel ∨ ∃ a, x = .ok a ∧ f a = .fuel := by
  show Out.bind x f = _ ↔ _
  cases x <;> simp [Out.bind]

theorem readAt_fuel {code : List Cell} {i : Nat} : readAt code i ≠ .fuel := by
  unfold readAt; split <;> simp

theorem jumpTarget_fuel {code : List Cell} {start : Nat} {sw : Bool} {t : Cell} {tg : List Nat} :
    jumpTarget code start sw t tg ≠ .fuel := by
  unfold jumpTarget
  repeat' split
  all_goals simp

theorem caseTargets_fuel {code : List Cell} {start : Nat} : ∀ (n pos : Nat) (tg : List Nat),
    caseTargets code start n pos tg ≠ .fuel
  | 0, _, _ => by simp [caseTargets]
  | n+1, pos, tg => by
    unfold caseTargets
    intro h
    rcases bind_fuel_iff.1 h with h | ⟨t, _, h⟩
    · exact readAt_fuel h
    · rcases bind_fuel_iff.1 h with h | ⟨t, _, h⟩
      · exact jumpTarget_fuel h
      · exact caseTargets_fuel _ _ _ h

theorem prescanTable_fuel {code : List Cell} {start : Nat} {S : Pre} : prescanTable code start S ≠ .fuel := by
  unfold prescanTable
  intro h
  split at h
  · cases h
  · rcases bind_fuel_iff.1 h with h | ⟨c, _, h⟩
    · exact readAt_fuel h
    · simp only at h
      split at h
      · cases h
      · split at h
        · cases h
        · split at h
          · cases h
          · rcases bind_fuel_iff.1 h with h | ⟨tg, _, h⟩
            · unfold prescanCases at h
              rcases bind_fuel_iff.1 h with h | ⟨d, _, h⟩
              · exact readAt_fuel h
              · rcases bind_fuel_iff.1 h with h | ⟨_, _, h⟩
                · exact jumpTarget_fuel h
                · exact caseTargets_fuel _ _ _ h
            · split at h <;> cases h

theorem prescanPlain_fuel {code : List Cell} {start : Nat} {S : Pre} {op : Nat} : prescanPlain code start S op ≠ .fuel := by
  unfold prescanPlain
  intro h
  split at h
  · cases h
  · simp only at h
    split at h
    · cases h
    · split at h
      · rcases bind_fuel_iff.1 h with h | ⟨t, _, h⟩
        · exact readAt_fuel h
        · rcases bind_fuel_iff.1 h with h | ⟨_, _, h⟩
          · exact jumpTarget_fuel h
          · cases h
      · cases h

theorem prescanLoop_fuel {code : List Cell} {start : Nat} (hn : NoNegativeTable code start) :
    ∀ (fuel : Nat) (S : Pre), PInv code start S → code.length < fuel + S.cip → prescanLoop code start fuel S ≠ .fuel
  | 0, S, I, hf => by have := I.within; omega
  | fuel+1, S, I, hf => by
    intro h
    unfold prescanLoop at h
    cases hop : code[S.cip]? with
    | none => rw [hop] at h; cases h
    | some op =>
      rw [hop] at h
      simp only at h
      split at h
      · cases h
      · rename_i hproc
        rw [not_or] at hproc
        split at h
        · cases h
        · rename_i hr
          obtain ⟨h0, hlt⟩ := op_range hr
          split at h
          · rename_i h130
            subst h130
            rcases bind_fuel_iff.1 h with h1 | ⟨S1, h1, h2⟩
            · exact prescanTable_fuel h1
            · have hok := prescanTable_ok hop (fun n hh => hn _ n I.bound hop hh) h1
              have := hok.1.lt
              exact prescanLoop_fuel hn fuel S1 (I.step hok) (by omega) h2
          · rename_i h130
            rcases bind_fuel_iff.1 h with h1 | ⟨S1, h1, h2⟩
            · exact prescanPlain_fuel h1
            · have hok := prescanPlain_ok hop hproc.1 hproc.2 h130 h0 hlt h1
              have := hok.1.lt
              exact prescanLoop_fuel hn fuel S1 (I.step hok) (by omega) h2

/-! ## Runs -/

/-- The scan of the block at `bstart` stops in front of `pc`. -/
def Stops (P : Pre) (bstart pc : Nat) : Prop := pc ∈ P.targets ∧ bstart ≠ pc

/-- The positions a run from `c` goes through. -/
inductive OnRun (code : List Cell) (P : Pre) (bstart : Nat) : Nat → Nat → Prop where
  | here {c : Nat} : OnRun code P bstart c c
  | next {c c' pc : Nat} {op : Cell} : ¬ Stops P bstart c → code[c]? = some op → isControl op.toNat = false →
      nextInsn code c op = .ok c' → OnRun code P bstart c' pc → OnRun code P bstart c pc

theorem OnRun.snoc {code : List Cell} {P : Pre} {bstart c pc pc' : Nat} {op : Cell} (h : OnRun code P bstart c pc)
    (h1 : ¬ Stops P bstart pc) (h2 : code[pc]? = some op) (h3 : isControl op.toNat = false) (h4 : nextInsn code pc op = .ok pc') :
    OnRun code P bstart c pc' := by
  induction h with
  | here => exact .next h1 h2 h3 h4 .here
  | next a b c d _ ih => exact .next a b c d (ih h1 h2 h4)

theorem scanRun_ok {code : List Cell} {P : Pre} {bstart : Nat} : ∀ (fuel c : Nat) (R : RunEnd),
    scanRun code P bstart fuel c = .ok R → ∀ pc, OnRun code P bstart c pc →
      pc < P.cip ∧ (Stops P bstart pc → R = ⟨pc, [pc], [pc]⟩) ∧
      (¬ Stops P bstart pc → ∀ op, code[pc]? = some op → isControl op.toNat = true → controlFlow code P pc op.toNat = .ok R)
  | 0, _, _, h, _, _ => by cases h
  | fuel+1, c, R, h, pc, hr => by
    unfold scanRun at h
    split at h
    · cases h
    · rename_i hlt
      split at h
      · rename_i hstop
        have hstop' : Stops P bstart c := ⟨by simpa using hstop.1, hstop.2⟩
        cases h
        cases hr with
        | here => exact ⟨by omega, fun _ => rfl, fun hn => absurd hstop' hn⟩
        | next h1 => exact absurd hstop' h1
      · rename_i hstop
        have hstop' : ¬ Stops P bstart c := by
          intro hs; apply hstop; exact ⟨by simpa using hs.1, hs.2⟩
        obtain ⟨op, h1, h⟩ := bind_ok_iff.1 h
        rw [readAt_ok] at h1
        split at h
        · rename_i hc
          cases hr with
          | here =>
            refine ⟨by omega, fun hs => absurd hs hstop', ?_⟩
            intro _ op' h2 _
            rw [h1] at h2; cases h2
            exact h
          | next _ h2 h3 =>
            rw [h1] at h2; cases h2
            rw [hc] at h3; cases h3
        · rename_i hc
          obtain ⟨nx, h3, h4⟩ := bind_ok_iff.1 h
          cases hr with
          | here =>
            refine ⟨by omega, fun hs => absurd hs hstop', ?_⟩
            intro _ op' h2 hc'
            rw [h1] at h2; cases h2
            exact absurd hc' hc
          | next _ h2 _ h5 h6 =>
            rw [h1] at h2; cases h2
            rw [h3] at h5; cases h5
            exact scanRun_ok fuel _ R h4 pc h6

/-- On a run that starts at an instruction and stays in front of the stop all positions are instructions. -/
theorem onRun_insns {code : List Cell} {start bstart c pc : Nat} {P : Pre} (I : PInv code start P) (hc : c ∈ P.insns)
    (hb : ∀ pc, OnRun code P bstart c pc → pc < P.cip) (h : OnRun code P bstart c pc) : pc ∈ P.insns := by
  induction h with
  | here => exact hc
  | next h1 h2 h3 h4 h5 ih =>
    rename_i c c' pc op
    obtain ⟨_, _, _, nxt, hok, hnx⟩ := I.insns c hc
    obtain ⟨op', h6, _, _, _, _, h7, _⟩ := hok.op
    rw [h2] at h6; cases h6
    rw [h4] at h7; cases h7
    have hc' : c' ∈ P.insns := by
      rcases hnx with h | h
      · exact h
      · have := hb c' (.next h1 h2 h3 h4 .here)
        omega
    exact ih hc' fun pc hpc => hb pc (.next h1 h2 h3 h4 hpc)

/-! ## Ends of runs -/

theorem controlFlow_ok {code : List Cell} {start cip op : Nat} {P : Pre} {R : RunEnd} (I : PInv code start P) (hc : cip ∈ P.insns)
    (hop : code[cip]? = some (BitVec.ofNat 32 op)) (hlt : op < 236) (hctl : isControl op = true)
    (h : controlFlow code P cip op = .ok R) :
    (∀ c ∈ R.links, c ∈ P.insns) ∧ (∀ c, c ∈ R.acquire ↔ c ∈ R.links) := by
  have hrel : (BitVec.ofNat 32 op).toNat = op := by simp; omega
  unfold controlFlow at h
  split at h
  · cases h; simp
  · rename_i h48
    obtain ⟨t, h1, h⟩ := bind_ok_iff.1 h
    split at h
    · cases h
    · simp only at h
      split at h
      · cases h
      · rename_i htc
        have htc' : t.toNat / 4 ∈ P.insns := by simpa using htc
        split at h
        · unfold switchFlow at h
          obtain ⟨o, _, h⟩ := bind_ok_iff.1 h
          split at h
          · cases h
          · obtain ⟨n, _, h⟩ := bind_ok_iff.1 h
            obtain ⟨d, _, h⟩ := bind_ok_iff.1 h
            split at h
            · cases h
            · obtain ⟨ts, _, h⟩ := bind_ok_iff.1 h
              simp only at h
              split at h
              · rename_i hall
                cases h
                refine ⟨?_, by simp⟩
                intro c hc
                rw [List.all_eq_true] at hall
                simpa using hall c hc
              · cases h
        · split at h
          · cases h
            refine ⟨?_, by simp⟩
            intro c hc
            simp at hc; subst hc; exact htc'
          · rename_i h129 h51
            split at h
            · cases h
            · rename_i hl
              cases h
              refine ⟨?_, by intro c; simp; grind⟩
              intro c hcm
              simp at hcm
              rcases hcm with rfl | rfl
              · obtain ⟨_, _, _, nxt, hok, hnx⟩ := I.insns cip hc
                obtain ⟨op', h6, _, _, _, _, _, hk, _⟩ := hok.op
                rw [hop] at h6
                cases h6
                rw [hrel] at hk
                obtain ⟨k, hk1, hk2⟩ := hk (by
                  intro hh
                  have := congrArg BitVec.toNat hh
                  rw [hrel] at this
                  rw [this] at hctl
                  exact absurd hctl (by decide))
                rw [control_size ⟨op, hlt⟩ hctl h48] at hk1
                cases hk1
                simp at hk2
                subst hk2
                rcases hnx with h | h
                · exact h
                · omega
              · exact htc'

/-! ## The block loop -/

/-- A block and the cells at which it starts and its scan begins. -/
inductive BlockOf (start : Nat) (B : Build) : Nat → Nat → Nat → Prop where
  | entry : BlockOf start B 0 start (start + 1)
  | other {k c : Nat} : B.starts[k]? = some c → BlockOf start B (k + 1) c c

/-- The invariant of the loop over the blocks. -/
structure BInv (code : List Cell) (start : Nat) (P : Pre) (B : Build) : Prop where
  insns : ∀ c ∈ B.starts, c ∈ P.insns
  nodup : B.starts.Nodup
  runs : ∀ b R, (b, R) ∈ B.runs → ∃ bs c fuel, BlockOf start B b bs c ∧ scanRun code P bs fuel c = .ok R ∧
    ∀ c' ∈ R.links, c' ∈ B.starts
  edges : ∀ e ∈ B.edges, e.2 ≠ 0
  queue : ∀ b ∈ B.queue, ∃ k, b = k + 1 ∧ k < B.starts.length
  qnodup : B.queue.Nodup
  fresh : ∀ b ∈ B.queue, b ∉ B.runs.map (·.1)
  rnodup : (B.runs.map (·.1)).Nodup
  rlt : ∀ b ∈ B.runs.map (·.1), b ≤ B.starts.length

/-- All blocks are scanned or queued. -/
def Complete (B : Build) : Prop := ∀ b, b ≤ B.starts.length → b ∈ B.queue ∨ b ∈ B.runs.map (·.1)

theorem BlockOf.grow {start b bs c : Nat} {B B' : Build} (h : BlockOf start B b bs c)
    (hg : ∀ (k c : Nat), B.starts[k]? = some c → B'.starts[k]? = some c) : BlockOf start B' b bs c := by
  cases h with
  | entry => exact .entry
  | other h => exact .other (hg _ _ h)

theorem acquire_old {B : Build} {c : Nat} (h : c ∈ B.starts) : acquireBlock B c = B := by
  unfold acquireBlock
  rw [if_pos (by simpa using h)]

theorem acquire_new {B : Build} {c : Nat} (h : c ∉ B.starts) :
    acquireBlock B c = { B with starts := B.starts ++ [c], queue := (B.starts.length + 1) :: B.queue } := by
  unfold acquireBlock
  rw [if_neg (by simpa using h)]

/-- Acquiring blocks only appends. -/
theorem acquire_fold : ∀ (cs : List Nat) (B : Build), ∃ new : List Nat,
    (cs.foldl acquireBlock B).starts = B.starts ++ new ∧ (cs.foldl acquireBlock B).edges = B.edges ∧
    (cs.foldl acquireBlock B).runs = B.runs ∧ (∀ c ∈ new, c ∈ cs) ∧ (∀ c ∈ cs, c ∈ B.starts ++ new) ∧
    (B.starts.Nodup → (B.starts ++ new).Nodup) ∧
    (cs.foldl acquireBlock B).queue = ((List.range new.length).map (· + B.starts.length + 1)).reverse ++ B.queue
  | [], B => ⟨[], by simp⟩
  | c :: cs, B => by
    rw [List.foldl_cons]
    by_cases hc : c ∈ B.starts
    · rw [acquire_old hc]
      obtain ⟨new, h1, h2, h3, h4, h5, h6, h7⟩ := acquire_fold cs B
      refine ⟨new, h1, h2, h3, fun x hx => List.mem_cons_of_mem _ (h4 x hx), ?_, h6, h7⟩
      intro x hx
      rcases List.mem_cons.1 hx with rfl | hx
      · exact List.mem_append_left _ hc
      · exact h5 x hx
    · rw [acquire_new hc]
      obtain ⟨new, h1, h2, h3, h4, h5, h6, h7⟩ := acquire_fold cs { B with starts := B.starts ++ [c], queue := (B.starts.length + 1) :: B.queue }
      refine ⟨c :: new, by rw [h1]; simp, h2, h3, ?_, ?_, ?_, ?_⟩
      · intro x hx
        rcases List.mem_cons.1 hx with rfl | hx
        · exact List.mem_cons_self ..
        · exact List.mem_cons_of_mem _ (h4 x hx)
      · intro x hx
        rcases List.mem_cons.1 hx with rfl | hx
        · simp
        · have := h5 x hx
          simpa using this
      · intro hn
        have := h6 (by
          rw [List.nodup_append]
          refine ⟨hn, by simp, ?_⟩
          intro a ha b hb hab
          simp at hb
          subst hab hb
          exact hc ha)
        simpa using this
      · rw [h7]
        simp only [List.length_append, List.length_cons, List.length_nil, List.range_succ_eq_map, List.map_cons, List.map_map,
          List.reverse_cons, List.append_assoc, List.cons_append, List.nil_append]
        have : (fun x => x + (B.starts.length + (0 + 1)) + 1) = (fun x => x + B.starts.length + 1) ∘ Nat.succ := by
          funext x
          simp only [Function.comp]
          omega
        rw [this]
        simp

theorem finish_spec {code : List Cell} {start : Nat} {P : Pre} {B : Build} {b bs c fuel : Nat} {R : RunEnd}
    (I : BInv code start P B) (hb : BlockOf start B b bs c) (hr : scanRun code P bs fuel c = .ok R)
    (hl : ∀ x ∈ R.links, x ∈ P.insns) (ha : ∀ x, x ∈ R.acquire ↔ x ∈ R.links) (hbr : b ∉ B.runs.map (·.1))
    (hbq : b ∉ B.queue) (hle : b ≤ B.starts.length) :
    BInv code start P (finishBlock B b R) ∧
    ((∀ x, x ≤ B.starts.length → x ∈ B.queue ∨ x = b ∨ x ∈ B.runs.map (·.1)) → Complete (finishBlock B b R)) ∧
    (finishBlock B b R).queue.length + B.starts.length = B.queue.length + (finishBlock B b R).starts.length := by
  obtain ⟨new, h1, h2, h3, h4, h5, h6, h7⟩ := acquire_fold R.acquire B
  have hst : (finishBlock B b R).starts = B.starts ++ new := h1
  have hru : (finishBlock B b R).runs = (b, R) :: B.runs := by
    show (b, R) :: (R.acquire.foldl acquireBlock B).runs = _
    rw [h3]
  have hqu : (finishBlock B b R).queue = ((List.range new.length).map (· + B.starts.length + 1)).reverse ++ B.queue := h7
  have hgrow : ∀ (k c : Nat), B.starts[k]? = some c → (finishBlock B b R).starts[k]? = some c := by
    intro k c hk
    rw [hst]
    have := (List.getElem?_eq_some_iff.1 hk).1
    rw [List.getElem?_append_left this]
    exact hk
  have hqnew : ∀ x, x ∈ (finishBlock B b R).queue ↔ (∃ j, j < new.length ∧ x = j + B.starts.length + 1) ∨ x ∈ B.queue := by
    intro x
    rw [hqu, List.mem_append, List.mem_reverse, List.mem_map]
    simp only [List.mem_range]
    constructor
    · rintro (⟨j, hj, rfl⟩ | h)
      · exact Or.inl ⟨j, hj, rfl⟩
      · exact Or.inr h
    · rintro (⟨j, hj, rfl⟩ | h)
      · exact Or.inl ⟨j, hj, rfl⟩
      · exact Or.inr h
  have hfq : ∀ x ∈ B.queue, x ≤ B.starts.length := by
    intro x hx
    obtain ⟨k, rfl, hk⟩ := I.queue x hx
    omega
  refine ⟨⟨?_, ?_, ?_, ?_, ?_, ?_, ?_, ?_, ?_⟩, ?_, ?_⟩
  · intro x hx
    rw [hst, List.mem_append] at hx
    rcases hx with hx | hx
    · exact I.insns x hx
    · exact hl x ((ha x).1 (h4 x hx))
  · rw [hst]; exact h6 I.nodup
  · intro b' R' hm
    rw [hru] at hm
    rcases List.mem_cons.1 hm with hm | hm
    · cases hm
      refine ⟨bs, c, fuel, hb.grow hgrow, hr, ?_⟩
      intro x hx
      rw [hst]
      exact h5 x ((ha x).2 hx)
    · obtain ⟨bs', c', f', g1, g2, g3⟩ := I.runs b' R' hm
      refine ⟨bs', c', f', g1.grow hgrow, g2, ?_⟩
      intro x hx
      rw [hst]
      exact List.mem_append_left _ (g3 x hx)
  · intro e he
    have he' : e ∈ B.edges ∨ ∃ c ∈ R.links, e = (b, (R.acquire.foldl acquireBlock B).blockAt c) := by
      have : e ∈ (R.acquire.foldl acquireBlock B).edges ++ R.links.map fun c => (b, (R.acquire.foldl acquireBlock B).blockAt c) := he
      rw [h2, List.mem_append, List.mem_map] at this
      rcases this with h | ⟨c, hc, rfl⟩
      · exact Or.inl h
      · exact Or.inr ⟨c, hc, rfl⟩
    rcases he' with h | ⟨c, _, rfl⟩
    · exact I.edges e h
    · unfold Build.blockAt; simp
  · intro x hx
    rw [hst, List.length_append]
    rcases (hqnew x).1 hx with ⟨j, hj, rfl⟩ | h
    · exact ⟨j + B.starts.length, rfl, by omega⟩
    · obtain ⟨k, rfl, hk⟩ := I.queue x h
      exact ⟨k, rfl, by omega⟩
  · rw [hqu, List.nodup_append]
    refine ⟨?_, I.qnodup, ?_⟩
    · rw [(List.reverse_perm _).nodup_iff]
      rw [List.nodup_iff_pairwise_ne, List.pairwise_map]
      exact List.Pairwise.imp (fun {a b} hab => by omega) (List.nodup_iff_pairwise_ne.1 List.nodup_range)
    · intro x hx y hy hxy
      subst hxy
      rw [List.mem_reverse, List.mem_map] at hx
      obtain ⟨j, _, rfl⟩ := hx
      have := hfq _ hy
      omega
  · intro x hx
    rw [hru, List.map_cons, List.mem_cons, not_or]
    rcases (hqnew x).1 hx with ⟨j, hj, rfl⟩ | h
    · refine ⟨by omega, ?_⟩
      intro hm
      have := I.rlt _ hm
      omega
    · refine ⟨?_, I.fresh x h⟩
      intro hh; subst hh; exact hbq h
  · rw [hru, List.map_cons, List.nodup_cons]
    exact ⟨hbr, I.rnodup⟩
  · intro x hx
    rw [hru, List.map_cons, List.mem_cons] at hx
    rw [hst, List.length_append]
    rcases hx with rfl | hx
    · omega
    · have := I.rlt x hx; omega
  · intro hc x hx
    rw [hst, List.length_append] at hx
    rw [hru, List.map_cons, List.mem_cons, hqnew]
    by_cases hlt : x ≤ B.starts.length
    · rcases hc x hlt with h | h | h
      · exact Or.inl (Or.inr h)
      · exact Or.inr (Or.inl h)
      · exact Or.inr (Or.inr h)
    · exact Or.inl (Or.inl ⟨x - B.starts.length - 1, by omega, by omega⟩)
  · rw [hqu, hst]
    simp only [List.length_append, List.length_reverse, List.length_map, List.length_range]
    omega

/-- What the end of a run from an instruction satisfies. -/
theorem run_end {code : List Cell} {start bs c fuel : Nat} {P : Pre} {R : RunEnd} (I : PInv code start P) (hc : c ∈ P.insns)
    (h : scanRun code P bs fuel c = .ok R) : (∀ x ∈ R.links, x ∈ P.insns) ∧ (∀ x, x ∈ R.acquire ↔ x ∈ R.links) := by
  -- the run has an end
  have hbound : ∀ pc, OnRun code P bs c pc → pc < P.cip := fun pc hpc => (scanRun_ok fuel c R h pc hpc).1
  have hend : ∃ pc, OnRun code P bs c pc ∧ (Stops P bs pc ∨ ∃ op, code[pc]? = some op ∧ isControl op.toNat = true) := by
    clear hbound hc I
    induction fuel generalizing c with
    | zero => cases h
    | succ fuel ih =>
      unfold scanRun at h
      split at h
      · cases h
      · split at h
        · rename_i hstop
          exact ⟨c, .here, Or.inl ⟨by simpa using hstop.1, hstop.2⟩⟩
        · rename_i hstop
          obtain ⟨op, h1, h⟩ := bind_ok_iff.1 h
          rw [readAt_ok] at h1
          split at h
          · rename_i hc
            exact ⟨c, .here, Or.inr ⟨op, h1, hc⟩⟩
          · rename_i hc
            obtain ⟨nx, h3, h4⟩ := bind_ok_iff.1 h
            obtain ⟨pc, hp1, hp2⟩ := ih h4
            refine ⟨pc, .next ?_ h1 (by simpa using hc) h3 hp1, hp2⟩
            intro hs; apply hstop; exact ⟨by simpa using hs.1, hs.2⟩
  obtain ⟨pc, hpc, hst⟩ := hend
  obtain ⟨g1, g2, g3⟩ := scanRun_ok fuel c R h pc hpc
  have hpi := onRun_insns I hc hbound hpc
  by_cases hs : Stops P bs pc
  · rw [g2 hs]
    refine ⟨?_, by simp⟩
    intro x hx
    simp at hx; subst hx; exact hpi
  · rcases hst with h' | ⟨op, h1, h2⟩
    · exact absurd h' hs
    · have := g3 hs op h1 h2
      have hlt : op.toNat < 236 := by
        obtain ⟨_, _, _, nxt, hok, _⟩ := I.insns pc hpi
        obtain ⟨op', h6, _, _, _, h7, _⟩ := hok.op
        rw [h1] at h6; cases h6; exact h7
      exact controlFlow_ok I hpi (by simpa using h1) hlt h2 this

theorem scanLoop_inv {code : List Cell} {start : Nat} {P : Pre} (IP : PInv code start P) (len : Nat) :
    ∀ (fuel : Nat) (B B' : Build), BInv code start P B → Complete B → scanLoop code P len fuel B = .ok B' →
    BInv code start P B' ∧ Complete B' ∧ B'.queue = []
  | 0, _, _, _, _, h => by cases h
  | fuel+1, B, B', I, hc, h => by
    unfold scanLoop at h
    cases hq : B.queue with
    | nil => rw [hq] at h; cases h; exact ⟨I, hc, hq⟩
    | cons b q =>
      rw [hq] at h
      simp only at h
      obtain ⟨k, rfl, hk⟩ := I.queue b (by rw [hq]; simp)
      simp only [Nat.add_sub_cancel] at h
      cases hs : B.starts[k]? with
      | none => rw [hs] at h; cases h
      | some c =>
        rw [hs] at h
        simp only at h
        obtain ⟨R, h1, h2⟩ := bind_ok_iff.1 h
        have hci := I.insns c (List.mem_of_getElem? hs)
        obtain ⟨hl, ha⟩ := run_end IP hci h1
        have hqn := I.qnodup
        rw [hq, List.nodup_cons] at hqn
        have I' : BInv code start P { B with queue := q } :=
          ⟨I.insns, I.nodup, fun b' R' hm => by
            obtain ⟨bs', c', f', g1, g2, g3⟩ := I.runs b' R' hm
            exact ⟨bs', c', f', g1.grow fun _ _ h => h, g2, g3⟩, I.edges,
            fun b hb => I.queue b (by rw [hq]; exact List.mem_cons_of_mem _ hb), hqn.2,
            fun b hb => I.fresh b (by rw [hq]; exact List.mem_cons_of_mem _ hb), I.rnodup, I.rlt⟩
        obtain ⟨I2, hcom, _⟩ := finish_spec (B := { B with queue := q }) I' (.other hs) h1 hl ha
          (I.fresh _ (by rw [hq]; simp)) hqn.1 (by simp only; omega)
        refine scanLoop_inv IP len fuel _ B' I2 (hcom ?_) h2
        intro x hx
        rcases hc x hx with h | h
        · rw [hq] at h
          rcases List.mem_cons.1 h with h | h
          · exact Or.inr (Or.inl h)
          · exact Or.inl h
        · exact Or.inr (Or.inr h)

/-- The first instruction of an accepted method. -/
theorem first_insn {code : List Cell} {start bs fuel : Nat} {P : Pre} {R : RunEnd} (I : PInv code start P)
    (h : scanRun code P bs fuel (start + 1) = .ok R) : start + 1 ∈ P.insns := by
  rcases I.first with hf | hf
  · exact hf
  · have := (scanRun_ok fuel _ R h _ .here).1
    omega

theorem empty_inv {code : List Cell} {start : Nat} {P : Pre} : BInv code start P ⟨[], [], [], []⟩ := by
  constructor <;> simp

theorem scan_inv {code : List Cell} {start fuel : Nat} {P : Pre} {B : Build} (IP : PInv code start P)
    (h : scan code start P fuel = .ok B) : BInv code start P B ∧ ∀ b, b ≤ B.starts.length → ∃ R, (b, R) ∈ B.runs := by
  unfold scan at h
  obtain ⟨R, h1, h2⟩ := bind_ok_iff.1 h
  have hf := first_insn IP h1
  obtain ⟨hl, ha⟩ := run_end IP hf h1
  obtain ⟨I2, hcom, _⟩ := finish_spec (start := start) empty_inv .entry h1 hl ha (by simp) (by simp) (by simp)
  obtain ⟨I3, hc3, hq⟩ := scanLoop_inv IP fuel fuel _ B I2 (hcom (by intro x hx; simp at hx; subst hx; simp)) h2
  refine ⟨I3, ?_⟩
  intro b hb
  rcases hc3 b hb with h | h
  · rw [hq] at h; cases h
  · rw [List.mem_map] at h
    obtain ⟨⟨b', R'⟩, h, rfl⟩ := h
    exact ⟨R', h⟩

end Verif.Graph

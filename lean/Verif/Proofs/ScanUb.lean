import Verif.Proofs.Exec

/-! The prescan and the block scan read only inside the code and do no arithmetic that overflows. -/
namespace Verif.Graph
open Verif.VM

theorem bind_ub_iff {α β : Type} {x : Out α} {f : α → Out β} : (x >>= f) = .ub ↔ x = .ub ∨ ∃ a, x = .ok a ∧ f a = .ub := by
  show Out.bind x f = _ ↔ _
  cases x <;> simp [Out.bind]

theorem readAt_ub {code : List Cell} {i : Nat} (hi : i < code.length) : readAt code i ≠ .ub := by
  unfold readAt
  rw [List.getElem?_eq_getElem hi]
  nofun

theorem readAt_some_ub {code : List Cell} {i : Nat} {c : Cell} (hi : code[i]? = some c) : readAt code i ≠ .ub := by
  unfold readAt
  rw [hi]
  nofun

theorem jumpTarget_ub {code : List Cell} {start : Nat} {sw : Bool} {t : Cell} {tg : List Nat} :
    jumpTarget code start sw t tg ≠ .ub := by
  unfold jumpTarget
  repeat' split
  all_goals simp

theorem caseTargets_ub {code : List Cell} {start : Nat} : ∀ (n pos : Nat) (tg : List Nat), pos + 2 * n ≤ code.length →
    caseTargets code start n pos tg ≠ .ub
  | 0, _, _, _ => by simp [caseTargets]
  | n+1, pos, tg, hl => by
    unfold caseTargets
    intro h
    rcases bind_ub_iff.1 h with h | ⟨t, _, h⟩
    · exact readAt_ub (by omega) h
    · rcases bind_ub_iff.1 h with h | ⟨t, _, h⟩
      · exact jumpTarget_ub h
      · exact caseTargets_ub _ _ _ (by omega) h

theorem prescanTable_ub {code : List Cell} {start : Nat} {S : Pre} (hs : start < S.cip)
    (hn : ∀ n, code[S.cip + 1]? = some n → 0 ≤ n.toInt) : prescanTable code start S ≠ .ub := by
  unfold prescanTable
  intro h
  split at h
  · cases h
  · rename_i hl
    rcases bind_ub_iff.1 h with h | ⟨c, hc, h⟩
    · exact readAt_ub (by omega) h
    · rw [readAt_ok] at hc
      have := hn c hc
      simp only at h
      split at h
      · cases h
      · split at h
        · omega
        · split at h
          · cases h
          · rcases bind_ub_iff.1 h with h | ⟨tg, _, h⟩
            · unfold prescanCases at h
              rcases bind_ub_iff.1 h with h | ⟨d, _, h⟩
              · exact readAt_ub (by omega) h
              · rcases bind_ub_iff.1 h with h | ⟨_, _, h⟩
                · exact jumpTarget_ub h
                · exact caseTargets_ub _ _ _ (by omega) h
            · split at h
              · omega
              · cases h

theorem prescanPlain_ub {code : List Cell} {start : Nat} {S : Pre} {op : Nat} (hlt : op < 236) :
    prescanPlain code start S op ≠ .ub := by
  unfold prescanPlain
  intro h
  split at h
  · cases h
  · rename_i size hsz
    simp only at h
    split at h
    · cases h
    · split at h
      · rename_i hl hc
        have hk := control_size ⟨op, hlt⟩ hc.1 hc.2
        simp only at hk
        rw [hk] at hsz
        cases hsz
        rcases bind_ub_iff.1 h with h | ⟨t, _, h⟩
        · exact readAt_ub (by simp at hl; omega) h
        · rcases bind_ub_iff.1 h with h | ⟨_, _, h⟩
          · exact jumpTarget_ub h
          · cases h
      · cases h

theorem prescanLoop_ub {code : List Cell} {start : Nat} (hn : NoNegativeTable code start) :
    ∀ (fuel : Nat) (S : Pre), PInv code start S → prescanLoop code start fuel S ≠ .ub
  | 0, S, I => by simp [prescanLoop]
  | fuel+1, S, I => by
    intro h
    unfold prescanLoop at h
    cases hop : code[S.cip]? with
    | none => rw [hop] at h; cases h
    | some op =>
      rw [hop] at h
      simp only at h
      split at h
      · cases h
      · rename_i hproc
        rw [not_or] at hproc
        split at h
        · cases h
        · rename_i hr
          obtain ⟨h0, hlt⟩ := op_range hr
          split at h
          · rename_i h130
            subst h130
            rcases bind_ub_iff.1 h with h1 | ⟨S1, h1, h2⟩
            · exact prescanTable_ub I.above (fun n hh => hn _ n I.bound hop hh) h1
            · exact prescanLoop_ub hn fuel S1 (I.step (prescanTable_ok hop (fun n hh => hn _ n I.bound hop hh) h1)) h2
          · rename_i h130
            rcases bind_ub_iff.1 h with h1 | ⟨S1, h1, h2⟩
            · exact prescanPlain_ub hlt h1
            · exact prescanLoop_ub hn fuel S1 (I.step (prescanPlain_ok hop hproc.1 hproc.2 h130 h0 hlt h1)) h2

theorem readCases_ub {code : List Cell} {start : Nat} : ∀ (n pos : Nat),
    (∀ k, k < n → ∃ t, code[pos + 1 + 2 * k]? = some t ∧ Checked code start t) → readCases code n pos ≠ .ub
  | 0, _, _ => by simp [readCases]
  | n+1, pos, hk => by
    intro h
    unfold readCases at h
    obtain ⟨t0, ht0, hc0⟩ := hk 0 (by omega)
    rcases bind_ub_iff.1 h with h | ⟨t, ht, h⟩
    · exact readAt_some_ub ht0 h
    · rw [readAt_ok] at ht
      rw [show pos + 1 + 2 * 0 = pos + 1 by omega, ht] at ht0
      cases ht0
      rw [if_neg (by have := hc0.1; omega)] at h
      rcases bind_ub_iff.1 h with h | ⟨_, _, h⟩
      · refine readCases_ub (start := start) n (pos + 2) ?_ h
        intro k hkn
        obtain ⟨t', h1, h2⟩ := hk (k + 1) (by omega)
        exact ⟨t', by rw [show pos + 2 + 1 + 2 * k = pos + 1 + 2 * (k + 1) by omega]; exact h1, h2⟩
      · cases h

theorem switchFlow_ub {code : List Cell} {start cip tbl : Nat} {P : Pre} (I : PInv code start P) (ht : tbl ∈ P.insns) :
    switchFlow code P cip tbl ≠ .ub := by
  obtain ⟨_, _, _, nxt, hok, _⟩ := I.insns tbl ht
  obtain ⟨op, hop, _, _, _, _, _, _, _, htab⟩ := hok.op
  intro h
  unfold switchFlow at h
  rcases bind_ub_iff.1 h with h | ⟨o, ho, h⟩
  · exact readAt_some_ub hop h
  · rw [readAt_ok, hop] at ho
    cases ho
    split at h
    · cases h
    · rename_i h130
      obtain ⟨n, d, hn, hn0, hd, hcd, _, hall⟩ := htab (Decidable.of_not_not h130)
      rcases bind_ub_iff.1 h with h | ⟨n', hn', h⟩
      · exact readAt_some_ub hn h
      · rw [readAt_ok, hn] at hn'
        cases hn'
        rcases bind_ub_iff.1 h with h | ⟨d', hd', h⟩
        · exact readAt_some_ub hd h
        · rw [readAt_ok, hd] at hd'
          cases hd'
          rw [if_neg (by have := hcd.1; omega)] at h
          rcases bind_ub_iff.1 h with h | ⟨ts, _, h⟩
          · refine readCases_ub (start := start) _ _ ?_ h
            intro k hk
            obtain ⟨t, h1, h2⟩ := hall k hk
            exact ⟨t, by rw [show tbl + 3 + 1 + 2 * k = tbl + 4 + 2 * k by omega]; exact h1, h2⟩
          · simp only at h
            split at h <;> cases h

theorem controlFlow_ub {code : List Cell} {start cip : Nat} {op : Cell} {P : Pre} (I : PInv code start P) (hc : cip ∈ P.insns)
    (hop : code[cip]? = some op) (hctl : isControl op.toNat = true) : controlFlow code P cip op.toNat ≠ .ub := by
  obtain ⟨_, _, _, nxt, hok, _⟩ := I.insns cip hc
  obtain ⟨op', hop', _, _, _, _, _, _, hjump, _⟩ := hok.op
  rw [hop] at hop'
  cases hop'
  intro h
  unfold controlFlow at h
  split at h
  · cases h
  · rename_i h48
    obtain ⟨t, ht, hck⟩ := hjump hctl h48
    rcases bind_ub_iff.1 h with h | ⟨t', ht', h⟩
    · exact readAt_some_ub ht h
    · rw [readAt_ok, ht] at ht'
      cases ht'
      rw [if_neg (by have := hck.1; omega)] at h
      simp only at h
      split at h
      · cases h
      · rename_i htc
        split at h
        · exact switchFlow_ub I (by simpa using htc) h
        · split at h
          · cases h
          · split at h <;> cases h

theorem scanRun_ub {code : List Cell} {start bs : Nat} {P : Pre} (I : PInv code start P) : ∀ (fuel c : Nat),
    (c ∈ P.insns ∨ c = P.cip) → scanRun code P bs fuel c ≠ .ub
  | 0, _, _ => by simp [scanRun]
  | fuel+1, c, hc => by
    intro h
    unfold scanRun at h
    split at h
    · cases h
    · rename_i hlt
      have hci : c ∈ P.insns := by
        rcases hc with hc | hc
        · exact hc
        · omega
      obtain ⟨_, _, _, nxt, hok, hnx⟩ := I.insns c hci
      obtain ⟨op, hop, _, _, _, _, hnext, _⟩ := hok.op
      split at h
      · cases h
      · rcases bind_ub_iff.1 h with h | ⟨o, ho, h⟩
        · exact readAt_some_ub hop h
        · rw [readAt_ok, hop] at ho
          cases ho
          split at h
          · rename_i hctl
            exact controlFlow_ub I hci hop hctl h
          · rcases bind_ub_iff.1 h with h | ⟨nx, hx, h⟩
            · rw [hnext] at h; cases h
            · rw [hnext] at hx
              cases hx
              exact scanRun_ub I fuel _ hnx h

theorem scanLoop_ub {code : List Cell} {start : Nat} {P : Pre} (IP : PInv code start P) (len : Nat) :
    ∀ (fuel : Nat) (B : Build), BInv code start P B → scanLoop code P len fuel B ≠ .ub
  | 0, _, _ => by simp [scanLoop]
  | fuel+1, B, I => by
    intro h
    unfold scanLoop at h
    cases hq : B.queue with
    | nil => rw [hq] at h; cases h
    | cons b q =>
      rw [hq] at h
      simp only at h
      obtain ⟨k, rfl, hk⟩ := I.queue b (by rw [hq]; simp)
      simp only [Nat.add_sub_cancel] at h
      cases hs : B.starts[k]? with
      | none => rw [List.getElem?_eq_getElem hk] at hs; cases hs
      | some c =>
        rw [hs] at h
        simp only at h
        have hci := I.insns c (List.mem_of_getElem? hs)
        rcases bind_ub_iff.1 h with h | ⟨R, h1, h2⟩
        · exact scanRun_ub IP len c (Or.inl hci) h
        · obtain ⟨hl, ha⟩ := run_end IP hci h1
          have hqn := I.qnodup
          rw [hq, List.nodup_cons] at hqn
          have I' : BInv code start P { B with queue := q } :=
            ⟨I.insns, I.nodup, fun b' R' hm => by
              obtain ⟨bs', c', f', g1, g2, g3⟩ := I.runs b' R' hm
              exact ⟨bs', c', f', g1.grow fun _ _ h => h, g2, g3⟩, I.edges,
              fun b hb => I.queue b (by rw [hq]; exact List.mem_cons_of_mem _ hb), hqn.2,
              fun b hb => I.fresh b (by rw [hq]; exact List.mem_cons_of_mem _ hb), I.rnodup, I.rlt⟩
          obtain ⟨I2, _, _⟩ := finish_spec (B := { B with queue := q }) I' (.other hs) h1 hl ha
            (I.fresh _ (by rw [hq]; simp)) hqn.1 (by simp only; omega)
          exact scanLoop_ub IP len fuel _ I2 h2

theorem scan_ub {code : List Cell} {start fuel : Nat} {P : Pre} (IP : PInv code start P) : scan code start P fuel ≠ .ub := by
  intro h
  unfold scan at h
  rcases bind_ub_iff.1 h with h | ⟨R, h1, h2⟩
  · refine scanRun_ub IP fuel (start + 1) ?_ h
    rcases IP.first with hf | hf
    · exact Or.inl hf
    · exact Or.inr hf.symm
  · have hf := first_insn IP h1
    obtain ⟨hl, ha⟩ := run_end IP hf h1
    obtain ⟨I2, _, _⟩ := finish_spec (start := start) empty_inv .entry h1 hl ha (by simp) (by simp) (by simp)
    exact scanLoop_ub IP fuel fuel _ I2 h2

end Verif.Graph

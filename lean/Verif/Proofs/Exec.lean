import Verif.Proofs.Scan
import Verif.Proofs.History

/-! Runs of the interpreter through a scanned method. -/
namespace Verif.Graph
open Verif.VM

theorem seq_ctl {x : IM Unit} {k c : Ctl} {s s' : IState} (h : (do x; pure k : IM Ctl) s = .ok s' c) : c = k := by
  have h' : IM.bind x (fun _ => pure k) s = .ok s' c := h
  unfold IM.bind at h'
  split at h'
  · cases h'; rfl
  · cases h'
  · cases h'

theorem done_next {x : IM Unit} {s s' : IState} {c : Ctl} (h : (do x; pure .next : IM Ctl) s = .ok s' c) : c = .next := seq_ctl h

/-- An instruction without flow falls through or calls. -/
theorem visit_plain {E : Env} {m : Nat} {h : Int} {i : Insn} {s s' : IState} {c : Ctl} (hi : i.flow = false)
    (hv : visit E m h i s = .ok s' c) : c = .next ∨ ∃ o, c = .call o := by
  cases i <;> first
    | exact Or.inl (done_next hv)
    | (cases hi; done)
    | (cases hv; first | exact Or.inl rfl | exact Or.inr ⟨_, rfl⟩)
    | (unfold visit at hv; simp only at hv; split at hv <;> cases hv; exact Or.inl rfl)
    | (unfold visit undef at hv; cases hv)
    | (unfold visit throwE at hv; cases hv)

theorem visit_retn {E : Env} {m : Nat} {h : Int} {s s' : IState} {c : Ctl} (hv : visit E m h .retn s = .ok s' c) : c = .ret := seq_ctl hv

theorem takeJump_goto {E : Env} {h o : Int} {s s' : IState} {c : Ctl} (hv : takeJump E h o s = .ok s' c) : c = .goto o := by
  unfold takeJump at hv
  split at hv
  · split at hv
    · cases hv; rfl
    · cases hv
  · cases hv; rfl

theorem visit_jump {E : Env} {m : Nat} {h o : Int} {s s' : IState} {c : Ctl} (hv : visit E m h (.jump o) s = .ok s' c) :
    c = .goto o := takeJump_goto hv

theorem visit_jcmp {E : Env} {m : Nat} {h o : Int} {k : Cmp} {s s' : IState} {c : Ctl} (hv : visit E m h (.jcmp k o) s = .ok s' c) :
    c = .goto o ∨ c = .next := by
  unfold visit at hv
  simp only at hv
  split at hv
  · exact Or.inl (takeJump_goto hv)
  · cases hv; exact Or.inr rfl

theorem switchTarget_mem (d : Cell) : ∀ (cs : List (Cell × Cell)) (v : Cell), switchTarget d cs v = d ∨ switchTarget d cs v ∈ cs.map (·.2)
  | [], _ => Or.inl rfl
  | (k, a) :: rest, v => by
    unfold switchTarget
    split
    · right; simp
    · rcases switchTarget_mem d rest v with h | h
      · exact Or.inl h
      · right; rw [List.map_cons]; exact List.mem_cons_of_mem _ h

theorem readCases_ok {code : List Cell} : ∀ (n pos : Nat) (ts : List Nat), readCases code n pos = .ok ts →
    ∀ k, k < n → ∀ t, code[pos + 1 + 2 * k]? = some t → t.toNat / 4 ∈ ts
  | 0, _, _, _, k, hk => by omega
  | n+1, pos, ts, h, k, hk => by
    unfold readCases at h
    obtain ⟨t, h1, h⟩ := bind_ok_iff.1 h
    rw [readAt_ok] at h1
    split at h
    · cases h
    · obtain ⟨ts', h2, h⟩ := bind_ok_iff.1 h
      cases h
      intro t' ht'
      match k with
      | 0 =>
        rw [show pos + 1 + 2 * 0 = pos + 1 by omega, h1] at ht'
        cases ht'
        exact List.mem_cons_self ..
      | k+1 =>
        rw [show pos + 1 + 2 * (k + 1) = pos + 2 + 1 + 2 * k by omega] at ht'
        exact List.mem_cons_of_mem _ (readCases_ok n _ _ h2 k (by omega) t' ht')

theorem Checked.toInt {code : List Cell} {start : Nat} {t : Cell} (h : Checked code start t) : t.toInt = t.toNat := by
  have := BitVec.toInt_eq_toNat_cond (x := t)
  have := h.1
  split at * <;> omega

theorem Checked.index {E : Env} {start : Nat} {t : Cell} (h : Checked E.code start t) : jumpIndex E t.toInt = some (t.toNat / 4) := by
  rw [h.toInt]
  obtain ⟨_, h1, h2, _⟩ := h
  unfold jumpIndex
  rw [if_pos ⟨by omega, by omega, by omega⟩]
  congr 1

/-- The method was scanned up to `pc`. -/
def Cov (code : List Cell) (start : Nat) (P : Pre) (B : Build) (pc : Nat) : Prop :=
  ∃ b bs c R fuel, BlockOf start B b bs c ∧ scanRun code P bs fuel c = .ok R ∧ (∀ x ∈ R.links, x ∈ B.starts) ∧
    OnRun code P bs c pc ∧ ¬ Stops P bs pc

/-- A scanned method. -/
structure Scanned (code : List Cell) (start : Nat) (P : Pre) (B : Build) : Prop where
  pre : PInv code start P
  blocks : BInv code start P B
  all : ∀ b, b ≤ B.starts.length → ∃ R, (b, R) ∈ B.runs

theorem Scanned.of_start {code : List Cell} {start : Nat} {P : Pre} {B : Build} (S : Scanned code start P B) {c : Nat}
    (hc : c ∈ B.starts) : Cov code start P B c := by
  obtain ⟨k, hk, rfl⟩ := List.getElem_of_mem hc
  obtain ⟨R, hR⟩ := S.all (k + 1) (by omega)
  obtain ⟨bs, c, fuel, h1, h2, h3⟩ := S.blocks.runs _ _ hR
  cases h1 with
  | other h =>
    rw [List.getElem?_eq_getElem hk] at h
    cases h
    exact ⟨k + 1, _, _, R, fuel, .other (List.getElem?_eq_getElem hk), h2, h3, .here, fun hs => hs.2 rfl⟩

theorem Scanned.insn {code : List Cell} {start : Nat} {P : Pre} {B : Build} (S : Scanned code start P B) {pc : Nat}
    (h : Cov code start P B pc) : pc ∈ P.insns := by
  obtain ⟨b, bs, c, R, fuel, h1, h2, h3, h4, _⟩ := h
  refine onRun_insns S.pre ?_ (fun pc hpc => (scanRun_ok fuel c R h2 pc hpc).1) h4
  cases h1 with
  | entry => exact first_insn S.pre h2
  | other h => exact S.blocks.insns _ (List.mem_of_getElem? h)

/-- The start of the method. -/
theorem Scanned.enter {code : List Cell} {start : Nat} {P : Pre} {B : Build} (S : Scanned code start P B) :
    Cov code start P B (start + 1) := by
  obtain ⟨R, hR⟩ := S.all 0 (by omega)
  obtain ⟨bs, c, fuel, h1, h2, h3⟩ := S.blocks.runs _ _ hR
  cases h1 with
  | entry =>
    by_cases hs : Stops P start (start + 1)
    · have := (scanRun_ok fuel _ R h2 _ .here).2.1 hs
      rw [this] at h3
      exact S.of_start (h3 _ (by simp))
    · exact ⟨0, _, _, R, fuel, .entry, h2, h3, .here, hs⟩

/-- Falling through an instruction without flow. -/
theorem Scanned.fall {code : List Cell} {start : Nat} {P : Pre} {B : Build} (S : Scanned code start P B) {pc pc' : Nat} {op : Cell}
    (h : Cov code start P B pc) (h1 : code[pc]? = some op) (h2 : isControl op.toNat = false) (h3 : nextInsn code pc op = .ok pc') :
    Cov code start P B pc' := by
  obtain ⟨b, bs, c, R, fuel, g1, g2, g3, g4, g5⟩ := h
  have hr := g4.snoc g5 h1 h2 h3
  by_cases hs : Stops P bs pc'
  · have := (scanRun_ok fuel c R g2 _ hr).2.1 hs
    rw [this] at g3
    exact S.of_start (g3 _ (by simp))
  · exact ⟨b, bs, c, R, fuel, g1, g2, g3, hr, hs⟩

/-- At an instruction with flow the run ended. -/
theorem Scanned.control {code : List Cell} {start : Nat} {P : Pre} {B : Build} (S : Scanned code start P B) {pc : Nat} {op : Cell}
    (h : Cov code start P B pc) (h1 : code[pc]? = some op) (h2 : isControl op.toNat = true) :
    ∃ R, controlFlow code P pc op.toNat = .ok R ∧ ∀ x ∈ R.links, Cov code start P B x := by
  obtain ⟨b, bs, c, R, fuel, g1, g2, g3, g4, g5⟩ := h
  exact ⟨R, (scanRun_ok fuel c R g2 _ g4).2.2 g5 op h1 h2, fun x hx => S.of_start (g3 x hx)⟩

/-- Control goes from the instruction at `pc` to positions in `Q`. -/
structure Flows (E : Env) (start : Nat) (Q : Nat → Prop) (pc : Nat) : Prop where
  dec : ∃ i pc', decode E.code pc = some (i, pc') ∧
    ∀ s s' c, visit E start (pc' * 4) i s = .ok s' c →
      (c = .next → Q pc') ∧ (∀ o, c = .call o → Q pc') ∧ ∀ o, c = .goto o → ∃ t, jumpIndex E o = some t ∧ Q t

theorem decode_flow_false {code : List Cell} {start pc nxt : Nat} {op : Cell} (hok : InsnOk code start pc nxt)
    (h1 : code[pc]? = some op) (h2 : isControl op.toNat = false) {i : Insn} {pc' : Nat} (hd : decode code pc = some (i, pc')) :
    i.flow = false := by
  obtain ⟨op', h6, _, _, h0, hlt, _, hk, _, ht⟩ := hok.op
  rw [h1] at h6; cases h6
  by_cases h130 : op = 130
  · obtain ⟨n, d, g1, g2, g3, _, g4, _⟩ := ht h130
    subst h130
    have hle := hok.le
    rw [decode_table h1 g1 g2 (by omega)] at hd
    cases hd
    rfl
  · obtain ⟨k, hk1, hk2⟩ := hk h130
    have := hok.le
    obtain ⟨i', n, f, vs, hd', hr, hf, _⟩ := decode_plain h1 h130 h0 hlt hk1 (by omega)
    rw [hd] at hd'
    cases hd'
    exact reader_plain op.toNat h2 n f hr vs i hf

theorem control_cases {op : Nat} (h : isControl op = true) : op = 48 ∨ op = 129 ∨ op = 51 ∨
    ((op ≠ 48 ∧ op ≠ 129 ∧ op ≠ 51) ∧ ∃ k, reader op = a1 fun a => .jcmp k a.toInt) := by
  unfold isControl at h
  simp only [decide_eq_true_eq] at h
  rcases (by simpa using h : _ ∨ _) with rfl | h
  · simp
  rcases h with rfl | rfl | rfl | rfl | rfl | rfl | rfl | rfl | rfl | rfl
  · simp
  all_goals first
    | (right; right; right; exact ⟨by omega, _, rfl⟩)
    | simp

theorem controlFlow_jump {code : List Cell} {P : Pre} {pc op : Nat} {R : RunEnd} {t : Cell} (ht : code[pc + 1]? = some t)
    (h48 : op ≠ 48) (h129 : op ≠ 129) (h : controlFlow code P pc op = .ok R) :
    t.toNat / 4 ∈ R.links ∧ (op ≠ 51 → pc + 2 ∈ R.links) := by
  unfold controlFlow at h
  rw [if_neg h48] at h
  obtain ⟨t', h1, h⟩ := bind_ok_iff.1 h
  rw [readAt_ok, ht] at h1
  cases h1
  split at h
  · cases h
  · simp only at h
    split at h
    · cases h
    · split at h
      · cases h
        exact ⟨by simp, fun hh => absurd ‹_› hh⟩
      · split at h
        · cases h
        · cases h
          exact ⟨by simp, by simp⟩

theorem controlFlow_switch {code : List Cell} {P : Pre} {pc : Nat} {R : RunEnd} {t : Cell} (ht : code[pc + 1]? = some t)
    (h : controlFlow code P pc 129 = .ok R) :
    t.toNat / 4 ∈ P.insns ∧ code[t.toNat / 4]? = some 130 ∧ ∃ n d, code[t.toNat / 4 + 1]? = some n ∧ code[t.toNat / 4 + 2]? = some d ∧
      d.toNat / 4 ∈ R.links ∧ ∀ k, k < n.toInt.toNat → ∀ a, code[t.toNat / 4 + 4 + 2 * k]? = some a → a.toNat / 4 ∈ R.links := by
  unfold controlFlow at h
  rw [if_neg (by decide)] at h
  obtain ⟨t', h1, h⟩ := bind_ok_iff.1 h
  rw [readAt_ok, ht] at h1
  cases h1
  split at h
  · cases h
  · simp only at h
    split at h
    · cases h
    · rename_i hin
      rw [if_pos trivial] at h
      unfold switchFlow at h
      obtain ⟨o, h2, h⟩ := bind_ok_iff.1 h
      rw [readAt_ok] at h2
      split at h
      · cases h
      · rename_i ho
        obtain ⟨n, h3, h⟩ := bind_ok_iff.1 h
        obtain ⟨d, h4, h⟩ := bind_ok_iff.1 h
        rw [readAt_ok] at h3 h4
        split at h
        · cases h
        · obtain ⟨ts, h5, h⟩ := bind_ok_iff.1 h
          simp only at h
          split at h
          · cases h
            refine ⟨by simpa using hin, ?_, n, d, h3, h4, by simp, ?_⟩
            · rw [h2]; congr 1; exact Decidable.byContradiction ho
            · intro k hk a ha
              refine List.mem_cons_of_mem _ (readCases_ok _ _ _ h5 k hk a ?_)
              rw [show t.toNat / 4 + 3 + 1 + 2 * k = t.toNat / 4 + 4 + 2 * k by omega]
              exact ha
          · cases h

theorem toNat_of_nonneg {n : Cell} (h : 0 ≤ n.toInt) : n.toInt.toNat = n.toNat := by
  have := BitVec.toInt_eq_toNat_cond (x := n)
  split at this <;> omega

theorem PInv.flows {E : Env} {start : Nat} {P : Pre} (I : PInv E.code start P) {Q : Nat → Prop} {pc : Nat} (hin : pc ∈ P.insns)
    (hfall : ∀ op pc', E.code[pc]? = some op → isControl op.toNat = false → nextInsn E.code pc op = .ok pc' → Q pc')
    (hctl : ∀ op, E.code[pc]? = some op → isControl op.toNat = true → ∃ R, controlFlow E.code P pc op.toNat = .ok R ∧ ∀ x ∈ R.links, Q x) :
    Flows E start Q pc := by
  obtain ⟨_, _, _, nxt, hok, _⟩ := I.insns pc hin
  obtain ⟨op, h1, h46, h166, h0, hlt, hnx, hk, hck, htb⟩ := hok.op
  obtain ⟨i, hd⟩ := hok.dec
  by_cases hc : isControl op.toNat = true
  · obtain ⟨R, hcf, hl⟩ := hctl op h1 hc
    have h130 : op ≠ 130 := by
      intro hh; subst hh; exact absurd hc (by decide)
    rcases control_cases hc with h48 | h129 | h51 | ⟨⟨h48, h129, h51⟩, k, hr⟩
    · have hd' := decode_zero (i := .retn) h1 h130 (by rw [h48]; rfl)
      refine ⟨⟨_, _, hd', ?_⟩⟩
      intro s s' c hv
      have := visit_retn hv
      subst this
      exact ⟨nofun, nofun, nofun⟩
    · obtain ⟨t, ht, hch⟩ := hck hc (by omega)
      have hd' := decode_one (g := fun a => .switch a.toInt) h1 h130 (by rw [h129]; rfl) ht
      refine ⟨⟨_, _, hd', ?_⟩⟩
      intro s s' c hv
      rw [h129] at hcf
      obtain ⟨ht1, ht2, n, d, hn, hd2, hdl, hcl⟩ := controlFlow_switch ht hcf
      obtain ⟨_, _, _, nxt', hok', _⟩ := I.insns _ ht1
      obtain ⟨op', g1, _, _, _, _, _, _, _, htb'⟩ := hok'.op
      rw [ht2] at g1; cases g1
      obtain ⟨n', d', e1, e2, e3, e4, e5, e6⟩ := htb' rfl
      rw [hn] at e1; cases e1
      rw [hd2] at e3; cases e3
      have hle := hok'.le
      have hnn := toNat_of_nonneg e2
      rw [hch.toInt] at hv
      unfold visit at hv
      simp only at hv
      have hct : caseTable E.code (t.toNat : Int) = some (d, (List.range n.toNat).map fun k =>
          (E.code.getD (t.toNat / 4 + 3 + 2 * k) 0, E.code.getD (t.toNat / 4 + 4 + 2 * k) 0)) := by
        unfold caseTable
        rw [if_neg (by omega)]
        simp only
        rw [show ((t.toNat : Int) / 4).toNat = t.toNat / 4 by omega, ht2, hn, hd2]
        simp only
        rw [if_pos ⟨trivial, e2, by omega⟩]
      rw [hct] at hv
      simp only at hv
      cases hv
      refine ⟨nofun, nofun, ?_⟩
      intro o ho
      cases ho
      rcases switchTarget_mem d ((List.range n.toNat).map fun k =>
          (E.code.getD (t.toNat / 4 + 3 + 2 * k) 0, E.code.getD (t.toNat / 4 + 4 + 2 * k) 0)) s.pri with hh | hh
      · rw [hh]
        exact ⟨_, e4.index, hl _ hdl⟩
      · rw [List.map_map, List.mem_map] at hh
        obtain ⟨k, hk, hh⟩ := hh
        rw [List.mem_range] at hk
        obtain ⟨a, ha, hca⟩ := e6 k (by omega)
        simp only [Function.comp] at hh
        rw [List.getD_eq_getElem?_getD, ha] at hh
        simp only [Option.getD_some] at hh
        rw [← hh]
        exact ⟨_, hca.index, hl _ (hcl k (by omega) a ha)⟩
    · obtain ⟨t, ht, hch⟩ := hck hc (by omega)
      have hd' := decode_one (g := fun a => .jump a.toInt) h1 h130 (by rw [h51]; rfl) ht
      refine ⟨⟨_, _, hd', ?_⟩⟩
      intro s s' c hv
      have := visit_jump hv
      subst this
      refine ⟨nofun, nofun, ?_⟩
      intro o ho
      cases ho
      exact ⟨_, hch.index, hl _ (controlFlow_jump ht (by omega) (by omega) hcf).1⟩
    · obtain ⟨t, ht, hch⟩ := hck hc h48
      have hd' := decode_one (g := fun a => .jcmp k a.toInt) h1 h130 hr ht
      have hj := controlFlow_jump ht h48 h129 hcf
      refine ⟨⟨_, _, hd', ?_⟩⟩
      intro s s' c hv
      rcases visit_jcmp hv with rfl | rfl
      · refine ⟨nofun, nofun, ?_⟩
        intro o ho
        cases ho
        exact ⟨_, hch.index, hl _ hj.1⟩
      · exact ⟨fun _ => hl _ (hj.2 h51), nofun, nofun⟩
  · have hc' : isControl op.toNat = false := by simpa using hc
    have hf := decode_flow_false hok h1 hc' hd
    have hn := hfall op nxt h1 hc' hnx
    refine ⟨⟨i, nxt, hd, ?_⟩⟩
    intro s s' c hv
    refine ⟨fun _ => hn, fun _ _ => hn, ?_⟩
    intro o ho
    rcases visit_plain hf hv with h | ⟨_, h⟩ <;> (rw [h] at ho; cases ho)

/-- Control goes from a covered instruction to covered instructions. -/
theorem Scanned.flows {E : Env} {start : Nat} {P : Pre} {B : Build} (S : Scanned E.code start P B) {pc : Nat}
    (h : Cov E.code start P B pc) : Flows E start (Cov E.code start P B) pc :=
  S.pre.flows (S.insn h) (fun _ _ h1 h2 h3 => S.fall h h1 h2 h3) fun _ h1 h2 => S.control h h1 h2

/-! ## Termination of the block scan -/

theorem readCases_fuel {code : List Cell} : ∀ (n pos : Nat), readCases code n pos ≠ .fuel
  | 0, _ => by simp [readCases]
  | n+1, pos => by
    unfold readCases
    intro h
    rcases bind_fuel_iff.1 h with h | ⟨t, _, h⟩
    · exact readAt_fuel h
    · split at h
      · cases h
      · rcases bind_fuel_iff.1 h with h | ⟨_, _, h⟩
        · exact readCases_fuel _ _ h
        · cases h

theorem controlFlow_fuel {code : List Cell} {P : Pre} {cip op : Nat} : controlFlow code P cip op ≠ .fuel := by
  unfold controlFlow
  intro h
  split at h
  · cases h
  · rcases bind_fuel_iff.1 h with h | ⟨t, _, h⟩
    · exact readAt_fuel h
    · split at h
      · cases h
      · simp only at h
        split at h
        · cases h
        · split at h
          · unfold switchFlow at h
            rcases bind_fuel_iff.1 h with h | ⟨o, _, h⟩
            · exact readAt_fuel h
            · split at h
              · cases h
              · rcases bind_fuel_iff.1 h with h | ⟨n, _, h⟩
                · exact readAt_fuel h
                · rcases bind_fuel_iff.1 h with h | ⟨d, _, h⟩
                  · exact readAt_fuel h
                  · split at h
                    · cases h
                    · rcases bind_fuel_iff.1 h with h | ⟨ts, _, h⟩
                      · exact readCases_fuel _ _ h
                      · simp only at h
                        split at h <;> cases h
          · split at h
            · cases h
            · split at h <;> cases h

theorem scanRun_fuel {code : List Cell} {start bs : Nat} {P : Pre} (I : PInv code start P) : ∀ (fuel c : Nat),
    (c ∈ P.insns ∨ P.cip ≤ c) → P.cip < fuel + c → 0 < fuel → scanRun code P bs fuel c ≠ .fuel
  | 0, _, _, _, h => by omega
  | fuel+1, c, hc, hf, _ => by
    intro h
    unfold scanRun at h
    split at h
    · cases h
    · rename_i hlt
      have hc : c ∈ P.insns := by
        rcases hc with h | h
        · exact h
        · omega
      split at h
      · cases h
      · rcases bind_fuel_iff.1 h with h | ⟨op, h1, h⟩
        · exact readAt_fuel h
        · rw [readAt_ok] at h1
          obtain ⟨_, _, _, nxt, hok, hnx⟩ := I.insns c hc
          obtain ⟨op', h6, _, _, _, _, h7, _⟩ := hok.op
          rw [h1] at h6; cases h6
          split at h
          · exact controlFlow_fuel h
          · rw [h7] at h
            have h : scanRun code P bs fuel nxt = .fuel := h
            have := hok.lt
            refine scanRun_fuel I fuel nxt ?_ (by omega) (by omega) h
            rcases hnx with h | h
            · exact Or.inl h
            · exact Or.inr (by omega)

theorem starts_le {code : List Cell} {start : Nat} {P : Pre} {B : Build} (IP : PInv code start P) (I : BInv code start P B) :
    B.starts.length ≤ code.length := by
  have : B.starts ⊆ List.range code.length := by
    intro x hx
    rw [List.mem_range]
    have h1 := (IP.insns x (I.insns x hx)).2.2.1
    have := IP.within
    omega
  have := List.Nodup.length_le_of_subset I.nodup this
  simpa using this

theorem scanLoop_fuel {code : List Cell} {start : Nat} {P : Pre} (IP : PInv code start P) (len : Nat) (hlen : code.length < len) :
    ∀ (fuel : Nat) (B : Build), BInv code start P B → code.length + B.queue.length < fuel + B.starts.length →
    scanLoop code P len fuel B ≠ .fuel
  | 0, B, I, hf => by have := starts_le IP I; omega
  | fuel+1, B, I, hf => by
    intro h
    unfold scanLoop at h
    cases hq : B.queue with
    | nil => rw [hq] at h; cases h
    | cons b q =>
      rw [hq] at h
      simp only at h
      obtain ⟨k, rfl, hk⟩ := I.queue b (by rw [hq]; simp)
      simp only [Nat.add_sub_cancel] at h
      cases hs : B.starts[k]? with
      | none => rw [hs] at h; cases h
      | some c =>
        rw [hs] at h
        simp only at h
        have hci := I.insns c (List.mem_of_getElem? hs)
        rcases bind_fuel_iff.1 h with h | ⟨R, h1, h2⟩
        · exact scanRun_fuel IP len c (Or.inl hci) (by have := IP.within; omega) (by omega) h
        · obtain ⟨hl, ha⟩ := run_end IP hci h1
          have hqn := I.qnodup
          rw [hq, List.nodup_cons] at hqn
          have I' : BInv code start P { B with queue := q } :=
            ⟨I.insns, I.nodup, fun b' R' hm => by
              obtain ⟨bs', c', f', g1, g2, g3⟩ := I.runs b' R' hm
              exact ⟨bs', c', f', g1.grow fun _ _ h => h, g2, g3⟩, I.edges,
              fun b hb => I.queue b (by rw [hq]; exact List.mem_cons_of_mem _ hb), hqn.2,
              fun b hb => I.fresh b (by rw [hq]; exact List.mem_cons_of_mem _ hb), I.rnodup, I.rlt⟩
          obtain ⟨I2, _, hlen2⟩ := finish_spec (B := { B with queue := q }) I' (.other hs) h1 hl ha
            (I.fresh _ (by rw [hq]; simp)) hqn.1 (by simp only; omega)
          simp only at hlen2
          rw [hq, List.length_cons] at hf
          exact scanLoop_fuel IP len hlen fuel _ I2 (by omega) h2

theorem scan_fuel {code : List Cell} {start fuel : Nat} {P : Pre} (IP : PInv code start P) (hf : code.length + 1 ≤ fuel) :
    scan code start P fuel ≠ .fuel := by
  unfold scan
  intro h
  rcases bind_fuel_iff.1 h with h | ⟨R, h1, h2⟩
  · refine scanRun_fuel IP fuel (start + 1) ?_ (by have := IP.within; omega) (by omega) h
    rcases IP.first with h | h
    · exact Or.inl h
    · exact Or.inr (by omega)
  · have hfi := first_insn IP h1
    obtain ⟨hl, ha⟩ := run_end IP hfi h1
    obtain ⟨I2, _, hlen2⟩ := finish_spec (start := start) empty_inv .entry h1 hl ha (by simp) (by simp) (by simp)
    simp only [List.length_nil] at hlen2
    exact scanLoop_fuel IP fuel (by omega) fuel _ I2 (by omega) h2

/-- Executions stay in the scanned part. -/
theorem Scanned.executes {E : Env} {start : Nat} {P : Pre} {B : Build} (S : Scanned E.code start P B) {s0 s : IState} {pc : Nat}
    (h : Executes E start s0 pc s) : Cov E.code start P B pc := by
  induction h with
  | enter => exact S.enter
  | next _ hd hv ih =>
    obtain ⟨i, pc', hd', hf⟩ := (S.flows ih).dec
    rw [hd] at hd'; cases hd'
    exact (hf _ _ _ hv).1 rfl
  | jump _ hd hv hj ih =>
    obtain ⟨i, pc', hd', hf⟩ := (S.flows ih).dec
    rw [hd] at hd'; cases hd'
    obtain ⟨t, h1, h2⟩ := (hf _ _ _ hv).2.2 _ rfl
    rw [hj] at h1; cases h1
    exact h2
  | back _ hd hv ih =>
    obtain ⟨i, pc', hd', hf⟩ := (S.flows ih).dec
    rw [hd] at hd'; cases hd'
    exact (hf _ _ _ hv).2.1 _ rfl

theorem build_ok {code : List Cell} {start fuel : Nat} {P : Pre} {B : Build} {A : Verif.Cfg.Analysis}
    (h : build code start fuel = .ok (P, B, A)) : prescan code start fuel = .ok P ∧ scan code start P fuel = .ok B ∧
      Verif.Cfg.analyse B.edges = some (some A) := by
  unfold build at h
  obtain ⟨P', h1, h⟩ := bind_ok_iff.1 h
  obtain ⟨B', h2, h⟩ := bind_ok_iff.1 h
  cases ha : Verif.Cfg.analyse B'.edges with
  | none => rw [ha] at h; cases h
  | some r =>
    rw [ha] at h
    cases r with
    | none => cases h
    | some A' => cases h; exact ⟨h1, h2, ha⟩

theorem build_scanned {code : List Cell} {start fuel : Nat} {P : Pre} {B : Build} {A : Verif.Cfg.Analysis}
    (hn : NoNegativeTable code start) (h : build code start fuel = .ok (P, B, A)) : Scanned code start P B := by
  obtain ⟨h1, h2, _⟩ := build_ok h
  have I := prescan_inv hn h1
  obtain ⟨I2, h3⟩ := scan_inv I h2
  exact ⟨I, I2, h3⟩

end Verif.Graph

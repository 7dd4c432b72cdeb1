import Verif.Proofs.Exec
import Verif.Props.C25
import Verif.Props.C15

/-! C18, C19: what the graph builder guarantees about the code it accepts, and that it terminates. -/
namespace Verif.Graph
open Verif.VM

/-- **C18** for methods without negative case counts.  If the graph builder accepts the method at `start`, every position the
interpreter reaches in it, in any run from any state, is an instruction of the method's front-to-back decoding, lies behind
the entry and inside the code, is not a PROC or ENDPROC, and can be decoded; and wherever a jump or a switch goes is such a
position too.  Missing: methods with a case table whose count is negative, which the builder does not reject
(`C18_negative_table`). -/
theorem C18_boundaries_partial (E : Env) (start fuel : Nat) (P : Pre) (B : Build) (A : Verif.Cfg.Analysis)
    (h : build E.code start fuel = .ok (P, B, A)) (hn : NoNegativeTable E.code start) (s0 s : IState) (pc : Nat)
    (hx : Executes E start s0 pc s) :
    Boundary E.code start pc ∧ start < pc ∧ pc < E.code.length ∧ E.code[pc]? ≠ some 46 ∧ E.code[pc]? ≠ some 166 ∧
    ∃ i pc', decode E.code pc = some (i, pc') ∧
      ∀ s' o, visit E start (pc' * 4) i s = .ok s' (.goto o) →
        ∃ t, jumpIndex E o = some t ∧ Boundary E.code start t ∧ start < t ∧ t < E.code.length := by
  have S := build_scanned hn h
  have hc := S.executes hx
  obtain ⟨h1, h2, h3, nxt, hok, _⟩ := S.pre.insns pc (S.insn hc)
  obtain ⟨op, g1, h46, h166, _⟩ := hok.op
  obtain ⟨i, pc', hd, hf⟩ := (S.flows hc).dec
  refine ⟨h1, h2, by have := hok.lt; have := hok.le; omega, ?_, ?_, i, pc', hd, ?_⟩
  · rw [g1]; intro h; cases h; exact h46 rfl
  · rw [g1]; intro h; cases h; exact h166 rfl
  · intro s' o hv
    obtain ⟨t, ht, hct⟩ := (hf _ _ _ hv).2.2 o rfl
    obtain ⟨k1, k2, k3, _⟩ := S.pre.insns t (S.insn hct)
    exact ⟨t, ht, k1, k2, by have := S.pre.within; omega⟩

/-- The interpreter for a given code. -/
def envOf (code : List Cell) : Env := { c15Env with code := code }

/-- The positions of a decoding are within any list closed under it. -/
theorem boundary_mem {code : List Cell} {start : Nat} (l : List Nat) (h1 : start + 1 ∈ l)
    (h2 : (l.all fun pc => match decode code pc with
      | some (_, pc') => code[pc]? == some 46 || code[pc]? == some 166 || l.contains pc'
      | none => true) = true)
    {pc : Nat} (h : Boundary code start pc) : pc ∈ l := by
  induction h with
  | first => exact h1
  | next _h a b hd ih =>
    rw [List.all_eq_true] at h2
    have := h2 _ ih
    rw [hd] at this
    simp only [Bool.or_eq_true, beq_iff_eq] at this
    rcases this with (h | h) | h
    · exact absurd h a
    · exact absurd h b
    · simpa using h

/-- The example method: `zero.pri; l: jnz l; switch t; l2: retn; t: casetbl 1 (0 → l2), default l2`, and a RETN after it. -/
def loopCode : List Cell := [46, 89, 54, 8, 129, 28, 48, 130, 1, 24, 0, 24, 48]

theorem loopCode_built : ∃ P B A, build (envOf loopCode).code 0 20 = .ok (P, B, A) ∧ P.insns = [12, 7, 6, 4, 2, 1] ∧
    B.starts = [2, 4, 6] := by
  have h : (match build loopCode 0 20 with
      | .ok (P, B, _) => decide (P.insns = [12, 7, 6, 4, 2, 1] ∧ B.starts = [2, 4, 6])
      | _ => false) = true := by decide +kernel
  show ∃ P B A, build loopCode 0 20 = _ ∧ _
  split at h
  · rename_i P B A hb
    exact ⟨P, B, A, hb, of_decide_eq_true h⟩
  · cases h

theorem loopCode_tables : NoNegativeTable loopCode 0 := by
  intro pc n hb h1 h2
  have hm := boundary_mem [1, 2, 4, 6, 7, 12, 13] (by decide) (by decide +kernel) hb
  have : ∀ pc ∈ [1, 2, 4, 6, 7, 12, 13], loopCode[pc]? = some 130 → ∀ n, loopCode[pc + 1]? = some n → 0 ≤ n.toInt := by
    intro pc hpc hc n hn
    have h : pc = 7 := by
      clear hn
      revert hc; revert pc; decide +kernel
    subst h
    have : n = 1 := by simpa [loopCode] using hn.symm
    subst this; decide
  exact this pc hm h1 n h2

/-- The hypotheses of `C18_boundaries_partial` are met, by a run that takes the switch. -/
example : (∃ P B A, build (envOf loopCode).code 0 20 = .ok (P, B, A)) ∧ NoNegativeTable (envOf loopCode).code 0 ∧
    Executes (envOf loopCode) 0 (c15State 5 0) 6 (c15State 0 0) := by
  obtain ⟨P, B, A, h, _⟩ := loopCode_built
  refine ⟨⟨P, B, A, h⟩, loopCode_tables, ?_⟩
  have e1 : Executes (envOf loopCode) 0 (c15State 5 0) 2 (c15State 0 0) :=
    .next (i := .zero .pri) .enter rfl rfl
  have e2 : Executes (envOf loopCode) 0 (c15State 5 0) 4 (c15State 0 0) :=
    .next (i := .jcmp .notZero 8) e1 rfl rfl
  exact .jump (i := .switch 28) (o := 24) e2 rfl rfl rfl

/-- A method whose last case table has `-2` cases: `nop` (34 times); `jump 36`; `casetbl -2` with default 36; `retn`. -/
def overlapCode : List Cell := [46] ++ List.replicate 34 134 ++ [51, 144, 130, -2, 144, 48]

/-- **The full C18 is false.**  The graph builder accepts `overlapCode`, and the interpreter, running it, jumps to cell 36, the
middle of the JUMP instruction at cells 35 and 36: not a position of the front-to-back decoding. -/
theorem C18_negative_table : (∃ P B A, build (envOf overlapCode).code 0 60 = .ok (P, B, A)) ∧
    (∀ s, Executes (envOf overlapCode) 0 s 36 { s with polls := s.polls + 1 }) ∧
    ¬ Boundary (envOf overlapCode).code 0 36 ∧
    decode (envOf overlapCode).code 35 = some (.jump 144, 37) := by
  refine ⟨?_, ?_, ?_, by rfl⟩
  · have h : (match build overlapCode 0 60 with
        | .ok _ => true
        | _ => false) = true := by decide +kernel
    show ∃ P B A, build overlapCode 0 60 = _
    split at h
    · rename_i r hb
      exact ⟨_, _, _, hb⟩
    · cases h
  · intro s
    have hd : ∀ n : Fin 34, (match decode overlapCode (n.val + 1) with
        | some (.nop, k) => k == n.val + 2
        | _ => false) = true := by decide +kernel
    have hn : ∀ n, n ≤ 34 → Executes (envOf overlapCode) 0 s (n + 1) s := by
      intro n
      induction n with
      | zero => intro _; exact .enter
      | succ n ih =>
        intro hle
        have := hd ⟨n, by omega⟩
        simp only at this
        split at this
        · rename_i k hk
          have hk2 : k = n + 2 := by simpa using this
          subst hk2
          exact .next (i := .nop) (ih (by omega)) hk rfl
        · cases this
    exact .jump (i := .jump 144) (o := 144) (pc' := 37) (hn 34 (by omega)) rfl rfl rfl
  · intro hb
    have := boundary_mem ((List.range 35).map (· + 1) ++ [37]) (by decide) (by decide +kernel) hb
    revert this
    decide

/-! ## C19 -/

theorem analyse_ok {G : Verif.Cfg.Graph} (h : ∀ e ∈ G, e.2 ≠ 0) : Verif.Cfg.analyse G ≠ none := by
  obtain ⟨r, hr, _⟩ := Verif.Cfg.C25_reducible G (fun u hu => h _ hu rfl)
  rw [hr]
  nofun

/-- **C19** for methods without negative case counts: scanning and analysing the method ends within a number of steps linear
in the length of the code.  Missing: `C19_negative_table_diverges`. -/
theorem C19_scan_terminates_partial (code : List Cell) (start fuel : Nat) (hn : NoNegativeTable code start)
    (hf : code.length + 1 ≤ fuel) : build code start fuel ≠ .fuel := by
  intro h
  unfold build at h
  rcases bind_fuel_iff.1 h with h | ⟨P, h1, h⟩
  · unfold prescan at h
    split at h
    · rename_i hs
      have := (List.getElem?_eq_some_iff.1 hs).1
      exact prescanLoop_fuel hn fuel _ ⟨by simp only; omega, by simp only; omega, .first, by simp, Or.inr rfl⟩ (by simp only; omega) h
    · cases h
  · have IP := prescan_inv hn h1
    rcases bind_fuel_iff.1 h with h | ⟨B, h2, h⟩
    · exact scan_fuel IP hf h
    · have := analyse_ok (scan_inv IP h2).1.edges
      split at h
      · rename_i ha; exact this ha
      · cases h
      · cases h

/-- The hypothesis is met by a method that is accepted, and by one that is rejected because it runs off its end. -/
example : NoNegativeTable loopCode 0 ∧ build loopCode 0 14 ≠ .fuel ∧ NoNegativeTable [46, 134] 0 ∧ build [46, 134] 0 3 = .rejected := by
  refine ⟨loopCode_tables, C19_scan_terminates_partial _ _ _ loopCode_tables (by decide), ?_, rfl⟩
  intro pc n hb h1 h2
  have := boundary_mem [1, 2] (by decide) (by decide +kernel) hb
  have h : pc = 1 ∨ pc = 2 := by simpa using this
  rcases h with h | h
  · subst h; exact absurd h1 (by decide)
  · subst h; exact absurd h1 (by decide)

/-- **The full C19 is false.**  On `proc; nop; casetbl -2, default 1` the prescan goes round for ever. -/
theorem C19_negative_table_diverges : ∀ fuel, build [46, 134, 130, -2, 4] 0 fuel = .fuel := by
  have h : ∀ fuel ins tg, prescanLoop [46, 134, 130, -2, 4] 0 fuel ⟨1, ins, tg⟩ = .fuel ∧
      prescanLoop [46, 134, 130, -2, 4] 0 fuel ⟨2, ins, tg⟩ = .fuel := by
    intro fuel
    induction fuel with
    | zero => intro _ _; exact ⟨rfl, rfl⟩
    | succ fuel ih =>
      intro ins tg
      exact ⟨(ih (1 :: ins) tg).2, (ih (2 :: ins) (1 :: tg)).1⟩
  intro fuel
  have : prescan [46, 134, 130, -2, 4] 0 fuel = .fuel := (h fuel [] []).1
  unfold build
  rw [this]
  rfl

/-! ## The analyses on graphs that were built -/

theorem finish_edges {B : Build} {b : Nat} {R : RunEnd} (h : ∀ e ∈ B.edges, e.2 ≠ 0) : ∀ e ∈ (finishBlock B b R).edges, e.2 ≠ 0 := by
  obtain ⟨new, h1, h2, _⟩ := acquire_fold R.acquire B
  intro e he
  have : e ∈ (R.acquire.foldl acquireBlock B).edges ++ R.links.map fun c => (b, (R.acquire.foldl acquireBlock B).blockAt c) := he
  rw [h2, List.mem_append, List.mem_map] at this
  rcases this with h' | ⟨c, hc, rfl⟩
  · exact h e h'
  · unfold Build.blockAt; simp

theorem scanLoop_edges {code : List Cell} {P : Pre} {len : Nat} : ∀ (fuel : Nat) (B B' : Build), (∀ e ∈ B.edges, e.2 ≠ 0) →
    scanLoop code P len fuel B = .ok B' → ∀ e ∈ B'.edges, e.2 ≠ 0
  | 0, _, _, _, h => by cases h
  | fuel+1, B, B', hB, h => by
    unfold scanLoop at h
    split at h
    · cases h; exact hB
    · split at h
      · cases h
      · obtain ⟨R, h1, h2⟩ := bind_ok_iff.1 h
        exact scanLoop_edges fuel _ B' (finish_edges (by exact hB)) h2

/-- No edge of a built graph leads to its entry. -/
theorem built_entry {code : List Cell} {start fuel : Nat} {P : Pre} {B : Build} {A : Verif.Cfg.Analysis}
    (h : build code start fuel = .ok (P, B, A)) : ∀ u, (u, 0) ∉ B.edges := by
  obtain ⟨h1, h2, _⟩ := build_ok h
  unfold scan at h2
  obtain ⟨R, h3, h4⟩ := bind_ok_iff.1 h2
  intro u hu
  exact scanLoop_edges fuel _ B (finish_edges (by simp)) h4 _ hu rfl

open Verif.Cfg in
/-- **C23, C24 and C25 for the methods the graph builder accepts**, whatever the code: the blocks are listed entry first, the
reachable ones and each once; an edge to a block not further down closes a loop whose header dominates it; the recorded
immediate dominators and the dominance query are right; and exactly the targets of such edges are marked. -/
theorem C25_built (code : List Cell) (start fuel : Nat) (P : Pre) (B : Build) (A : Analysis)
    (h : build code start fuel = .ok (P, B, A)) :
    A.order.head? = some 0 ∧ A.order.Nodup ∧ (∀ b, b ∈ A.order ↔ Reaches B.edges 0 b) ∧
    (∀ u v, Reaches B.edges 0 u → (u, v) ∈ B.edges → ¬ Before A.order u v → Dominates B.edges v u ∧ A.header v = true) ∧
    (∀ b, Reaches B.edges 0 b → b ≠ 0 → ∃ d, A.dom.idom b = some d ∧ IsIdom B.edges d b) ∧
    (∀ a b, Reaches B.edges 0 a → Reaches B.edges 0 b → (A.dom.dominates a b = true ↔ Dominates B.edges a b)) ∧
    (∀ b, A.header b = true ↔ ∃ u, Reaches B.edges 0 u ∧ (u, b) ∈ B.edges ∧ Dominates B.edges b u) ∧
    Reducible B.edges := by
  have h0 := built_entry h
  obtain ⟨_, _, ha⟩ := build_ok h
  obtain ⟨L, hL, g1, g2, g3, _⟩ := C23_order B.edges h0
  obtain ⟨L', D, hL', hD, _, k1, k2⟩ := C24_dominators B.edges h0
  obtain ⟨r, hr, hred, hA⟩ := C25_reducible B.edges h0
  rw [hL] at hL'; cases hL'
  rw [ha] at hr; cases hr
  obtain ⟨m1, m2, m3⟩ := hA A rfl
  rw [hL] at m1; cases m1
  have hdom : A.dom = D := by
    unfold analyse at ha
    rw [hL] at ha
    simp only at ha
    rw [hD] at ha
    simp only at ha
    split at ha
    · cases ha
    · rw [← Option.some.inj (Option.some.inj ha)]
  rw [hdom]
  exact ⟨g1, g2, g3, m3, k1, k2, m2, hred.1 rfl⟩

/-- `loopCode` meets the hypothesis, and its block at cell 2 heads a loop. -/
example : ∃ P B A, build loopCode 0 20 = .ok (P, B, A) ∧ A.header 1 = true := by
  have h : (match build loopCode 0 20 with
      | .ok (_, _, A) => A.header 1
      | _ => false) = true := by decide +kernel
  split at h
  · rename_i P B A hb
    exact ⟨P, B, A, hb, h⟩
  · cases h

end Verif.Graph

import Verif.Props.C24

/-! C25: accepted methods have reducible loops only. -/
namespace Verif.Cfg

theorem dominates_le {G : Graph} {L : List Nat} (R : Rpo G L) {x c : Nat} (hc : c ∈ L) (h : Dominates G x c) :
    rpoId L x ≤ rpoId L c := by
  obtain ⟨D, h1, hT, hdef, hdom, hq⟩ := dominance_spec R
  exact hT.anc_le ((hdom c hc x).2 h)

theorem headersOf_spec (id : Nat → Nat) (D : Dominance) (b : Nat) : ∀ (cs : List Nat) (hdr : Nat → Bool),
    match headersOf id D b cs hdr with
    | none => ∃ c ∈ cs, id c ≤ id b ∧ D.dominates c b = false
    | some h => (∀ c ∈ cs, id c ≤ id b → D.dominates c b = true) ∧
        ∀ x, h x = true ↔ hdr x = true ∨ (x ∈ cs ∧ id x ≤ id b)
  | [], hdr => by simp [headersOf]
  | c :: cs, hdr => by
    unfold headersOf
    by_cases hc : id c ≤ id b
    · rw [if_pos hc]
      by_cases hd : D.dominates c b = true
      · rw [if_pos hd]
        have ih := headersOf_spec id D b cs (upd hdr c true)
        cases hh : headersOf id D b cs (upd hdr c true) with
        | none =>
          rw [hh] at ih
          obtain ⟨x, hx, h⟩ := ih
          exact ⟨x, List.mem_cons_of_mem _ hx, h⟩
        | some h =>
          rw [hh] at ih
          refine ⟨?_, ?_⟩
          · intro x hx hle
            rcases List.mem_cons.1 hx with rfl | hx
            · exact hd
            · exact ih.1 x hx hle
          · intro x
            rw [ih.2 x, List.mem_cons]
            unfold upd
            by_cases hx : x = c
            · subst hx; simp [hc]
            · simp [hx]
      · rw [if_neg hd]
        exact ⟨c, List.mem_cons_self .., hc, by simpa using hd⟩
    · rw [if_neg hc]
      have ih := headersOf_spec id D b cs hdr
      cases hh : headersOf id D b cs hdr with
      | none =>
        rw [hh] at ih
        obtain ⟨x, hx, h⟩ := ih
        exact ⟨x, List.mem_cons_of_mem _ hx, h⟩
      | some h =>
        rw [hh] at ih
        refine ⟨?_, ?_⟩
        · intro x hx hle
          rcases List.mem_cons.1 hx with rfl | hx
          · exact absurd hle hc
          · exact ih.1 x hx hle
        · intro x
          rw [ih.2 x, List.mem_cons]
          constructor
          · rintro (h | ⟨h, h'⟩)
            · exact Or.inl h
            · exact Or.inr ⟨Or.inr h, h'⟩
          · rintro (h | ⟨h | h, h'⟩)
            · exact Or.inl h
            · subst h; exact absurd h' hc
            · exact Or.inr ⟨h, h'⟩

theorem loopHeaders_spec (G : Graph) (id : Nat → Nat) (D : Dominance) : ∀ (bs : List Nat) (hdr : Nat → Bool),
    match loopHeaders G id D bs hdr with
    | none => ∃ b ∈ bs, ∃ c, (b, c) ∈ G ∧ id c ≤ id b ∧ D.dominates c b = false
    | some h => (∀ b ∈ bs, ∀ c, (b, c) ∈ G → id c ≤ id b → D.dominates c b = true) ∧
        ∀ x, h x = true ↔ hdr x = true ∨ ∃ b ∈ bs, (b, x) ∈ G ∧ id x ≤ id b
  | [], hdr => by simp [loopHeaders]
  | b :: bs, hdr => by
    unfold loopHeaders
    have h1 := headersOf_spec id D b (succ G b) hdr
    cases hh : headersOf id D b (succ G b) hdr with
    | none =>
      rw [hh] at h1
      obtain ⟨c, hc, h⟩ := h1
      exact ⟨b, List.mem_cons_self .., c, mem_succ.1 hc, h⟩
    | some h =>
      rw [hh] at h1
      simp only
      have ih := loopHeaders_spec G id D bs h
      cases hl : loopHeaders G id D bs h with
      | none =>
        rw [hl] at ih
        obtain ⟨x, hx, h⟩ := ih
        exact ⟨x, List.mem_cons_of_mem _ hx, h⟩
      | some h' =>
        rw [hl] at ih
        refine ⟨?_, ?_⟩
        · intro u hu c huc hle
          rcases List.mem_cons.1 hu with rfl | hu
          · exact h1.1 c (mem_succ.2 huc) hle
          · exact ih.1 u hu c huc hle
        · intro x
          rw [ih.2 x, h1.2 x, mem_succ]
          constructor
          · rintro ((h | h) | ⟨u, hu, h⟩)
            · exact Or.inl h
            · exact Or.inr ⟨b, List.mem_cons_self .., h⟩
            · exact Or.inr ⟨u, List.mem_cons_of_mem _ hu, h⟩
          · rintro (h | ⟨u, hu, h⟩)
            · exact Or.inl (Or.inl h)
            · rcases List.mem_cons.1 hu with rfl | hu
              · exact Or.inl (Or.inr h)
              · exact Or.inr ⟨u, hu, h⟩

/-- **C25.**  On a graph whose entry is not the target of an edge, the analysis answers; it accepts exactly the reducible
graphs; and in an accepted graph the blocks marked as loop headers are exactly the targets of edges from blocks they
dominate, and every edge that does not lead down the computed order is such an edge. -/
theorem C25_reducible (G : Graph) (h0 : ∀ u, (u, 0) ∉ G) :
    ∃ r, analyse G = some r ∧ (r.isSome = true ↔ Reducible G) ∧
      ∀ A, r = some A → computeOrdering G = some A.order ∧
        (∀ h, A.header h = true ↔ ∃ u, Reaches G 0 u ∧ (u, h) ∈ G ∧ Dominates G h u) ∧
        (∀ u v, Reaches G 0 u → (u, v) ∈ G → ¬ Before A.order u v → Dominates G v u ∧ A.header v = true) := by
  obtain ⟨L, h, R, hord⟩ := order_rpo h0
  obtain ⟨D, h1, hT, hdef, hdom, hq⟩ := dominance_spec R
  have hs := loopHeaders_spec G (rpoId L) D L (fun _ => false)
  have hmemL : ∀ {u v}, u ∈ L → (u, v) ∈ G → v ∈ L := by
    intro u v hu huv
    exact (R.mem v).2 (((R.mem u).1 hu).step huv)
  unfold analyse
  rw [h]
  simp only
  rw [h1]
  simp only
  cases hl : loopHeaders G (rpoId L) D L (fun _ => false) with
  | none =>
    rw [hl] at hs
    refine ⟨none, rfl, ?_, fun A hA => by cases hA⟩
    simp only [Option.isSome_none, Bool.false_eq_true, false_iff]
    intro hred
    obtain ⟨b, hb, c, hbc, hle, hnd⟩ := hs
    have hc := hmemL hb hbc
    have hnd' : ¬ Dominates G c b := by
      intro hh
      rw [(hq c hc b hb).2 hh] at hnd
      cases hnd
    have hdesc : Descends G L c b := by
      rcases hord b hb c hbc with hh | hh
      · have := before_lt R.nodup hh
        omega
      · exact hh
    -- a cycle of forward edges through `b`
    have hcyc : ∀ {v}, Descends G L c v → ForwardPath G b v := by
      intro v hv
      induction hv with
      | refl => exact .one ((R.mem b).1 hb) hbc hnd'
      | step _ e hbef ih =>
        refine .more ih e ?_
        intro hdm
        rename_i v w _
        have hv : v ∈ L := by
          obtain ⟨x, y, e1, e2⟩ := hbef
          rw [e1]; simp [e2]
        have := dominates_le R hv hdm
        have := before_lt R.nodup hbef
        omega
    exact hred b (hcyc hdesc)
  | some hd =>
    rw [hl] at hs
    obtain ⟨hs1, hs2⟩ := hs
    have hback : ∀ u v, u ∈ L → (u, v) ∈ G → (rpoId L v ≤ rpoId L u ↔ Dominates G v u) := by
      intro u v hu huv
      constructor
      · intro hle
        exact (hq v (hmemL hu huv) u hu).1 (hs1 u hu v huv hle)
      · exact dominates_le R hu
    have hhdr : ∀ x, hd x = true ↔ ∃ u, Reaches G 0 u ∧ (u, x) ∈ G ∧ Dominates G x u := by
      intro x
      rw [hs2 x]
      simp only [Bool.false_eq_true, false_or]
      constructor
      · rintro ⟨u, hu, hux, hle⟩
        exact ⟨u, (R.mem u).1 hu, hux, (hback u x hu hux).1 hle⟩
      · rintro ⟨u, hu, hux, hdm⟩
        have hu' := (R.mem u).2 hu
        exact ⟨u, hu', hux, (hback u x hu' hux).2 hdm⟩
    refine ⟨some ⟨L, D, hd⟩, rfl, ?_, ?_⟩
    · simp only [Option.isSome_some, true_iff]
      have hup : ∀ {u v}, ForwardPath G u v → rpoId L u < rpoId L v ∧ v ∈ L := by
        intro u v hp
        induction hp with
        | one hr e hn =>
          have hu := (R.mem _).2 hr
          refine ⟨?_, hmemL hu e⟩
          rcases Nat.lt_or_ge (rpoId L u) (rpoId L _) with hh | hh
          · exact hh
          · exact absurd ((hback u _ hu e).1 hh) hn
        | more _ e hn ih =>
          rename_i v w _
          refine ⟨?_, hmemL ih.2 e⟩
          rcases Nat.lt_or_ge (rpoId L v) (rpoId L w) with hh | hh
          · omega
          · exact absurd ((hback v w ih.2 e).1 hh) hn
      intro u hu
      have := (hup hu).1
      omega
    · intro A hA
      cases hA
      refine ⟨rfl, hhdr, ?_⟩
      intro u v hu huv hnb
      have hu' := (R.mem u).2 hu
      have hle : rpoId L v ≤ rpoId L u := by
        rcases Nat.lt_or_ge (rpoId L u) (rpoId L v) with hh | hh
        · exact absurd (before_of_lt hu' (hmemL hu' huv) hh) hnb
        · exact hh
      have hdm := (hback u v hu' huv).1 hle
      exact ⟨hdm, (hhdr v).2 ⟨u, hu, huv, hdm⟩⟩

/-- `sampleGraph` is accepted, with block 1 as the only header. -/
example : (analyse sampleGraph).map (fun r => r.map fun A => [0, 1, 2, 3, 4, 5, 6].map A.header) =
    some (some [false, true, false, false, false, false, false]) := by decide +kernel

/-- A loop with two entries is rejected. -/
example : (analyse [(0, 1), (0, 2), (1, 2), (2, 1)]).map (fun r => r.isSome) = some false := by decide +kernel

/-- A block that jumps to itself is accepted and is a header. -/
example : (analyse [(0, 1), (1, 1), (1, 2)]).map (fun r => r.map fun A => [0, 1, 2].map A.header) =
    some (some [false, true, false]) := by decide +kernel

end Verif.Cfg

import Verif.Proofs.DomTree

/-! C24: computed dominators are the dominators. -/
namespace Verif.Cfg

theorem order_rpo {G : Graph} (h0 : ∀ u, (u, 0) ∉ G) : ∃ L, computeOrdering G = some L ∧ Rpo G L ∧
    ∀ u ∈ L, ∀ v, (u, v) ∈ G → Before L u v ∨ Descends G L v u := by
  obtain ⟨L, h, h1, h2, h3, h4, h5⟩ := C23_order G h0
  exact ⟨L, h, ⟨h0, h1, h2, h3, h4⟩, h5⟩

/-- **C24.**  On a graph whose entry is not the target of an edge, the analysis terminates; the entry's table slot is the
entry; every other reachable block gets its immediate dominator; and the constant-time query answers, for all reachable
blocks, whether every walk from the entry to `b` passes through `a`. -/
theorem C24_dominators (G : Graph) (h0 : ∀ u, (u, 0) ∉ G) :
    ∃ L D, computeOrdering G = some L ∧ computeDominance G L = some D ∧ D.idom 0 = some 0 ∧
      (∀ b, Reaches G 0 b → b ≠ 0 → ∃ d, D.idom b = some d ∧ IsIdom G d b) ∧
      (∀ a b, Reaches G 0 a → Reaches G 0 b → (D.dominates a b = true ↔ Dominates G a b)) := by
  obtain ⟨L, h, R, _⟩ := order_rpo h0
  obtain ⟨D, h1, hT, hdef, hdom, hq⟩ := dominance_spec R
  refine ⟨L, D, h, h1, hT.root, ?_, ?_⟩
  · intro b hb hb0
    have hbL := (R.mem b).2 hb
    obtain ⟨d, hd⟩ := hdef b hbL
    have hlt := (hT.down b d hd).2.2 hb0
    obtain ⟨d', hd'⟩ := (hT.down b d hd).2.1
    have hdL := (hT.down _ _ hd').1
    refine ⟨d, hd, by intro h; subst h; omega, (hdom b hbL d).1 (.step hd .refl), ?_⟩
    intro x hx hxb
    exact (hdom d hdL x).1 (((hdom b hbL x).2 hxb).parent hd hx)
  · intro a b ha hb
    exact hq a ((R.mem a).2 ha) b ((R.mem b).2 hb)

/-- Immediate dominators are unique, so the theorem determines the table. -/
theorem IsIdom.unique {G : Graph} {d d' b : Nat} (h : IsIdom G d b) (h' : IsIdom G d' b) (hb : Reaches G 0 b) : d = d' := by
  apply Classical.byContradiction
  intro hne
  have a1 := h.2.2 d' h'.1 h'.2.1
  have a2 := h'.2.2 d h.1 h.2.1
  -- on a walk to `d`, `d'` occurs first, and in front of it `d`, and so on
  have key : ∀ n ns x, (x = d ∨ x = d') → ns.length ≤ n → ¬ Walk G 0 ns x := by
    intro n
    induction n with
    | zero =>
      intro ns x _ hl w
      have : ns = [] := List.length_eq_zero_iff.1 (by omega)
      subst this
      have : ∀ {x : Nat} {ns : List Nat}, Walk G 0 ns x → ns ≠ [] := by
        intro x ns w; cases w <;> simp
      exact this w rfl
    | succ n ih =>
      intro ns x hx hl w
      have pre : ∀ {v : Nat} {ns : List Nat}, Walk G 0 ns v → ∀ y ∈ ns, y ≠ v → ∃ ms, Walk G 0 ms y ∧ ms.length < ns.length := by
        intro v ns w
        induction w with
        | nil => intro y hy hne; simp at hy; exact absurd hy hne
        | snoc w e ihw =>
          rename_i ns' v' w'
          intro y hy hne
          rw [List.mem_append, List.mem_singleton] at hy
          rcases hy with hy | hy
          · by_cases hyv : y = v'
            · subst hyv; exact ⟨ns', w, by simp⟩
            · obtain ⟨ms, m1, m2⟩ := ihw y hy hyv
              exact ⟨ms, m1, by simp; omega⟩
          · exact absurd hy hne
      rcases hx with rfl | rfl
      · obtain ⟨ms, m1, m2⟩ := pre w d' (a1 _ w) (Ne.symm hne)
        exact ih ms d' (Or.inr rfl) (by omega) m1
      · obtain ⟨ms, m1, m2⟩ := pre w d (a2 _ w) hne
        exact ih ms d (Or.inl rfl) (by omega) m1
  obtain ⟨ns, w⟩ := hb
  have hd := h.2.1 ns w
  have : ∃ ms, Walk G 0 ms d := by
    have pre : ∀ {v : Nat} {ns : List Nat}, Walk G 0 ns v → ∀ y ∈ ns, ∃ ms, Walk G 0 ms y := by
      intro v ns w
      induction w with
      | nil => intro y hy; simp at hy; subst hy; exact ⟨_, .nil⟩
      | snoc w e ihw =>
        intro y hy
        rw [List.mem_append, List.mem_singleton] at hy
        rcases hy with hy | hy
        · exact ihw y hy
        · subst hy; exact ⟨_, w.snoc e⟩
    exact pre w d hd
  obtain ⟨ms, m⟩ := this
  exact key ms.length ms d (Or.inl rfl) (Nat.le_refl _) m

/-- `sampleGraph` of C23: the join point 5 of the diamond is immediately dominated by 2, its top. -/
example : (computeOrdering sampleGraph).bind (fun L => (computeDominance sampleGraph L).map fun D =>
    ([0, 1, 2, 3, 4, 5, 6, 7].map D.idom, D.dominates 2 5, D.dominates 3 5, D.dominates 1 6, D.dominates 2 6)) =
    some ([some 0, some 0, some 1, some 2, some 2, some 2, some 1, none], true, false, true, false) := by decide +kernel

/-- An irreducible graph on which one pass is not enough (Cooper, Harvey and Kennedy, figure 4). -/
example : (computeOrdering [(0, 1), (0, 2), (1, 4), (2, 3), (2, 5), (3, 4), (4, 3), (3, 5), (5, 3)]).bind
    (fun L => (computeDominance [(0, 1), (0, 2), (1, 4), (2, 3), (2, 5), (3, 4), (4, 3), (3, 5), (5, 3)] L).map fun D =>
    [1, 2, 3, 4, 5].map D.idom) = some [some 0, some 0, some 0, some 0, some 0] := by decide +kernel

end Verif.Cfg

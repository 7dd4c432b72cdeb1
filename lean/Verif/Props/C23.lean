import Verif.Proofs.Order

/-! C23: the analysis order visits every reachable block once, after a predecessor. -/
namespace Verif.Cfg

/-- **C23.**  On a graph whose entry is not the target of an edge, computing the order succeeds, and the result starts
with the entry, lists exactly the reachable blocks, each once; every block but the entry has a predecessor in front of it;
and an edge whose target does not come later closes a cycle, the rest of which runs down the list. -/
theorem C23_order (G : Graph) (h0 : ∀ u, (u, 0) ∉ G) :
    ∃ L, computeOrdering G = some L ∧ L.head? = some 0 ∧ L.Nodup ∧ (∀ b, b ∈ L ↔ Reaches G 0 b) ∧
      (∀ b ∈ L, b ≠ 0 → ∃ p, (p, b) ∈ G ∧ Before L p b) ∧
      (∀ u ∈ L, ∀ v, (u, v) ∈ G → Before L u v ∨ Descends G L v u) := by
  obtain ⟨L, h, I⟩ := ordering_inv h0
  have hh : L.head? = some 0 := by
    rcases I.entry with h | h
    · simp at h
    · exact h.1
  have h0L : 0 ∈ L := List.mem_of_mem_head? (by rw [hh]; rfl)
  refine ⟨L, h, hh, by simpa using I.nodup, ?_, ?_, by simpa [Ord.sofar] using I.order⟩
  · intro b
    constructor
    · intro hb; exact I.reach b (Or.inr hb)
    · rintro ⟨ns, hw⟩
      induction hw with
      | nil => exact h0L
      | snoc hw e ih =>
        have := I.closed _ ih _ e
        rw [decide_eq_true_eq] at this
        exact this.2
  · intro b hb hb0
    obtain ⟨p, hp, hq⟩ := I.parent b hb hb0
    rcases hq with h | h
    · simp at h
    · exact ⟨p, hp, h⟩

/-- On an acyclic graph the order is a topological order of the reachable part. -/
theorem C23_acyclic (G : Graph) (h0 : ∀ u, (u, 0) ∉ G) (hac : ∀ u v, (u, v) ∈ G → ¬ Reaches G v u) :
    ∃ L, computeOrdering G = some L ∧ ∀ u v, Reaches G 0 u → (u, v) ∈ G → Before L u v := by
  obtain ⟨L, h, _, _, hm, _, ho⟩ := C23_order G h0
  refine ⟨L, h, ?_⟩
  intro u v hu huv
  rcases ho u ((hm u).2 hu) v huv with h | h
  · exact h
  · exact absurd h.reaches (hac u v huv)

/-- A graph with a loop (1-2), a diamond (2-3/4-5) and an unreachable block (7). -/
def sampleGraph : Graph := [(0, 1), (1, 2), (1, 6), (2, 3), (2, 4), (3, 5), (4, 5), (5, 1), (7, 5)]

example : ∀ u, (u, 0) ∉ sampleGraph := by
  intro u h; simp [sampleGraph] at h
example : computeOrdering sampleGraph = some [0, 1, 6, 2, 4, 3, 5] := by decide +kernel

/-- The graphs of the comment at vm/control-flow.cpp:51-65 with A..E as 0..4. -/
example : computeOrdering [(0, 1), (0, 2), (1, 3), (1, 2), (3, 4)] = some [0, 1, 2, 3, 4] := by decide +kernel

theorem walk_up {G : Graph} (h : ∀ e ∈ G, e.1 < e.2) {u v : Nat} {ns : List Nat} (w : Walk G u ns v) : u ≤ v := by
  induction w with
  | nil => exact Nat.le_refl _
  | snoc _ e ih => have := h _ e; simp only at this; omega

/-- The hypotheses of `C23_acyclic` hold of this graph. -/
example : ∀ u v, (u, v) ∈ ([(0, 1), (0, 2), (1, 3), (1, 2), (3, 4)] : Graph) →
    ¬ Reaches [(0, 1), (0, 2), (1, 3), (1, 2), (3, 4)] v u := by
  intro u v huv ⟨ns, w⟩
  have hup : ∀ e ∈ ([(0, 1), (0, 2), (1, 3), (1, 2), (3, 4)] : Graph), e.1 < e.2 := by decide
  have := walk_up hup w
  have := hup _ huv
  simp only at this
  omega

/-- The hypothesis is needed: the entry is never marked as visited, so a cycle through it lists it twice. -/
theorem C23_entry_cycle_repeats : ∃ L, computeOrdering [(0, 1), (1, 0)] = some L ∧ ¬ L.Nodup := by
  refine ⟨[0, 1, 0], by decide +kernel, by decide⟩

end Verif.Cfg

import Verif.Props.C23

/-! The iteration of vm/control-flow.cpp computeDominance. -/
namespace Verif.Cfg

/-- What computing the order guarantees (`C23_order`). -/
structure Rpo (G : Graph) (L : List Nat) : Prop where
  noEntry : ∀ u, (u, 0) ∉ G
  head : L.head? = some 0
  nodup : L.Nodup
  mem : ∀ b, b ∈ L ↔ Reaches G 0 b
  parent : ∀ b ∈ L, b ≠ 0 → ∃ p, (p, b) ∈ G ∧ Before L p b

/-! ## Numbers -/

theorem rpoId_pos (L : List Nat) (b : Nat) : 1 ≤ rpoId L b := by unfold rpoId; omega

theorem rpoId_le {L : List Nat} {b : Nat} (h : b ∈ L) : rpoId L b ≤ L.length := by
  unfold rpoId
  have := List.idxOf_lt_length_iff.2 h
  omega

theorem rpoId_inj {L : List Nat} {a b : Nat} (ha : a ∈ L) (hb : b ∈ L) (h : rpoId L a = rpoId L b) : a = b := by
  unfold rpoId at h
  have h1 := List.idxOf_lt_length_iff.2 ha
  have h2 := List.idxOf_lt_length_iff.2 hb
  have e1 := List.getElem_idxOf h1
  have e2 := List.getElem_idxOf h2
  rw [← e1, ← e2]
  congr 1
  omega

theorem rpoId_zero {L : List Nat} (h : L.head? = some 0) : rpoId L 0 = 1 := by
  cases L with
  | nil => cases h
  | cons a L =>
    simp at h; subst h
    simp [rpoId]

theorem before_lt {L : List Nat} (hn : L.Nodup) {u v : Nat} (h : Before L u v) : rpoId L u < rpoId L v := by
  obtain ⟨a, b, rfl, hu⟩ := h
  have hv : v ∉ a := by
    intro hv
    rw [List.nodup_append] at hn
    exact hn.2.2 v hv v (by simp) rfl
  unfold rpoId
  rw [List.idxOf_append, if_pos hu, List.idxOf_append, if_neg hv]
  have := List.idxOf_lt_length_iff.2 hu
  simp
  omega

theorem before_of_lt {L : List Nat} {u v : Nat} (hu : u ∈ L) (hv : v ∈ L) (h : rpoId L u < rpoId L v) : Before L u v := by
  obtain ⟨a, b, rfl⟩ := List.append_of_mem hv
  by_cases hva : v ∈ a
  · obtain ⟨c, d, rfl⟩ := List.append_of_mem hva
    clear hva
    -- the first occurrence of `v` decides
    unfold rpoId at h
    induction c with
    | nil =>
      simp at h
    | cons x c ih =>
      by_cases hx : u = x
      · subst hx
        exact ⟨u :: c ++ v :: d, b, by simp, by simp⟩
      · by_cases hxv : v = x
        · subst hxv
          simp at h
        · have := ih (by simp at hu; simp [hx] at hu ⊢; grind) (by simp) (by
            simp only [List.cons_append, List.append_assoc, List.idxOf_cons] at h ⊢
            have e1 : (x == u) = false := by simp; exact fun h => hx h.symm
            have e2 : (x == v) = false := by simp; exact fun h => hxv h.symm
            simp only [e1, e2, cond_false] at h
            omega)
          exact Before.cons this
  · unfold rpoId at h
    refine ⟨a, b, rfl, ?_⟩
    apply Decidable.byContradiction
    intro hua
    rw [List.idxOf_append, if_neg hua, List.idxOf_append, if_neg hva] at h
    simp at h
    omega

/-! ## Ancestors in a table of immediate dominators -/

/-- `x` is `c` or is found by following the table from `c`. -/
inductive Anc (T : Nat → Option Nat) (x : Nat) : Nat → Prop where
  | refl : Anc T x x
  | step {c d : Nat} : T c = some d → Anc T x d → Anc T x c

theorem Anc.trans {T : Nat → Option Nat} {x y z : Nat} (h : Anc T x y) (h' : Anc T y z) : Anc T x z := by
  induction h' with
  | refl => exact h
  | step e _ ih => exact .step e ih

theorem Anc.parent {T : Nat → Option Nat} {x c d : Nat} (h : Anc T x c) (hd : T c = some d) (hne : x ≠ c) : Anc T x d := by
  cases h with
  | refl => exact absurd rfl hne
  | step e h => rw [hd] at e; cases e; exact h

/-- Ancestors of one block form a chain. -/
theorem Anc.linear {T : Nat → Option Nat} {x y c : Nat} (h : Anc T x c) (h' : Anc T y c) : Anc T x y ∨ Anc T y x := by
  induction h with
  | refl => exact Or.inr h'
  | step e h ih =>
    rename_i c d
    cases h' with
    | refl => exact Or.inl (.step e h)
    | step e' h'' => rw [e] at e'; cases e'; exact ih h''

/-- The part of the invariant that makes a table a tree. -/
structure Tab (L : List Nat) (T : Nat → Option Nat) : Prop where
  root : T 0 = some 0
  down : ∀ b d, T b = some d → b ∈ L ∧ (∃ d', T d = some d') ∧ (b ≠ 0 → rpoId L d < rpoId L b)

section
variable {G : Graph} {L : List Nat} {T : Nat → Option Nat}

theorem Tab.anc_def (hT : Tab L T) {x c : Nat} (h : Anc T x c) (hc : ∃ d, T c = some d) : ∃ d, T x = some d := by
  induction h with
  | refl => exact hc
  | step e _ ih => exact ih (hT.down _ _ e).2.1

theorem Tab.anc_le (hT : Tab L T) {x c : Nat} (h : Anc T x c) : rpoId L x ≤ rpoId L c := by
  induction h with
  | refl => exact Nat.le_refl _
  | step e _h ih =>
    rename_i c d
    by_cases hc : c = 0
    · subst hc
      rw [hT.root] at e; cases e; exact ih
    · have := (hT.down _ _ e).2.2 hc
      omega

theorem Tab.anc_mem (hT : Tab L T) {x c : Nat} (h : Anc T x c) (hc : c ∈ L) : x ∈ L := by
  induction h with
  | refl => exact hc
  | step e _ ih =>
    obtain ⟨d', hd'⟩ := (hT.down _ _ e).2.1
    exact ih (hT.down _ _ hd').1

theorem Tab.anc_lt (hT : Tab L T) {x c : Nat} (h : Anc T x c) (hc : c ∈ L) (hne : x ≠ c) : rpoId L x < rpoId L c := by
  have h1 := hT.anc_le h
  have h2 := hT.anc_mem h hc
  rcases Nat.lt_or_ge (rpoId L x) (rpoId L c) with h3 | h3
  · exact h3
  · exact absurd (rpoId_inj h2 hc (by omega)) hne

/-- The root is an ancestor of every block in the table. -/
theorem Tab.root_anc (hT : Tab L T) : ∀ (n c : Nat), rpoId L c ≤ n → (∃ d, T c = some d) → Anc T 0 c
  | 0, c, h, _ => by have := rpoId_pos L c; omega
  | n+1, c, h, ⟨d, hd⟩ => by
    by_cases hc : c = 0
    · subst hc; exact .refl
    · have := (hT.down _ _ hd).2.2 hc
      exact .step hd (hT.root_anc n d (by omega) (hT.down _ _ hd).2.1)

/-! ## Nearest common ancestors -/

theorem intersect_spec (hT : Tab L T) (h0 : L.head? = some 0) : ∀ (fuel f1 f2 : Nat), (∃ d, T f1 = some d) → (∃ d, T f2 = some d) →
    rpoId L f1 + rpoId L f2 < fuel →
    ∃ r, intersect (rpoId L) T fuel f1 f2 = some r ∧ Anc T r f1 ∧ Anc T r f2 ∧ ∀ y, Anc T y f1 → Anc T y f2 → Anc T y r
  | 0, _, _, _, _, h => by omega
  | fuel+1, f1, f2, ⟨d1, hd1⟩, ⟨d2, hd2⟩, h => by
    have m1 := (hT.down _ _ hd1).1
    have m2 := (hT.down _ _ hd2).1
    have hz := rpoId_zero h0
    have p1 := rpoId_pos L f1
    have p2 := rpoId_pos L f2
    unfold intersect
    by_cases he : f1 = f2
    · subst he
      rw [if_pos rfl]
      exact ⟨f1, rfl, .refl, .refl, fun _ h _ => h⟩
    · rw [if_neg he]
      by_cases hg : rpoId L f1 > rpoId L f2
      · rw [if_pos hg, hd1]
        simp only
        have hne : f1 ≠ 0 := by intro h; subst h; omega
        have hlt := (hT.down _ _ hd1).2.2 hne
        obtain ⟨r, hr, a1, a2, a3⟩ := intersect_spec hT h0 fuel d1 f2 (hT.down _ _ hd1).2.1 ⟨d2, hd2⟩ (by omega)
        refine ⟨r, hr, .step hd1 a1, a2, ?_⟩
        intro y hy1 hy2
        refine a3 y (hy1.parent hd1 ?_) hy2
        intro hy; subst hy
        have := hT.anc_le hy2
        omega
      · rw [if_neg hg, hd2]
        simp only
        have hlt' : rpoId L f1 ≠ rpoId L f2 := fun h => he (rpoId_inj m1 m2 h)
        have hne : f2 ≠ 0 := by intro h; subst h; omega
        have hlt := (hT.down _ _ hd2).2.2 hne
        obtain ⟨r, hr, a1, a2, a3⟩ := intersect_spec hT h0 fuel f1 d2 ⟨d1, hd1⟩ (hT.down _ _ hd2).2.1 (by omega)
        refine ⟨r, hr, a1, .step hd2 a2, ?_⟩
        intro y hy1 hy2
        refine a3 y hy1 (hy2.parent hd2 ?_)
        intro hy; subst hy
        have := hT.anc_le hy1
        omega

theorem candidate_some (hT : Tab L T) (h0 : L.head? = some 0) : ∀ (ps : List Nat) (d : Nat), (∃ d', T d = some d') →
    ∃ r, candidate (rpoId L) T (2 * L.length + 1) ps (some d) = some (some r) ∧ Anc T r d ∧
      (∀ p ∈ ps, (∃ d', T p = some d') → Anc T r p) ∧
      ∀ y, Anc T y d → (∀ p ∈ ps, (∃ d', T p = some d') → Anc T y p) → Anc T y r
  | [], d, _ => ⟨d, rfl, .refl, by simp, fun _ h _ => h⟩
  | p :: ps, d, hd => by
    unfold candidate
    cases hp : T p with
    | none =>
      simp only
      obtain ⟨r, h1, h2, h3, h4⟩ := candidate_some hT h0 ps d hd
      refine ⟨r, h1, h2, ?_, ?_⟩
      · intro q hq hdq
        rcases List.mem_cons.1 hq with rfl | hq
        · rw [hp] at hdq; obtain ⟨_, h⟩ := hdq; cases h
        · exact h3 q hq hdq
      · intro y hy1 hy2
        exact h4 y hy1 fun q hq => hy2 q (List.mem_cons_of_mem _ hq)
    | some dp =>
      simp only
      have md : d ∈ L := by obtain ⟨d', hd'⟩ := hd; exact (hT.down _ _ hd').1
      have mp : p ∈ L := (hT.down _ _ hp).1
      have := rpoId_le md
      have := rpoId_le mp
      obtain ⟨r, hr, a1, a2, a3⟩ := intersect_spec hT h0 (2 * L.length + 1) d p hd ⟨dp, hp⟩ (by omega)
      rw [hr]
      simp only
      obtain ⟨r', h1, h2, h3, h4⟩ := candidate_some hT h0 ps r (hT.anc_def a1 hd)
      refine ⟨r', h1, h2.trans a1, ?_, ?_⟩
      · intro q hq hdq
        rcases List.mem_cons.1 hq with rfl | hq
        · exact h2.trans a2
        · exact h3 q hq hdq
      · intro y hy1 hy2
        exact h4 y (a3 y hy1 (hy2 p (List.mem_cons_self ..) ⟨dp, hp⟩)) fun q hq => hy2 q (List.mem_cons_of_mem _ hq)

theorem candidate_none (hT : Tab L T) (h0 : L.head? = some 0) : ∀ (ps : List Nat), (∃ p ∈ ps, ∃ d', T p = some d') →
    ∃ r, candidate (rpoId L) T (2 * L.length + 1) ps none = some (some r) ∧
      (∀ p ∈ ps, (∃ d', T p = some d') → Anc T r p) ∧
      ∀ y, (∀ p ∈ ps, (∃ d', T p = some d') → Anc T y p) → Anc T y r
  | [], h => by obtain ⟨p, hp, _⟩ := h; cases hp
  | p :: ps, h => by
    unfold candidate
    cases hp : T p with
    | none =>
      simp only
      obtain ⟨r, h1, h3, h4⟩ := candidate_none hT h0 ps (by
        obtain ⟨q, hq, hdq⟩ := h
        rcases List.mem_cons.1 hq with rfl | hq
        · rw [hp] at hdq; obtain ⟨_, h⟩ := hdq; cases h
        · exact ⟨q, hq, hdq⟩)
      refine ⟨r, h1, ?_, ?_⟩
      · intro q hq hdq
        rcases List.mem_cons.1 hq with rfl | hq
        · rw [hp] at hdq; obtain ⟨_, h⟩ := hdq; cases h
        · exact h3 q hq hdq
      · intro y hy2
        exact h4 y fun q hq => hy2 q (List.mem_cons_of_mem _ hq)
    | some dp =>
      simp only
      obtain ⟨r', h1, h2, h3, h4⟩ := candidate_some hT h0 ps p ⟨dp, hp⟩
      refine ⟨r', h1, ?_, ?_⟩
      · intro q hq hdq
        rcases List.mem_cons.1 hq with rfl | hq
        · exact h2
        · exact h3 q hq hdq
      · intro y hy2
        exact h4 y (hy2 p (List.mem_cons_self ..) ⟨dp, hp⟩) fun q hq => hy2 q (List.mem_cons_of_mem _ hq)

/-! ## The invariant of the iteration -/

/-- All dominators of a block are its ancestors; the block below is reached by a descending walk; no common ancestor of the
predecessors lies below the entry of the table. -/
structure DInv (G : Graph) (L : List Nat) (T : Nat → Option Nat) : Prop extends Tab L T where
  path : ∀ b d, T b = some d → Descends G L d b
  cover : ∀ c, (∃ d, T c = some d) → ∀ x, Dominates G x c → Anc T x c
  near : ∀ b d, T b = some d → b ≠ 0 → ∀ y, (∀ p, (p, b) ∈ G → (∃ d', T p = some d') → Anc T y p) → rpoId L y ≤ rpoId L d

theorem Descends.trans {u v w : Nat} (h : Descends G L u v) (h' : Descends G L v w) : Descends G L u w := by
  induction h' with
  | refl => exact h
  | step _ e b ih => exact .step ih e b

theorem DInv.anc_path (I : DInv G L T) {x c : Nat} (h : Anc T x c) : Descends G L x c := by
  induction h with
  | refl => exact .refl
  | step e _ ih => exact ih.trans (I.path _ _ e)

theorem Descends.le (hn : L.Nodup) {u v : Nat} (h : Descends G L u v) : rpoId L u ≤ rpoId L v := by
  induction h with
  | refl => exact Nat.le_refl _
  | step _ _ b ih => have := before_lt hn b; omega

/-- Extending a walk that avoids `x` by a descending one below `x`. -/
theorem avoid_descends (hn : L.Nodup) {x b c : Nat} (h : Descends G L b c) (hx : rpoId L x < rpoId L b) :
    ∀ {ns}, Walk G 0 ns b → x ∉ ns → ∃ ms, Walk G 0 ms c ∧ x ∉ ms := by
  induction h with
  | refl => intro ns w hx'; exact ⟨ns, w, hx'⟩
  | step hd e hb ih =>
    intro ns w hx'
    obtain ⟨ms, w', h'⟩ := ih w hx'
    refine ⟨_, w'.snoc e, ?_⟩
    have h1 := hd.le hn
    have h2 := before_lt hn hb
    rw [List.mem_append, not_or]
    refine ⟨h', ?_⟩
    rw [List.mem_singleton]
    intro h; subst h
    omega

theorem not_dominates {x b : Nat} (h : ¬ Dominates G x b) : ∃ ns, Walk G 0 ns b ∧ x ∉ ns := by
  apply Classical.byContradiction
  intro hc
  apply h
  intro ns w
  apply Classical.byContradiction
  intro hx
  exact hc ⟨ns, w, hx⟩

/-- A dominator of `b` other than `b` dominates each of its predecessors. -/
theorem dominates_pred {x b p : Nat} (h : Dominates G x b) (hne : x ≠ b) (hp : (p, b) ∈ G) : Dominates G x p := by
  intro ns w
  have := h _ (w.snoc hp)
  rw [List.mem_append] at this
  rcases this with h | h
  · exact h
  · simp at h; exact absurd h hne

/-- Ancestors after one update, for a block that does not lie below. -/
theorem anc_upd_above (hT : Tab L T) {b d x c : Nat} (h : rpoId L c < rpoId L b) :
    Anc (upd T b (some d)) x c ↔ Anc T x c := by
  constructor
  · intro ha
    induction ha with
    | refl => exact .refl
    | step e _h ih =>
      rename_i c' d'
      have hne : c' ≠ b := by intro hh; subst hh; omega
      simp only [upd, if_neg hne] at e
      refine .step e (ih ?_)
      have := hT.anc_le (.step e .refl)
      omega
  · intro ha
    induction ha with
    | refl => exact .refl
    | step e _h ih =>
      rename_i c' d'
      have hne : c' ≠ b := by intro hh; subst hh; omega
      have := hT.anc_le (.step e .refl)
      exact .step (by simp only [upd, if_neg hne]; exact e) (ih (by omega))

/-- The old ancestors of a block, through the updated one or not. -/
theorem anc_upd_old {b d x c : Nat} (h : Anc T x c) :
    Anc (upd T b (some d)) x c ∨ (Anc (upd T b (some d)) b c ∧ Anc T x b) := by
  induction h with
  | refl => exact Or.inl .refl
  | step e h ih =>
    rename_i c' d'
    by_cases hb : c' = b
    · subst hb
      exact Or.inr ⟨.refl, .step e h⟩
    · have e' : upd T b (some d) c' = some d' := by simp only [upd, if_neg hb]; exact e
      rcases ih with h | h
      · exact Or.inl (.step e' h)
      · exact Or.inr ⟨.step e' h.1, h.2⟩

/-- The new ancestors of a block, through the updated one or not. -/
theorem anc_upd_new {b d x c : Nat} (h : Anc (upd T b (some d)) x c) :
    Anc T x c ∨ (Anc T b c ∧ Anc (upd T b (some d)) x b) := by
  induction h with
  | refl => exact Or.inl .refl
  | step e h ih =>
    rename_i c' d'
    by_cases hb : c' = b
    · subst hb
      exact Or.inr ⟨.refl, .step e h⟩
    · have e' : T c' = some d' := by simp only [upd, if_neg hb] at e; exact e
      rcases ih with h | h
      · exact Or.inl (.step e' h)
      · exact Or.inr ⟨.step e' h.1, h.2⟩

/-- The immediate dominators of the blocks `done` handled in this pass lie above all earlier predecessors. -/
def Kept (G : Graph) (L : List Nat) (T : Nat → Option Nat) (done : List Nat) : Prop :=
  ∀ v ∈ done, v ≠ 0 → ∃ d, T v = some d ∧ ∀ u, (u, v) ∈ G → Before L u v → Anc T d u

/-- Handling one block. -/
theorem update_spec (R : Rpo G L) (I : DInv G L T) {done rest : List Nat} {b : Nat} (hL : L = done ++ b :: rest)
    (hdef : ∀ v ∈ done, ∃ d, T v = some d) (hK : Kept G L T done) (hb0 : b ≠ 0) :
    ∃ r, candidate (rpoId L) T (2 * L.length + 1) (pred G b) none = some (some r) ∧
      (some r = T b → Kept G L T (done ++ [b])) ∧
      (some r ≠ T b → DInv G L (upd T b (some r)) ∧ Kept G L (upd T b (some r)) (done ++ [b]) ∧
        ∀ d, T b = some d → rpoId L r < rpoId L d) := by
  have hbL : b ∈ L := by rw [hL]; simp
  have hdone : ∀ v, Before L v b → v ∈ done := by
    intro v hv
    obtain ⟨x, y, h1, h2⟩ := hv
    have : x = done := by
      have hn := R.nodup
      have e : done ++ b :: rest = x ++ b :: y := by rw [← hL, h1]
      have n1 : b ∉ done := by
        intro h; rw [hL, List.nodup_append] at hn; exact hn.2.2 b h b (by simp) rfl
      have n2 : b ∉ x := by
        intro h; rw [h1, List.nodup_append] at hn; exact hn.2.2 b h b (by simp) rfl
      rcases List.append_eq_append_iff.1 e with ⟨t, ha, hb⟩ | ⟨t, ha, hb⟩
      · cases t with
        | nil => simpa using ha
        | cons t0 t =>
          simp only [List.cons_append, List.cons.injEq] at hb
          exact absurd (by rw [ha]; simp [hb.1]) n2
      · cases t with
        | nil => simpa using ha.symm
        | cons t0 t =>
          simp only [List.cons_append, List.cons.injEq] at hb
          exact absurd (by rw [ha]; simp [hb.1]) n1
    rw [← this]; exact h2
  obtain ⟨q, hqe, hqb⟩ := R.parent b hbL hb0
  have hqd := hdef q (hdone q hqb)
  obtain ⟨r, hr, hcom, hnear⟩ := candidate_none I.toTab R.head (pred G b) ⟨q, mem_pred.2 hqe, hqd⟩
  have hcom' : ∀ p, (p, b) ∈ G → (∃ d', T p = some d') → Anc T r p := fun p hp => hcom p (mem_pred.2 hp)
  have hnear' : ∀ y, (∀ p, (p, b) ∈ G → (∃ d', T p = some d') → Anc T y p) → Anc T y r :=
    fun y hy => hnear y fun p hp => hy p (mem_pred.1 hp)
  have hrq := hcom' q hqe hqd
  have hqlt := before_lt R.nodup hqb
  have hrlt : rpoId L r < rpoId L b := by have := I.anc_le hrq; omega
  have hrdef := I.anc_def hrq hqd
  have hrb : r ≠ b := by intro h; subst h; omega
  refine ⟨r, hr, ?_, ?_⟩
  · intro he v hv hv0
    rw [List.mem_append, List.mem_singleton] at hv
    rcases hv with hv | rfl
    · exact hK v hv hv0
    · exact ⟨r, he.symm, fun u hu hub => hcom' u hu (hdef u (hdone u hub))⟩
  · intro hne
    -- the new entry is an ancestor of the old one
    have hshrink : ∀ d, T b = some d → Anc T r d := by
      intro d hd
      have hle : rpoId L r ≤ rpoId L d := I.near b d hd hb0 r hcom'
      have hpath := I.path b d hd
      -- climb the descending walk from `d` to `b`
      have climb : ∀ v, Descends G L d v → rpoId L v < rpoId L b → Anc T r v → Anc T r d := by
        intro v hv
        induction hv with
        | refl => intro _ h; exact h
        | step hdv e hbef ih =>
          rename_i u w
          intro hw ha
          have h1 := before_lt R.nodup hbef
          have h2 := hdv.le R.nodup
          have hwL : w ∈ L := hbef.snd_mem
          have hw0 : w ≠ 0 := by
            intro h; subst h
            exact R.noEntry u e
          have hwdone : w ∈ done := hdone w (before_of_lt hwL hbL hw)
          obtain ⟨dw, hdw, hk⟩ := hK w hwdone hw0
          have hrw : r ≠ w := by intro h; subst h; omega
          exact ih (by omega) ((ha.parent hdw hrw).trans (hk u e hbef))
      cases hpath with
      | refl =>
        have := (I.down b b hd).2.2 hb0
        omega
      | step hdv e hbef =>
        rename_i u
        have h1 := before_lt R.nodup hbef
        exact climb u hdv h1 (hcom' u e (hdef u (hdone u hbef)))
    have hTb : ∀ d, T b = some d → rpoId L r < rpoId L d := by
      intro d hd
      have h1 := hshrink d hd
      obtain ⟨d', hd'⟩ := (I.down b d hd).2.1
      refine I.anc_lt h1 (I.down _ _ hd').1 ?_
      intro h; subst h; exact hne hd.symm
    have hdown : Tab L (upd T b (some r)) := by
      constructor
      · simp only [upd, if_neg (Ne.symm hb0)]; exact I.root
      · intro c d hd
        have hdefd : ∀ x, (∃ d', T x = some d') → ∃ d', upd T b (some r) x = some d' := by
          intro x hx
          by_cases h : x = b
          · subst h; exact ⟨r, by simp [upd]⟩
          · simp only [upd, if_neg h]; exact hx
        by_cases hcb : c = b
        · subst hcb
          simp only [upd, if_pos, Option.some.injEq] at hd
          subst hd
          exact ⟨hbL, hdefd _ hrdef, fun _ => hrlt⟩
        · simp only [upd, if_neg hcb] at hd
          obtain ⟨h1, h2, h3⟩ := I.down c d hd
          exact ⟨h1, hdefd _ h2, h3⟩
    -- strict ancestors of `b` only get fewer
    have hnewb : ∀ x, Anc (upd T b (some r)) x b → x = b ∨ Anc T x r := by
      intro x hx
      by_cases hxb : x = b
      · exact Or.inl hxb
      · right
        have := hx.parent (show upd T b (some r) b = some r by simp [upd]) hxb
        exact (anc_upd_above I.toTab hrlt).1 this
    have hfew : ∀ x c, (∃ d, T c = some d) → Anc (upd T b (some r)) x c → Anc T x c := by
      intro x c hc hx
      rcases anc_upd_new hx with h | ⟨h1, h2⟩
      · exact h
      · rcases hnewb x h2 with rfl | h2
        · exact h1
        · obtain ⟨d, hd⟩ := I.anc_def h1 hc
          exact (Anc.step hd (h2.trans (hshrink d hd))).trans h1
    refine ⟨⟨hdown, ?_, ?_, ?_⟩, ?_, hTb⟩
    · intro c d hd
      by_cases hcb : c = b
      · subst hcb
        simp only [upd, if_pos, Option.some.injEq] at hd
        subst hd
        exact .step (I.anc_path hrq) hqe hqb
      · simp only [upd, if_neg hcb] at hd
        exact I.path c d hd
    · -- dominators stay ancestors
      have hcb : ∀ x, Dominates G x b → Anc (upd T b (some r)) x b := by
        intro x hx
        by_cases hxb : x = b
        · subst hxb; exact .refl
        · have : Anc T x r := hnear' x fun p hp hdp => I.cover p hdp x (dominates_pred hx hxb hp)
          exact .step (show upd T b (some r) b = some r by simp [upd]) ((anc_upd_above I.toTab hrlt).2 this)
      intro c hc x hx
      by_cases hcc : c = b
      · subst hcc; exact hcb x hx
      · have hc' : ∃ d, T c = some d := by
          simp only [upd, if_neg hcc] at hc; exact hc
        rcases anc_upd_old (b := b) (d := r) (I.cover c hc' x hx) with h | ⟨h1, h2⟩
        · exact h
        · by_cases hxb : x = b
          · subst hxb; exact h1
          · refine (hcb x ?_).trans h1
            have hxlt := I.anc_lt h2 hbL hxb
            apply Classical.byContradiction
            intro hnd
            obtain ⟨ns, w, hxn⟩ := not_dominates hnd
            have hbc : Descends G L b c := I.anc_path (hfew b c hc' h1)
            obtain ⟨ms, w', hxm⟩ := avoid_descends R.nodup hbc hxlt w hxn
            exact hxm (hx ms w')
    · intro c d hd hc0 y hy
      by_cases hcb : c = b
      · subst hcb
        simp only [upd, if_pos, Option.some.injEq] at hd
        subst hd
        apply I.anc_le
        apply hnear'
        intro p hp hdp
        apply hfew y p hdp
        apply hy p hp
        by_cases h : p = c
        · subst h; exact ⟨r, by simp [upd]⟩
        · simp only [upd, if_neg h]; exact hdp
      · simp only [upd, if_neg hcb] at hd
        apply I.near c d hd hc0
        intro p hp hdp
        apply hfew y p hdp
        apply hy p hp
        by_cases h : p = b
        · subst h; exact ⟨r, by simp [upd]⟩
        · simp only [upd, if_neg h]; exact hdp
    · intro v hv hv0
      rw [List.mem_append, List.mem_singleton] at hv
      rcases hv with hv | rfl
      · have hvb : Before L v b := ⟨done, rest, hL, hv⟩
        have hvlt := before_lt R.nodup hvb
        have hne' : v ≠ b := by intro h; subst h; omega
        obtain ⟨d, hd, hk⟩ := hK v hv hv0
        refine ⟨d, by simp only [upd, if_neg hne']; exact hd, ?_⟩
        intro u hu hub
        have := before_lt R.nodup hub
        exact (anc_upd_above I.toTab (by omega)).2 (hk u hu hub)
      · refine ⟨r, by simp [upd], ?_⟩
        intro u hu hub
        have := before_lt R.nodup hub
        exact (anc_upd_above I.toTab this).2 (hcom' u hu (hdef u (hdone u hub)))

end

/-! ## Passes -/

/-- The sum of the numbers of the immediate dominators, undefined ones counting highest. -/
def weight (L : List Nat) (T : Nat → Option Nat) (b : Nat) : Nat :=
  match T b with
  | none => L.length + 1
  | some d => rpoId L d

/-- The measure of the iteration. -/
def mu (L : List Nat) (T : Nat → Option Nat) : Nat := (L.map (weight L T)).sum

theorem mu_upd {L : List Nat} {T : Nat → Option Nat} {b : Nat} {v : Option Nat} (hb : b ∈ L)
    (h : weight L (upd T b v) b < weight L T b) : mu L (upd T b v) < mu L T := by
  have key : ∀ (M : List Nat), ((M.map (weight L (upd T b v))).sum ≤ (M.map (weight L T)).sum) ∧
      (b ∈ M → (M.map (weight L (upd T b v))).sum < (M.map (weight L T)).sum) := by
    intro M
    induction M with
    | nil => exact ⟨Nat.le_refl _, fun h => by cases h⟩
    | cons x M ih =>
      simp only [List.map_cons, List.sum_cons, List.mem_cons]
      by_cases hx : x = b
      · subst hx
        exact ⟨by omega, fun _ => by omega⟩
      · have : weight L (upd T b v) x = weight L T x := by
          unfold weight; simp only [upd, if_neg hx]
        rw [this]
        refine ⟨by omega, ?_⟩
        intro h
        rcases h with h | h
        · exact absurd h.symm hx
        · have := ih.2 h; omega
  exact (key L).2 hb

theorem pass_spec {G : Graph} {L : List Nat} (R : Rpo G L) : ∀ (rest done : List Nat) (T : Nat → Option Nat) (ch : Bool),
    L = done ++ rest → DInv G L T → (∀ v ∈ done, ∃ d, T v = some d) → Kept G L T done →
    ∃ T' ch', domPass G (rpoId L) (2 * L.length + 1) rest T ch = some (T', ch') ∧ DInv G L T' ∧ Kept G L T' L ∧
      (∀ v ∈ L, ∃ d, T' v = some d) ∧ mu L T' ≤ mu L T ∧ (ch = true → ch' = true) ∧
      (ch' = false → T' = T) ∧ (ch = false → ch' = true → mu L T' < mu L T)
  | [], done, T, ch, hL, I, hd, hK => by
    simp at hL
    subst hL
    exact ⟨T, ch, rfl, I, hK, hd, Nat.le_refl _, id, fun _ => rfl, fun h h' => by rw [h] at h'; cases h'⟩
  | b :: rest, done, T, ch, hL, I, hd, hK => by
    have hbL : b ∈ L := by rw [hL]; simp
    have hL' : L = (done ++ [b]) ++ rest := by rw [hL]; simp
    unfold domPass
    by_cases hb0 : b = 0
    · subst hb0
      have hp : pred G 0 = [] := by
        cases h : pred G 0 with
        | nil => rfl
        | cons p ps => exact absurd (mem_pred.1 (by rw [h]; simp)) (R.noEntry p)
      rw [if_pos hp]
      refine pass_spec R rest (done ++ [0]) T ch hL' I ?_ ?_
      · intro v hv
        rw [List.mem_append, List.mem_singleton] at hv
        rcases hv with hv | rfl
        · exact hd v hv
        · exact ⟨0, I.root⟩
      · intro v hv hv0
        rw [List.mem_append, List.mem_singleton] at hv
        rcases hv with hv | hv
        · exact hK v hv hv0
        · exact absurd hv hv0
    · obtain ⟨q, hq, _⟩ := R.parent b hbL hb0
      have hp : pred G b ≠ [] := by
        intro h
        have := mem_pred.2 hq
        rw [h] at this; cases this
      rw [if_neg hp]
      obtain ⟨r, hr, hsame, hdiff⟩ := update_spec R I hL hd hK hb0
      rw [hr]
      simp only
      by_cases he : some r = T b
      · rw [if_neg (by simp [he])]
        refine pass_spec R rest (done ++ [b]) T ch hL' I ?_ (hsame he)
        intro v hv
        rw [List.mem_append, List.mem_singleton] at hv
        rcases hv with hv | rfl
        · exact hd v hv
        · exact ⟨r, he.symm⟩
      · rw [if_pos he]
        obtain ⟨I', hK', hlt⟩ := hdiff he
        have hmu : mu L (upd T b (some r)) < mu L T := by
          apply mu_upd hbL
          have e1 : weight L (upd T b (some r)) b = rpoId L r := by simp [weight, upd]
          rw [e1]
          unfold weight
          cases hT : T b with
          | none =>
            have hrL : r ∈ L := by
              obtain ⟨d', hd'⟩ := (I'.down b r (by simp [upd])).2.1
              exact (I'.down _ _ hd').1
            have := rpoId_le hrL
            simp only; omega
          | some d => exact hlt d hT
        obtain ⟨T', ch', h1, h2, h3, h4, h5, h6, h7, h8⟩ := pass_spec R rest (done ++ [b]) (upd T b (some r)) true hL' I' (by
          intro v hv
          rw [List.mem_append, List.mem_singleton] at hv
          by_cases hvb : v = b
          · subst hvb; exact ⟨r, by simp [upd]⟩
          · simp only [upd, if_neg hvb]
            rcases hv with hv | hv
            · exact hd v hv
            · exact absurd hv hvb) hK'
        refine ⟨T', ch', h1, h2, h3, h4, by omega, fun _ => h6 rfl, ?_, fun _ _ => by omega⟩
        intro h
        rw [h6 rfl] at h
        cases h

/-- A table no pass changes is above all predecessors. -/
theorem pass_fixed {G : Graph} {L : List Nat} (R : Rpo G L) {T : Nat → Option Nat} (I : DInv G L T)
    (hdef : ∀ v ∈ L, ∃ d, T v = some d) :
    ∀ (rest : List Nat) (ch' : Bool), (∀ v ∈ rest, v ∈ L) → domPass G (rpoId L) (2 * L.length + 1) rest T false = some (T, ch') →
    ch' = false → ∀ b ∈ rest, b ≠ 0 → ∃ d, T b = some d ∧ ∀ p, (p, b) ∈ G → p ∈ L → Anc T d p
  | [], _, _, _, _, b, hb, _ => by cases hb
  | c :: rest, ch', hm, h, hch, b, hb, hb0 => by
    have ih := pass_fixed R I hdef rest ch' (fun v hv => hm v (List.mem_cons_of_mem _ hv))
    unfold domPass at h
    by_cases hp : pred G c = []
    · rw [if_pos hp] at h
      rcases List.mem_cons.1 hb with rfl | hb
      · obtain ⟨q, hq, _⟩ := R.parent b (hm b (List.mem_cons_self ..)) hb0
        have := mem_pred.2 hq
        rw [hp] at this; cases this
      · exact ih h hch b hb hb0
    · rw [if_neg hp] at h
      have hc0 : c ≠ 0 := by
        intro hc; subst hc
        apply hp
        cases h : pred G 0 with
        | nil => rfl
        | cons p ps => exact absurd (mem_pred.1 (by rw [h]; simp)) (R.noEntry p)
      obtain ⟨q, hq, hqb⟩ := R.parent c (hm c (List.mem_cons_self ..)) hc0
      have hqL : q ∈ L := by
        obtain ⟨x, y, h1, h2⟩ := hqb
        rw [h1]; simp [h2]
      obtain ⟨r, hr, hcom, _⟩ := candidate_none I.toTab R.head (pred G c) ⟨q, mem_pred.2 hq, hdef q hqL⟩
      rw [hr] at h
      simp only at h
      have htrue : ∀ (rs : List Nat) (T T' : Nat → Option Nat) (c' : Bool), domPass G (rpoId L) (2 * L.length + 1) rs T true = some (T', c') → c' = true := by
        intro rs
        induction rs with
        | nil => intro T T' c' h; cases h; rfl
        | cons x xs ih =>
          intro T T' c' h
          unfold domPass at h
          split at h
          · exact ih _ _ _ h
          · split at h
            · cases h
            · split at h
              · exact ih _ _ _ h
              · exact ih _ _ _ h
      split at h
      · have := htrue _ _ _ _ h
        rw [hch] at this; cases this
      · rename_i he
        have he' : some r = T c := by
          apply Decidable.byContradiction; intro hh; exact he hh
        rcases List.mem_cons.1 hb with rfl | hb
        · exact ⟨r, he'.symm, fun p hp hpL => hcom p (mem_pred.2 hp) (hdef p hpL)⟩
        · exact ih h hch b hb hb0

theorem domLoop_spec {G : Graph} {L : List Nat} (R : Rpo G L) : ∀ (fuel : Nat) (T : Nat → Option Nat), DInv G L T → mu L T < fuel →
    ∃ T', domLoop G (rpoId L) L fuel T = some T' ∧ DInv G L T' ∧ (∀ v ∈ L, ∃ d, T' v = some d) ∧
      ∀ b ∈ L, b ≠ 0 → ∃ d, T' b = some d ∧ ∀ p, (p, b) ∈ G → p ∈ L → Anc T' d p
  | 0, _, _, h => by omega
  | fuel+1, T, I, h => by
    obtain ⟨T', ch', h1, h2, h3, h4, h5, h6, h7, h8⟩ := pass_spec R L [] T false rfl I (fun _ h => by cases h) (fun _ h => by cases h)
    unfold domLoop
    rw [h1]
    simp only
    cases hc : ch' with
    | true =>
      rw [if_pos rfl]
      exact domLoop_spec R fuel T' h2 (by have := h8 rfl hc; omega)
    | false =>
      rw [if_neg (by simp)]
      refine ⟨T', rfl, h2, h4, ?_⟩
      have hT : T' = T := h7 hc
      subst hT
      exact pass_fixed R h2 h4 L ch' (fun _ h => h) h1 hc

theorem mu_le {L : List Nat} {T : Nat → Option Nat} (h : ∀ b d, T b = some d → rpoId L d ≤ L.length + 1) :
    mu L T ≤ L.length * (L.length + 1) := by
  have hw : ∀ b, weight L T b ≤ L.length + 1 := by
    intro b
    unfold weight
    cases hT : T b with
    | none => exact Nat.le_refl _
    | some d => exact h b d hT
  have key : ∀ M : List Nat, (M.map (weight L T)).sum ≤ M.length * (L.length + 1) := by
    intro M
    induction M with
    | nil => simp
    | cons x M ih =>
      simp only [List.map_cons, List.sum_cons, List.length_cons]
      have := hw x
      rw [Nat.add_mul]
      omega
  exact key L

theorem idoms_spec {G : Graph} {L : List Nat} (R : Rpo G L) :
    ∃ T, computeIdoms G L = some T ∧ Tab L T ∧ (∀ v ∈ L, ∃ d, T v = some d) ∧
      ∀ c ∈ L, ∀ x, Anc T x c ↔ Dominates G x c := by
  have h0L : 0 ∈ L := (R.mem 0).2 .refl
  have hinit : DInv G L (upd (fun _ => none) 0 (some 0)) := by
    have hd : ∀ b d, upd (fun _ => none) 0 (some 0) b = some d → b = 0 ∧ d = 0 := by
      intro b d h
      unfold upd at h
      split at h
      · rename_i hb; cases h; exact ⟨hb, rfl⟩
      · cases h
    refine ⟨⟨by simp [upd], ?_⟩, ?_, ?_, ?_⟩
    · intro b d h
      obtain ⟨rfl, rfl⟩ := hd b d h
      exact ⟨h0L, ⟨0, h⟩, fun h => absurd rfl h⟩
    · intro b d h
      obtain ⟨rfl, rfl⟩ := hd b d h
      exact .refl
    · intro c ⟨d, h⟩ x hx
      obtain ⟨rfl, rfl⟩ := hd c d h
      have := hx _ .nil
      simp at this
      subst this
      exact .refl
    · intro b d h hb
      exact absurd (hd b d h).1 hb
  obtain ⟨T, h1, I, hdef, hfix⟩ := domLoop_spec R (L.length * (L.length + 1) + 2) _ hinit (by
    have := mu_le (L := L) (T := upd (fun _ => none) 0 (some 0)) (by
      intro b d h
      unfold upd at h
      split at h
      · cases h
        have := rpoId_zero R.head
        omega
      · cases h)
    omega)
  refine ⟨T, h1, I.toTab, hdef, ?_⟩
  intro c hc x
  constructor
  · intro ha ns w
    -- along a walk, every ancestor of its end is on it
    clear hc
    have key : ∀ {v : Nat} {ns : List Nat}, Walk G 0 ns v → ∀ x, Anc T x v → x ∈ ns := by
      intro v ns w
      induction w with
      | nil =>
        intro x hx
        have h1 := I.anc_le hx
        have h2 := I.anc_mem hx h0L
        have h3 := rpoId_zero R.head
        have h4 := rpoId_pos L x
        have := rpoId_inj h2 h0L (by omega)
        simp [this]
      | snoc w e ih =>
        rename_i ns' u v'
        intro x hx
        by_cases hxv : x = v'
        · subst hxv; simp
        · have huL : u ∈ L := (R.mem u).2 ⟨_, w⟩
          have hvL : v' ∈ L := (R.mem v').2 ⟨_, w.snoc e⟩
          have hv0 : v' ≠ 0 := by intro h; subst h; exact R.noEntry u e
          obtain ⟨d, hd, hk⟩ := hfix v' hvL hv0
          have := ih x ((hx.parent hd hxv).trans (hk u e huL))
          simp [this]
    exact key w x ha
  · intro hx
    exact I.cover c (hdef c hc) x hx

end Verif.Cfg

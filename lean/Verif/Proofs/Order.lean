import Verif.Spec.Cfg

/-! The traversal of vm/control-flow.cpp computeOrdering. -/
namespace Verif.Cfg

theorem mem_succ {G : Graph} {u v : Nat} : v ∈ succ G u ↔ (u, v) ∈ G := by
  unfold succ
  simp only [List.mem_map, List.mem_filter, decide_eq_true_eq]
  constructor
  · rintro ⟨⟨a, b⟩, ⟨h1, h2⟩, h3⟩
    simp only at h2 h3
    subst h2 h3
    exact h1
  · intro h
    exact ⟨(u, v), ⟨h, rfl⟩, rfl⟩

theorem mem_pred {G : Graph} {u v : Nat} : u ∈ pred G v ↔ (u, v) ∈ G := by
  unfold pred
  simp only [List.mem_map, List.mem_filter, decide_eq_true_eq]
  constructor
  · rintro ⟨⟨a, b⟩, ⟨h1, h2⟩, h3⟩
    simp only at h2 h3
    subst h2 h3
    exact h1
  · intro h
    exact ⟨(u, v), ⟨h, rfl⟩, rfl⟩

theorem Walk.trans {G : Graph} {u v w : Nat} {ns ms : List Nat} (h : Walk G u ns v) (h' : Walk G v ms w) :
    Walk G u (ns ++ ms.tail) w := by
  induction h' with
  | nil => simpa using h
  | snoc h'' e ih =>
    rename_i ns' v' w'
    have hne : ns' ≠ [] := by cases h'' <;> simp
    have : (ns' ++ [w']).tail = ns'.tail ++ [w'] := by
      cases ns' with
      | nil => exact absurd rfl hne
      | cons a t => rfl
    rw [this, ← List.append_assoc]
    exact Walk.snoc ih e

theorem Reaches.refl {G : Graph} {u : Nat} : Reaches G u u := ⟨_, .nil⟩

theorem Reaches.trans {G : Graph} {u v w : Nat} (h : Reaches G u v) (h' : Reaches G v w) : Reaches G u w := by
  obtain ⟨a, ha⟩ := h
  obtain ⟨b, hb⟩ := h'
  exact ⟨_, ha.trans hb⟩

theorem Reaches.step {G : Graph} {u v w : Nat} (h : Reaches G u v) (e : (v, w) ∈ G) : Reaches G u w := by
  obtain ⟨a, ha⟩ := h
  exact ⟨_, ha.snoc e⟩

theorem Reaches.edge {G : Graph} {v w : Nat} (e : (v, w) ∈ G) : Reaches G v w := Reaches.refl.step e

/-! ## The measure -/

/-- Edges leaving blocks not yet marked, the entry excepted. -/
def openOut (G : Graph) (vis : Nat → Bool) : Nat := G.countP fun e => !(vis e.1) && e.1 != 0

/-- Edges into blocks not yet marked. -/
def openIn (G : Graph) (vis : Nat → Bool) : Nat := G.countP fun e => !(vis e.2)

/-- What is left on the stack. -/
def stackLeft (G : Graph) (w : List (Nat × Nat)) : Nat := (w.map fun e => (succ G e.1).length - e.2 + 1).sum

theorem countP_drop {α : Type} (l : List α) (p q r : α → Bool) (h : ∀ x, p x = (q x || r x)) (hd : ∀ x, ¬ (q x = true ∧ r x = true)) :
    l.countP p = l.countP q + l.countP r := by
  induction l with
  | nil => rfl
  | cons a l ih =>
    simp only [List.countP_cons, ih]
    have := h a
    have := hd a
    cases hq : q a <;> cases hr : r a <;> simp_all <;> omega

theorem succ_length {G : Graph} {c : Nat} : (succ G c).length = G.countP fun e => e.1 = c := by
  unfold succ
  rw [List.length_map, ← List.countP_eq_length_filter]

theorem openOut_mark {G : Graph} {vis : Nat → Bool} {c : Nat} (hc : vis c = false) (h0 : c ≠ 0) :
    openOut G vis = openOut G (upd vis c true) + (succ G c).length := by
  unfold openOut
  rw [succ_length]
  apply countP_drop
  · intro x
    unfold upd
    by_cases hx : x.1 = c
    · simp [hx, hc, h0]
    · simp [hx]
  · intro x
    unfold upd
    by_cases hx : x.1 = c
    · simp [hx]
    · simp [hx]

theorem openIn_mark {G : Graph} {vis : Nat → Bool} {b c : Nat} (hc : vis c = false) (he : (b, c) ∈ G) :
    openIn G (upd vis c true) + 1 ≤ openIn G vis := by
  unfold openIn
  have h := countP_drop G (fun e => !(vis e.2)) (fun e => !(upd vis c true e.2)) (fun e => e.2 = c) (by
    intro x
    unfold upd
    by_cases hx : x.2 = c
    · simp [hx, hc]
    · simp [hx]) (by
    intro x
    unfold upd
    by_cases hx : x.2 = c
    · simp [hx]
    · simp [hx])
  have hpos : 0 < G.countP (fun e => e.2 = c) := List.countP_pos_iff.2 ⟨(b, c), he, by simp⟩
  omega

/-- Strictly decreasing along the loop. -/
def left (G : Graph) (S : Ord) : Nat := stackLeft G S.work + openOut G S.visited + openIn G S.visited

/-! ## The invariant -/

/-- Each stack entry is a successor of the one below; the bottom is the entry block. -/
def Linked (G : Graph) : List (Nat × Nat) → Prop
  | [] => True
  | [(b, _)] => b = 0
  | (c, _) :: (b, i) :: w => (b, c) ∈ G ∧ Linked G ((b, i) :: w)

/-- The order built so far, with the blocks on the stack in front. -/
def Ord.sofar (S : Ord) : List Nat := (S.work.map (·.1)).reverse ++ S.rpo

/-- The state of the traversal of a graph whose entry has no predecessors. -/
structure OInv (G : Graph) (S : Ord) : Prop where
  linked : Linked G S.work
  nodup : (S.work.map (·.1) ++ S.rpo).Nodup
  visited : ∀ b, S.visited b = true ↔ b ≠ 0 ∧ (b ∈ S.work.map (·.1) ∨ b ∈ S.rpo)
  entry : 0 ∈ S.work.map (·.1) ∨ S.rpo.head? = some 0 ∧ S.work = []
  reach : ∀ b, b ∈ S.work.map (·.1) ∨ b ∈ S.rpo → Reaches G 0 b
  scanned : ∀ e ∈ S.work, ∀ j < e.2, ∀ c, (succ G e.1)[j]? = some c → S.visited c = true
  closed : ∀ u ∈ S.rpo, ∀ v, (u, v) ∈ G → S.visited v = true
  order : ∀ u ∈ S.rpo, ∀ v, (u, v) ∈ G → Before S.sofar u v ∨ Descends G S.sofar v u
  parent : ∀ b ∈ S.rpo, b ≠ 0 → ∃ p, (p, b) ∈ G ∧ (p ∈ S.work.map (·.1) ∨ Before S.rpo p b)

theorem Before.cons {L : List Nat} {u v x : Nat} (h : Before L u v) : Before (x :: L) u v := by
  obtain ⟨a, b, h1, h2⟩ := h
  exact ⟨x :: a, b, by rw [h1]; rfl, List.mem_cons_of_mem _ h2⟩

theorem Before.head {L : List Nat} {u v : Nat} (h : v ∈ L) : Before (u :: L) u v := by
  obtain ⟨a, b, h1⟩ := List.append_of_mem h
  exact ⟨u :: a, b, by rw [h1]; rfl, List.mem_cons_self ..⟩

theorem Before.insert {x y : List Nat} {c u v : Nat} (h : Before (x ++ y) u v) : Before (x ++ c :: y) u v := by
  obtain ⟨a, b, h1, h2⟩ := h
  rcases List.append_eq_append_iff.1 h1 with ⟨t, ha, hb⟩ | ⟨t, ha, hb⟩
  · refine ⟨x ++ c :: t, b, ?_, ?_⟩
    · rw [hb]; simp
    · subst ha; simp at h2 ⊢; grind
  · cases t with
    | nil =>
      refine ⟨x ++ [c], b, ?_, ?_⟩
      · simp at hb; rw [← hb]; simp
      · subst ha; simp at h2 ⊢; grind
    | cons t0 t =>
      simp only [List.cons_append, List.cons.injEq] at hb
      obtain ⟨rfl, hb⟩ := hb
      refine ⟨a, t ++ c :: y, ?_, h2⟩
      rw [ha]; simp

theorem Before.snd_mem {L : List Nat} {u v : Nat} (h : Before L u v) : v ∈ L := by
  obtain ⟨a, b, rfl, h2⟩ := h
  simp

theorem Before.append_left {x y : List Nat} {u v : Nat} (h : Before y u v) : Before (x ++ y) u v := by
  induction x with
  | nil => exact h
  | cons a x ih => exact Before.cons ih

theorem Before.append_right {x y : List Nat} {u v : Nat} (h : Before x u v) : Before (x ++ y) u v := by
  obtain ⟨a, b, h1, h2⟩ := h
  exact ⟨a, b ++ y, by rw [h1]; simp, h2⟩

theorem Descends.mono {G : Graph} {L L' : List Nat} {u v : Nat} (h : Descends G L u v)
    (hm : ∀ a b, Before L a b → Before L' a b) : Descends G L' u v := by
  induction h with
  | refl => exact .refl
  | step _ e b ih => exact .step ih e (hm _ _ b)

theorem Descends.reaches {G : Graph} {L : List Nat} {u v : Nat} (h : Descends G L u v) : Reaches G u v := by
  induction h with
  | refl => exact .refl
  | step _ e _ ih => exact ih.step e

theorem linked_descends {G : Graph} : ∀ {w : List (Nat × Nat)} {b i x : Nat}, Linked G ((b, i) :: w) →
    x ∈ ((b, i) :: w).map (·.1) → Descends G ((((b, i) :: w).map (·.1)).reverse) x b
  | [], b, i, x, _, hx => by
    simp at hx; subst hx; exact .refl
  | (b', i') :: w, b, i, x, h, hx => by
    rw [List.map_cons] at hx
    rcases List.mem_cons.1 hx with rfl | hx
    · exact .refl
    · refine .step ((linked_descends h.2 hx).mono ?_) h.1 ?_
      · intro p q hpq
        rw [List.map_cons, List.reverse_cons]
        exact hpq.append_right
      · refine ⟨(((b', i') :: w).map (·.1)).reverse, [], by simp, by simp⟩

theorem linked_reaches {G : Graph} : ∀ {w : List (Nat × Nat)} {b i x : Nat}, Linked G ((b, i) :: w) →
    x ∈ ((b, i) :: w).map (·.1) → Reaches G x b
  | [], b, i, x, _, hx => by
    simp at hx; subst hx; exact Reaches.refl
  | (b', i') :: w, b, i, x, h, hx => by
    rw [List.map_cons] at hx
    rcases List.mem_cons.1 hx with rfl | hx
    · exact Reaches.refl
    · exact (linked_reaches h.2 hx).step h.1

theorem linked_bottom {G : Graph} : ∀ {w : List (Nat × Nat)} {b i : Nat}, Linked G ((b, i) :: w) →
    0 ∈ ((b, i) :: w).map (·.1)
  | [], b, i, h => by simp only [Linked] at h; simp [h]
  | (b', i') :: w, b, i, h => by
    have := linked_bottom h.2
    rw [List.map_cons]
    exact List.mem_cons_of_mem _ this

theorem linked_idx {G : Graph} {w : List (Nat × Nat)} {b i j : Nat} (h : Linked G ((b, i) :: w)) : Linked G ((b, j) :: w) := by
  cases w with
  | nil => exact h
  | cons e w => obtain ⟨b', i'⟩ := e; exact h

theorem linked_tail {G : Graph} {w : List (Nat × Nat)} {b i : Nat} (h : Linked G ((b, i) :: w)) : Linked G w := by
  cases w with
  | nil => trivial
  | cons e w => obtain ⟨b', i'⟩ := e; exact h.2

theorem step_spec {G : Graph} {S : Ord} (h0 : ∀ u, (u, 0) ∉ G) (I : OInv G S) (hne : S.work ≠ []) :
    OInv G (orderStep G S) ∧ left G (orderStep G S) < left G S := by
  obtain ⟨work, vis, rpo⟩ := S
  cases work with
  | nil => exact absurd rfl hne
  | cons e w =>
    obtain ⟨b, i⟩ := e
    obtain ⟨hl, hn, hv, he, hr, hs, hc, ho, hp⟩ := I
    simp only at hl hn hv he hr hs hc ho hp
    have h0w : 0 ∈ ((b, i) :: w).map (·.1) := linked_bottom hl
    unfold orderStep
    simp only
    cases hg : (succ G b)[i]? with
    | none =>
      simp only
      have hi : (succ G b).length ≤ i := List.getElem?_eq_none_iff.1 hg
      have hall : ∀ v, (b, v) ∈ G → vis v = true := by
        intro v hv'
        obtain ⟨j, hj⟩ := List.getElem?_of_mem (mem_succ.2 hv')
        have hjl := (List.getElem?_eq_some_iff.1 hj).1
        exact hs (b, i) (List.mem_cons_self ..) j (by show j < i; omega) v hj
      have hn' : (w.map (·.1) ++ b :: rpo).Nodup := by
        rw [List.map_cons, List.cons_append, List.nodup_cons] at hn
        rw [List.nodup_append, List.nodup_cons]
        obtain ⟨h1, h2⟩ := hn
        rw [List.nodup_append] at h2
        rw [List.mem_append, not_or] at h1
        refine ⟨h2.1, ⟨h1.2, h2.2.1⟩, ?_⟩
        intro x hx y hy
        rcases List.mem_cons.1 hy with rfl | hy
        · intro hxy; subst hxy; exact h1.1 hx
        · exact h2.2.2 x hx y hy
      have hsame : Ord.sofar ⟨w, vis, b :: rpo⟩ = Ord.sofar ⟨(b, i) :: w, vis, rpo⟩ := by simp [Ord.sofar]
      refine ⟨⟨linked_tail hl, hn', ?_, ?_, ?_, ?_, ?_, ?_, ?_⟩, ?_⟩
      · intro x
        rw [hv x]
        simp only [List.map_cons, List.mem_cons]
        grind
      · cases w with
        | nil =>
          right
          simp at h0w
          simp [h0w]
        | cons e' w' =>
          left
          obtain ⟨b', i'⟩ := e'
          exact linked_bottom (linked_tail hl)
      · intro x hx
        apply hr x
        simp only [List.map_cons, List.mem_cons] at hx ⊢
        grind
      · intro e he' j hj c hc'
        exact hs e (List.mem_cons_of_mem _ he') j hj c hc'
      · intro u hu v huv
        rcases List.mem_cons.1 hu with rfl | hu
        · exact hall v huv
        · exact hc u hu v huv
      · intro u hu v huv
        rcases List.mem_cons.1 hu with rfl | hu
        · have hvv := hall v huv
          rw [hv v] at hvv
          rw [hsame]
          rcases hvv.2 with h | h
          · exact Or.inr ((linked_descends hl h).mono fun _ _ hh => hh.append_right)
          · rw [← hsame]
            exact Or.inl ((Before.head h).append_left)
        · rw [hsame]; exact ho u hu v huv
      · intro x hx hx0
        rcases List.mem_cons.1 hx with rfl | hx
        · cases w with
          | nil => simp only [Linked] at hl; exact absurd hl hx0
          | cons e' w' =>
            obtain ⟨b', i'⟩ := e'
            exact ⟨b', hl.1, Or.inl (by simp)⟩
        · have hxr : x ∈ rpo := hx
          obtain ⟨p, hp1, hp2⟩ := hp x hx hx0
          refine ⟨p, hp1, ?_⟩
          rcases hp2 with h | h
          · rw [List.map_cons] at h
            rcases List.mem_cons.1 h with h | h
            · subst h; exact Or.inr (Before.head (L := rpo) hxr)
            · exact Or.inl h
          · exact Or.inr h.cons
      · unfold left stackLeft
        simp only [List.map_cons, List.sum_cons]
        omega
    | some c =>
      have hbc : (b, c) ∈ G := mem_succ.1 (List.mem_of_getElem? hg)
      have hc0 : c ≠ 0 := by intro h; subst h; exact h0 b hbc
      have hil : i < (succ G b).length := (List.getElem?_eq_some_iff.1 hg).1
      have hb : Reaches G 0 b := hr b (Or.inl (by simp))
      simp only
      by_cases hvis : vis c = true
      · rw [if_pos hvis]
        refine ⟨⟨linked_idx hl, hn, hv, Or.inl h0w, hr, ?_, hc, ho, hp⟩, ?_⟩
        · intro e he' j hj c' hc'
          rcases List.mem_cons.1 he' with rfl | he'
          · simp only at hj hc'
            by_cases hji : j = i
            · subst hji; rw [hg] at hc'; cases hc'; exact hvis
            · exact hs (b, i) (List.mem_cons_self ..) j (by show j < i; omega) c' hc'
          · exact hs e (List.mem_cons_of_mem _ he') j hj c' hc'
        · unfold left stackLeft
          simp only [List.map_cons, List.sum_cons]
          omega
      · rw [if_neg hvis]
        have hvf : vis c = false := by simpa using hvis
        have hnew : c ∉ ((b, i) :: w).map (·.1) ∧ c ∉ rpo := by
          have : ¬ (c ≠ 0 ∧ (c ∈ ((b, i) :: w).map (·.1) ∨ c ∈ rpo)) := by
            rw [← hv c]; exact hvis
          grind
        have hupd : ∀ x, upd vis c true x = true ↔ x = c ∨ vis x = true := by
          intro x
          unfold upd
          by_cases hx : x = c <;> simp [hx]
        have m1 := @openOut_mark G vis c hvf hc0
        have m2 := @openIn_mark G vis b c hvf hbc
        have hins : ∀ p q, Before (Ord.sofar ⟨(b, i) :: w, vis, rpo⟩) p q →
            Before (((((b, i) :: w).map (·.1)).reverse) ++ c :: rpo) p q := fun p q h => h.insert
        have ho' : ∀ u ∈ rpo, ∀ v, (u, v) ∈ G → Before (((((b, i) :: w).map (·.1)).reverse) ++ c :: rpo) u v ∨
            Descends G (((((b, i) :: w).map (·.1)).reverse) ++ c :: rpo) v u := by
          intro u hu v huv
          rcases ho u hu v huv with h | h
          · exact Or.inl (hins _ _ h)
          · exact Or.inr (h.mono hins)
        have hscan : ∀ e ∈ (b, i + 1) :: w, ∀ j < e.2, ∀ c', (succ G e.1)[j]? = some c' → upd vis c true c' = true := by
          intro e he' j hj c' hc'
          rw [hupd]
          rcases List.mem_cons.1 he' with rfl | he'
          · simp only at hj hc'
            by_cases hji : j = i
            · subst hji; rw [hg] at hc'; cases hc'; exact Or.inl rfl
            · exact Or.inr (hs (b, i) (List.mem_cons_self ..) j (by show j < i; omega) c' hc')
          · exact Or.inr (hs e (List.mem_cons_of_mem _ he') j hj c' hc')
        by_cases hsc : succ G c ≠ []
        · rw [if_pos hsc]
          refine ⟨⟨⟨hbc, linked_idx hl⟩, ?_, ?_, ?_, ?_, ?_, ?_, ?_, ?_⟩, ?_⟩
          · show (c :: (((b, i) :: w).map (·.1)) ++ rpo).Nodup
            rw [List.cons_append, List.nodup_cons]
            exact ⟨by rw [List.mem_append]; grind, hn⟩
          · intro x
            rw [hupd, hv x]
            simp only [List.map_cons, List.mem_cons]
            grind
          · left
            show 0 ∈ c :: (((b, i) :: w).map (·.1))
            exact List.mem_cons_of_mem _ h0w
          · intro x hx
            have : x = c ∨ (x ∈ ((b, i) :: w).map (·.1) ∨ x ∈ rpo) := by
              simp only [List.map_cons, List.mem_cons] at hx ⊢
              grind
            rcases this with rfl | h
            · exact hb.step hbc
            · exact hr x h
          · intro e he' j hj c' hc'
            rcases List.mem_cons.1 he' with rfl | he'
            · simp only at hj; omega
            · exact hscan e he' j hj c' hc'
          · intro u hu v huv
            rw [hupd]; exact Or.inr (hc u hu v huv)
          · intro u hu v huv
            have hs : Ord.sofar ⟨(c, 0) :: (b, i + 1) :: w, upd vis c true, rpo⟩ =
                ((((b, i) :: w).map (·.1)).reverse) ++ c :: rpo := by simp [Ord.sofar]
            rw [hs]; exact ho' u hu v huv
          · intro x hx hx0
            obtain ⟨p, hp1, hp2⟩ := hp x hx hx0
            refine ⟨p, hp1, ?_⟩
            rcases hp2 with h | h
            · left
              show p ∈ c :: (((b, i) :: w).map (·.1))
              exact List.mem_cons_of_mem _ h
            · exact Or.inr h
          · unfold left stackLeft
            simp only [List.map_cons, List.sum_cons]
            omega
        · rw [if_neg hsc]
          have hsc' : succ G c = [] := by
            apply Decidable.byContradiction; intro h; exact hsc h
          have hnoedge : ∀ v, (c, v) ∉ G := by
            intro v h
            have := mem_succ.2 h
            rw [hsc'] at this
            cases this
          refine ⟨⟨linked_idx hl, ?_, ?_, Or.inl h0w, ?_, hscan, ?_, ?_, ?_⟩, ?_⟩
          · show ((((b, i) :: w).map (·.1)) ++ c :: rpo).Nodup
            rw [List.nodup_append, List.nodup_cons]
            rw [List.nodup_append] at hn
            refine ⟨hn.1, ⟨hnew.2, hn.2.1⟩, ?_⟩
            intro x hx y hy
            rcases List.mem_cons.1 hy with rfl | hy
            · intro h; subst h; exact hnew.1 hx
            · exact hn.2.2 x hx y hy
          · intro x
            rw [hupd, hv x]
            simp only [List.map_cons, List.mem_cons]
            grind
          · intro x hx
            have : x = c ∨ (x ∈ ((b, i) :: w).map (·.1) ∨ x ∈ rpo) := by
              simp only [List.map_cons, List.mem_cons] at hx ⊢
              grind
            rcases this with rfl | h
            · exact hb.step hbc
            · exact hr x h
          · intro u hu v huv
            rw [hupd]
            rcases List.mem_cons.1 hu with rfl | hu
            · exact absurd huv (hnoedge v)
            · exact Or.inr (hc u hu v huv)
          · intro u hu v huv
            rcases List.mem_cons.1 hu with rfl | hu
            · exact absurd huv (hnoedge v)
            · exact ho' u hu v huv
          · intro x hx hx0
            rcases List.mem_cons.1 hx with rfl | hx
            · exact ⟨b, hbc, Or.inl (by simp)⟩
            · obtain ⟨p, hp1, hp2⟩ := hp x hx hx0
              refine ⟨p, hp1, ?_⟩
              rcases hp2 with h | h
              · exact Or.inl h
              · exact Or.inr h.cons
          · unfold left stackLeft
            simp only [List.map_cons, List.sum_cons]
            omega

theorem loop_spec {G : Graph} (h0 : ∀ u, (u, 0) ∉ G) : ∀ (fuel : Nat) (S : Ord), OInv G S → left G S < fuel →
    ∃ L, orderLoop G fuel S = some L ∧ OInv G ⟨[], fun b => decide (b ≠ 0 ∧ b ∈ L), L⟩
  | 0, S, _, h => by omega
  | fuel+1, S, I, h => by
    unfold orderLoop
    by_cases hw : S.work = []
    · rw [if_pos hw]
      refine ⟨S.rpo, rfl, ?_⟩
      have he : (fun b => decide (b ≠ 0 ∧ b ∈ S.rpo)) = S.visited := by
        funext b
        have := I.visited b
        rw [hw] at this
        simp only [List.map_nil, List.not_mem_nil, false_or] at this
        cases hb : S.visited b
        · rw [hb] at this; simp at this; simpa using this
        · rw [hb] at this; simp at this; simpa using this
      rw [he]
      obtain ⟨work, vis, rpo⟩ := S
      simp only at hw
      subst hw
      exact I
    · rw [if_neg hw]
      obtain ⟨h1, h2⟩ := step_spec h0 I hw
      exact loop_spec h0 fuel _ h1 (by omega)

theorem ordering_inv {G : Graph} (h0 : ∀ u, (u, 0) ∉ G) :
    ∃ L, computeOrdering G = some L ∧ OInv G ⟨[], fun b => decide (b ≠ 0 ∧ b ∈ L), L⟩ := by
  unfold computeOrdering
  apply loop_spec h0
  · refine ⟨rfl, by simp, by simp, Or.inl (by simp), ?_, ?_, by simp, by simp, by simp⟩
    · intro b hb
      simp at hb
      subst hb
      exact Reaches.refl
    · intro e he j hj
      simp at he
      subst he
      simp at hj
  · have h1 : stackLeft G [(0, 0)] + openOut G (fun _ => false) ≤ G.length + 1 := by
      unfold stackLeft openOut
      simp only [List.map_cons, List.map_nil, List.sum_cons, List.sum_nil]
      rw [succ_length]
      have := countP_drop G (fun _ => true) (fun e => decide (e.1 = 0)) (fun e => !false && e.1 != 0) (by
        intro x; by_cases h : x.1 = 0 <;> simp [h]) (by intro x; by_cases h : x.1 = 0 <;> simp [h])
      rw [List.countP_true] at this
      omega
    have h2 : openIn G (fun _ => false) ≤ G.length := List.countP_le_length
    unfold left
    simp only
    omega

end Verif.Cfg

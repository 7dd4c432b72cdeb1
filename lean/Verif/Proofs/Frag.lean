import Verif.Proofs.AcceptVerify

/-! Certificates of pieces of code, and how they combine. -/
namespace Verif.Verifier
open Verif.VM
open Verif.Graph

/-- Labels: positions outside the piece with the stack there. -/
abbrev Labs := Nat → Nat → Prop

/-- No labels. -/
abbrev noLabs : Labs := fun _ _ => False

/-- A piece of code from `p` to `e` that is entered at the positions `En` with `d` cells on the stack, leads to its end with `dE` cells if `ft`
and otherwise to the labels `X`. -/
structure Frag (C : Ctx) (p e d dE : Nat) (X : Labs) (ft : Prop) (En : Nat → Prop) (hs : List Nd) (Lv : Nat → Prop) (R : List (Nat × Nat)) : Prop where
  chain : Chain C p hs e
  entry : ∀ j, En j → (∃ m ∈ hs, m.pos = j ∧ m.st = .norm d ∧ Lv j) ∨ (j = e ∧ d = dE ∧ ft)
  go : ∀ n ∈ hs, Lv n.pos → ∀ s ∈ n.succs, (∃ m ∈ hs, m.pos = s.1 ∧ m.st = s.2 ∧ Lv s.1) ∨ (s.1 = e ∧ s.2 = .norm dE ∧ ft) ∨
    ∃ y, s.2 = .norm y ∧ X s.1 y
  refs : ∀ n ∈ hs, ∀ t ∈ n.refs, (p ≤ t ∧ t ≤ e ∧ ∀ m ∈ hs, m.pos = t → ∃ y, m.st = .norm y) ∨ ∃ y, X t y
  heads : ∀ n ∈ hs, ∀ t ∈ n.heads, ∃ m ∈ hs, m.pos = t ∧ ∀ s ∈ n.succs, s.1 ∈ m.refs
  back : ∀ n ∈ hs, Lv n.pos → ∀ s ∈ n.succs, s.1 ≤ n.pos → (∃ y, X s.1 y) ∨ ∃ x, (s.1, x) ∈ R ∧ n.pos < x
  single : ∀ r ∈ R, ∀ n ∈ hs, Lv n.pos → ¬ (r.1 ≤ n.pos ∧ n.pos < r.2) → ∀ s ∈ n.succs, r.1 ≤ s.1 → s.1 < r.2 → s.1 = r.1
  regions : ∀ r ∈ R, p ≤ r.1 ∧ r.2 ≤ e
  apart : ∀ j, En j → ∀ r ∈ R, r.1 ≤ j → j < r.2 → j = r.1
  depth : ∀ n ∈ hs, n.st.depth ≤ d + (n.pos - p)
  deep : dE ≤ d + (e - p)

/-- There is a certificate. -/
def Fr (C : Ctx) (p e d dE : Nat) (X : Labs) (ft : Prop) (En : Nat → Prop) : Prop := ∃ hs Lv R, Frag C p e d dE X ft En hs Lv R

variable {C : Ctx} {p q e d d' dE : Nat} {X Y : Labs} {ft ft' : Prop} {En En' : Nat → Prop} {hs hs' : List Nd} {Lv Lv' : Nat → Prop} {R R' : List (Nat × Nat)}

theorem Chain.append {C : Ctx} {p q e : Nat} {ns ns' : List Nd} (h : Chain C p ns q) (h' : Chain C q ns' e) : Chain C p (ns ++ ns') e := by
  induction h with
  | nil => exact h'
  | cons h1 _ ih => exact .cons h1 (ih h')

theorem Chain.inside {C : Ctx} {p e : Nat} {ns : List Nd} (h : Chain C p ns e) {n : Nd} (hn : n ∈ ns) : p ≤ n.pos ∧ n.pos < e := by
  obtain ⟨a, b, c⟩ := h.mem hn
  have := c.lt
  omega

theorem Chain.ordered {C : Ctx} {p e : Nat} {ns : List Nd} (h : Chain C p ns e) : p ≤ e := by have := h.le; omega

theorem Frag.entries (F : Frag C p e d dE X ft En hs Lv R) {j : Nat} (h : En j) : p ≤ j ∧ j ≤ e := by
  rcases F.entry j h with ⟨m, hm, rfl, _⟩ | ⟨rfl, _⟩
  · have := F.chain.inside hm; omega
  · have := F.chain.ordered; omega

/-! ### Weakening -/

theorem Fr.mono (F : Fr C p e d dE X ft En) (hX : ∀ j y, X j y → Y j y) (hf : ft → ft') (hE : ∀ j, En' j → En j) : Fr C p e d dE Y ft' En' := by
  obtain ⟨hs, Lv, R, F⟩ := F
  refine ⟨hs, Lv, R, F.chain, ?_, ?_, ?_, F.heads, ?_, F.single, F.regions, fun j h => F.apart j (hE j h), F.depth, F.deep⟩
  · intro j h
    rcases F.entry j (hE j h) with h | ⟨h1, h2, h3⟩
    · exact Or.inl h
    · exact Or.inr ⟨h1, h2, hf h3⟩
  · intro n hn hl s hs
    rcases F.go n hn hl s hs with h | ⟨h1, h2, h3⟩ | ⟨y, h1, h2⟩
    · exact Or.inl h
    · exact Or.inr (Or.inl ⟨h1, h2, hf h3⟩)
    · exact Or.inr (Or.inr ⟨y, h1, hX _ _ h2⟩)
  · intro n hn t ht
    rcases F.refs n hn t ht with h | ⟨y, h⟩
    · exact Or.inl h
    · exact Or.inr ⟨y, hX _ _ h⟩
  · intro n hn hl s hs hle
    rcases F.back n hn hl s hs hle with ⟨y, h⟩ | h
    · exact Or.inl ⟨y, hX _ _ h⟩
    · exact Or.inr h

theorem Fr.labs (F : Fr C p e d dE X ft En) (hX : ∀ j y, X j y → Y j y) : Fr C p e d dE Y ft En := F.mono hX id fun _ => id
theorem Fr.falls (F : Fr C p e d dE X ft En) (hf : ft → ft') : Fr C p e d dE X ft' En := F.mono (fun _ _ => id) hf fun _ => id

theorem Fr.ordered (F : Fr C p e d dE X ft En) : p ≤ e := by obtain ⟨_, _, _, F⟩ := F; exact F.chain.ordered

/-! ### Pieces -/

theorem Fr.skip : Fr C p p d d noLabs True (· = p) :=
  ⟨[], fun _ => False, [], .nil, fun j h => Or.inr ⟨h, rfl, trivial⟩, by simp, by simp, by simp, by simp, by simp, by simp, by simp, by simp, by omega⟩

/-- One instruction. -/
theorem Fr.one {n : Nd} (h : Typed C n) (hp : n.pos = p) (he : n.nxt = e) (hst : n.st = .norm d) (hh : n.heads = [])
    (hg : ∀ s ∈ n.succs, (s.1 = e ∧ s.2 = .norm dE ∧ ft) ∨ ∃ y, s.2 = .norm y ∧ X s.1 y)
    (hr : ∀ t ∈ n.refs, ∃ y, X t y) (hd : dE ≤ d + 1) : Fr C p e d dE X ft (· = p) := by
  subst hp
  subst he
  have hlt := h.lt
  refine ⟨[n], fun j => j = n.pos, [], .cons h .nil, ?_, ?_, ?_, ?_, ?_, by simp, by simp, by simp, ?_, by omega⟩
  · rintro j rfl
    exact Or.inl ⟨n, by simp, rfl, hst, rfl⟩
  · intro m hm _ s hs
    rw [List.mem_singleton.1 hm] at hs
    exact Or.inr (hg s hs)
  · intro m hm t ht
    rw [List.mem_singleton.1 hm] at ht
    exact Or.inr (hr t ht)
  · intro m hm t ht
    rw [List.mem_singleton.1 hm, hh] at ht
    cases ht
  · intro m hm _ s hs hle
    rw [List.mem_singleton.1 hm] at hs hle
    rcases hg s hs with ⟨h1, _⟩ | ⟨y, _, h⟩
    · omega
    · exact Or.inl ⟨y, h⟩
  · intro m hm
    rw [List.mem_singleton.1 hm, hst]
    simp [St.depth]

/-! ### One piece after the other -/

theorem Frag.norm_at (F : Frag C p e d dE X ft En hs Lv R) {j : Nat} (h : En j) {m : Nd} (hm : m ∈ hs) (hj : m.pos = j) : m.st = .norm d := by
  rcases F.entry j h with ⟨n, hn, h1, h2, _⟩ | ⟨h1, _⟩
  · rw [F.chain.pos_inj hm hn (hj.trans h1.symm)]; exact h2
  · have := F.chain.inside hm; omega

/-- Common part: `live` says when the second piece is entered. -/
theorem Frag.append {live : Prop} (F : Frag C p q d d' X ft En hs Lv R) (G : Frag C q e d' dE X ft' En' hs' Lv' R')
    (hout : ∀ j y, X j y → j ≤ p ∨ e ≤ j) (hl : ft → live) (hq : En' q) {E : Nat → Prop}
    (hE : ∀ j, E j → En j ∨ (En' j ∧ live ∧ d = d')) :
    Frag C p e d dE X (live ∧ ft') E (hs ++ hs') (fun i => (i < q ∧ Lv i) ∨ (q ≤ i ∧ live ∧ Lv' i)) (R ++ R') := by
  have o1 := F.chain.ordered
  have o2 := G.chain.ordered
  have i1 : ∀ n ∈ hs, p ≤ n.pos ∧ n.pos < q := fun n h => F.chain.inside h
  have i2 : ∀ n ∈ hs', q ≤ n.pos ∧ n.pos < e := fun n h => G.chain.inside h
  have l1 : ∀ n ∈ hs, ((n.pos < q ∧ Lv n.pos) ∨ (q ≤ n.pos ∧ live ∧ Lv' n.pos)) → Lv n.pos := fun n h hv => by
    have := i1 n h
    rcases hv with h | h
    · exact h.2
    · omega
  have l2 : ∀ n ∈ hs', ((n.pos < q ∧ Lv n.pos) ∨ (q ≤ n.pos ∧ live ∧ Lv' n.pos)) → live ∧ Lv' n.pos := fun n h hv => by
    have := i2 n h
    rcases hv with h | h
    · omega
    · exact h.2
  -- the second piece at its beginning
  have start : ft → (∃ m ∈ hs', m.pos = q ∧ m.st = .norm d' ∧ live ∧ Lv' q) ∨ (q = e ∧ d' = dE ∧ live ∧ ft') := fun h => by
    rcases G.entry q hq with ⟨m, g1, g2, g3, g4⟩ | ⟨g1, g2, g3⟩
    · exact Or.inl ⟨m, g1, g2, g3, hl h, g4⟩
    · exact Or.inr ⟨g1, g2, hl h, g3⟩
  -- where the instructions lead
  have s1 : ∀ n ∈ hs, Lv n.pos → ∀ s ∈ n.succs, (p ≤ s.1 ∧ s.1 ≤ q) ∨ ∃ y, X s.1 y := fun n hn hv s hs => by
    rcases F.go n hn hv s hs with ⟨m, hm, h, _⟩ | ⟨h, _⟩ | ⟨y, _, h⟩
    · have := i1 m hm; omega
    · omega
    · exact Or.inr ⟨y, h⟩
  have s2 : ∀ n ∈ hs', Lv' n.pos → ∀ s ∈ n.succs, q ≤ s.1 ∨ ∃ y, X s.1 y := fun n hn hv s hs => by
    rcases G.go n hn hv s hs with ⟨m, hm, h, _⟩ | ⟨h, _⟩ | ⟨y, _, h⟩
    · have := i2 m hm; omega
    · omega
    · exact Or.inr ⟨y, h⟩
  refine ⟨F.chain.append G.chain, ?_, ?_, ?_, ?_, ?_, ?_, ?_, ?_, ?_, ?_⟩
  · intro j hj
    rcases hE j hj with hj | ⟨hj, h1, rfl⟩
    · rcases F.entry j hj with ⟨m, g1, g2, g3, g4⟩ | ⟨rfl, rfl, g3⟩
      · have := i1 m g1
        exact Or.inl ⟨m, List.mem_append.2 (Or.inl g1), g2, g3, Or.inl ⟨by omega, g4⟩⟩
      · rcases start g3 with ⟨m, k1, k2, k3, k4, k5⟩ | ⟨k1, k2, k3⟩
        · exact Or.inl ⟨m, List.mem_append.2 (Or.inr k1), k2, k3, Or.inr ⟨by omega, k4, k5⟩⟩
        · exact Or.inr ⟨k1, k2, k3⟩
    · rcases G.entry j hj with ⟨m, g1, g2, g3, g4⟩ | ⟨g1, g2, g3⟩
      · have := i2 m g1
        exact Or.inl ⟨m, List.mem_append.2 (Or.inr g1), g2, g3, Or.inr ⟨by omega, h1, g4⟩⟩
      · exact Or.inr ⟨g1, g2, h1, g3⟩
  · intro n hn hv s hs
    rcases List.mem_append.1 hn with hn | hn
    · rcases F.go n hn (l1 n hn hv) s hs with ⟨m, hm, g1, g2, g3⟩ | ⟨g1, g2, g3⟩ | h
      · have := i1 m hm
        exact Or.inl ⟨m, List.mem_append.2 (Or.inl hm), g1, g2, Or.inl ⟨by omega, g3⟩⟩
      · rcases start g3 with ⟨m, k1, k2, k3, k4, k5⟩ | ⟨k1, k2, k3⟩
        · exact Or.inl ⟨m, List.mem_append.2 (Or.inr k1), by omega, by rw [k3, g2], Or.inr ⟨by omega, k4, by rw [g1]; exact k5⟩⟩
        · exact Or.inr (Or.inl ⟨by omega, by rw [g2, k2], k3⟩)
      · exact Or.inr (Or.inr h)
    · obtain ⟨hv1, hv2⟩ := l2 n hn hv
      rcases G.go n hn hv2 s hs with ⟨m, hm, g1, g2, g3⟩ | ⟨g1, g2, g3⟩ | h
      · have := i2 m hm
        exact Or.inl ⟨m, List.mem_append.2 (Or.inr hm), g1, g2, Or.inr ⟨by omega, hv1, g3⟩⟩
      · exact Or.inr (Or.inl ⟨g1, g2, hv1, g3⟩)
      · exact Or.inr (Or.inr h)
  · intro n hn t ht
    rcases List.mem_append.1 hn with hn | hn
    · rcases F.refs n hn t ht with ⟨h1, h2, h3⟩ | h
      · refine Or.inl ⟨h1, by omega, fun m hm hmt => ?_⟩
        rcases List.mem_append.1 hm with hm | hm
        · exact h3 m hm hmt
        · have := i2 m hm
          exact ⟨d', G.norm_at hq hm (by omega)⟩
      · exact Or.inr h
    · rcases G.refs n hn t ht with ⟨h1, h2, h3⟩ | h
      · refine Or.inl ⟨by omega, h2, fun m hm hmt => ?_⟩
        rcases List.mem_append.1 hm with hm | hm
        · have := i1 m hm; omega
        · exact h3 m hm hmt
      · exact Or.inr h
  · intro n hn t ht
    rcases List.mem_append.1 hn with hn | hn
    · obtain ⟨m, hm, h⟩ := F.heads n hn t ht
      exact ⟨m, List.mem_append.2 (Or.inl hm), h⟩
    · obtain ⟨m, hm, h⟩ := G.heads n hn t ht
      exact ⟨m, List.mem_append.2 (Or.inr hm), h⟩
  · intro n hn hv s hs hle
    rcases List.mem_append.1 hn with hn | hn
    · rcases F.back n hn (l1 n hn hv) s hs hle with h | ⟨x, h1, h2⟩
      · exact Or.inl h
      · exact Or.inr ⟨x, List.mem_append.2 (Or.inl h1), h2⟩
    · rcases G.back n hn (l2 n hn hv).2 s hs hle with h | ⟨x, h1, h2⟩
      · exact Or.inl h
      · exact Or.inr ⟨x, List.mem_append.2 (Or.inr h1), h2⟩
  · intro r hr n hn hv hout' s hs a1 a2
    rcases List.mem_append.1 hr with hr | hr <;> rcases List.mem_append.1 hn with hn | hn
    · exact F.single r hr n hn (l1 n hn hv) hout' s hs a1 a2
    · have := F.regions r hr
      rcases s2 n hn (l2 n hn hv).2 s hs with h | ⟨y, h⟩
      · omega
      · have := hout _ _ h; omega
    · have := G.regions r hr
      rcases s1 n hn (l1 n hn hv) s hs with h | ⟨y, h⟩
      · omega
      · have := hout _ _ h; omega
    · exact G.single r hr n hn (l2 n hn hv).2 hout' s hs a1 a2
  · intro r hr
    rcases List.mem_append.1 hr with hr | hr
    · have := F.regions r hr; omega
    · have := G.regions r hr; omega
  · intro j hj r hr a1 a2
    rcases hE j hj with hj | ⟨hj, _, _⟩ <;> rcases List.mem_append.1 hr with hr | hr
    · exact F.apart j hj r hr a1 a2
    · have := F.entries hj
      have := G.regions r hr
      omega
    · have := G.entries hj
      have := F.regions r hr
      omega
    · exact G.apart j hj r hr a1 a2
  · intro n hn
    have := F.deep
    rcases List.mem_append.1 hn with hn | hn
    · exact F.depth n hn
    · have := G.depth n hn
      have := i2 n hn
      omega
  · have := F.deep
    have := G.deep
    omega

theorem Fr.seq (F : Fr C p q d d' X ft En) (G : Fr C q e d' dE X ft' En') (hout : ∀ j y, X j y → j ≤ p ∨ e ≤ j) (hq : En' q) :
    Fr C p e d dE X (ft ∧ ft') En := by
  obtain ⟨_, _, _, F⟩ := F
  obtain ⟨_, _, _, G⟩ := G
  exact ⟨_, _, _, F.append G hout id hq fun _ => Or.inl⟩

/-- The second piece is entered from elsewhere, too. -/
theorem Fr.alt (F : Fr C p q d d X ft En) (G : Fr C q e d dE X ft' En') (hout : ∀ j y, X j y → j ≤ p ∨ e ≤ j) (hq : En' q) :
    Fr C p e d dE X ft' (fun j => En j ∨ En' j) := by
  obtain ⟨_, _, _, F⟩ := F
  obtain ⟨_, _, _, G⟩ := G
  have := F.append (live := True) G hout (fun _ => trivial) hq (E := fun j => En j ∨ En' j) (by
    rintro j (h | h)
    · exact Or.inl h
    · exact Or.inr ⟨h, trivial, rfl⟩)
  exact ⟨_, _, _, by simpa only [true_and] using this⟩

/-! ### Labels -/

/-- A label at the end. -/
theorem Fr.endLabel {u : Prop} (F : Fr C p e d dE (fun j y => X j y ∨ (j = e ∧ y = dE ∧ u)) ft En) : Fr C p e d dE X (ft ∨ u) En := by
  obtain ⟨hs, Lv, R, F⟩ := F
  have o1 := F.chain.ordered
  refine ⟨hs, Lv, R, F.chain, ?_, ?_, ?_, F.heads, ?_, F.single, F.regions, F.apart, F.depth, F.deep⟩
  · intro j hj
    rcases F.entry j hj with h | ⟨h1, h2, h3⟩
    · exact Or.inl h
    · exact Or.inr ⟨h1, h2, Or.inl h3⟩
  · intro n hn hl s hs
    rcases F.go n hn hl s hs with h | ⟨h1, h2, h3⟩ | ⟨y, h1, h2 | ⟨h2, h3, h4⟩⟩
    · exact Or.inl h
    · exact Or.inr (Or.inl ⟨h1, h2, Or.inl h3⟩)
    · exact Or.inr (Or.inr ⟨y, h1, h2⟩)
    · exact Or.inr (Or.inl ⟨h2, by rw [h1, h3], Or.inr h4⟩)
  · intro n hn t ht
    rcases F.refs n hn t ht with h | ⟨y, h | ⟨h, _⟩⟩
    · exact Or.inl h
    · exact Or.inr ⟨y, h⟩
    · refine Or.inl ⟨by omega, by omega, fun m hm hmt => ?_⟩
      have := F.chain.inside hm
      omega
  · intro n hn hl s hs hle
    rcases F.back n hn hl s hs hle with ⟨y, h | ⟨h, _⟩⟩ | h
    · exact Or.inl ⟨y, h⟩
    · have := F.chain.inside hn
      omega
    · exact Or.inr h

/-- A label at the beginning. -/
theorem Fr.topLabel (F : Fr C p e d dE (fun j y => X j y ∨ (j = p ∧ y = d)) ft (· = p)) : Fr C p e d dE X ft (· = p) := by
  obtain ⟨hs, Lv, R, F⟩ := F
  have o1 := F.chain.ordered
  refine ⟨hs, Lv, (p, e) :: R, F.chain, F.entry, ?_, ?_, F.heads, ?_, ?_, ?_, ?_, F.depth, F.deep⟩
  · intro n hn hl s hs
    rcases F.go n hn hl s hs with h | h | ⟨y, h1, h2 | ⟨h2, h3⟩⟩
    · exact Or.inl h
    · exact Or.inr (Or.inl h)
    · exact Or.inr (Or.inr ⟨y, h1, h2⟩)
    · rcases F.entry p rfl with ⟨m, g1, g2, g3, g4⟩ | ⟨g1, _⟩
      · exact Or.inl ⟨m, g1, by omega, by rw [g3, h1, h3], by rw [h2]; exact g4⟩
      · have := F.chain.inside hn
        omega
  · intro n hn t ht
    rcases F.refs n hn t ht with h | ⟨y, h | ⟨h, _⟩⟩
    · exact Or.inl h
    · exact Or.inr ⟨y, h⟩
    · exact Or.inl ⟨by omega, by omega, fun m hm hmt => ⟨d, F.norm_at rfl hm (by omega)⟩⟩
  · intro n hn hl s hs hle
    rcases F.back n hn hl s hs hle with ⟨y, h | ⟨h, _⟩⟩ | ⟨x, h1, h2⟩
    · exact Or.inl ⟨y, h⟩
    · have := F.chain.inside hn
      exact Or.inr ⟨e, by rw [h]; simp, by omega⟩
    · exact Or.inr ⟨x, by simp [h1], h2⟩
  · intro r hr n hn hl hout s hs a1 a2
    rcases List.mem_cons.1 hr with rfl | hr
    · exact absurd (F.chain.inside hn) hout
    · exact F.single r hr n hn hl hout s hs a1 a2
  · intro r hr
    rcases List.mem_cons.1 hr with rfl | hr
    · exact ⟨Nat.le_refl _, Nat.le_refl _⟩
    · exact F.regions r hr
  · intro j hj r hr a1 a2
    rcases List.mem_cons.1 hr with rfl | hr
    · exact hj
    · exact F.apart j hj r hr a1 a2

/-! ### Calls -/

/-- The number of arguments is pushed and the function is called. -/
theorem Fr.call {n t : Nat} (h0 : C.code[p]? = some 39) (h1 : C.code[p + 1]? = some (BitVec.ofNat 32 n)) (hn : n < 2147483647)
    (h2 : C.code[p + 2]? = some 49) (h3 : C.code[p + 3]? = some (ofs t)) (ht : t < 536870912) (h4 : C.code[t]? = some 46) :
    Fr C p (p + 4) (d + n) d noLabs True (· = p) := by
  have T1 : Typed C ⟨p, .norm (d + n), p + 2, [], [(p + 2, .arg (d + n + 1) n)], []⟩ := .pushC h0 h1
  have T2 : Typed C ⟨p + 2, .arg (d + n + 1) n, p + 4, [], [(p + 4, .norm (d + n + 1 - (n + 1)))], []⟩ := .call h0 h1 hn h2 h3 ht h4 (by omega)
  refine ⟨[_, _], fun _ => True, [], .cons T1 (.cons T2 .nil), ?_, ?_, by simp, by simp, ?_, by simp, by simp, by simp, ?_, by omega⟩
  · rintro j rfl
    exact Or.inl ⟨_, List.mem_cons_self, rfl, rfl, trivial⟩
  · intro m hm _ s hs
    simp only [List.mem_cons, List.not_mem_nil, or_false] at hm
    rcases hm with rfl | rfl
    · simp only [List.mem_cons, List.not_mem_nil, or_false] at hs
      subst hs
      exact Or.inl ⟨_, List.mem_cons_of_mem _ List.mem_cons_self, rfl, rfl, trivial⟩
    · simp only [List.mem_cons, List.not_mem_nil, or_false] at hs
      subst hs
      exact Or.inr (Or.inl ⟨rfl, by simp only; congr 1; omega, trivial⟩)
  · intro m hm _ s hs hle
    simp only [List.mem_cons, List.not_mem_nil, or_false] at hm
    rcases hm with rfl | rfl <;> simp only [List.mem_cons, List.not_mem_nil, or_false] at hs <;> subst hs <;> simp only at hle <;> omega
  · intro m hm
    simp only [List.mem_cons, List.not_mem_nil, or_false] at hm
    rcases hm with rfl | rfl <;> simp only [St.depth] <;> omega

/-! ### Switches -/

/-- SWITCH, the cases, and the table, whose end is the end of the switch. -/
theorem Fr.switch {tbl dflt : Nat} {cs : List Nat} {u : Prop} (h1 : C.code[p]? = some 129) (h2 : C.code[p + 1]? = some (ofs tbl)) (ht : Tbl C.code tbl dflt cs)
    (F : Fr C (p + 2) tbl d d (fun j y => X j y ∨ (j = tbl + 3 + 2 * cs.length ∧ y = d ∧ u)) ft En)
    (hout : ∀ j y, X j y → j ≤ p ∨ tbl + 3 + 2 * cs.length ≤ j)
    (ht' : ∀ t ∈ dflt :: cs, En t ∨ (t = tbl + 3 + 2 * cs.length ∧ u)) :
    Fr C p (tbl + 3 + 2 * cs.length) d d X (ft ∨ u) (· = p) := by
  obtain ⟨hs, Lv, R, F⟩ := F
  have o1 := F.chain.ordered
  have T1 : Typed C ⟨p, .norm d, p + 2, [], (dflt :: cs).map (·, .norm d), [tbl]⟩ := .switch h1 h2 ht
  have T2 : Typed C ⟨tbl, .norm d, tbl + 3 + 2 * cs.length, dflt :: cs, [(tbl + 3 + 2 * cs.length, .norm d)], []⟩ := .table ht
  have i1 : ∀ n ∈ hs, p + 2 ≤ n.pos ∧ n.pos < tbl := fun n h => F.chain.inside h
  have hdE : ∀ j, En j → p + 2 ≤ j ∧ j ≤ tbl := fun j h => F.entries h
  let N1 : Nd := ⟨p, .norm d, p + 2, [], (dflt :: cs).map (·, .norm d), [tbl]⟩
  let N2 : Nd := ⟨tbl, .norm d, tbl + 3 + 2 * cs.length, dflt :: cs, [(tbl + 3 + 2 * cs.length, .norm d)], []⟩
  let V : Nat → Prop := fun i => i = p ∨ (p < i ∧ i < tbl ∧ Lv i) ∨ (i = tbl ∧ ft)
  have mem : ∀ m, m ∈ N1 :: (hs ++ [N2]) → m = N1 ∨ m ∈ hs ∨ m = N2 := fun m hm => by simpa using hm
  have m1 : N1 ∈ N1 :: (hs ++ [N2]) := by simp
  have m2 : N2 ∈ N1 :: (hs ++ [N2]) := by simp
  have m3 : ∀ m ∈ hs, m ∈ N1 :: (hs ++ [N2]) := fun m hm => by simp [hm]
  have lv : ∀ n ∈ hs, V n.pos → Lv n.pos := fun n hn h => by
    have := i1 n hn
    rcases h with h | h | h
    · omega
    · exact h.2.2
    · omega
  have succ1 : ∀ s ∈ N1.succs, ∃ t ∈ dflt :: cs, s = (t, .norm d) := fun s hs => by
    obtain ⟨t, h1, h2⟩ := List.mem_map.1 hs
    exact ⟨t, h1, h2.symm⟩
  have succ2 : ∀ s ∈ N2.succs, s = (tbl + 3 + 2 * cs.length, .norm d) := fun s hs => List.mem_singleton.1 hs
  have step : ∀ j, En j → ∃ m ∈ N1 :: (hs ++ [N2]), m.pos = j ∧ m.st = .norm d ∧ V j := fun j hj => by
    rcases F.entry j hj with ⟨m, g1, g2, g3, g4⟩ | ⟨g1, _, g3⟩
    · have := i1 m g1
      exact ⟨m, m3 m g1, g2, g3, Or.inr (Or.inl ⟨by omega, by omega, g4⟩)⟩
    · exact ⟨N2, m2, g1.symm, rfl, Or.inr (Or.inr ⟨g1, g3⟩)⟩
  have go : ∀ n ∈ hs, V n.pos → ∀ s ∈ n.succs, (p + 2 ≤ s.1 ∧ s.1 ≤ tbl) ∨ (s.1 = tbl + 3 + 2 * cs.length) ∨ ∃ y, X s.1 y := fun n hn hv s hs => by
    rcases F.go n hn (lv n hn hv) s hs with ⟨m, hm, h, _⟩ | ⟨h, _⟩ | ⟨y, _, h | ⟨h, _⟩⟩
    · have := i1 m hm; omega
    · omega
    · exact Or.inr (Or.inr ⟨y, h⟩)
    · omega
  refine ⟨N1 :: (hs ++ [N2]), V, R, .cons T1 (F.chain.append (.cons T2 .nil)), ?_, ?_, ?_, ?_, ?_, ?_, ?_, ?_, ?_, by omega⟩
  · rintro j rfl
    exact Or.inl ⟨N1, m1, rfl, rfl, Or.inl rfl⟩
  · intro n hn hv s hs
    rcases mem n hn with rfl | hn | rfl
    · obtain ⟨t, ht1, rfl⟩ := succ1 s hs
      rcases ht' t ht1 with h | ⟨h, hu⟩
      · exact Or.inl (step t h)
      · exact Or.inr (Or.inl ⟨h, rfl, Or.inr hu⟩)
    · rcases F.go n hn (lv n hn hv) s hs with ⟨m, hm, g1, g2, g3⟩ | ⟨g1, g2, g3⟩ | ⟨y, g1, g2 | ⟨g2, g3, g4⟩⟩
      · have := i1 m hm
        exact Or.inl ⟨m, m3 m hm, g1, g2, Or.inr (Or.inl ⟨by omega, by omega, g3⟩)⟩
      · exact Or.inl ⟨N2, m2, g1.symm, g2.symm, Or.inr (Or.inr ⟨g1, g3⟩)⟩
      · exact Or.inr (Or.inr ⟨y, g1, g2⟩)
      · exact Or.inr (Or.inl ⟨g2, by rw [g1, g3], Or.inr g4⟩)
    · rw [succ2 s hs]
      rcases hv with h | h | h
      · exact absurd h (by show tbl ≠ p; omega)
      · exact absurd h.2.1 (by show ¬ tbl < tbl; omega)
      · exact Or.inr (Or.inl ⟨rfl, rfl, Or.inl h.2⟩)
  · have norm : ∀ t, En t → ∀ m ∈ N1 :: (hs ++ [N2]), m.pos = t → ∃ y, m.st = .norm y := fun t h m hm hmt => by
      rcases mem m hm with rfl | hm | rfl
      · exact ⟨d, rfl⟩
      · exact ⟨d, F.norm_at h hm hmt⟩
      · exact ⟨d, rfl⟩
    intro n hn t ht2
    rcases mem n hn with rfl | hn | rfl
    · cases ht2
    · rcases F.refs n hn t ht2 with ⟨h1, h2, h3⟩ | ⟨y, h | ⟨h, _⟩⟩
      · refine Or.inl ⟨by omega, by omega, fun m hm hmt => ?_⟩
        rcases mem m hm with rfl | hm | rfl
        · exact ⟨d, rfl⟩
        · exact h3 m hm hmt
        · exact ⟨d, rfl⟩
      · exact Or.inr ⟨y, h⟩
      · refine Or.inl ⟨by omega, by omega, fun m hm hmt => ?_⟩
        rcases mem m hm with rfl | hm | rfl
        · exact ⟨d, rfl⟩
        · have := i1 m hm; omega
        · exact ⟨d, rfl⟩
    · rcases ht' t ht2 with h | ⟨h, _⟩
      · have := hdE t h
        exact Or.inl ⟨by omega, by omega, norm t h⟩
      · refine Or.inl ⟨by omega, by omega, fun m hm hmt => ?_⟩
        rcases mem m hm with rfl | hm | rfl
        · exact ⟨d, rfl⟩
        · have := i1 m hm; omega
        · exact ⟨d, rfl⟩
  · intro n hn t ht2
    rcases mem n hn with rfl | hn | rfl
    · have : t = tbl := List.mem_singleton.1 ht2
      subst this
      refine ⟨N2, m2, rfl, fun s hs => ?_⟩
      obtain ⟨t', h, rfl⟩ := succ1 s hs
      exact h
    · obtain ⟨m, hm, h⟩ := F.heads n hn t ht2
      exact ⟨m, m3 m hm, h⟩
    · cases ht2
  · intro n hn hv s hs hle
    rcases mem n hn with rfl | hn | rfl
    · obtain ⟨t, ht1, rfl⟩ := succ1 s hs
      have hle : t ≤ p := hle
      rcases ht' t ht1 with h | ⟨h, hu⟩
      · have := hdE t h; omega
      · omega
    · rcases F.back n hn (lv n hn hv) s hs hle with ⟨y, h | ⟨h, _⟩⟩ | h
      · exact Or.inl ⟨y, h⟩
      · have := i1 n hn; omega
      · exact Or.inr h
    · rw [succ2 s hs] at hle
      have hle : tbl + 3 + 2 * cs.length ≤ tbl := hle
      omega
  · intro r hr n hn hv hout' s hs a1 a2
    have hr' := F.regions r hr
    rcases mem n hn with rfl | hn | rfl
    · obtain ⟨t, ht1, rfl⟩ := succ1 s hs
      have a1 : r.1 ≤ t := a1
      have a2 : t < r.2 := a2
      show t = r.1
      rcases ht' t ht1 with h | ⟨h, hu⟩
      · exact F.apart t h r hr a1 a2
      · omega
    · exact F.single r hr n hn (lv n hn hv) hout' s hs a1 a2
    · rw [succ2 s hs] at a1 a2
      have a2 : tbl + 3 + 2 * cs.length < r.2 := a2
      omega
  · intro r hr
    have := F.regions r hr
    omega
  · rintro j rfl r hr a1 a2
    have := F.regions r hr
    omega
  · intro n hn
    rcases mem n hn with rfl | hn | rfl
    · show d ≤ _; omega
    · have := F.depth n hn
      have := i1 n hn
      omega
    · show d ≤ _; omega

/-! ### A whole function -/

theorem Fr.cert {start stop : Nat} (F : Fr C (start + 1) stop 0 0 noLabs False (· = start + 1)) (h1 : C.code[start]? = some 46) (h2 : C.code[stop]? = some 166)
    (h3 : C.code.length < 536870912) : ∃ ns Lv R, Cert C start stop ns Lv R := by
  obtain ⟨hs, Lv, R, F⟩ := F
  have hl := len_of h2
  have he : ∃ m ∈ hs, m.pos = start + 1 ∧ m.st = .norm 0 ∧ Lv (start + 1) := by
    rcases F.entry _ rfl with h | ⟨_, _, h⟩
    · exact h
    · exact h.elim
  obtain ⟨m, e1, e2, e3, e4⟩ := he
  refine ⟨hs, Lv, R, h1, h2, h3, F.chain, ⟨m, e1, e2, e3⟩, e4, ?_, ?_, F.heads, ?_, F.single, ?_⟩
  · intro n hn hv s hs
    rcases F.go n hn hv s hs with h | ⟨_, _, h⟩ | ⟨_, _, h⟩
    · exact h
    · exact h.elim
    · exact h.elim
  · intro n hn t ht
    rcases F.refs n hn t ht with ⟨a, b, c⟩ | ⟨_, h⟩
    · exact ⟨by omega, by omega, c⟩
    · exact h.elim
  · intro n hn hv s hs hle
    rcases F.back n hn hv s hs hle with ⟨_, h⟩ | h
    · exact h.elim
    · exact h
  · intro n hn
    have := F.depth n hn
    have := F.chain.inside hn
    unfold top
    omega

end Verif.Verifier

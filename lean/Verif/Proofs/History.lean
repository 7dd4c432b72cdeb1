import Verif.Proofs.Mem

/-! The invariant behind C01, C04, C05: every live bookkeeping record is still intact in memory. -/
namespace Verif.VM

/-- What a history may start from. -/
structure Base (b : State) : Prop where
  lay : Layout b
  frm : -2147483648 ≤ b.frm ∧ b.frm < 2147483648
  scope : b.hpScope = -1 ∨ (0 ≤ b.hpScope ∧ b.hpScope < b.hp)

def WF (b : State) (m : Int → BitVec 8) : Int → Int → Int → Int → List Link → Prop
  | hp, sp, frm, sc, [] => frm = b.frm ∧ sc = b.hpScope ∧ b.hp ≤ hp ∧ sp ≤ b.sp
  | hp, sp, frm, sc, .frame sp0 n frm0 hp0 sc0 :: g =>
      (frm = sp0 - 8 ∧ sp ≤ sp0 - 8 ∧ sc = sc0 ∧ hp0 + 4 ≤ hp ∧ 0 ≤ n) ∧
      ((rd32 m sp0).toInt = n ∧ (rd32 m (sp0-4)).toInt = frm0 ∧ (rd32 m (sp0-8)).toInt = hp0 ∧
       (rd32 m hp0).toInt = sc0) ∧
      sp0 + 4 + 4 * n ≤ spLimit b.sp g ∧ WF b m hp0 sp0 frm0 sc0 g
  | hp, sp, frm, sc, .scope a sc0 :: g =>
      (sc = a ∧ a + 4 ≤ hp) ∧ (rd32 m a).toInt = sc0 ∧ WF b m a sp frm sc0 g

theorem WF.limits {b m} : ∀ {g hp sp frm sc}, WF b m hp sp frm sc g →
    sp ≤ spLimit b.sp g ∧ hpLimit b.hp g ≤ hp ∧ b.hp ≤ hpLimit b.hp g ∧ spLimit b.sp g ≤ b.sp
  | [], hp, sp, frm, sc, h => by simp only [WF, spLimit, hpLimit] at *; omega
  | .frame .. :: g, hp, sp, frm, sc, h => by
      obtain ⟨h1, _, h3, h4⟩ := h
      have := h4.limits
      simp only [spLimit, hpLimit]; omega
  | .scope .. :: g, hp, sp, frm, sc, h => by
      obtain ⟨h1, _, h4⟩ := h
      have := h4.limits
      simp only [spLimit, hpLimit]; omega

theorem WF.change {b m} : ∀ {g hp sp frm sc hp' sp'}, WF b m hp sp frm sc g →
    hpLimit b.hp g ≤ hp' → sp' ≤ spLimit b.sp g → WF b m hp' sp' frm sc g
  | [], hp, sp, frm, sc, hp', sp', h, h1, h2 => by simp only [WF, spLimit, hpLimit] at *; omega
  | .frame .. :: g, hp, sp, frm, sc, hp', sp', h, h1, h2 => by
      obtain ⟨k1, k2, k3, k4⟩ := h
      simp only [spLimit, hpLimit] at h1 h2
      exact ⟨⟨by omega, by omega, by omega, by omega, by omega⟩, k2, k3, k4⟩
  | .scope .. :: g, hp, sp, frm, sc, hp', sp', h, h1, h2 => by
      obtain ⟨k1, k2, k4⟩ := h
      simp only [spLimit, hpLimit] at h1 h2
      exact ⟨⟨by omega, by omega⟩, k2, k4.change (k4.limits).2.1 h2⟩

theorem WF.mem {b m m'} : ∀ {g hp sp frm sc}, WF b m hp sp frm sc g →
    (∀ l ∈ g, ∀ c ∈ l.cells, rd32 m' c = rd32 m c) → WF b m' hp sp frm sc g
  | [], hp, sp, frm, sc, h, _ => by simp only [WF] at *; omega
  | .frame sp0 n frm0 hp0 sc0 :: g, hp, sp, frm, sc, h, e => by
      obtain ⟨k1, k2, k3, k4⟩ := h
      have e0 := e (.frame sp0 n frm0 hp0 sc0) (by simp)
      simp only [Link.cells, List.mem_cons, List.not_mem_nil, or_false, forall_eq_or_imp,
        forall_eq] at e0
      obtain ⟨e1, e2, e3, e4⟩ := e0
      refine ⟨k1, ?_, k3, k4.mem (fun l hl => e l (by simp [hl]))⟩
      rw [e1, e2, e3, e4]; exact k2
  | .scope a sc0 :: g, hp, sp, frm, sc, h, e => by
      obtain ⟨k1, k2, k4⟩ := h
      have e0 := e (.scope a sc0) (by simp) a (by simp [Link.cells])
      refine ⟨k1, ?_, k4.mem (fun l hl => e l (by simp [hl]))⟩
      rw [e0]; exact k2

theorem WF.cells {b m} : ∀ {g hp sp frm sc}, WF b m hp sp frm sc g →
    ∀ l ∈ g, ∀ c ∈ l.cells, (b.hp ≤ c ∧ c + 4 ≤ hp) ∨ (sp ≤ c ∧ c + 4 ≤ b.sp)
  | [], hp, sp, frm, sc, h => by simp
  | .frame sp0 n frm0 hp0 sc0 :: g, hp, sp, frm, sc, h => by
      obtain ⟨k1, k2, k3, k4⟩ := h
      intro l hl c hc
      have lim := k4.limits
      rcases List.mem_cons.1 hl with rfl | hl
      · simp only [Link.cells, List.mem_cons, List.not_mem_nil, or_false] at hc
        omega
      · have := k4.cells l hl c hc
        omega
  | .scope a sc0 :: g, hp, sp, frm, sc, h => by
      obtain ⟨k1, k2, k4⟩ := h
      intro l hl c hc
      have lim := k4.limits
      rcases List.mem_cons.1 hl with rfl | hl
      · simp only [Link.cells, List.mem_cons, List.not_mem_nil, or_false] at hc
        omega
      · have := k4.cells l hl c hc
        omega

theorem WF.sc_range {b m} : ∀ {g hp sp frm sc}, WF b m hp sp frm sc g →
    sc = b.hpScope ∨ (b.hp ≤ sc ∧ sc + 4 ≤ hp)
  | [], hp, sp, frm, sc, h => by simp only [WF] at h; omega
  | .frame sp0 n frm0 hp0 sc0 :: g, hp, sp, frm, sc, h => by
      obtain ⟨k1, k2, k3, k4⟩ := h
      have := k4.sc_range
      omega
  | .scope a sc0 :: g, hp, sp, frm, sc, h => by
      obtain ⟨k1, k2, k4⟩ := h
      have lim := k4.limits
      omega

theorem WF.frm_range {b m} : ∀ {g hp sp frm sc}, WF b m hp sp frm sc g →
    frm = b.frm ∨ (sp ≤ frm ∧ frm + 12 ≤ b.sp)
  | [], hp, sp, frm, sc, h => by simp only [WF] at h; omega
  | .frame sp0 n frm0 hp0 sc0 :: g, hp, sp, frm, sc, h => by
      obtain ⟨k1, k2, k3, k4⟩ := h
      have lim := k4.limits
      omega
  | .scope a sc0 :: g, hp, sp, frm, sc, h => by
      obtain ⟨k1, k2, k4⟩ := h
      exact k4.frm_range

theorem WF.toFrame {b m} : ∀ {g hp sp frm sc}, WF b m hp sp frm sc g →
    ∃ sc', WF b m hp sp frm sc' (toFrame g)
  | [], hp, sp, frm, sc, h => ⟨sc, h⟩
  | .frame .. :: g, hp, sp, frm, sc, h => ⟨sc, h⟩
  | .scope a sc0 :: g, hp, sp, frm, sc, h => by
      obtain ⟨k1, k2, k4⟩ := h
      have lim := k4.limits
      have : WF b m hp sp frm sc0 g := k4.change (by omega) (by omega)
      exact this.toFrame

/-- The full invariant on states. -/
structure Good (b s : State) (g : List Link) : Prop where
  lay : Layout s
  blk : SameBlock b s
  wf : WF b s.mem s.hp s.sp s.frm s.hpScope g

/-- The outcome of a legal operation. -/
def GoodOut (b : State) (g' : List Link) : Res State Unit → Prop
  | .ok s' _ => Good b s' g'
  | .fail s' _ => Layout s' ∧ SameBlock b s'
  | .ub => False

theorem bind_ok {α β : Type} {x : VMM α} {f : α → VMM β} {s s' : State} {a : α}
    (h : x s = .ok s' a) : (x >>= f) s = f a s' := by
  show VMM.bind x f s = _
  unfold VMM.bind; rw [h]

theorem bind_fail {α β : Type} {x : VMM α} {f : α → VMM β} {s s' : State} {e : Err}
    (h : x s = .fail s' e) : (x >>= f) s = .fail s' e := by
  show VMM.bind x f s = _
  unfold VMM.bind; rw [h]

theorem bind_ub {α β : Type} {x : VMM α} {f : α → VMM β} {s : State}
    (h : x s = .ub) : (x >>= f) s = .ub := by
  show VMM.bind x f s = _
  unfold VMM.bind; rw [h]

theorem pure_def {α : Type} {a : α} {s : State} : (pure a : VMM α) s = .ok s a := rfl

/-- pushStack under the layout invariant. -/
theorem pushStack_cases {s : State} (L : Layout s) (v : Cell) :
    (s.sp ≤ s.hp + 4 ∧ pushStack v s = .fail s .stackLow) ∨
    (s.hp + 4 < s.sp ∧
      pushStack v s = .ok { s with mem := wr32 s.mem (s.sp - 4) v, sp := s.sp - 4 } ()) := by
  obtain ⟨l1, l2, l3, l4, l5, l6⟩ := L
  unfold pushStack
  rw [wrap32_id (x := s.sp - 4) (by omega) (by omega)]
  by_cases h : s.hp + 4 < 2147483648
  · rw [wrap32_id (x := s.hp + 4) (by omega) (by omega)]
    by_cases k : s.sp ≤ s.hp + 4
    · left; rw [if_pos k]; exact ⟨k, rfl⟩
    · right; rw [if_neg k]
      refine ⟨by omega, ?_⟩
      unfold storeRaw
      rw [if_pos ⟨by somega, by somega⟩]
  · omega

theorem popStack_cases {s : State} (L : Layout s) :
    (s.stp ≤ s.sp ∧ popStack s = .fail s .stackMin) ∨
    (s.sp < s.stp ∧ popStack s = .ok { s with sp := s.sp + 4 } (rd32 s.mem s.sp)) := by
  obtain ⟨l1, l2, l3, l4, l5, l6⟩ := L
  unfold popStack
  by_cases k : s.sp ≥ s.stp
  · left; rw [if_pos k]; exact ⟨k, rfl⟩
  · right; rw [if_neg k]
    refine ⟨by omega, ?_⟩
    unfold loadRaw
    rw [if_pos ⟨by omega, by omega⟩]
    simp only [wrap32_id (x := s.sp + 4) (by omega) (by omega)]

theorem heapAlloc_cases {s : State} (L : Layout s) {n : Int} (h1 : -2147483648 ≤ n)
    (h2 : s.hp + n + 64 < 2147483648) :
    ((n < 0 ∧ s.hp + n < s.dataSize ∧ heapAlloc n s = .fail s .heapMin) ∨
     (n ≥ 0 ∧ s.hp + n + 64 > s.sp ∧ heapAlloc n s = .fail s .heapLow)) ∨
    (s.dataSize ≤ s.hp + n ∧ (0 ≤ n → s.hp + n + 64 ≤ s.sp) ∧
      heapAlloc n s = .ok { s with hp := s.hp + n } s.hp) := by
  obtain ⟨l1, l2, l3, l4, l5, l6⟩ := L
  unfold heapAlloc
  rw [wrap32_id (x := s.hp + n) (by omega) (by omega)]
  simp only [stackMargin]
  by_cases hn : n < 0
  · rw [if_pos hn]
    by_cases k : s.hp + n < s.dataSize
    · left; left; rw [if_pos k]; exact ⟨hn, k, rfl⟩
    · right; rw [if_neg k]; exact ⟨by omega, by omega, rfl⟩
  · rw [if_neg hn]
    simp only [wrap32_id (x := s.hp + n + 64) (by omega) (by omega)]
    by_cases k : s.hp + n + 64 > s.sp
    · left; right; rw [if_pos k]; exact ⟨by omega, k, rfl⟩
    · right; rw [if_neg k]; exact ⟨by omega, by omega, rfl⟩

theorem throw_ok {s : State} {a : Int} (h0 : 0 ≤ a) (h1 : a < s.hp ∨ s.sp ≤ a) (h2 : a < s.stp) :
    throwIfBadAddress a s = .ok s a := by
  unfold throwIfBadAddress
  rw [if_neg (by omega)]

theorem throw_fail {s : State} {a : Int} (h : a < 0 ∨ (s.hp ≤ a ∧ a < s.sp) ∨ s.stp ≤ a) :
    throwIfBadAddress a s = .fail s .invalidAddress := by
  unfold throwIfBadAddress
  rw [if_pos (by omega)]

theorem loadRaw_ok {s : State} {a : Int} (h : s.inMem a 4) : loadRaw a s = .ok s (rd32 s.mem a) := by
  unfold loadRaw; rw [if_pos h]

theorem storeRaw_ok {s : State} {a : Int} {v : Cell} (h : s.inMem a 4) :
    storeRaw a v s = .ok { s with mem := wr32 s.mem a v } () := by
  unfold storeRaw; rw [if_pos h]

theorem good_push {b s g} (G : Good b s g) (v : Cell) : GoodOut b g (pushStack v s) := by
  obtain ⟨L, B, W⟩ := G
  rcases pushStack_cases L v with ⟨_, h⟩ | ⟨h0, h⟩ <;> rw [h]
  · exact ⟨L, B⟩
  · obtain ⟨l1, l2, l3, l4, l5, l6⟩ := L
    have lim := W.limits
    refine ⟨⟨l1, l2, ?_, ?_, l5, l6⟩, ⟨B.1, B.2, B.3, B.4, B.5⟩, ?_⟩
    · somega
    · somega
    · refine (W.mem ?_).change lim.2.1 (by somega)
      intro l hl c hc
      have := W.cells l hl c hc
      exact rd32_wr32_disj (by omega)

theorem good_pop {b s g} (Bb : Base b) (G : Good b s g) (h : s.sp + 4 ≤ spLimit b.sp g) :
    GoodOut b g (Op.exec .pop s) := by
  obtain ⟨L, B, W⟩ := G
  show GoodOut b g ((popStack >>= fun _ => pure ()) s)
  rcases popStack_cases L with ⟨_, e⟩ | ⟨h0, e⟩
  · rw [bind_fail e]; exact ⟨L, B⟩
  · rw [bind_ok e, pure_def]
    obtain ⟨l1, l2, l3, l4, l5, l6⟩ := L
    have lim := W.limits
    have := B.3
    have := Bb.lay.sp_le_stp
    refine ⟨⟨l1, l2, ?_, ?_, l5, l6⟩, ⟨B.1, B.2, B.3, B.4, B.5⟩, W.change lim.2.1 h⟩
    · somega
    · somega

theorem good_stack {b s g} (Bb : Base b) (G : Good b s g) {n : Int} (hn : -2147483648 ≤ n)
    (h : s.sp + n ≤ spLimit b.sp g) :
    GoodOut b g (addStack n s) := by
  obtain ⟨L, B, W⟩ := G
  have L' := L
  obtain ⟨l1, l2, l3, l4, l5, l6⟩ := L'
  have lim := W.limits
  have b4 := Bb.lay.sp_le_stp
  have hstp := B.3
  unfold addStack
  simp only [stackMargin, wrap32_id (x := s.sp + n) (by omega) (by omega),
    wrap32_id (x := s.hp + 64) (by omega) (by omega)]
  split
  · split
    · exact ⟨L, B⟩
    · refine ⟨⟨l1, l2, ?_, ?_, l5, l6⟩, ⟨B.1, B.2, B.3, B.4, B.5⟩, W.change lim.2.1 h⟩
      · somega
      · somega
  · split
    · exact ⟨L, B⟩
    · refine ⟨⟨l1, l2, ?_, ?_, l5, l6⟩, ⟨B.1, B.2, B.3, B.4, B.5⟩, W.change lim.2.1 h⟩
      · somega
      · somega

theorem good_heap {b s g} (G : Good b s g) {n : Int} (h1 : -2147483648 ≤ n)
    (h2 : s.hp + n + 64 < 2147483648) (h3 : hpLimit b.hp g ≤ s.hp + n) :
    GoodOut b g (Op.exec (.heap n) s) := by
  obtain ⟨L, B, W⟩ := G
  show GoodOut b g ((heapAlloc n >>= fun _ => pure ()) s)
  have lim := W.limits
  rcases heapAlloc_cases L h1 h2 with (⟨_, _, e⟩ | ⟨_, _, e⟩) | ⟨k1, k2, e⟩
  · rw [bind_fail e]; exact ⟨L, B⟩
  · rw [bind_fail e]; exact ⟨L, B⟩
  · rw [bind_ok e, pure_def]
    obtain ⟨l1, l2, l3, l4, l5, l6⟩ := L
    refine ⟨⟨l1, k1, ?_, l4, l5, l6⟩, ⟨B.1, B.2, B.3, B.4, B.5⟩, W.change h3 lim.1⟩
    by_cases 0 ≤ n
    · somega
    · somega

theorem good_trackPush {b s g} (G : Good b s g) (n : Int) : GoodOut b g (pushTracker n s) := by
  obtain ⟨L, B, W⟩ := G
  have L' := L
  obtain ⟨l1, l2, l3, l4, l5, l6⟩ := L'
  have lim := W.limits
  unfold pushTracker
  simp only [stackMargin, wrap32_id (x := s.sp - s.hp) (by omega) (by omega)]
  split
  · exact ⟨L, B⟩
  split
  · exact ⟨L, B⟩
  · simp only [wrap32_id (x := s.hp + 4) (by omega) (by omega)]
    rw [storeRaw_ok ⟨by somega, by somega⟩]
    refine ⟨⟨l1, ?_, ?_, l4, l5, l6⟩, ⟨B.1, B.2, B.3, B.4, B.5⟩, ?_⟩
    · somega
    · somega
    · refine (W.mem ?_).change (by somega) lim.1
      intro l hl c hc
      have := W.cells l hl c hc
      exact rd32_wr32_disj (by omega)

theorem good_trackPop {b s g} (Bb : Base b) (G : Good b s g) (h1 : hpLimit b.hp g ≤ s.hp - 4)
    (h2 : hpLimit b.hp g ≤ s.hp - 4 - (rd32 s.mem (s.hp - 4)).toInt) :
    GoodOut b g (popTracker s) := by
  obtain ⟨L, B, W⟩ := G
  have L' := L
  obtain ⟨l1, l2, l3, l4, l5, l6⟩ := L'
  have lim := W.limits
  have b2 := Bb.lay.data_le_hp
  have hd := B.2
  unfold popTracker
  simp only [wrap32_id (x := s.hp - s.dataSize) (by omega) (by omega),
    wrap32_id (x := s.hp - 4) (by omega) (by omega)]
  split
  · exact ⟨L, B⟩
  · rw [loadRaw_ok ⟨by somega, by somega⟩]
    dsimp only
    have hr := toInt_range (rd32 s.mem (s.hp - 4))
    split
    · exact ⟨⟨l1, by somega, by somega, l4, l5, l6⟩, ⟨B.1, B.2, B.3, B.4, B.5⟩⟩
    · rename_i hk
      simp only [wrap32_id (x := s.hp - 4 - s.dataSize) (by omega) (by omega)] at hk
      have hw := wrap32_id (x := s.hp - 4 - (rd32 s.mem (s.hp - 4)).toInt) (by omega) (by omega)
      refine ⟨⟨l1, ?_, ?_, l4, l5, l6⟩, ⟨B.1, B.2, B.3, B.4, B.5⟩, ?_⟩
      · dsimp only; rw [hw]; omega
      · dsimp only; rw [hw]; omega
      · dsimp only; rw [hw]; exact W.change h2 lim.1

theorem good_enter {b s g} (Bb : Base b) (G : Good b s g) :
    GoodOut b (.scope s.hp s.hpScope :: g) (enterHeapScope s) := by
  obtain ⟨L, B, W⟩ := G
  have L' := L
  obtain ⟨l1, l2, l3, l4, l5, l6⟩ := L'
  have lim := W.limits
  have hsc := W.sc_range
  have bs := Bb.scope
  have b1 := Bb.lay.data_nonneg
  have b2 := Bb.lay.data_le_hp
  unfold enterHeapScope
  rcases heapAlloc_cases L (n := 4) (by omega) (by omega) with (⟨_, _, e⟩ | ⟨_, _, e⟩) | ⟨k1, k2, e⟩
  · rw [e]; exact ⟨L, B⟩
  · rw [e]; exact ⟨L, B⟩
  · rw [e]
    dsimp only
    rw [bind_ok (throw_ok (by somega) (by somega) (by somega)), storeRaw_ok ⟨by somega, by somega⟩]
    refine ⟨⟨l1, k1, ?_, l4, l5, l6⟩, ⟨B.1, B.2, B.3, B.4, B.5⟩, ?_⟩
    · somega
    · refine ⟨⟨rfl, by somega⟩, ?_, W.mem ?_⟩
      · dsimp only; rw [rd32_wr32_same, ofInt_toInt]
        · omega
        · omega
      · intro l hl c hc
        have := W.cells l hl c hc
        exact rd32_wr32_disj (by omega)

theorem good_leave {b s a sc0 g} (Bb : Base b) (G : Good b s (.scope a sc0 :: g)) :
    ∃ s', leaveHeapScope s = .ok s' () ∧ Good b s' g ∧ s'.hp = a ∧ s'.hpScope = sc0 ∧
      s'.sp = s.sp ∧ s'.frm = s.frm ∧ s'.mem = s.mem := by
  obtain ⟨L, B, W⟩ := G
  obtain ⟨l1, l2, l3, l4, l5, l6⟩ := L
  obtain ⟨⟨k1, k2⟩, k3, k4⟩ := W
  have lim := k4.limits
  have hsc := k4.sc_range
  have bs := Bb.scope
  have b1 := Bb.lay.data_nonneg
  have b2 := Bb.lay.data_le_hp
  have hd := B.2
  unfold leaveHeapScope
  rw [bind_ok (throw_ok (by omega) (by omega) (by omega)), loadRaw_ok ⟨by omega, by omega⟩]
  dsimp only
  rw [k1, k3]
  have L' : Layout { s with hp := a, hpScope := sc0 } :=
    ⟨l1, by somega, by somega, l4, l5, l6⟩
  have G' : Good b { s with hp := a, hpScope := sc0 } g :=
    ⟨L', ⟨B.1, B.2, B.3, B.4, B.5⟩, k4⟩
  split
  · rw [throw_ok (by somega) (by somega) (by somega)]
    exact ⟨_, rfl, G', rfl, rfl, rfl, rfl, rfl⟩
  · exact ⟨_, rfl, G', rfl, rfl, rfl, rfl, rfl⟩

theorem good_call {b s g} (Bb : Base b) (G : Good b s g) (h1 : 0 ≤ (rd32 s.mem s.sp).toInt)
    (h2 : s.sp + 4 + 4 * (rd32 s.mem s.sp).toInt ≤ spLimit b.sp g) :
    GoodOut b (.frame s.sp (rd32 s.mem s.sp).toInt s.frm s.hp s.hpScope :: g) (pushAmxFrame s) := by
  obtain ⟨L, B, W⟩ := G
  have L' := L
  obtain ⟨l1, l2, l3, l4, l5, l6⟩ := L'
  have lim := W.limits
  have hsc := W.sc_range
  have hfr := W.frm_range
  have bs := Bb.scope
  have bf := Bb.frm
  have b1 := Bb.lay.data_nonneg
  have b2 := Bb.lay.data_le_hp
  have b3 := Bb.lay.sp_le_stp
  have b4 := Bb.lay.mem_small
  have b5 := Bb.lay.stp_eq
  unfold pushAmxFrame
  rcases pushStack_cases L (BitVec.ofInt 32 s.frm) with ⟨_, e⟩ | ⟨h0, e⟩
  · rw [bind_fail e]; exact ⟨L, B⟩
  rw [bind_ok e]
  have L1 : Layout { s with mem := wr32 s.mem (s.sp - 4) (BitVec.ofInt 32 s.frm), sp := s.sp - 4 } :=
    ⟨l1, l2, by somega, by somega, l5, l6⟩
  have B1 : SameBlock b
      { s with mem := wr32 s.mem (s.sp - 4) (BitVec.ofInt 32 s.frm), sp := s.sp - 4 } :=
    ⟨B.1, B.2, B.3, B.4, B.5⟩
  rcases heapAlloc_cases L1 (n := 4) (by omega) (by somega)
    with (⟨_, _, e⟩ | ⟨_, _, e⟩) | ⟨k1, k2, e⟩
  · rw [bind_fail e]; exact ⟨L1, B1⟩
  · rw [bind_fail e]; exact ⟨L1, B1⟩
  rw [bind_ok e]
  dsimp only at k1 k2
  rw [bind_ok (throw_ok (by somega) (by somega) (by somega)),
    bind_ok (storeRaw_ok ⟨by somega, by somega⟩)]
  dsimp only
  have L2 : Layout { s with
      mem := wr32 (wr32 s.mem (s.sp - 4) (BitVec.ofInt 32 s.frm)) s.hp (BitVec.ofInt 32 s.hpScope),
      sp := s.sp - 4, hp := s.hp + 4 } :=
    ⟨l1, by somega, by somega, by somega, l5, l6⟩
  rcases pushStack_cases L2 (BitVec.ofInt 32 s.hp) with ⟨k, e⟩ | ⟨k, e⟩
  · dsimp only at k; omega
  rw [bind_ok e]
  refine ⟨⟨l1, by somega, by somega, by somega, l5, l6⟩, ⟨B.1, B.2, B.3, B.4, B.5⟩, ?_⟩
  refine ⟨⟨by somega, by somega, rfl, by somega, h1⟩, ?_, h2, ?_⟩
  · dsimp only
    refine ⟨?_, ?_, ?_, ?_⟩
    · rw [rd32_wr32_disj (by omega), rd32_wr32_disj (by omega), rd32_wr32_disj (by omega)]
    · rw [rd32_wr32_disj (by omega), rd32_wr32_disj (by omega), rd32_wr32_same,
        ofInt_toInt (by omega) (by omega)]
    · rw [show s.sp - 8 = s.sp - 4 - 4 by omega, rd32_wr32_same, ofInt_toInt (by omega) (by omega)]
    · rw [rd32_wr32_disj (by omega), rd32_wr32_same, ofInt_toInt (by omega) (by omega)]
  · refine W.mem ?_
    intro l hl c hc
    have := W.cells l hl c hc
    dsimp only
    rw [rd32_wr32_disj (by omega), rd32_wr32_disj (by omega), rd32_wr32_disj (by omega)]

theorem good_ret {b s sp0 n frm0 hp0 sc0 g g'} (Bb : Base b) (G : Good b s g)
    (hg : toFrame g = .frame sp0 n frm0 hp0 sc0 :: g') :
    ∃ s', popAmxFrame s = .ok s' () ∧ Good b s' g' ∧ s'.hp = hp0 ∧ s'.hpScope = sc0 ∧
      s'.frm = frm0 ∧ s'.sp = sp0 + 4 + 4 * n ∧ s'.mem = s.mem := by
  obtain ⟨L, B, W⟩ := G
  obtain ⟨l1, l2, l3, l4, l5, l6⟩ := L
  obtain ⟨sc', W'⟩ := W.toFrame
  rw [hg] at W'
  obtain ⟨⟨k1, k2, k3, k4, k5⟩, ⟨m1, m2, m3, m4⟩, k6, k7⟩ := W'
  have lim := k7.limits
  have hsc := k7.sc_range
  have bs := Bb.scope
  have b1 := Bb.lay.data_nonneg
  have b2 := Bb.lay.data_le_hp
  have b3 := Bb.lay.sp_le_stp
  have b5 := Bb.lay.stp_eq
  have hd := B.2
  have hs := B.3
  have hm := B.1
  unfold popAmxFrame
  have LA : Layout { s with sp := s.frm } := ⟨l1, l2, by somega, by somega, l5, l6⟩
  rcases popStack_cases LA with ⟨h, e⟩ | ⟨h, e⟩
  · dsimp only at h; omega
  rw [bind_ok e]
  dsimp only
  rw [k1, m3]
  rw [bind_ok (throw_ok (by somega) (by somega) (by somega)),
    bind_ok (loadRaw_ok ⟨by somega, by somega⟩)]
  dsimp only
  rw [m4]
  have e1 : ∀ t : State, ¬ (hp0 < t.dataSize ∨ hp0 > t.sp) →
      restoreHeap hp0 sc0 t = .ok { t with hpScope := sc0, hp := hp0 } () := by
    intro t ht; unfold restoreHeap; rw [if_neg ht]
  rw [bind_ok (e1 _ (by somega))]
  dsimp only
  have LB : Layout { s with sp := sp0 - 8 + 4, hpScope := sc0, hp := hp0, frm := sp0 - 8 } :=
    ⟨l1, by somega, by somega, by somega, l5, l6⟩
  rcases popStack_cases LB with ⟨h, e⟩ | ⟨h, e⟩
  · dsimp only at h; omega
  rw [bind_ok e]
  dsimp only
  rw [show sp0 - 8 + 4 = sp0 - 4 by omega, m2]
  have LC : Layout { s with sp := sp0 - 4 + 4, hpScope := sc0, hp := hp0, frm := frm0 } :=
    ⟨l1, by somega, by somega, by somega, l5, l6⟩
  rw [bind_ok (show setFrm frm0 _ = .ok _ () from rfl)]
  rcases popStack_cases LC with ⟨h, e⟩ | ⟨h, e⟩
  · dsimp only at h; omega
  rw [bind_ok e]
  dsimp only
  rw [show sp0 - 4 + 4 = sp0 by omega, m1]
  unfold dropArgs
  simp only [wrap32_id (x := sp0 + 4 + n * 4) (by omega) (by omega)]
  rw [if_neg (by omega)]
  refine ⟨_, rfl, ⟨⟨l1, by somega, by somega, by somega, l5, l6⟩, ⟨B.1, B.2, B.3, B.4, B.5⟩, ?_⟩,
    rfl, rfl, rfl, by somega, rfl⟩
  exact k7.change lim.2.1 (by somega)

theorem good_store {b s g} (G : Good b s g) (a : Int) (v : Cell)
    (h : ∀ l ∈ g, ∀ c ∈ l.cells, a + 4 ≤ c ∨ c + 4 ≤ a) : GoodOut b g (setCellValue a v s) := by
  obtain ⟨L, B, W⟩ := G
  have L' := L
  obtain ⟨l1, l2, l3, l4, l5, l6⟩ := L'
  unfold setCellValue
  by_cases k : a < 0 ∨ (s.hp ≤ a ∧ a < s.sp) ∨ s.stp ≤ a
  · rw [bind_fail (throw_fail k)]; exact ⟨L, B⟩
  · rw [bind_ok (throw_ok (by omega) (by omega) (by omega)), storeRaw_ok ⟨by omega, by omega⟩]
    refine ⟨⟨l1, l2, l3, l4, l5, l6⟩, ⟨B.1, B.2, B.3, B.4, B.5⟩, W.mem ?_⟩
    intro l hl c hc
    exact rd32_wr32_disj (h l hl c hc)

theorem good_step {b s g} (Bb : Base b) (G : Good b s g) (op : Op) (h : Legal b s g op) :
    GoodOut b (shadow s g op) (op.exec s) := by
  cases op with
  | push v => exact good_push G v
  | pop => exact good_pop Bb G h
  | stack n => exact good_stack Bb G h.1 h.2
  | heap n => exact good_heap G h.1 h.2.1 h.2.2
  | trackPush n => exact good_trackPush G n
  | trackPop => exact good_trackPop Bb G h.1 h.2
  | enter => exact good_enter Bb G
  | leave =>
    obtain ⟨a, sc, g', rfl⟩ := h
    obtain ⟨s', e, G', _⟩ := good_leave Bb G
    show GoodOut b _ (leaveHeapScope s)
    rw [e]; exact G'
  | call => exact good_call Bb G h.1 h.2
  | ret =>
    obtain ⟨sp, n, frm, hp, sc, g', e⟩ := h
    obtain ⟨s', e', G', _⟩ := good_ret Bb G e
    show GoodOut b _ (popAmxFrame s)
    rw [e']; show Good b s' (toFrame g).tail
    rw [e]; exact G'
  | store a v => exact good_store G a v h

theorem good_history {b} (Bb : Base b) {ops s g} (H : History b ops s g) : Good b s g := by
  induction H with
  | start => exact ⟨Bb.lay, .rfl, rfl, rfl, Int.le_refl _, Int.le_refl _⟩
  | step _ hl he ih =>
    have := good_step Bb ih _ hl
    rw [he] at this
    exact this

end Verif.VM

import Verif.Proofs.GenArray

/-! C06: in legacy plugins the heap tracker frees exactly what it recorded. -/
namespace Verif.VM

/-- `TrackRun s0 s t`: from `s0`, tracked allocations, tracker pops and arbitrary other activity have
led to `s`; `t` lists the tracker entries not yet popped, innermost first, as (address, bytes).
Other activity may do anything that keeps the layout, the heap pointer and the tracker entries. -/
inductive TrackRun (s0 : State) : State → List (Int × Int) → Prop where
  | start : TrackRun s0 s0 []
  | alloc {s s1 s2 t n} : TrackRun s0 s t → 0 ≤ n → s.hp + n + 64 < 2147483648 →
      Op.exec (.heap n) s = .ok s1 () → Op.exec (.trackPush n) s1 = .ok s2 () →
      TrackRun s0 s2 ((s1.hp, n) :: t)
  | free {s s' e t} : TrackRun s0 s (e :: t) → Op.exec .trackPop s = .ok s' () → TrackRun s0 s' t
  | other {s s' t} : TrackRun s0 s t → Layout s' → SameBlock s s' → s'.hp = s.hp →
      (∀ e ∈ t, rd32 s'.mem e.1 = rd32 s.mem e.1) → TrackRun s0 s' t

/-- Bytes held by a list of tracker entries: each allocation and its entry cell. -/
def held : List (Int × Int) → Int
  | [] => 0
  | (_, n) :: t => n + 4 + held t

/-- Entries are where they should be, and intact. -/
def Entries (m : Int → BitVec 8) (base : Int) : Int → List (Int × Int) → Prop
  | hp, [] => hp = base
  | hp, (a, n) :: t => a = hp - 4 ∧ 0 ≤ n ∧ (rd32 m a).toInt = n ∧ Entries m base (hp - 4 - n) t

theorem Entries.congr {m m' : Int → BitVec 8} {base : Int} : ∀ {t hp}, Entries m base hp t →
    (∀ e ∈ t, rd32 m' e.1 = rd32 m e.1) → Entries m' base hp t
  | [], _, h, _ => h
  | (a, n) :: t, hp, h, e => by
    obtain ⟨h1, h2, h3, h4⟩ := h
    refine ⟨h1, h2, ?_, h4.congr (fun x hx => e x (by simp [hx]))⟩
    rw [e (a, n) (by simp)]; exact h3

theorem Entries.held {m : Int → BitVec 8} {base : Int} : ∀ {t hp}, Entries m base hp t →
    hp = base + held t ∧ 0 ≤ held t
  | [], hp, h => by simp only [Entries] at h; simp [VM.held, h]
  | (a, n) :: t, hp, h => by
    obtain ⟨h1, h2, h3, h4⟩ := h
    have := h4.held
    simp only [VM.held]; omega

theorem Entries.below {m : Int → BitVec 8} {base : Int} : ∀ {t hp}, Entries m base hp t →
    ∀ e ∈ t, base ≤ e.1 ∧ e.1 + 4 ≤ hp
  | [], _, _, _, h => by cases h
  | (a, n) :: t, hp, h, e, he => by
    obtain ⟨h1, h2, h3, h4⟩ := h
    have hd := h4.held
    rcases List.mem_cons.1 he with rfl | he
    · dsimp only; omega
    · have := h4.below e he
      omega

theorem trackPop_exact {s : State} (L : Layout s) {n : Int}
    (h : (rd32 s.mem (s.hp - 4)).toInt = n) (h0 : 0 ≤ n) (h1 : s.dataSize ≤ s.hp - 4 - n) :
    popTracker s = .ok { s with hp := s.hp - 4 - n } () := by
  obtain ⟨l1, l2, l3, l4, l5, l6⟩ := L
  unfold popTracker
  simp only [wrap32_id (x := s.hp - s.dataSize) (by omega) (by omega),
    wrap32_id (x := s.hp - 4) (by omega) (by omega)]
  rw [if_neg (by omega), loadRaw_ok ⟨by somega, by somega⟩]
  dsimp only
  rw [h]
  simp only [wrap32_id (x := s.hp - 4 - s.dataSize) (by omega) (by omega)]
  rw [if_neg (by omega), wrap32_id (by omega) (by omega)]

theorem TrackRun.inv {s0 s : State} (L0 : Layout s0) {t : List (Int × Int)} (h : TrackRun s0 s t) :
    Layout s ∧ SameBlock s0 s ∧ Entries s.mem s0.hp s.hp t := by
  induction h with
  | start => exact ⟨L0, .rfl, rfl⟩
  | @alloc s s1 s2 t n _ h0 hn e1 e2 ih =>
    obtain ⟨L, B, E⟩ := ih
    have L' := L
    obtain ⟨l1, l2, l3, l4, l5, l6⟩ := L'
    have e1' : (heapAlloc n >>= fun _ => pure ()) s = .ok s1 () := e1
    rcases heapAlloc_cases L (n := n) (by omega) hn with (⟨_, _, e⟩ | ⟨_, _, e⟩) | ⟨k1, k2, e⟩
    · omega
    · rw [bind_fail e] at e1'; cases e1'
    · rw [bind_ok e] at e1'
      cases e1'
      have k2 := k2 h0
      have L1 : Layout { s with hp := s.hp + n } := ⟨l1, k1, by somega, l4, l5, l6⟩
      have e2' : pushTracker n { s with hp := s.hp + n } = .ok s2 () := e2
      rw [pushTracker_ok L1 (by omega) (by somega)] at e2'
      cases e2'
      have hd := E.held
      refine ⟨⟨l1, by somega, by somega, l4, l5, l6⟩, ⟨B.1, B.2, B.3, B.4, B.5⟩, ?_, h0, ?_, ?_⟩
      · dsimp only; omega
      · dsimp only; rw [rd32_wr32_same, ofInt_toInt (by omega) (by omega)]
      · dsimp only
        rw [show s.hp + n + 4 - 4 - n = s.hp by omega]
        refine E.congr fun x hx => ?_
        have := E.below x hx
        exact rd32_wr32_disj (by omega)
  | @free s s' e t _ he ih =>
    obtain ⟨L, B, E⟩ := ih
    obtain ⟨a, n⟩ := e
    obtain ⟨h1, h2, h3, h4⟩ := E
    have hd := h4.held
    have b2 := B.2
    have l2 := L0.data_le_hp
    have he' : popTracker s = .ok s' () := he
    rw [trackPop_exact L (n := n) (by rw [← h1]; exact h3) h2 (by omega)] at he'
    cases he'
    obtain ⟨l1, l2, l3, l4, l5, l6⟩ := L
    exact ⟨⟨l1, by somega, by somega, l4, l5, l6⟩, ⟨B.1, B.2, B.3, B.4, B.5⟩, h4⟩
  | @other s s' t _ L' B' hh hm ih =>
    obtain ⟨L, B, E⟩ := ih
    refine ⟨L', B.trans B', ?_⟩
    rw [hh]
    exact E.congr hm

/-- **C06.** At every point of a run of tracked allocations, in which the innermost unpopped entry
records `n` bytes, popping the tracker succeeds, frees exactly those `n` bytes plus the entry cell and
does not reach below the data section. -/
theorem C06_tracker_frees_exactly {s0 s : State} (L0 : Layout s0) {a n : Int} {t : List (Int × Int)}
    (h : TrackRun s0 s ((a, n) :: t)) :
    ∃ s', Op.exec .trackPop s = .ok s' () ∧ s'.hp = s.hp - 4 - n ∧ s0.hp ≤ s'.hp ∧
      s.dataSize ≤ s'.hp ∧ s'.mem = s.mem := by
  obtain ⟨L, B, h1, h2, h3, h4⟩ := h.inv L0
  have hd := h4.held
  have b2 := B.2
  have l2 := L0.data_le_hp
  exact ⟨_, trackPop_exact L (n := n) (by rw [← h1]; exact h3) h2 (by omega), rfl, by somega,
    by somega, rfl⟩

/-- **C06.** When every entry has been popped the heap pointer is back where it was. -/
theorem C06_balanced_restores_heap {s0 s : State} (L0 : Layout s0) (h : TrackRun s0 s []) :
    s.hp = s0.hp :=
  (h.inv L0).2.2

/-- **C06.** Whatever is found in the tracker cell, popping never moves the heap below the data
section, and never reads outside the block. -/
theorem C06_never_below_data {s : State} (L : Layout s) :
    (∃ s', Op.exec .trackPop s = .ok s' () ∧ s.dataSize ≤ s'.hp ∧ s'.hp ≤ s.hp) ∨
    (∃ s' e, Op.exec .trackPop s = .fail s' e ∧ s.dataSize ≤ s'.hp ∧ s'.hp ≤ s.hp) := by
  obtain ⟨l1, l2, l3, l4, l5, l6⟩ := L
  show (∃ s', popTracker s = _ ∧ _) ∨ (∃ s' e, popTracker s = _ ∧ _)
  unfold popTracker
  simp only [wrap32_id (x := s.hp - s.dataSize) (by omega) (by omega),
    wrap32_id (x := s.hp - 4) (by omega) (by omega)]
  split
  · exact Or.inr ⟨_, _, rfl, l2, Int.le_refl _⟩
  · rw [loadRaw_ok ⟨by somega, by somega⟩]
    dsimp only
    have hr := toInt_range (rd32 s.mem (s.hp - 4))
    simp only [wrap32_id (x := s.hp - 4 - s.dataSize) (by omega) (by omega)]
    split
    · exact Or.inr ⟨_, _, rfl, by somega, by somega⟩
    · have hw := wrap32_id (x := s.hp - 4 - (rd32 s.mem (s.hp - 4)).toInt) (by omega) (by omega)
      rw [hw]
      exact Or.inl ⟨_, rfl, by somega, by somega⟩

/-! ### Non-vacuity -/

/-- A legacy plugin. -/
def c06Start : State := init (fun _ => 0) 64 (computeMemSize 64 0) false false

theorem c06Start_layout : Layout c06Start :=
  ⟨by decide, by decide, by decide, by decide, by decide, by decide⟩

/-- Two nested tracked allocations, one popped. -/
example : ∃ s, TrackRun c06Start s [(64 + 40, 40)] := by
  have h1 : ∃ s, TrackRun c06Start s [(64 + 40, 40)] ∧ s.hp = 108 ∧ s.sp = c06Start.sp ∧
      s.dataSize = 64 ∧ s.stp = c06Start.stp ∧ s.memSize = c06Start.memSize := by
    refine ⟨_, .alloc (s := c06Start) (n := 40) .start (by omega) (by decide) rfl rfl, ?_⟩
    decide
  obtain ⟨s1, h1, e1, e2, e3, e4, e5⟩ := h1
  have L1 := (h1.inv c06Start_layout).1
  have h2 : ∃ s, TrackRun c06Start s [(108 + 8, 8), (64 + 40, 40)] := by
    have k : Op.exec (.heap 8) s1 = .ok { s1 with hp := 116 } () := by
      show (heapAlloc 8 >>= fun _ => pure ()) s1 = _
      rcases heapAlloc_cases L1 (n := 8) (by omega) (by omega) with (⟨_, _, e⟩ | ⟨_, h, e⟩) | ⟨_, _, e⟩
      · omega
      · rw [e1, e2] at h; exact absurd h (by decide)
      · rw [bind_ok e, e1]; rfl
    obtain ⟨l1, l2, l3, l4, l5, l6⟩ := L1
    have hsp : (300 : Int) ≤ s1.sp := by rw [e2]; decide
    have kp := pushTracker_ok (s := { s1 with hp := 116 }) (n := 8)
      ⟨l1, by somega, by somega, l4, l5, l6⟩ (by omega) (by somega)
    exact ⟨_, .alloc (n := 8) h1 (by omega) (by omega) k kp⟩
  obtain ⟨s2, h2⟩ := h2
  obtain ⟨s', e, _⟩ := C06_tracker_frees_exactly c06Start_layout h2
  exact ⟨s', .free h2 e⟩

end Verif.VM

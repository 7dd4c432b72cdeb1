import Verif.Proofs.Checks

/-! The loops of the method verifier over the blocks: what is known at each edge. -/
namespace Verif.Verifier
open Verif.VM (Cell)
open Verif.Graph (Out bind_ok_iff)
open Verif.Cfg (upd rpoId)

/-- The data agree in what a join compares. -/
def Same (d d' : Data) : Prop := d.bal = d'.bal ∧ d.trk.length = d'.trk.length ∧ d.depth = d'.depth

theorem Same.refl (d : Data) : Same d d := ⟨rfl, rfl, rfl⟩
theorem Same.trans {d d' d'' : Data} (h : Same d d') (h' : Same d' d'') : Same d d'' :=
  ⟨h.1.trans h'.1, h.2.1.trans h'.2.1, h.2.2.trans h'.2.2⟩

/-- A join that was accepted: the balances agree; so do the scopes, if the trackers are of the same size; if they are not, some block was
taken to suffer from the compiler's break bug. -/
def Joins (bug : Nat → Bool) (d d' : Data) : Prop := d.bal = d'.bal ∧ (d.trk.length = d'.trk.length → d.depth = d'.depth) ∧
  (d.trk.length ≠ d'.trk.length → ∃ b, bug b = true)

/-- Flags are only set. -/
def Grows (bug bug' : Nat → Bool) : Prop := ∀ b, bug b = true → bug' b = true

theorem Grows.refl (bug : Nat → Bool) : Grows bug bug := fun _ h => h
theorem Grows.trans {a b c : Nat → Bool} (h : Grows a b) (h' : Grows b c) : Grows a c := fun x hx => h' x (h x hx)

theorem Joins.mono {bug bug' : Nat → Bool} {d d' : Data} (h : Joins bug d d') (hg : Grows bug bug') : Joins bug' d d' :=
  ⟨h.1, h.2.1, fun hne => by obtain ⟨b, hb⟩ := h.2.2 hne; exact ⟨b, hg b hb⟩⟩

theorem Joins.same {bug : Nat → Bool} {d d' d'' : Data} (h : Joins bug d d') (hs : Same d' d'') : Joins bug d d'' := by
  obtain ⟨h1, h2, h3⟩ := h
  obtain ⟨s1, s2, s3⟩ := hs
  exact ⟨by omega, fun hh => by rw [← s3]; exact h2 (by omega), fun hh => h3 (by omega)⟩

theorem Joins.refl (bug : Nat → Bool) (d : Data) : Joins bug d d := ⟨rfl, fun _ => rfl, fun h => absurd rfl h⟩

theorem verifyJoin_ok {M : Method} {cur : Nat} {f o : Data} {bug bug' : Nat → Bool} (h : verifyJoin M cur f o bug = .ok bug') :
    Joins bug' o f ∧ Grows bug bug' := by
  unfold verifyJoin at h
  split at h
  · cases h
  · rename_i hb
    have hb : f.bal = o.bal := Decidable.byContradiction hb
    split at h
    · rename_i ht
      obtain ⟨r, h1, h⟩ := bind_ok_iff.1 h
      split at h
      · cases h
        refine ⟨⟨hb.symm, fun hh => absurd hh.symm ht, fun _ => ⟨cur, by simp [upd]⟩⟩, ?_⟩
        intro b hb'
        unfold upd
        split
        · rfl
        · exact hb'
      · cases h
    · rename_i ht
      have ht : f.trk.length = o.trk.length := Decidable.byContradiction ht
      split at h
      · cases h
      · rename_i hd
        have hd : f.depth = o.depth := Decidable.byContradiction hd
        cases h
        exact ⟨⟨hb.symm, fun _ => hd.symm, fun hh => absurd ht.symm hh⟩, .refl _⟩

theorem mergeEntries_length : ∀ (ts os above below ts' heap : List Int), mergeEntries ts os above below = .ok (ts', heap) →
    ts'.length = ts.length
  | [], _, _, _, _, _, h => by unfold mergeEntries at h; cases h; rfl
  | t :: ts, [], _, _, _, _, h => by unfold mergeEntries at h; cases h
  | t :: ts, o :: os, above, below, ts', heap, h => by
    unfold mergeEntries at h
    split at h
    · obtain ⟨⟨x, y⟩, h1, h2⟩ := bind_ok_iff.1 h
      cases h2
      rw [List.length_cons, List.length_cons, mergeEntries_length ts os above below x _ h1]
    · split at h
      · obtain ⟨⟨x, y⟩, h1, h2⟩ := bind_ok_iff.1 h
        cases h2
        rw [List.length_cons, List.length_cons, mergeEntries_length ts os _ below x _ h1]
      · split at h
        · cases h
        · obtain ⟨⟨a, b⟩, _, h⟩ := bind_ok_iff.1 h
          obtain ⟨⟨x, y⟩, h1, h2⟩ := bind_ok_iff.1 h
          cases h2
          rw [List.length_cons, List.length_cons, mergeEntries_length ts os a b x _ h1]

/-- Everything but what belongs to block `b` is as before. -/
structure Frame (b : Nat) (S S' : VState) : Prop where
  data : ∀ p, p ≠ b → S'.data p = S.data p
  entry : ∀ p, p ≠ b → S'.entry p = S.entry p
  max : S'.max = S.max
  later : S'.later = S.later
  bug : Grows S.bug S'.bug

theorem Frame.refl (b : Nat) (S : VState) : Frame b S S := ⟨fun _ _ => rfl, fun _ _ => rfl, rfl, rfl, .refl _⟩

theorem Frame.trans {b : Nat} {S S' S'' : VState} (h : Frame b S S') (h' : Frame b S' S'') : Frame b S S'' :=
  ⟨fun p hp => (h'.data p hp).trans (h.data p hp), fun p hp => (h'.entry p hp).trans (h.entry p hp), h'.max.trans h.max,
    h'.later.trans h.later, h.bug.trans h'.bug⟩

theorem mergeTracker_ok {C : Ctx} {M : Method} {b : Nat} {o : Data} {S S' : VState} (h : mergeTracker C M b o S = .ok S') :
    Frame b S S' ∧ Same (S.data b) (S'.data b) ∧ Joins S'.bug o (S'.data b) ∧ S'.entry b = S.entry b := by
  unfold mergeTracker at h
  obtain ⟨bug, h1, h⟩ := bind_ok_iff.1 h
  obtain ⟨j, g⟩ := verifyJoin_ok h1
  split at h
  · cases h
    exact ⟨⟨fun _ _ => rfl, fun _ _ => rfl, rfl, rfl, g⟩, .refl _, j, rfl⟩
  · split at h
    · cases h
      exact ⟨⟨fun _ _ => rfl, fun _ _ => rfl, rfl, rfl, g⟩, .refl _, j, rfl⟩
    · obtain ⟨⟨trk, heap⟩, h2, h⟩ := bind_ok_iff.1 h
      cases h
      have hl := mergeEntries_length _ _ _ _ _ _ h2
      have hs : Same (S.data b) (upd S.data b { S.data b with trk := trk, heap := heap } b) := by
        simp only [upd, if_true]
        exact ⟨rfl, hl.symm, rfl⟩
      refine ⟨⟨?_, fun _ _ => rfl, rfl, rfl, g⟩, hs, j.same hs, rfl⟩
      intro p hp
      simp only [upd]
      rw [if_neg hp]

theorem joinPreds_ok {C : Ctx} {M : Method} {b : Nat} : ∀ (ps : List Nat) (found later later' : Bool) (S S' : VState),
    joinPreds C M b ps found later S = .ok (later', S') →
    Frame b S S' ∧ ((later = true ∨ ∃ p ∈ ps, M.id p ≥ M.id b) → later' = true) ∧
    (∀ p ∈ ps, M.id p < M.id b → Joins S'.bug (S.data p) (S'.data b)) ∧
    (found = true → Same (S.data b) (S'.data b) ∧ S'.entry b = S.entry b) ∧
    (S'.entry b = S.entry b ∨ ∃ e, S'.entry b = some e ∧ Same e (S'.data b)) ∧
    ((∀ x, (S.data x).trk = []) → (S'.data b).trk = []) ∧
    ((S'.data b).bal = (S.data b).bal ∨ ∃ p ∈ ps, M.id p < M.id b ∧ (S'.data b).bal = (S.data p).bal)
  | [], _, _, _, S, S', h => by
    unfold joinPreds at h
    cases h
    exact ⟨.refl _ _, by simp, by simp, fun _ => ⟨.refl _, rfl⟩, Or.inl rfl, fun h => h b, Or.inl rfl⟩
  | p :: ps, found, later, later', S, S', h => by
    unfold joinPreds at h
    split at h
    · rename_i hid
      obtain ⟨g1, g2, g3, g4, g5, gt, g6⟩ := joinPreds_ok ps found true later' S S' h
      refine ⟨g1, fun _ => g2 (Or.inl rfl), ?_, g4, g5, gt, ?_⟩
      · intro q hq hlt
        rcases List.mem_cons.1 hq with rfl | hq
        · omega
        · exact g3 q hq hlt
      · rcases g6 with g6 | ⟨q, hq, g6⟩
        · exact Or.inl g6
        · exact Or.inr ⟨q, List.mem_cons_of_mem _ hq, g6⟩
    · rename_i hid
      have hpb : ∀ q, M.id q < M.id b → q ≠ b := by
        intro q hq hh; subst hh; omega
      split at h
      · rename_i hf
        obtain ⟨g1, g2, g3, g4, g5, gt, g6⟩ := joinPreds_ok ps true later later' _ S' h
        obtain ⟨hs, he⟩ := g4 rfl
        simp only [upd, if_true] at hs he
        have hd : ∀ q, q ≠ b → upd S.data b (S.data p) q = S.data q := by
          intro q hq; unfold upd; rw [if_neg hq]
        refine ⟨⟨fun q hq => (g1.data q hq).trans (hd q hq), ?_, g1.max, g1.later, g1.bug⟩, ?_, ?_, ?_, ?_, ?_, ?_⟩
        · intro q hq
          rw [g1.entry q hq]
          simp only [upd]
          rw [if_neg hq]
        · rintro (hh | ⟨q, hq, hge⟩)
          · exact g2 (Or.inl hh)
          · rcases List.mem_cons.1 hq with rfl | hq
            · omega
            · exact g2 (Or.inr ⟨q, hq, hge⟩)
        · intro q hq hlt
          rcases List.mem_cons.1 hq with rfl | hq
          · exact (Joins.refl _ _).same hs
          · have := g3 q hq hlt
            simp only at this
            rw [hd q (hpb q hlt)] at this
            exact this
        · intro hh; rw [hh] at hf; cases hf
        · exact Or.inr ⟨S.data p, he, hs⟩
        · intro hx
          have := hs.2.1
          rw [hx p] at this
          exact List.length_eq_zero_iff.1 this.symm
        · refine Or.inr ⟨p, List.mem_cons_self .., by omega, hs.1.symm⟩
      · rename_i hf
        have hf : found = true := by simpa using hf
        obtain ⟨S1, h1, h2⟩ := bind_ok_iff.1 h
        obtain ⟨m1, m2, m3, m4⟩ := mergeTracker_ok h1
        obtain ⟨g1, g2, g3, g4, g5, gt, g6⟩ := joinPreds_ok ps found later later' S1 S' h2
        obtain ⟨hs, he⟩ := g4 hf
        refine ⟨m1.trans g1, ?_, ?_, fun _ => ⟨m2.trans hs, he.trans m4⟩, Or.inl (he.trans m4), ?_, Or.inl (m2.trans hs).1.symm⟩
        · rintro (hh | ⟨q, hq, hge⟩)
          · exact g2 (Or.inl hh)
          · rcases List.mem_cons.1 hq with rfl | hq
            · omega
            · exact g2 (Or.inr ⟨q, hq, hge⟩)
        · intro q hq hlt
          rcases List.mem_cons.1 hq with rfl | hq
          · exact (m3.mono g1.bug).same hs
          · have := g3 q hq hlt
            rw [m1.data q (hpb q hlt)] at this
            exact this
        · intro hx
          have := (m2.trans hs).2.1
          rw [hx b] at this
          exact List.length_eq_zero_iff.1 this.symm

theorem handleJoins_ok {C : Ctx} {M : Method} {b : Nat} {S S' : VState} (h : handleJoins C M b S = .ok S') :
    (∀ p, p ≠ b → S'.data p = S.data p) ∧ (∀ p, p ≠ b → S'.entry p = S.entry p) ∧ S'.max = S.max ∧ Grows S.bug S'.bug ∧
    (∀ x ∈ S.later, x ∈ S'.later) ∧ ((∃ p ∈ M.preds b, M.id p ≥ M.id b) → b ∈ S'.later) ∧
    (M.preds b = [] → S'.data b = S.data b) ∧
    (∀ p ∈ M.preds b, M.id p < M.id b → Joins S'.bug (S.data p) (S'.data b)) ∧
    (S'.entry b = S.entry b ∨ ∃ e, S'.entry b = some e ∧ Same e (S'.data b)) ∧
    ((∀ x, (S.data x).trk = []) → (S'.data b).trk = []) ∧
    ((S'.data b).bal = (S.data b).bal ∨ ∃ p ∈ M.preds b, M.id p < M.id b ∧ (S'.data b).bal = (S.data p).bal) := by
  unfold handleJoins at h
  split at h
  · rename_i hp
    cases h
    rw [hp]
    exact ⟨fun _ _ => rfl, fun _ _ => rfl, rfl, .refl _, fun _ h => h, by simp, fun _ => rfl, by simp, Or.inl rfl, fun h => h b, Or.inl rfl⟩
  · rename_i hp
    obtain ⟨⟨later, S1⟩, h1, h⟩ := bind_ok_iff.1 h
    obtain ⟨g1, g2, g3, _, g5, gt, g6⟩ := joinPreds_ok _ _ _ _ _ _ h1
    simp only at h
    injection h with h
    split at h
    · subst h
      exact ⟨g1.data, g1.entry, g1.max, g1.bug, fun x hx => by
        show x ∈ S1.later ++ [b]
        rw [g1.later]; exact List.mem_append_left _ hx, fun _ => by simp, fun hh => absurd hh hp, g3, g5, gt, g6⟩
    · rename_i hl
      subst h
      refine ⟨g1.data, g1.entry, g1.max, g1.bug, fun x hx => by rw [g1.later]; exact hx, ?_, fun hh => absurd hh hp, g3, g5, gt, g6⟩
      intro hh
      exact absurd (g2 (Or.inr hh)) hl

/-! ## The maximum -/

/-- `max_stack_` grows, and is at least the balance. -/
def Rises (S S' : Cur) : Prop := S.max ≤ S'.max ∧ (S.data.bal ≤ S.max → S'.data.bal ≤ S'.max)

theorem Rises.refl (S : Cur) : Rises S S := ⟨Nat.le_refl _, id⟩
theorem Rises.trans {S S' S'' : Cur} (h : Rises S S') (h' : Rises S' S'') : Rises S S'' :=
  ⟨Nat.le_trans h.1 h'.1, fun hh => h'.2 (h.2 hh)⟩

theorem Alike.rises {S S' : Cur} (h : Alike S S') : Rises S S' := by
  obtain ⟨h1, _, _, h4⟩ := h
  exact ⟨by omega, by omega⟩

theorem pushStack_rises {n : Nat} {S S' : Cur} (h : pushStack n S = .ok S') : Rises S S' := by
  obtain ⟨_, h2, h3, _⟩ := pushStack_ok h
  exact ⟨h2, fun _ => h3⟩

theorem popStack_rises {n : Int} {S S' : Cur} (h : popStack n S = .ok S') : Rises S S' := by
  obtain ⟨_, h2⟩ := popStack_ok h
  subst h2
  exact ⟨Nat.le_refl _, fun h => by simp only; omega⟩

theorem check_rises {C : Ctx} {prev : Option Nat} {c : Check} {S S' : Cur} (h : c.run C prev S = .ok S') : Rises S S' := by
  cases c
  case push n => exact pushStack_rises h
  case pop n =>
    simp only [Check.run] at h
    split at h
    · cases h
    · exact popStack_rises h
  case stack v =>
    simp only [Check.run] at h
    repeat' split at h
    all_goals first
      | (cases h; done)
      | exact pushStack_rises h
      | exact popStack_rises h
  case call o =>
    simp only [Check.run] at h
    unfold callOk at h
    split at h
    · cases h
    · obtain ⟨n, _, h⟩ := bind_ok_iff.1 h
      repeat' split at h
      all_goals first
        | (cases h; done)
        | exact popStack_rises h
  case trackPush v =>
    obtain ⟨_, h1, _, h2, _⟩ := trackPushOk_ok h
    exact ⟨by omega, by omega⟩
  case trackPop =>
    obtain ⟨_, h1, _, h2, _⟩ := trackPopOk_ok h
    exact ⟨by omega, by omega⟩
  case array =>
    simp only [Check.run] at h
    split at h <;> cases h <;> exact ⟨Nat.le_refl _, id⟩
  case save =>
    simp only [Check.run] at h
    split at h <;> cases h; exact ⟨Nat.le_refl _, id⟩
  case restore =>
    simp only [Check.run] at h
    repeat' split at h
    all_goals first
      | (cases h; done)
      | (cases h; exact ⟨Nat.le_refl _, id⟩)
  case reject => cases h
  all_goals exact (quiet_alike rfl h).rises

theorem runChecks_rises {C : Ctx} {prev : Option Nat} : ∀ (cs : List Check) (S S' : Cur), runChecks C prev cs S = .ok S' → Rises S S'
  | [], S, S', h => by cases h; exact .refl S
  | c :: cs, S, S', h => by
    unfold runChecks at h
    obtain ⟨S1, h1, h2⟩ := bind_ok_iff.1 h
    exact (check_rises h1).trans (runChecks_rises cs S1 S' h2)

theorem verifyOp_rises {C : Ctx} {prev : Option Nat} {pc pc' : Nat} {op : Cell} {S S' : Cur} (h : verifyOp C prev pc op S = .ok (pc', S')) :
    Rises S S' := by
  unfold verifyOp at h
  split at h
  · obtain ⟨n, _, h⟩ := bind_ok_iff.1 h
    simp only at h
    split at h
    · cases h
    · cases h; exact .refl S
  · repeat' split at h
    all_goals first
      | (cases h; done)
      | (obtain ⟨S1, h1, h2⟩ := bind_ok_iff.1 h; cases h2; exact runChecks_rises _ _ _ h1)

theorem verifyRun_rises {C : Ctx} {stop : Nat} : ∀ (fuel : Nat) (prev : Option Nat) (pc : Nat) (S T : Cur),
    verifyRun C stop fuel prev pc S = .ok T → Rises S T
  | 0, _, _, _, _, h => by cases h
  | fuel+1, prev, pc, S, T, h => by
    unfold verifyRun at h
    split at h
    · cases h; exact .refl S
    · obtain ⟨op, _, h⟩ := bind_ok_iff.1 h
      obtain ⟨⟨pc', S1⟩, h1, h2⟩ := bind_ok_iff.1 h
      exact (verifyOp_rises h1).trans (verifyRun_rises fuel _ _ S1 T h2)

/-! ## With heap scopes there is no tracker -/

theorem check_flat {C : Ctx} {prev : Option Nat} {c : Check} {S S' : Cur} (hs : C.scopes = true) (h : c.run C prev S = .ok S')
    (ht : S.data.trk = []) : S'.data.trk = [] := by
  cases c
  case push n => rw [(pushStack_ok h).1]; exact ht
  case pop n => rw [(pop_ok h).2]; exact ht
  case stack v =>
    simp only [Check.run] at h
    repeat' split at h
    all_goals first
      | (cases h; done)
      | (rw [(pushStack_ok h).1]; exact ht)
      | (rw [(popStack_ok h).2]; exact ht)
  case call o =>
    simp only [Check.run] at h
    unfold callOk at h
    split at h
    · cases h
    · obtain ⟨n, _, h⟩ := bind_ok_iff.1 h
      repeat' split at h
      all_goals first
        | (cases h; done)
        | (rw [(popStack_ok h).2]; exact ht)
  case trackPush v => rw [(trackPushOk_ok h).1] at hs; cases hs
  case trackPop => rw [(trackPopOk_ok h).1] at hs; cases hs
  case array =>
    simp only [Check.run, hs] at h
    cases h; exact ht
  case save =>
    simp only [Check.run, hs] at h
    cases h; exact ht
  case restore =>
    simp only [Check.run, hs] at h
    repeat' split at h
    all_goals first
      | (cases h; done)
      | (cases h; exact ht)
  case reject => cases h
  all_goals (rw [(quiet_alike rfl h).2.1]; exact ht)

theorem runChecks_flat {C : Ctx} {prev : Option Nat} (hs : C.scopes = true) : ∀ (cs : List Check) (S S' : Cur),
    runChecks C prev cs S = .ok S' → S.data.trk = [] → S'.data.trk = []
  | [], S, S', h, ht => by cases h; exact ht
  | c :: cs, S, S', h, ht => by
    unfold runChecks at h
    obtain ⟨S1, h1, h2⟩ := bind_ok_iff.1 h
    exact runChecks_flat hs cs S1 S' h2 (check_flat hs h1 ht)

theorem verifyOp_flat {C : Ctx} {prev : Option Nat} {pc pc' : Nat} {op : Cell} {S S' : Cur} (hs : C.scopes = true)
    (h : verifyOp C prev pc op S = .ok (pc', S')) (ht : S.data.trk = []) : S'.data.trk = [] := by
  unfold verifyOp at h
  split at h
  · obtain ⟨n, _, h⟩ := bind_ok_iff.1 h
    simp only at h
    split at h
    · cases h
    · cases h; exact ht
  · repeat' split at h
    all_goals first
      | (cases h; done)
      | (obtain ⟨S1, h1, h2⟩ := bind_ok_iff.1 h; cases h2; exact runChecks_flat hs _ _ _ h1 ht)

theorem verifyRun_flat {C : Ctx} {stop : Nat} (hs : C.scopes = true) : ∀ (fuel : Nat) (prev : Option Nat) (pc : Nat) (S T : Cur),
    verifyRun C stop fuel prev pc S = .ok T → S.data.trk = [] → T.data.trk = []
  | 0, _, _, _, _, h, _ => by cases h
  | fuel+1, prev, pc, S, T, h, ht => by
    unfold verifyRun at h
    split at h
    · cases h; exact ht
    · obtain ⟨op, _, h⟩ := bind_ok_iff.1 h
      obtain ⟨⟨pc', S1⟩, h1, h2⟩ := bind_ok_iff.1 h
      exact verifyRun_flat hs fuel _ _ S1 T h2 (verifyOp_flat hs h1 ht)

/-! ## The loop over the blocks -/

/-- The data every block starts with. -/
def fresh : Data := ⟨0, [], [], 0⟩

/-- A block that was verified from `d`. -/
structure BlockOk (C : Ctx) (M : Method) (fuel b : Nat) (S : VState) (d : Data) : Prop where
  run : ∃ m first stop T, M.first b = some first ∧ M.stop b = some stop ∧ verifyRun C stop fuel none first ⟨d, m⟩ = .ok T ∧
    T.data = S.data b ∧ T.max ≤ S.max ∧ d.bal ≤ m
  alone : M.preds b = [] → d = fresh
  joins : ∀ p ∈ M.preds b, M.id p < M.id b → Joins S.bug (S.data p) d
  back : (∃ p ∈ M.preds b, M.id p ≥ M.id b) → b ∈ S.later ∧ ∀ e, S.entry b = some e → Same e d
  flat : C.scopes = true → d.trk = []

/-- The state when the blocks of `dn` were verified. -/
structure VInv (C : Ctx) (M : Method) (fuel : Nat) (dn : List Nat) (S : VState) : Prop where
  done : ∀ b ∈ dn, ∃ d, BlockOk C M fuel b S d
  bal : ∀ b ∈ dn, (S.data b).bal ≤ S.max
  rest : ∀ b, b ∉ dn → S.data b = fresh ∧ S.entry b = none
  flat : C.scopes = true → ∀ b, (S.data b).trk = []

theorem verifyBlock_ok {C : Ctx} {M : Method} {fuel b : Nat} {dn : List Nat} {S S' : VState} (I : VInv C M fuel dn S) (hb : b ∉ dn)
    (hid : ∀ p, M.id p < M.id b ↔ p ∈ dn) (h : verifyBlock C M fuel b S = .ok S') : VInv C M fuel (b :: dn) S' := by
  unfold verifyBlock at h
  obtain ⟨S1, h1, h⟩ := bind_ok_iff.1 h
  obtain ⟨g1, g2, g3, g4, g5, g6, g7, g8, g9, gt, g10⟩ := handleJoins_ok h1
  split at h
  · rename_i first stop hf hst
    obtain ⟨T, h2, h⟩ := bind_ok_iff.1 h
    cases h
    obtain ⟨r1, r2⟩ := verifyRun_rises _ _ _ _ _ h2
    simp only at r1 r2
    have hne : ∀ x ∈ dn, x ≠ b := fun x hx hh => hb (hh ▸ hx)
    have hdata : ∀ x, x ≠ b → upd S1.data b T.data x = S.data x := by
      intro x hx
      unfold upd
      rw [if_neg hx]
      exact g1 x hx
    have hself : upd S1.data b T.data b = T.data := by simp [upd]
    have hbal : (S1.data b).bal ≤ S1.max := by
      rw [g3]
      rcases g10 with g | ⟨p, hp, hlt, g⟩
      · rw [g, (I.rest b hb).1]; exact Nat.zero_le _
      · rw [g]; exact I.bal p ((hid p).1 hlt)
    refine ⟨?_, ?_, ?_, ?_⟩
    · intro x hx
      rcases List.mem_cons.1 hx with rfl | hx
      · refine ⟨S1.data x, ⟨⟨S1.max, first, stop, T, hf, hst, h2, hself.symm, Nat.le_refl _, hbal⟩, ?_, ?_, ?_, fun hs => gt (I.flat hs)⟩⟩
        · intro hp
          rw [g7 hp]
          exact (I.rest x hb).1
        · intro p hp hlt
          have := g8 p hp hlt
          show Joins S1.bug (upd S1.data x T.data p) _
          rw [hdata p (hne p ((hid p).1 hlt))]
          exact this
        · intro hp
          refine ⟨g6 hp, ?_⟩
          intro e he
          rcases g9 with g | ⟨e', ge, gs⟩
          · rw [(I.rest x hb).2] at g
            have he' : S1.entry x = some e := he
            rw [g] at he'; cases he'
          · have he' : S1.entry x = some e := he
            rw [ge] at he'; cases he'
            exact gs
      · obtain ⟨d, ⟨⟨m, f, s, T', k1, k2, k3, k4, k5, k6⟩, k7, k8, k9, k10⟩⟩ := I.done x hx
        refine ⟨d, ⟨⟨m, f, s, T', k1, k2, k3, ?_, ?_, k6⟩, k7, ?_, ?_, k10⟩⟩
        · show T'.data = upd S1.data b T.data x
          rw [hdata x (hne x hx)]; exact k4
        · show T'.max ≤ T.max
          omega
        · intro p hp hlt
          show Joins S1.bug (upd S1.data b T.data p) _
          have hpd : p ∈ dn := by
            have h1 := (hid x).2 hx
            exact (hid p).1 (by omega)
          rw [hdata p (hne p hpd)]
          exact (k8 p hp hlt).mono g4
        · intro hp
          obtain ⟨e1, e2⟩ := k9 hp
          refine ⟨g5 x e1, ?_⟩
          intro e he
          have he' : S1.entry x = some e := he
          rw [g2 x (hne x hx)] at he'
          exact e2 e he'
    · intro x hx
      rcases List.mem_cons.1 hx with rfl | hx
      · show (upd S1.data x T.data x).bal ≤ T.max
        rw [hself]
        exact r2 hbal
      · show (upd S1.data b T.data x).bal ≤ T.max
        rw [hdata x (hne x hx)]
        have := I.bal x hx
        omega
    · intro x hx
      rw [List.mem_cons, not_or] at hx
      show upd S1.data b T.data x = fresh ∧ S1.entry x = none
      rw [hdata x hx.1, g2 x hx.1]
      exact I.rest x hx.2
    · intro hs x
      show (upd S1.data b T.data x).trk = []
      by_cases hx : x = b
      · subst hx
        rw [hself]
        exact verifyRun_flat hs _ _ _ _ _ h2 (gt (I.flat hs))
      · rw [hdata x hx]
        exact I.flat hs x
  · cases h

theorem idxOf_lt_iff {L dn rest : List Nat} {b : Nat} (hL : L = dn ++ b :: rest) (hn : L.Nodup) (p : Nat) :
    rpoId L p < rpoId L b ↔ p ∈ dn := by
  subst hL
  have hb : b ∉ dn := by
    rw [List.nodup_append] at hn
    intro hh
    exact hn.2.2 b hh b (by simp) rfl
  unfold rpoId
  have h1 : (dn ++ b :: rest).idxOf b = dn.length := by
    rw [List.idxOf_append, if_neg hb]
    simp
  rw [h1]
  constructor
  · intro h
    rw [List.idxOf_append] at h
    split at h
    · assumption
    · omega
  · intro h
    rw [List.idxOf_append, if_pos h]
    have := List.idxOf_lt_length_of_mem h
    omega

theorem verifyBlocks_ok {C : Ctx} {M : Method} {fuel : Nat} (hn : M.info.order.Nodup) : ∀ (rest dn : List Nat) (S S' : VState),
    M.info.order = dn ++ rest → (∀ dn', (∀ x, x ∈ dn ↔ x ∈ dn') → VInv C M fuel dn' S) → verifyBlocks C M fuel rest S = .ok S' →
    VInv C M fuel M.info.order S'
  | [], dn, S, S', hL, I, h => by
    unfold verifyBlocks at h
    cases h
    rw [List.append_nil] at hL
    exact I _ (by rw [hL]; simp)
  | b :: rest, dn, S, S', hL, I, h => by
    unfold verifyBlocks at h
    obtain ⟨S1, h1, h2⟩ := bind_ok_iff.1 h
    have hb : b ∉ dn := by
      rw [hL, List.nodup_append] at hn
      intro hh
      exact hn.2.2 b hh b (by simp) rfl
    have hid : ∀ p, M.id p < M.id b ↔ p ∈ dn := fun p => idxOf_lt_iff hL hn p
    have I1 := verifyBlock_ok (I dn fun _ => Iff.rfl) hb hid h1
    refine verifyBlocks_ok hn rest (dn ++ [b]) S1 S' (by rw [hL]; simp) ?_ h2
    intro dn' hm
    refine ⟨fun x hx => I1.done x ?_, fun x hx => I1.bal x ?_, fun x hx => I1.rest x ?_, I1.flat⟩
    · have := (hm x).2 hx; simp at this ⊢; exact this.symm
    · have := (hm x).2 hx; simp at this ⊢; exact this.symm
    · intro hh
      apply hx
      apply (hm x).1
      simp at hh ⊢; exact hh.symm

theorem joinAgain_ok {M : Method} {cur : Nat} {e : Data} {data : Nat → Data} : ∀ (ps : List Nat) (bug bug' : Nat → Bool),
    joinAgain M cur e data ps bug = .ok bug' → Grows bug bug' ∧ ∀ p ∈ ps, Joins bug' (data p) e
  | [], bug, bug', h => by unfold joinAgain at h; cases h; exact ⟨.refl _, by simp⟩
  | p :: ps, bug, bug', h => by
    unfold joinAgain at h
    obtain ⟨bug1, h1, h2⟩ := bind_ok_iff.1 h
    obtain ⟨j, g⟩ := verifyJoin_ok h1
    obtain ⟨g', j'⟩ := joinAgain_ok ps bug1 bug' h2
    refine ⟨g.trans g', ?_⟩
    intro q hq
    rcases List.mem_cons.1 hq with rfl | hq
    · exact j.mono g'
    · exact j' q hq

theorem verifyLater_ok {M : Method} {cur : Nat} : ∀ (bs : List Nat) (S S' : VState), verifyLater M cur bs S = .ok S' →
    Grows S.bug S'.bug ∧ S'.data = S.data ∧ S'.max = S.max ∧ S'.entry = S.entry ∧
    ∀ b ∈ bs, ∃ e, S.entry b = some e ∧ ∀ p ∈ M.preds b, Joins S'.bug (S.data p) e
  | [], S, S', h => by unfold verifyLater at h; cases h; exact ⟨.refl _, rfl, rfl, rfl, by simp⟩
  | b :: bs, S, S', h => by
    unfold verifyLater at h
    split at h
    · cases h
    · rename_i e he
      obtain ⟨bug, h1, h2⟩ := bind_ok_iff.1 h
      obtain ⟨g, j⟩ := joinAgain_ok _ _ _ h1
      obtain ⟨g1, g2, g3, g4, g5⟩ := verifyLater_ok bs _ S' h2
      refine ⟨g.trans g1, g2, g3, g4, ?_⟩
      intro x hx
      rcases List.mem_cons.1 hx with rfl | hx
      · exact ⟨e, he, fun p hp => (j p hp).mono g1⟩
      · exact g5 x hx

/-- What is known of a block of an accepted method: it was verified from `d`, with the maximum at `m`, and its data joins that of the
blocks before it. -/
structure Facts (C : Ctx) (fuel : Nat) (V : Verified) (b : Nat) (d : Data) (m : Nat) : Prop where
  run : ∃ first stop T, V.method.first b = some first ∧ V.method.stop b = some stop ∧
    verifyRun C stop fuel none first ⟨d, m⟩ = .ok T ∧ T.data = V.state.data b ∧ 4 * T.max ≤ V.maxStack
  bal : d.bal ≤ m
  alone : V.method.preds b = [] → d = fresh
  joins : ∀ p ∈ V.method.preds b, Joins V.state.bug (V.state.data p) d
  flat : C.scopes = true → d.trk = [] ∧ ∀ p, (V.state.data p).trk = []

/-- What an accepted method went through. -/
structure Accepted (C : Ctx) (start fuel : Nat) (V : Verified) : Prop where
  built : Verif.Graph.build C.code start fuel = .ok (V.pre, V.method.build, V.method.info)
  start : V.method.start = start
  blocks : ∃ (d : Nat → Data) (m : Nat → Nat), ∀ b ∈ V.method.info.order, Facts C fuel V b (d b) (m b)

theorem verify_accepted {C : Ctx} {start fuel : Nat} {V : Verified} (h : verify C start fuel = .ok V)
    (hn : ∀ P B A, Verif.Graph.build C.code start fuel = .ok (P, B, A) → A.order.Nodup) : Accepted C start fuel V := by
  unfold verify at h
  obtain ⟨⟨P, B, A⟩, h1, h⟩ := bind_ok_iff.1 h
  simp only at h
  obtain ⟨S, h2, h⟩ := bind_ok_iff.1 h
  obtain ⟨S', h3, h⟩ := bind_ok_iff.1 h
  split at h
  · cases h
  · cases h
    have hN := hn P B A h1
    have I := verifyBlocks_ok (M := ⟨start, B, A⟩) hN A.order [] _ S rfl (by
      intro dn' hm
      refine ⟨fun b hb => ?_, fun b hb => ?_, fun b _ => ⟨rfl, rfl⟩, fun _ _ => rfl⟩
      · have := (hm b).2 hb; cases this
      · have := (hm b).2 hb; cases this) h2
    obtain ⟨l1, l2, l3, l4, l5⟩ := verifyLater_ok _ _ _ h3
    have key : ∀ b ∈ A.order, ∃ d m, Facts C fuel ⟨P, ⟨start, B, A⟩, 4 * S'.max, S'⟩ b d m := by
      intro b hb
      obtain ⟨d, ⟨⟨m, first, stop, T, k1, k2, k3, k4, k5, k6⟩, k7, k8, k9, k10⟩⟩ := I.done b hb
      refine ⟨d, m, ⟨⟨first, stop, T, k1, k2, k3, ?_, ?_⟩, k6, k7, ?_, ?_⟩⟩
      · show T.data = S'.data b
        rw [l2]; exact k4
      · show 4 * T.max ≤ 4 * S'.max
        rw [l3]; omega
      · intro p hp
        show Joins S'.bug (S'.data p) d
        rw [l2]
        by_cases hlt : (Method.mk start B A).id p < (Method.mk start B A).id b
        · exact (k8 p hp hlt).mono l1
        · obtain ⟨e1, e2⟩ := k9 ⟨p, hp, by omega⟩
          obtain ⟨e, he, hj⟩ := l5 b e1
          exact (hj p hp).same (e2 e he)
      · intro hs
        refine ⟨k10 hs, ?_⟩
        intro p
        show (S'.data p).trk = []
        rw [l2]
        exact I.flat hs p
    refine ⟨h1, rfl, ?_⟩
    have key' : ∀ b, ∃ q : Data × Nat, b ∈ A.order → Facts C fuel ⟨P, ⟨start, B, A⟩, 4 * S'.max, S'⟩ b q.1 q.2 := by
      intro b
      by_cases hb : b ∈ A.order
      · obtain ⟨d, m, h⟩ := key b hb
        exact ⟨(d, m), fun _ => h⟩
      · exact ⟨(fresh, 0), fun h => absurd h hb⟩
    exact ⟨fun b => (key' b).choose.1, fun b => (key' b).choose.2, fun b hb => (key' b).choose_spec hb⟩

end Verif.Verifier

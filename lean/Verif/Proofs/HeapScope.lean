import Verif.Spec.HeapScope

namespace Verif.HeapScope

theorem jumps_def (s : Stmt) : s.jumps = (s.hasBrk || s.hasCont) := by
  induction s <;> simp_all [Stmt.jumps, Stmt.hasBrk, Stmt.hasCont, Bool.or_assoc, Bool.or_left_comm]
open Verif.CodeGen (Flow)

/-! ### Which outcomes code has -/

theorem Out.lift_eq {o x : Out} (h : o.lift = x) : (o = .brk ∧ x = .normal) ∨ (o ≠ .brk ∧ o = x) := by
  cases o <;> subst h <;> simp [Out.lift]

theorem Out.caught_eq {o x : Out} (h : o.caught = x) : (o = .cont ∧ x = .normal) ∨ (o ≠ .cont ∧ o = x) := by
  cases o <;> subst h <;> simp [Out.caught]

/-- A loop, from what one round of it does. -/
theorem loop_rule {a : Code} {P : St → Prop} {Q : Out → St → Prop}
    (h : ∀ s o s', P s → Exec a s o s' → if o = .normal then P s' else Q o.lift s') (hstop : ∀ s, P s → Q .stop s) {s s' : St} {o : Out}
    (he : Exec (.loop a) s o s') (hp : P s) : Q o s' := by
  generalize hc : Code.loop a = c at he
  induction he with
  | pause c s => exact hstop s hp
  | again h1 _ _ ih2 =>
    cases hc
    have := h _ _ _ hp h1
    rw [if_pos rfl] at this
    exact ih2 this rfl
  | loopOut h1 hne _ =>
    cases hc
    have := h _ _ _ hp h1
    rwa [if_neg hne] at this
  | _ => cases hc

theorem seq_inv {a b : Code} {s s' : St} {o : Out} (h : Exec (a ⊳ b) s o s') :
    (o = .stop ∧ s' = s) ∨ (∃ s1, Exec a s .normal s1 ∧ Exec b s1 o s') ∨ (Exec a s o s' ∧ o ≠ .normal) := by
  cases h with
  | pause => exact Or.inl ⟨rfl, rfl⟩
  | seq h1 h2 => exact Or.inr (Or.inl ⟨_, h1, h2⟩)
  | seqOut h1 h2 => exact Or.inr (Or.inr ⟨h1, h2⟩)

theorem choice_inv {a b : Code} {s s' : St} {o : Out} (h : Exec (.choice a b) s o s') :
    (o = .stop ∧ s' = s) ∨ Exec a s o s' ∨ Exec b s o s' := by
  cases h with
  | pause => exact Or.inl ⟨rfl, rfl⟩
  | left h => exact Or.inr (Or.inl h)
  | right h => exact Or.inr (Or.inr h)

theorem catch_inv {a : Code} {s s' : St} {o : Out} (h : Exec (.catchCont a) s o s') :
    (o = .stop ∧ s' = s) ∨ ∃ x, Exec a s x s' ∧ o = x.caught := by
  cases h with
  | pause => exact Or.inl ⟨rfl, rfl⟩
  | catchCont h => exact Or.inr ⟨_, h, rfl⟩

/-- Outcomes that are possible. -/
structure Can (c : Code) (n b k : Bool) : Prop where
  normal : ∀ {s s'}, Exec c s .normal s' → n = true
  brk : ∀ {s s'}, Exec c s .brk s' → b = true
  cont : ∀ {s s'}, Exec c s .cont s' → k = true

theorem Can.mono {c : Code} {n b k n' b' k' : Bool} (h : Can c n b k) (hn : n = true → n' = true) (hb : b = true → b' = true) (hk : k = true → k' = true) :
    Can c n' b' k' := ⟨fun e => hn (h.normal e), fun e => hb (h.brk e), fun e => hk (h.cont e)⟩

theorem can_skip : Can .skip true false false := ⟨fun _ => rfl, (nomatch ·), (nomatch ·)⟩
theorem can_save : Can .save true false false := ⟨fun _ => rfl, (nomatch ·), (nomatch ·)⟩
theorem can_restore : Can .restore true false false := ⟨fun _ => rfl, (nomatch ·), (nomatch ·)⟩
theorem can_alloc (n : Nat) : Can (.alloc n) true false false := ⟨fun _ => rfl, (nomatch ·), (nomatch ·)⟩
theorem can_brk : Can .brk false true false := ⟨(nomatch ·), fun _ => rfl, (nomatch ·)⟩
theorem can_cont : Can .cont false false true := ⟨(nomatch ·), (nomatch ·), fun _ => rfl⟩
theorem can_ret : Can .ret false false false := ⟨(nomatch ·), (nomatch ·), (nomatch ·)⟩
theorem can_exitIf : Can .exitIf true true false := ⟨fun _ => rfl, fun _ => rfl, (nomatch ·)⟩

theorem can_seq {x y : Code} {n b k n' b' k' : Bool} (h1 : Can x n b k) (h2 : Can y n' b' k') :
    Can (x ⊳ y) (n && n') (b || (n && b')) (k || (n && k')) := by
  refine ⟨fun h => ?_, fun h => ?_, fun h => ?_⟩
  · rcases seq_inv h with ⟨h, _⟩ | ⟨_, e1, e2⟩ | ⟨_, hne⟩
    · exact absurd h (fun h => nomatch h)
    · rw [h1.normal e1, h2.normal e2]; rfl
    · exact absurd rfl hne
  · rcases seq_inv h with ⟨h, _⟩ | ⟨_, e1, e2⟩ | ⟨e, _⟩
    · exact absurd h (fun h => nomatch h)
    · rw [h1.normal e1, h2.brk e2]; simp
    · rw [h1.brk e]; rfl
  · rcases seq_inv h with ⟨h, _⟩ | ⟨_, e1, e2⟩ | ⟨e, _⟩
    · exact absurd h (fun h => nomatch h)
    · rw [h1.normal e1, h2.cont e2]; simp
    · rw [h1.cont e]; rfl

theorem can_choice {x y : Code} {n b k n' b' k' : Bool} (h1 : Can x n b k) (h2 : Can y n' b' k') :
    Can (.choice x y) (n || n') (b || b') (k || k') := by
  refine ⟨fun h => ?_, fun h => ?_, fun h => ?_⟩
  · rcases choice_inv h with ⟨h, _⟩ | e | e
    · exact absurd h (fun h => nomatch h)
    · rw [h1.normal e]; rfl
    · rw [h2.normal e]; simp
  · rcases choice_inv h with ⟨h, _⟩ | e | e
    · exact absurd h (fun h => nomatch h)
    · rw [h1.brk e]; rfl
    · rw [h2.brk e]; simp
  · rcases choice_inv h with ⟨h, _⟩ | e | e
    · exact absurd h (fun h => nomatch h)
    · rw [h1.cont e]; rfl
    · rw [h2.cont e]; simp

theorem can_catch {x : Code} {n b k : Bool} (h1 : Can x n b k) : Can (.catchCont x) (n || k) b false := by
  refine ⟨fun h => ?_, fun h => ?_, fun h => ?_⟩
  · rcases catch_inv h with ⟨h, _⟩ | ⟨o, e, ho⟩
    · exact absurd h (fun h => nomatch h)
    · rcases Out.caught_eq ho.symm with ⟨rfl, _⟩ | ⟨_, rfl⟩
      · rw [h1.cont e]; simp
      · rw [h1.normal e]; rfl
  · rcases catch_inv h with ⟨h, _⟩ | ⟨o, e, ho⟩
    · exact absurd h (fun h => nomatch h)
    · rcases Out.caught_eq ho.symm with ⟨_, h⟩ | ⟨_, rfl⟩
      · exact absurd h (fun h => nomatch h)
      · exact h1.brk e
  · rcases catch_inv h with ⟨h, _⟩ | ⟨o, e, ho⟩
    · exact absurd h (fun h => nomatch h)
    · rcases Out.caught_eq ho.symm with ⟨_, h⟩ | ⟨hne, rfl⟩
      · exact absurd h (fun h => nomatch h)
      · exact absurd rfl hne

theorem can_loop {x : Code} {n b : Bool} (h1 : Can x n b false) : Can (.loop x) b false false := by
  have key : ∀ {s o s'}, Exec (.loop x) s o s' → (o = .normal → b = true) ∧ o ≠ .brk ∧ o ≠ .cont := by
    intro s o s' h
    refine loop_rule (P := fun _ => True) (Q := fun o _ => (o = .normal → b = true) ∧ o ≠ .brk ∧ o ≠ .cont) ?_ ?_ h trivial
    · intro s o s' _ he
      split
      · trivial
      · rename_i hn
        cases o with
        | normal => exact absurd rfl hn
        | brk => exact ⟨fun _ => h1.brk he, (fun h => nomatch h), (fun h => nomatch h)⟩
        | cont => exact absurd (h1.cont he) (fun h => nomatch h)
        | ret | stop | crash => exact ⟨(fun h => nomatch h), (fun h => nomatch h), (fun h => nomatch h)⟩
    · intro s _
      exact ⟨(fun h => nomatch h), (fun h => nomatch h), (fun h => nomatch h)⟩
  exact ⟨fun h => (key h).1 rfl, fun h => absurd rfl (key h).2.1, fun h => absurd rfl (key h).2.2⟩

theorem can_expr (n : Nat) : Can (expr n) true false false := by
  unfold expr; split
  · exact can_skip
  · exact can_alloc n

theorem can_inScope (n : Nat) : Can (inScope n) true false false := by
  unfold inScope; split
  · exact can_expr n
  · exact can_seq can_save (can_seq (can_expr n) can_restore)

theorem can_exit : ∀ c : Option Bool, Can (exit c) (c != some false) (c != some true) false
  | some true => can_skip
  | some false => can_brk
  | none => can_exitIf

theorem can_unwind (d : Nat) : ∀ hs : List Bool, Can (unwind hs d) true false false
  | [] => can_skip
  | b :: hs => by
    unfold unwind; split
    · exact can_skip
    · refine can_seq (n := true) (b := false) (k := false) ?_ (can_unwind d hs)
      cases b
      · exact can_skip
      · exact can_restore

theorem can_wrap {flag : Bool} {flow : Flow} {k : List Bool → Code} {hs : List Bool} {n b c : Bool} (h : ∀ hs, Can (k hs) n b c) :
    Can (wrap flag flow k hs) n b c := by
  unfold wrap; split
  · split
    · exact h _
    · exact (can_seq can_save (can_seq (h _) can_restore)).mono (by simp) (by simp) (by simp)
  · exact h _

theorem can_branch {a : Stmt} {x y : Code} {n b k n' b' k' : Bool} (h1 : Can x n b k) (h2 : Can y n' b' k') (hn : a.flow ≠ .none → n = false) :
    Can (branch a x y) (n || n') (b || b') (k || k') := by
  unfold branch
  by_cases hf : a.flow = .none
  · rw [if_pos hf]
    exact can_choice h1 h2
  · rw [if_neg hf]
    have := hn hf
    subst this
    exact (can_choice (can_seq h1 h2) h2).mono (by simp) (by simp) (by simp)

theorem hasCont_leak : ∀ s : Stmt, s.hasCont = true → s.leak = true
  | .cont, _ => rfl
  | .seq a b, h | .alt a b, h | .ifElse _ a b, h => by
    simp only [Stmt.hasCont, Stmt.leak, Bool.or_eq_true] at h ⊢
    exact h.imp (hasCont_leak a) (hasCont_leak b)
  | .block a, h | .ifThen _ a, h | .switch _ a, h => hasCont_leak a h
  | .for init _ _ _, h => hasCont_leak init h

theorem Flow.join_ne {a b : Flow} (h : a.join b ≠ .none) : a ≠ .none ∧ b ≠ .none := by
  unfold Flow.join at h
  split at h
  · rename_i e; subst e; exact ⟨h, h⟩
  · exact absurd rfl h

theorem Flow.terminal_ne {a : Flow} (h : a.terminal = true) : a ≠ .none := by rintro rfl; exact absurd h (by decide)

/-- A statement with a flow does not come to its end, and `break` and `continue` are only where they are written. -/
theorem can_code : ∀ (s : Stmt) (hs : List Bool) (d : Nat), Can (code s hs d) (decide (s.flow = .none)) s.hasBrk s.hasCont
  | .simple n, _, _ => can_expr n
  | .assert n, _, _ => (can_seq (can_expr n) (can_choice can_skip can_ret)).mono (by simp [Stmt.flow]) (by simp) (by simp)
  | .ret n, _, _ => (can_seq (can_expr n) can_ret).mono (by simp) (by simp) (by simp)
  | .brk, hs, d => (can_seq (can_unwind d hs) can_brk).mono (by simp) (by simp [Stmt.hasBrk]) (by simp)
  | .cont, hs, d => (can_seq (can_unwind d hs) can_cont).mono (by simp) (by simp) (by simp [Stmt.hasCont])
  | .skip, _, _ => can_skip
  | .seq a b, hs, d => by
    refine (can_seq (can_code a hs d) (can_code b hs d)).mono ?_ ?_ ?_
    · simp only [Bool.and_eq_true, decide_eq_true_eq]
      rintro ⟨h1, h2⟩
      simp only [Stmt.flow, Flow.seq]
      rw [if_pos h1]; exact h2
    · simp only [Stmt.hasBrk, Bool.or_eq_true, Bool.and_eq_true]
      exact fun h => h.imp id (·.2)
    · simp only [Stmt.hasCont, Bool.or_eq_true, Bool.and_eq_true]
      exact fun h => h.imp id (·.2)
  | .alt a b, hs, d => by
    refine (can_branch (can_code a hs d) (can_code b hs d) (by simp)).mono ?_ id id
    simp only [Bool.or_eq_true, decide_eq_true_eq]
    intro h
    exact Classical.byContradiction fun hn => h.elim (Flow.join_ne hn).1 (Flow.join_ne hn).2
  | .block a, hs, d => can_wrap fun hs => can_code a hs d
  | .ifThen c a, hs, d => by
    refine (can_seq (can_expr _) (can_choice (can_wrap fun hs => can_code a hs d) can_skip)).mono (by simp [Stmt.flow]) ?_ ?_
    · simp [Stmt.hasBrk]
    · simp [Stmt.hasCont]
  | .ifElse c a b, hs, d => by
    refine (can_seq (can_expr _) (can_branch (can_wrap fun hs => can_code a hs d) (can_wrap fun hs => can_code b hs d) (by simp))).mono ?_ ?_ ?_
    · simp only [Bool.true_and, Bool.or_eq_true, decide_eq_true_eq]
      intro h
      exact Classical.byContradiction fun hn => h.elim (Flow.join_ne hn).1 (Flow.join_ne hn).2
    · simp [Stmt.hasBrk]
    · simp [Stmt.hasCont]
  | .while c body, hs, d => by
    have hb : Can (wrap body.pend body.flow (fun h => code body h hs.length) hs) _ _ _ := can_wrap fun h => can_code body h hs.length
    have hf : Can (if body.flow = .none then Code.skip else .brk) (decide (body.flow = .none)) (!decide (body.flow = .none)) false := by
      split <;> rename_i h <;> simp only [h]
      · exact can_skip
      · exact can_brk
    refine (can_loop ((can_seq (can_inScope _) (can_seq (can_exit c.const) (can_catch (can_seq hb hf)))).mono id id (by simp))).mono ?_
      (by simp) (by simp)
    simp only [decide_eq_true_eq]
    intro h
    simp only [Stmt.flow, loopFlow]
    by_cases h1 : c.const = some false
    · rw [if_pos h1]
    · rw [if_neg h1]
      by_cases h2 : c.const = some true
      · simp only [h2] at h ⊢
        cases h3 : body.hasBrk
        · simp [h3] at h
        · simp
      · simp [h2]
  | .doWhile body c, hs, d => by
    have hb : Can (wrap body.pend body.flow (fun h => code body h hs.length) hs) _ _ _ := can_wrap fun h => can_code body h hs.length
    simp only [code]
    by_cases ht : (!body.flow.terminal || body.hasCont) = true
    · rw [if_pos ht]
      refine (can_loop ((can_seq (can_catch hb) (can_seq (can_inScope _) (can_exit c.const))).mono id id (by simp))).mono ?_ (by simp) (by simp)
      simp only [decide_eq_true_eq]
      intro h
      simp only [Stmt.flow, loopFlow]
      by_cases h2 : c.const = some true
      · simp only [h2] at h ⊢
        cases h3 : body.hasBrk
        · simp [h3] at h
        · simp
      · simp [h2]
    · rw [if_neg ht]
      simp only [Bool.or_eq_true, Bool.not_eq_true', not_or, Bool.not_eq_false, Bool.not_eq_true] at ht
      refine (can_loop ((can_seq (can_catch hb) can_brk).mono id id (by simp))).mono ?_ (by simp) (by simp)
      simp only [decide_eq_true_eq]
      have := Flow.terminal_ne ht.1
      simp only [ht.2, this]
      intro h
      simp only [Stmt.flow, loopFlow]
      cases h3 : body.hasBrk
      · simp [h3] at h
      · simp
  | .for init c step body, hs, d => by
    have hb : Can (wrap body.pend body.flow (fun h => code body h hs.length) hs) _ _ _ := can_wrap fun h => can_code body h hs.length
    simp only [code]
    by_cases hfalse : c.const = some false
    · rw [if_pos hfalse]
      refine (can_seq (can_code init hs d) can_skip).mono ?_ (by simp [Stmt.hasBrk]) (by simp [Stmt.hasCont])
      intro _
      simp [Stmt.flow, hfalse]
    · rw [if_neg hfalse]
      have htest : Can (if decide (c.const = some true) then Code.skip else expr c.n ⊳ .exitIf) true (!decide (c.const = some true)) false := by
        by_cases h : c.const = some true
        · simp only [h]; exact can_skip
        · simp only [h]; exact can_seq (can_expr _) can_exitIf
      have hback : ∀ e : Bool, Can (if e = true then Code.brk else .skip) (!e) e false := by
        intro e; cases e
        · exact can_skip
        · exact can_brk
      generalize hhc : (body.leak || !body.flow.terminal || !decide (c.const = some true)) = hc
      have hend : (body.hasBrk = true ∨ c.const ≠ some true) → (Stmt.for init c step body).flow = .none := by
        intro h
        simp only [Stmt.flow, if_neg hfalse, loopFlow]
        rcases h with h | h
        · simp [h]
        · simp [h]
      have hexits : (body.flow.terminal && !hc) = true → body.flow ≠ .none ∧ body.hasCont = false := by
        intro h
        simp only [Bool.and_eq_true, Bool.not_eq_true'] at h
        refine ⟨Flow.terminal_ne h.1, ?_⟩
        cases hk : body.hasCont with
        | false => rfl
        | true =>
          have h2 := hasCont_leak body hk
          rw [h2] at hhc
          rw [← hhc] at h
          exact absurd h.2 (by simp)
      cases step with
      | some n =>
        simp only []
        have hstep : Can (if hc = true then inScope n else Code.skip) true false false := by
          cases hc
          · exact can_skip
          · exact can_inScope n
        refine (can_seq (can_code init hs d) (can_loop ((can_seq htest (can_seq (can_catch hb) (can_seq hstep (hback _)))).mono id id (by simp)))).mono
          ?_ (by simp [Stmt.hasBrk]) (by simp [Stmt.hasCont])
        simp only [Bool.and_eq_true, decide_eq_true_eq, Bool.or_eq_true, Bool.not_eq_true', Bool.true_and, Bool.false_or, decide_eq_false_iff_not]
        rintro ⟨_, h⟩
        apply hend
        rcases h with h | h | ⟨h1, h2⟩
        · exact Or.inr h
        · exact Or.inl h
        · have := hexits (by simp only [Bool.and_eq_true, Bool.not_eq_true']; exact h2)
          rcases h1 with h1 | h1
          · exact absurd h1 this.1
          · rw [this.2] at h1; exact absurd h1 (fun h => nomatch h)
      | none =>
        simp only []
        refine (can_seq (can_code init hs d) (can_loop ((can_seq htest (can_catch (can_seq hb (hback _)))).mono id id (by simp)))).mono
          ?_ (by simp [Stmt.hasBrk]) (by simp [Stmt.hasCont])
        simp only [Bool.and_eq_true, decide_eq_true_eq, Bool.or_eq_true, Bool.not_eq_true', Bool.true_and, decide_eq_false_iff_not]
        rintro ⟨_, h⟩
        apply hend
        rcases h with h | h | ⟨h1, h2⟩
        · exact Or.inr h
        · exact Or.inl h
        · have := hexits (by simp only [Bool.and_eq_true, Bool.not_eq_true']; exact h2)
          exact absurd h1 this.1
  | .switch n a, hs, d => (can_seq (can_expr n) (can_code a hs d)).mono (by rw [Bool.true_and]; exact id) (by simp [Stmt.hasBrk]) (by simp [Stmt.hasCont])

theorem can_own (s : Stmt) (hs : List Bool) (d : Nat) : Can (own s hs d) (decide (s.flow = .none)) s.hasBrk s.hasCont := can_wrap fun hs => can_code s hs d

/-! ### The heap -/

/-- Where the heap is after leaving `a` scopes. -/
def floor (a : Nat) (s : St) : Nat := match a with
  | 0 => s.hp
  | a + 1 => s.scopes.getD a 0

structure Post (ok : Prop) (a p u : Nat) (s : St) (o : Out) (s' : St) : Prop where
  nocrash : o ≠ .crash
  sorted : Sorted s'.hp s'.scopes
  low : min s.lo (floor a s) ≤ s'.lo
  normal : o = .normal → s'.scopes = s.scopes ∧ s.hp ≤ s'.hp ∧ min s.lo s.hp ≤ s'.lo
  jump : o = .brk ∨ o = .cont → s'.scopes = s.scopes.drop a ∧ floor a s ≤ s'.hp ∧ (a ≠ 0 → s'.hp = floor a s)
  high : ok → s'.hi ≤ max s.hi (s.hp + u)
  nb : ok → o = .normal → s'.hp ≤ s.hp + p
  jb : ok → a = 0 → o = .brk ∨ o = .cont → s'.hp ≤ s.hp + p

def Spec (ok : Prop) (a p u : Nat) (c : Code) : Prop :=
  p ≤ u ∧ ∀ s o s', Exec c s o s' → Sorted s.hp s.scopes → a ≤ s.scopes.length → Post ok a p u s o s'

theorem sorted_get : ∀ {l : List Nat} {hp : Nat}, Sorted hp l → ∀ {i : Nat}, i < l.length → l.getD i 0 ≤ hp
  | [], _, _, i, hi => absurd hi (by simp)
  | a :: l, hp, h, 0, _ => h.1
  | a :: l, hp, h, i + 1, hi => by
    have := sorted_get h.2 (i := i) (by simpa using hi)
    have h1 := h.1
    simp only [List.getD_cons_succ]
    omega

theorem floor_le {a : Nat} {s : St} (h : Sorted s.hp s.scopes) (ha : a ≤ s.scopes.length) : floor a s ≤ s.hp := by
  cases a with
  | zero => exact Nat.le_refl _
  | succ a => exact sorted_get h (by omega)

theorem sorted_mono : ∀ {l : List Nat} {hp hp' : Nat}, hp ≤ hp' → Sorted hp l → Sorted hp' l
  | [], _, _, _, _ => trivial
  | _ :: _, _, _, h, hs => ⟨Nat.le_trans hs.1 h, hs.2⟩

theorem floor_mono {a : Nat} {s s1 : St} (h : s1.scopes = s.scopes) (hp : s.hp ≤ s1.hp) : floor a s ≤ floor a s1 := by
  cases a with
  | zero => exact hp
  | succ a => unfold floor; rw [h]; exact Nat.le_refl _

theorem floor_same {a : Nat} {s s1 : St} (h : s1.scopes = s.scopes) (ha : a ≠ 0) : floor a s1 = floor a s := by
  cases a with
  | zero => exact absurd rfl ha
  | succ a => unfold floor; rw [h]

/-- Nothing happens. -/
theorem post_same {ok : Prop} {a p u : Nat} {s : St} {o : Out} (hs : Sorted s.hp s.scopes) (ho : o ≠ .crash) (hj : o ≠ .brk ∧ o ≠ .cont) :
    Post ok a p u s o s :=
  ⟨ho, hs, Nat.min_le_left _ _, fun _ => ⟨rfl, Nat.le_refl _, Nat.min_le_left _ _⟩, fun h => absurd h (by rw [not_or]; exact hj),
    fun _ => Nat.le_max_left _ _, fun _ _ => Nat.le_add_right _ _, fun _ _ h => absurd h (by rw [not_or]; exact hj)⟩

theorem post_stop {ok : Prop} {a p u : Nat} {s : St} (hs : Sorted s.hp s.scopes) : Post ok a p u s .stop s :=
  post_same hs (fun h => nomatch h) ⟨(fun h => nomatch h), (fun h => nomatch h)⟩

theorem spec_mono {ok ok' : Prop} {a p u p' u' : Nat} {c : Code} (h : Spec ok a p u c) (ho : ok' → ok) (hp : p ≤ p') (hu : u ≤ u') (hpu : p' ≤ u') :
    Spec ok' a p' u' c := by
  refine ⟨hpu, fun s o s' he hs ha => ?_⟩
  have P := h.2 s o s' he hs ha
  refine ⟨P.nocrash, P.sorted, P.low, P.normal, P.jump, fun k => ?_, fun k n => ?_, fun k z j => ?_⟩
  · have := P.high (ho k); omega
  · have := P.nb (ho k) n; omega
  · have := P.jb (ho k) z j; omega

theorem spec_seq {ok : Prop} {a p q u v : Nat} {x y : Code} (h1 : Spec ok a p u x) (h2 : Spec ok a q v y) : Spec ok a (p + q) (u + v) (x ⊳ y) := by
  have hpu := h1.1
  have hqv := h2.1
  refine ⟨by omega, fun s o s' he hs ha => ?_⟩
  rcases seq_inv he with ⟨rfl, rfl⟩ | ⟨s1, e1, e2⟩ | ⟨e1, hn⟩
  · exact post_stop hs
  · have P := h1.2 _ _ _ e1 hs ha
    obtain ⟨hsc, hhp, hlo⟩ := P.normal rfl
    have Q := h2.2 _ _ _ e2 P.sorted (by rw [hsc]; exact ha)
    have hfm := floor_mono (a := a) hsc hhp
    have hfl := floor_le hs ha
    refine ⟨Q.nocrash, Q.sorted, ?_, fun n => ?_, fun j => ?_, fun k => ?_, fun k n => ?_, fun k z j => ?_⟩
    · have := Q.low; omega
    · obtain ⟨a1, a2, a3⟩ := Q.normal n
      exact ⟨a1.trans hsc, by omega, by omega⟩
    · obtain ⟨a1, a2, a3⟩ := Q.jump j
      rw [hsc] at a1
      refine ⟨a1, by omega, fun z => ?_⟩
      rw [a3 z, floor_same hsc z]
    · have b1 := P.high k
      have b2 := P.nb k rfl
      have b3 := Q.high k
      omega
    · have b2 := P.nb k rfl
      have b3 := Q.nb k n
      omega
    · have b2 := P.nb k rfl
      have b3 := Q.jb k z j
      omega
  · have P := h1.2 _ _ _ e1 hs ha
    refine ⟨P.nocrash, P.sorted, P.low, fun n => absurd n hn, P.jump, fun k => ?_, fun k n => absurd n hn, fun k z j => ?_⟩
    · have := P.high k; omega
    · have := P.jb k z j; omega

theorem spec_choice {ok : Prop} {a p q u v : Nat} {x y : Code} (h1 : Spec ok a p u x) (h2 : Spec ok a q v y) : Spec ok a (max p q) (max u v) (.choice x y) := by
  have hpu := h1.1
  have hqv := h2.1
  refine ⟨by omega, fun s o s' he hs ha => ?_⟩
  rcases choice_inv he with ⟨rfl, rfl⟩ | e | e
  · exact post_stop hs
  · exact (spec_mono h1 id (by omega) (by omega) (by omega) : Spec ok a (max p q) (max u v) x).2 _ _ _ e hs ha
  · exact (spec_mono h2 id (by omega) (by omega) (by omega) : Spec ok a (max p q) (max u v) y).2 _ _ _ e hs ha

theorem spec_skip {ok : Prop} {a : Nat} : Spec ok a 0 0 .skip := by
  refine ⟨Nat.le_refl _, fun s o s' he hs ha => ?_⟩
  cases he
  · exact post_stop hs
  · exact post_same hs (fun h => nomatch h) ⟨(fun h => nomatch h), (fun h => nomatch h)⟩

theorem spec_ret {ok : Prop} {a : Nat} : Spec ok a 0 0 .ret := by
  refine ⟨Nat.le_refl _, fun s o s' he hs ha => ?_⟩
  cases he
  · exact post_stop hs
  · exact post_same hs (fun h => nomatch h) ⟨(fun h => nomatch h), (fun h => nomatch h)⟩

theorem post_jump0 {ok : Prop} {p u : Nat} {s : St} {o : Out} (hs : Sorted s.hp s.scopes) (ho : o ≠ .crash) : Post ok 0 p u s o s :=
  ⟨ho, hs, Nat.min_le_left _ _, fun _ => ⟨rfl, Nat.le_refl _, Nat.min_le_left _ _⟩, fun _ => ⟨rfl, Nat.le_refl _, fun h => absurd rfl h⟩,
    fun _ => Nat.le_max_left _ _, fun _ _ => Nat.le_add_right _ _, fun _ _ _ => Nat.le_add_right _ _⟩

theorem spec_brk0 {ok : Prop} : Spec ok 0 0 0 .brk := by
  refine ⟨Nat.le_refl _, fun s o s' he hs ha => ?_⟩
  cases he
  · exact post_stop hs
  · exact post_jump0 hs (fun h => nomatch h)

theorem spec_exitIf0 {ok : Prop} : Spec ok 0 0 0 .exitIf := by
  refine ⟨Nat.le_refl _, fun s o s' he hs ha => ?_⟩
  cases he
  · exact post_stop hs
  · exact post_jump0 hs (fun h => nomatch h)
  · exact post_jump0 hs (fun h => nomatch h)

theorem spec_exit {ok : Prop} : ∀ c : Option Bool, Spec ok 0 0 0 (exit c)
  | some true => spec_skip
  | some false => spec_brk0
  | none => spec_exitIf0

theorem spec_alloc {ok : Prop} {a : Nat} (n : Nat) : Spec ok a n n (.alloc n) := by
  refine ⟨Nat.le_refl _, fun s o s' he hs ha => ?_⟩
  cases he with
  | pause => exact post_stop hs
  | alloc _ hm =>
    refine ⟨(fun h => nomatch h), sorted_mono (Nat.le_add_right _ _) hs, ?_, fun _ => ⟨rfl, Nat.le_add_right _ _, ?_⟩,
      fun h => absurd h (by decide), fun _ => ?_, fun _ _ => ?_, fun _ _ h => absurd h (by decide)⟩ <;> simp only [St.alloc] <;> omega

theorem spec_expr {ok : Prop} {a : Nat} (n : Nat) : Spec ok a n n (expr n) := by
  unfold expr
  split
  · rename_i h; subst h; exact spec_skip
  · exact spec_alloc n

/-- Saving and restoring around code. -/
theorem spec_save {ok : Prop} {a p u : Nat} {c : Code} (h : Spec ok (a + 1) p u c) : Spec ok a 0 (u + 4) (.save ⊳ c ⊳ .restore) := by
  have hpu := h.1
  refine ⟨by omega, fun s o s' he hs ha => ?_⟩
  have hfl := floor_le hs ha
  have hs1 : Sorted s.save.hp s.save.scopes := ⟨Nat.le_add_right _ _, hs⟩
  have hf1 : floor (a + 1) s.save = floor a s := by
    cases a with
    | zero => rfl
    | succ a => rfl
  have hlo1 : s.save.lo = s.lo := rfl
  have hhp1 : s.save.hp = s.hp + 4 := rfl
  have hhi1 : s.save.hi = max s.hi (s.hp + 4) := rfl
  have hsc1 : s.save.scopes = s.hp :: s.scopes := rfl
  have stopped : ∀ {o : Out}, o ≠ .normal → o ≠ .brk → o ≠ .cont → o ≠ .crash → ∀ {s' : St}, Sorted s'.hp s'.scopes → min s.lo (floor a s) ≤ s'.lo →
      (ok → s'.hi ≤ max s.hi (s.hp + (u + 4))) → Post ok a 0 (u + 4) s o s' := by
    intro o h1 h2 h3 h4 s' k1 k2 k3
    exact ⟨h4, k1, k2, fun n => absurd n h1, fun j => (j.elim h2 h3).elim, k3, fun _ n => absurd n h1, fun _ _ j => (j.elim h2 h3).elim⟩
  rcases seq_inv he with ⟨rfl, rfl⟩ | ⟨s1, e1, e2⟩ | ⟨e1, hn⟩
  · exact post_stop hs
  · cases e1
    rcases seq_inv e2 with ⟨rfl, rfl⟩ | ⟨s2, e3, e4⟩ | ⟨e3, hn⟩
    · refine stopped (o := .stop) (fun h => nomatch h) (fun h => nomatch h) (fun h => nomatch h) (fun h => nomatch h) hs1 ?_ (fun _ => ?_) <;> omega
    · have P := h.2 _ _ _ e3 hs1 (by rw [hsc1]; simp only [List.length_cons]; omega)
      obtain ⟨hsc, hhp, hlo⟩ := P.normal rfl
      rw [hsc1] at hsc
      have hl := P.low
      rw [hf1] at hl
      cases e4 with
      | pause =>
        refine stopped (o := .stop) (fun h => nomatch h) (fun h => nomatch h) (fun h => nomatch h) (fun h => nomatch h) P.sorted (by omega) fun k => ?_
        have := P.high k
        omega
      | restore _ hr =>
        rw [hsc] at hr
        cases hr
        refine ⟨(fun h => nomatch h), hs, ?_, fun _ => ⟨rfl, Nat.le_refl _, ?_⟩, fun j => absurd j (by decide), fun k => ?_, fun _ _ => Nat.le_refl _,
          fun _ _ j => absurd j (by decide)⟩
        · simp only [St.restore]; omega
        · simp only [St.restore]; omega
        · have := P.high k
          simp only [St.restore]
          omega
      | crash _ hr => rw [hsc] at hr; exact absurd hr (fun h => nomatch h)
    · have P := h.2 _ _ _ e3 hs1 (by rw [hsc1]; simp only [List.length_cons]; omega)
      have hl := P.low
      rw [hf1] at hl
      refine ⟨P.nocrash, P.sorted, by omega, fun n => absurd n hn, fun j => ?_, fun k => ?_, fun _ n => absurd n hn, fun k z j => ?_⟩
      · obtain ⟨a1, _, a3⟩ := P.jump j
        have a4 := a3 (by omega)
        rw [hf1] at a4
        exact ⟨a1, by omega, fun _ => a4⟩
      · have := P.high k; omega
      · have a4 := (P.jump j).2.2 (by omega)
        rw [hf1] at a4
        subst z
        have : floor 0 s = s.hp := rfl
        omega
  · cases e1
    · exact post_stop hs
    · exact absurd rfl hn

theorem spec_inScope {ok : Prop} {a : Nat} (n : Nat) : Spec ok a 0 (n + 4) (inScope n) := by
  unfold inScope
  split
  · rename_i h; subst h
    exact spec_mono (spec_expr 0) id (Nat.le_refl _) (by omega) (by omega)
  · exact spec_save (spec_expr n)

theorem act_zero : ∀ (hs : List Bool), act hs hs.length = 0
  | [] => rfl
  | b :: hs => by unfold act; rw [if_pos (by simp)]

theorem act_cons {b : Bool} {hs : List Bool} {d : Nat} (h : d ≤ hs.length) : act (b :: hs) d = (if b then 1 else 0) + act hs d := by
  rw [act, if_neg (by omega)]

theorem floor_restore (a : Nat) {s : St} {x : Nat} {rest : List Nat} (h : s.scopes = x :: rest) : floor a (s.restore x rest) = floor (a + 1) s := by
  cases a with
  | zero => simp [floor, St.restore, h]
  | succ a => simp [floor, St.restore, h]

/-- `break` and `continue` -/
theorem unwind_exec (d : Nat) : ∀ (hs : List Bool) (s : St) (o : Out) (s' : St), Exec (unwind hs d) s o s' → Sorted s.hp s.scopes → act hs d ≤ s.scopes.length →
    (o = .stop ∨ o = .normal) ∧ Sorted s'.hp s'.scopes ∧ min s.lo (floor (act hs d) s) ≤ s'.lo ∧ s'.hi = s.hi ∧
      (o = .normal → s'.scopes = s.scopes.drop (act hs d) ∧ s'.hp = floor (act hs d) s)
  | [], s, o, s', he, hs, ha => by
    cases he
    · exact ⟨Or.inl rfl, hs, Nat.min_le_left _ _, rfl, (fun h => nomatch h)⟩
    · exact ⟨Or.inr rfl, hs, Nat.min_le_left _ _, rfl, fun _ => ⟨rfl, rfl⟩⟩
  | b :: hs, s, o, s', he, hso, ha => by
    unfold unwind at he
    unfold act at ha ⊢
    by_cases h : hs.length + 1 = d
    · rw [if_pos h] at he ha ⊢
      cases he
      · exact ⟨Or.inl rfl, hso, Nat.min_le_left _ _, rfl, (fun h => nomatch h)⟩
      · exact ⟨Or.inr rfl, hso, Nat.min_le_left _ _, rfl, fun _ => ⟨rfl, rfl⟩⟩
    · rw [if_neg h] at he ha ⊢
      have hstop : ∀ n, (Out.stop = .stop ∨ Out.stop = .normal) ∧ Sorted s.hp s.scopes ∧ min s.lo (floor n s) ≤ s.lo ∧ s.hi = s.hi ∧
          (Out.stop = .normal → s.scopes = s.scopes.drop n ∧ s.hp = floor n s) := fun n =>
        ⟨Or.inl rfl, hso, Nat.min_le_left _ _, rfl, (fun h => nomatch h)⟩
      cases b with
      | false =>
        simp only [Bool.false_eq_true, if_false, Nat.zero_add] at he ha ⊢
        rcases seq_inv he with ⟨rfl, rfl⟩ | ⟨s1, e1, e2⟩ | ⟨e1, hn⟩
        · exact hstop _
        · cases e1
          exact unwind_exec d hs s o s' e2 hso ha
        · cases e1
          · exact hstop _
          · exact absurd rfl hn
      | true =>
        simp only [if_true] at he ha ⊢
        rcases seq_inv he with ⟨rfl, rfl⟩ | ⟨s1, e1, e2⟩ | ⟨e1, hn⟩
        · exact hstop _
        · cases e1 with
          | restore _ hr =>
            rename_i x rest
            have hso' := hso
            rw [hr] at hso' ha
            obtain ⟨c1, c2, c3, c4, c5⟩ := unwind_exec d hs _ o s' e2 hso'.2 (by simp only [St.restore, List.length_cons] at ha ⊢; omega)
            have hfx : floor (act hs d) (s.restore x rest) ≤ x := floor_le (s := s.restore x rest) hso'.2 (by
              simp only [St.restore, List.length_cons] at ha ⊢; omega)
            rw [floor_restore _ hr, Nat.add_comm] at c3 c5 hfx
            refine ⟨c1, c2, ?_, c4, fun hn => ?_⟩
            · simp only [St.restore] at c3
              omega
            · obtain ⟨d1, d2⟩ := c5 hn
              refine ⟨?_, d2⟩
              rw [d1, hr, Nat.add_comm]
              rfl
        · cases e1 with
          | pause => exact hstop _
          | restore => exact absurd rfl hn
          | crash _ hr => rw [hr] at ha; simp only [List.length_nil] at ha; omega

theorem spec_jump {ok : Prop} {hs : List Bool} {d : Nat} {c : Code} {j : Out} (hj : j = .brk ∨ j = .cont) (hc : ∀ s o s', Exec c s o s' → (o = .stop ∨ o = j) ∧ s' = s) :
    Spec ok (act hs d) 0 0 (unwind hs d ⊳ c) := by
  refine ⟨Nat.le_refl _, fun s o s' he hso ha => ?_⟩
  have hfl := floor_le hso ha
  have stopped : ∀ {s' : St}, Sorted s'.hp s'.scopes → min s.lo (floor (act hs d) s) ≤ s'.lo → s'.hi = s.hi → Post ok (act hs d) 0 0 s .stop s' := by
    intro s' k1 k2 k3
    exact ⟨(fun h => nomatch h), k1, k2, (fun h => nomatch h), fun j => absurd j (by decide), fun _ => by omega, (fun _ h => nomatch h),
      fun _ _ j => absurd j (by decide)⟩
  rcases seq_inv he with ⟨rfl, rfl⟩ | ⟨s1, e1, e2⟩ | ⟨e1, hn⟩
  · exact post_stop hso
  · obtain ⟨_, c2, c3, c4, c5⟩ := unwind_exec d hs _ _ _ e1 hso ha
    obtain ⟨c6, c7⟩ := c5 rfl
    obtain ⟨h1, rfl⟩ := hc _ _ _ e2
    rcases h1 with rfl | rfl
    · exact stopped c2 c3 c4
    · have hne : o ≠ .normal ∧ o ≠ .crash := by rcases hj with rfl | rfl <;> exact ⟨(fun h => nomatch h), (fun h => nomatch h)⟩
      refine ⟨hne.2, c2, c3, fun n => absurd n hne.1, fun _ => ⟨c6, by omega, fun _ => c7⟩, fun _ => by omega, fun _ n => absurd n hne.1, fun _ z _ => ?_⟩
      rw [c7, z]
      exact Nat.le_refl _
  · obtain ⟨c1, c2, c3, c4, _⟩ := unwind_exec d hs _ _ _ e1 hso ha
    rcases c1 with rfl | rfl
    · exact stopped c2 c3 c4
    · exact absurd rfl hn

theorem spec_catch {ok : Prop} {p u : Nat} {c : Code} (h : Spec ok 0 p u c) : Spec ok 0 p u (.catchCont c) := by
  refine ⟨h.1, fun s o s' he hs ha => ?_⟩
  rcases catch_inv he with ⟨rfl, rfl⟩ | ⟨x, e, rfl⟩
  · exact post_stop hs
  · have P := h.2 _ _ _ e hs ha
    cases x with
    | cont =>
      obtain ⟨a1, a2, _⟩ := P.jump (Or.inr rfl)
      exact ⟨(fun h => nomatch h), P.sorted, P.low, fun _ => ⟨a1, a2, P.low⟩, fun j => absurd j (by decide), P.high, fun k _ => P.jb k rfl (Or.inr rfl),
        fun _ _ j => absurd j (by decide)⟩
    | _ => exact P

theorem spec_loop {ok : Prop} {a u : Nat} {c : Code} {n b : Bool} (h : Spec ok 0 0 u c) (hc : Can c n b false) : Spec ok a 0 u (.loop c) := by
  refine ⟨Nat.zero_le _, fun s o s' he hs ha => ?_⟩
  have hfl := floor_le hs ha
  refine loop_rule (P := fun s1 => Sorted s1.hp s1.scopes ∧ s1.scopes = s.scopes ∧ s.hp ≤ s1.hp ∧ min s.lo s.hp ≤ s1.lo ∧
      (ok → s1.hi ≤ max s.hi (s.hp + u) ∧ s1.hp = s.hp)) (Q := fun o s' => Post ok a 0 u s o s') ?_ ?_ he
    ⟨hs, rfl, Nat.le_refl _, Nat.min_le_left _ _, fun _ => ⟨Nat.le_max_left _ _, rfl⟩⟩
  · rintro s1 o1 s2 ⟨k1, k2, k3, k4, k5⟩ e
    have P := h.2 _ _ _ e k1 (Nat.zero_le _)
    have hlow := P.low
    have hf0 : floor 0 s1 = s1.hp := rfl
    rw [hf0] at hlow
    have hhigh : ok → s2.hi ≤ max s.hi (s.hp + u) := by
      intro k
      have b1 := P.high k
      have b2 := k5 k
      omega
    split
    · rename_i hn
      subst hn
      obtain ⟨a1, a2, a3⟩ := P.normal rfl
      refine ⟨P.sorted, a1.trans k2, by omega, by omega, fun k => ⟨hhigh k, ?_⟩⟩
      have := P.nb k rfl
      have := (k5 k).2
      omega
    · rename_i hn
      cases o1 with
      | normal => exact absurd rfl hn
      | brk =>
        obtain ⟨a1, a2, _⟩ := P.jump (Or.inl rfl)
        rw [List.drop_zero] at a1
        rw [hf0] at a2
        refine ⟨(fun h => nomatch h), P.sorted, by omega, fun _ => ⟨a1.trans k2, by omega, by omega⟩, fun j => absurd j (by decide), hhigh, fun k _ => ?_,
          fun _ _ j => absurd j (by decide)⟩
        have := P.jb k rfl (Or.inl rfl)
        have := (k5 k).2
        omega
      | cont => exact absurd (hc.cont e) (fun h => nomatch h)
      | crash => exact absurd rfl P.nocrash
      | ret | stop =>
        exact ⟨(fun h => nomatch h), P.sorted, by omega, (fun h => nomatch h), fun j => absurd j (by decide), hhigh, (fun _ h => nomatch h),
          fun _ _ j => absurd j (by decide)⟩
  · rintro s1 ⟨k1, k2, k3, k4, k5⟩
    exact ⟨(fun h => nomatch h), k1, by omega, (fun h => nomatch h), fun j => absurd j (by decide), fun k => (k5 k).1, (fun _ h => nomatch h),
      fun _ _ j => absurd j (by decide)⟩

/-! ### Statements -/

/-- What a statement takes for the statement around it. -/
def Stmt.amt : Stmt → Nat
  | .simple n | .assert n | .ret n => n
  | .brk | .cont | .skip | .block _ | .while .. | .doWhile .. => 0
  | .seq a b | .alt a b => a.amt + b.amt
  | .ifThen c _ | .ifElse c _ _ => c.n
  | .for init _ _ _ => init.amt
  | .switch n a => n + a.amt

theorem amt_pend : ∀ s : Stmt, s.pend = false → s.amt = 0
  | .simple n, h | .assert n, h | .ret n, h => by simpa [Stmt.pend, Stmt.amt] using h
  | .brk, _ | .cont, _ | .skip, _ | .block _, _ | .while .., _ | .doWhile .., _ => rfl
  | .seq a b, h | .alt a b, h => by
    simp only [Stmt.pend, Bool.or_eq_false_iff] at h
    simp only [Stmt.amt, amt_pend a h.1, amt_pend b h.2]
  | .ifThen c _, h | .ifElse c _ _, h => by simpa [Stmt.pend, Stmt.amt] using h
  | .for init c _ _, h => by
    simp only [Stmt.pend, Bool.or_eq_false_iff] at h
    exact amt_pend init h.1
  | .switch n a, h => by
    simp only [Stmt.pend, Bool.or_eq_false_iff] at h
    have h1 : n = 0 := by simpa using h.1
    simp only [Stmt.amt, amt_pend a h.2, h1]

theorem spec_wrap {a : Stmt} {hs : List Bool} {d dd : Nat} (hd : d ≤ hs.length)
    (h : ∀ hs, d ≤ hs.length → Spec a.Ok (act hs d) a.amt a.usage (code a hs dd))
    (hcan : ∀ hs, Can (code a hs dd) (decide (a.flow = .none)) a.hasBrk a.hasCont) :
    Spec (a.Ok ∧ a.fine) (act hs d) 0 (a.usage + 4) (wrap a.pend a.flow (fun hs => code a hs dd) hs) := by
  unfold wrap
  cases hp : a.pend with
  | false =>
    rw [if_neg (by decide)]
    have := h hs hd
    rw [amt_pend a hp] at this
    exact spec_mono this (·.1) (Nat.le_refl _) (by omega) (by omega)
  | true =>
    rw [if_pos rfl]
    by_cases hf : a.flow = .ret
    · rw [if_pos hf]
      have H := h (false :: hs) (by simp only [List.length_cons]; omega)
      rw [act_cons hd] at H
      simp only [Bool.false_eq_true, if_false, Nat.zero_add] at H
      refine ⟨by omega, fun s o s' he hso ha => ?_⟩
      have P := H.2 s o s' he hso ha
      have C := hcan (false :: hs)
      have hnn : o ≠ .normal := by
        rintro rfl
        have := C.normal he
        simp [hf] at this
      refine ⟨P.nocrash, P.sorted, P.low, P.normal, P.jump, fun k => ?_, fun _ n => absurd n hnn, fun k _ j => ?_⟩
      · have := P.high k.1; omega
      · have hj := k.2 hp hf
        simp only [jumps_def, Bool.or_eq_false_iff] at hj
        rcases j with rfl | rfl
        · rw [C.brk he] at hj; exact absurd hj.1 (fun h => nomatch h)
        · rw [C.cont he] at hj; exact absurd hj.2 (fun h => nomatch h)
    · rw [if_neg hf]
      have H := h (true :: hs) (by simp only [List.length_cons]; omega)
      rw [act_cons hd] at H
      simp only [if_true] at H
      rw [Nat.add_comm 1] at H
      exact spec_mono (spec_save H) (·.1) (Nat.le_refl _) (Nat.le_refl _) (by omega)

theorem spec_branch {ok : Prop} {a : Stmt} {A p q u v : Nat} {x y : Code} (h1 : Spec ok A p u x) (h2 : Spec ok A q v y) :
    Spec ok A (p + q) (u + v) (branch a x y) := by
  have := h1.1
  have := h2.1
  unfold branch
  split
  · exact spec_mono (spec_choice h1 h2) id (by omega) (by omega) (by omega)
  · exact spec_mono (spec_choice (spec_seq h1 h2) h2) id (by omega) (by omega) (by omega)

theorem spec_code : ∀ (s : Stmt) (hs : List Bool) (d : Nat), d ≤ hs.length → Spec s.Ok (act hs d) s.amt s.usage (code s hs d)
  | .simple n, _, _, _ => spec_expr n
  | .assert n, _, _, _ => spec_mono (spec_seq (spec_expr n) (spec_choice spec_skip spec_ret)) id (by simp [Stmt.amt]) (by simp [Stmt.usage]) (Nat.le_refl _)
  | .ret n, _, _, _ => spec_mono (spec_seq (spec_expr n) spec_ret) id (by simp [Stmt.amt]) (by simp [Stmt.usage]) (Nat.le_refl _)
  | .brk, hs, d, _ => spec_jump (Or.inl rfl) (by
      intro s o s' he
      cases he
      · exact ⟨Or.inl rfl, rfl⟩
      · exact ⟨Or.inr rfl, rfl⟩)
  | .cont, hs, d, _ => spec_jump (Or.inr rfl) (by
      intro s o s' he
      cases he
      · exact ⟨Or.inl rfl, rfl⟩
      · exact ⟨Or.inr rfl, rfl⟩)
  | .skip, _, _, _ => spec_skip
  | .seq a b, hs, d, hd => spec_seq (spec_mono (spec_code a hs d hd) (·.1) (Nat.le_refl _) (Nat.le_refl _) (spec_code a hs d hd).1)
      (spec_mono (spec_code b hs d hd) (·.2) (Nat.le_refl _) (Nat.le_refl _) (spec_code b hs d hd).1)
  | .alt a b, hs, d, hd => spec_branch (spec_mono (spec_code a hs d hd) (·.1) (Nat.le_refl _) (Nat.le_refl _) (spec_code a hs d hd).1)
      (spec_mono (spec_code b hs d hd) (·.2) (Nat.le_refl _) (Nat.le_refl _) (spec_code b hs d hd).1)
  | .block a, hs, d, hd => spec_wrap hd (fun hs hd => spec_code a hs d hd) fun hs => can_code a hs d
  | .ifThen c a, hs, d, hd => by
    have H := spec_wrap (hs := hs) hd (fun hs hd => spec_code a hs d hd) fun hs => can_code a hs d
    exact spec_mono (spec_seq (spec_expr c.n) (spec_choice H spec_skip)) id (by simp [Stmt.amt]) (by simp [Stmt.usage]) (by simp only [Stmt.amt, Stmt.usage]; omega)
  | .ifElse c a b, hs, d, hd => by
    have H1 := spec_wrap (hs := hs) hd (fun hs hd => spec_code a hs d hd) fun hs => can_code a hs d
    have H2 := spec_wrap (hs := hs) hd (fun hs hd => spec_code b hs d hd) fun hs => can_code b hs d
    refine spec_mono (spec_seq (spec_expr c.n) (spec_branch (spec_mono H1 (ok' := Stmt.Ok (.ifElse c a b)) (·.1) (Nat.le_refl _) (Nat.le_refl _) H1.1)
      (spec_mono H2 (·.2) (Nat.le_refl _) (Nat.le_refl _) H2.1))) id (by simp [Stmt.amt]) (by simp [Stmt.usage]) (by simp only [Stmt.amt, Stmt.usage]; omega)
  | .while c body, hs, d, hd => by
    have H := spec_wrap (hs := hs) (Nat.le_refl _) (fun h hd => spec_code body h hs.length hd) fun h => can_code body h hs.length
    rw [act_zero] at H
    have hb : Can (wrap body.pend body.flow (fun h => code body h hs.length) hs) _ _ _ := can_wrap fun h => can_code body h hs.length
    have hfall : ∀ {ok}, Spec ok 0 0 0 (if body.flow = .none then Code.skip else .brk) := by
      intro ok; split
      · exact spec_skip
      · exact spec_brk0
    have hfc : Can (if body.flow = .none then Code.skip else .brk) true true false := by
      split
      · exact can_skip.mono id (by simp) id
      · exact can_brk.mono (by simp) id id
    refine spec_mono (spec_loop (spec_seq (spec_inScope c.n) (spec_seq (spec_exit c.const) (spec_catch (spec_seq H hfall))))
      ((can_seq (can_inScope _) (can_seq (can_exit c.const) (can_catch (can_seq hb hfc)))).mono id id (by simp))) id (Nat.le_refl _) ?_ (Nat.zero_le _)
    simp only [Stmt.usage]; omega
  | .doWhile body c, hs, d, hd => by
    have H := spec_wrap (hs := hs) (Nat.le_refl _) (fun h hd => spec_code body h hs.length hd) fun h => can_code body h hs.length
    rw [act_zero] at H
    have hb : Can (wrap body.pend body.flow (fun h => code body h hs.length) hs) _ _ _ := can_wrap fun h => can_code body h hs.length
    simp only [code]
    split
    · refine spec_mono (spec_loop (spec_seq (spec_catch H) (spec_seq (spec_inScope c.n) (spec_exit c.const)))
        ((can_seq (can_catch hb) (can_seq (can_inScope _) (can_exit c.const))).mono id id (by simp))) id (Nat.le_refl _) ?_ (Nat.zero_le _)
      simp only [Stmt.usage]; omega
    · refine spec_mono (spec_loop (spec_seq (spec_catch H) spec_brk0) ((can_seq (can_catch hb) can_brk).mono id id (by simp))) id (Nat.le_refl _) ?_ (Nat.zero_le _)
      simp only [Stmt.usage]; omega
  | .for init c step body, hs, d, hd => by
    have H := spec_wrap (hs := hs) (Nat.le_refl _) (fun h hd => spec_code body h hs.length hd) fun h => can_code body h hs.length
    rw [act_zero] at H
    have hb : Can (wrap body.pend body.flow (fun h => code body h hs.length) hs) _ _ _ := can_wrap fun h => can_code body h hs.length
    have I := spec_mono (ok' := Stmt.Ok (.for init c step body)) (spec_code init hs d hd) (·.1) (Nat.le_refl _) (Nat.le_refl _) (spec_code init hs d hd).1
    have hI := I.1
    replace H := spec_mono (ok' := Stmt.Ok (.for init c step body)) H (·.2.2) (Nat.le_refl _) (Nat.le_refl _) H.1
    simp only [code]
    split
    · refine spec_mono (spec_seq I spec_skip) id (Nat.le_refl _) ?_ ?_ <;> simp only [Stmt.amt, Stmt.usage] <;> omega
    · have htest : Spec (Stmt.Ok (.for init c step body)) 0 0 c.n (if decide (c.const = some true) then Code.skip else expr c.n ⊳ .exitIf) := by
        split
        · exact spec_mono spec_skip id (Nat.le_refl _) (Nat.zero_le _) (Nat.zero_le _)
        · refine ⟨Nat.zero_le _, fun s o s' he hso ha => ?_⟩
          have P := (spec_seq (ok := Stmt.Ok (.for init c step body)) (a := 0) (spec_expr c.n) spec_exitIf0).2 s o s' he hso ha
          refine ⟨P.nocrash, P.sorted, P.low, P.normal, P.jump, P.high, fun k n => ?_, fun k z j => ?_⟩
          · have := P.nb k n
            rw [k.2.1] at this
            omega
          · have := P.jb k z j
            rw [k.2.1] at this
            omega
      have htc : Can (if decide (c.const = some true) then Code.skip else expr c.n ⊳ .exitIf) true true false := by
        split
        · exact can_skip.mono id (by simp) id
        · exact (can_seq (can_expr _) can_exitIf).mono id (by simp) id
      have hback : ∀ {ok} (e : Bool), Spec ok 0 0 0 (if e = true then Code.brk else .skip) := by
        intro ok e; split
        · exact spec_brk0
        · exact spec_skip
      have hbc : ∀ e : Bool, Can (if e = true then Code.brk else .skip) true true false := by
        intro e; split
        · exact can_brk.mono (by simp) id id
        · exact can_skip.mono id (by simp) id
      cases step with
      | some n =>
        have hstep : ∀ {ok} (e : Bool), Spec ok 0 0 (n + 4) (if e = true then inScope n else Code.skip) := by
          intro ok e; split
          · exact spec_inScope n
          · exact spec_mono spec_skip id (Nat.le_refl _) (by omega) (by omega)
        have hsc : ∀ e : Bool, Can (if e = true then inScope n else Code.skip) true false false := by
          intro e; split
          · exact can_inScope n
          · exact can_skip
        refine spec_mono (spec_seq I (spec_loop (spec_seq htest (spec_seq (spec_catch H) (spec_seq (hstep _) (hback _))))
          ((can_seq htc (can_seq (can_catch hb) (can_seq (hsc _) (hbc _)))).mono id id (by simp)))) id ?_ ?_ ?_ <;>
          simp only [Stmt.amt, Stmt.usage, Option.getD_some] <;> omega
      | none =>
        refine spec_mono (spec_seq I (spec_loop (spec_seq htest (spec_catch (spec_seq H (hback _))))
          ((can_seq htc (can_catch (can_seq hb (hbc _)))).mono id id (by simp)))) id ?_ ?_ ?_ <;>
          simp only [Stmt.amt, Stmt.usage, Option.getD_none] <;> omega
  | .switch n a, hs, d, hd => spec_seq (spec_expr n) (spec_code a hs d hd)

theorem spec_own (s : Stmt) {hs : List Bool} {d : Nat} (hd : d ≤ hs.length) : Spec (s.Ok ∧ s.fine) (act hs d) 0 (s.usage + 4) (own s hs d) :=
  spec_wrap hd (fun hs hd => spec_code s hs d hd) fun hs => can_code s hs d

end Verif.HeapScope

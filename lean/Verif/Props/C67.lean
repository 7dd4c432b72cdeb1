import Verif.Spec.TimeoutPatch

/-!
# C67: timeouts reach all compiled code, and only once

The states are those of Verif/Model/TimeoutPatch.lean: the watchdog thread and the main thread, in any interleaving.
-/
namespace Verif.TimeoutPatch

/-- The invariant of the quiet interleavings. -/
structure Inv (s : Sys) : Prop where
  timed : s.wd = .timed → s.timedout = false ∧ (s.main = .free ∨ s.main = .compiling) ∧ ∀ b ∈ s.methods, b = false
  patching : ∀ i, s.wd = .patching i → s.timedout = true ∧ (s.main = .free ∨ s.main = .compiling ∨ s.main = .undoing) ∧
    (∀ j b, s.methods[j]? = some b → b = decide (j < i))
  waiting : s.wd = .waiting →
    ((s.main = .free ∨ s.main = .compiling ∨ s.main = .undoing) → s.timedout = true ∧ ∀ b ∈ s.methods, b = true) ∧
    (s.main = .clearing → s.timedout = true ∧ ∀ b ∈ s.methods, b = false) ∧
    (s.main = .notifying → s.timedout = false ∧ ∀ b ∈ s.methods, b = false)
  count : s.declared = s.reported + if s.timedout = true ∧ (s.main = .free ∨ s.main = .compiling) then 1 else 0

theorem inv_init : Inv Sys.init := by
  constructor <;> simp [Sys.init]

theorem Inv.step {s s' : Sys} {e : Ev} (I : Inv s) (q : Quiet s e) (h : step e s = some s') : Inv s' := by
  obtain ⟨wd, main, to, ms, de, re⟩ := s
  obtain ⟨h1, h2, h3, h4⟩ := I
  simp only at h1 h2 h3 h4
  cases e with
  | patch =>
    simp only [TimeoutPatch.step] at h
    split at h
    · rename_i i
      obtain ⟨p1, p2, p3⟩ := h2 i rfl
      split at h
      · rename_i hlt
        cases h
        refine ⟨by simp, ?_, by simp, h4⟩
        intro i' e
        cases e
        refine ⟨p1, p2, ?_⟩
        intro j b hb
        rw [List.getElem?_modify] at hb
        obtain ⟨b', hb', rfl⟩ := Option.map_eq_some_iff.1 hb
        have := p3 j b' hb'
        subst this
        split
        · subst i; simp
        · simp; omega
      · rename_i hge
        cases h
        refine ⟨by simp, by simp, fun _ => ⟨fun _ => ⟨p1, ?_⟩, ?_, ?_⟩, h4⟩
        · intro b hb
          obtain ⟨j, hj, rfl⟩ := List.getElem_of_mem hb
          rw [p3 j _ (List.getElem?_eq_getElem hj)]
          exact decide_eq_true (by have hj : j < ms.length := hj; omega)
        · intro hm; simp only at hm; rw [hm] at p2; rcases p2 with h | h | h <;> cases h
        · intro hm; simp only at hm; rw [hm] at p2; rcases p2 with h | h | h <;> cases h
    · cases h
  | declare =>
    simp only [TimeoutPatch.step] at h
    split at h
    · rename_i hw
      cases h
      obtain ⟨p1, p2, p3⟩ := h1 hw
      refine ⟨by simp, ?_, by simp, ?_⟩
      · intro i e
        cases e
        refine ⟨rfl, by rcases p2 with h | h; exact .inl h; exact .inr (.inl h), ?_⟩
        intro j b hb
        rw [p3 b (List.mem_of_getElem? hb)]
        simp
      · simp only [p1] at h4
        simp at h4
        simp [h4, p2]
    · cases h
  | spurious =>
    simp only [TimeoutPatch.step] at h
    split at h
    · rename_i hw; exact absurd hw q
    · cases h
  | unload j =>
    simp only [TimeoutPatch.step] at h
    split at h
    · rename_i hw
      cases h
      obtain ⟨hm, hl⟩ := hw
      refine ⟨?_, ?_, ?_, h4⟩
      · intro e
        obtain ⟨p1, p2, p3⟩ := h1 e
        exact ⟨p1, p2, fun b hb => p3 b (List.mem_of_mem_eraseIdx hb)⟩
      · intro i e
        simp only at e
        subst e
        exact absurd rfl hl
      · intro e
        obtain ⟨p1, p2, p3⟩ := h3 e
        refine ⟨fun hh => ?_, ?_, ?_⟩
        · obtain ⟨r1, r2⟩ := p1 hh
          exact ⟨r1, fun b hb => r2 b (List.mem_of_mem_eraseIdx hb)⟩
        · intro hh; simp only at hh; rw [hm] at hh; cases hh
        · intro hh; simp only at hh; rw [hm] at hh; cases hh
    · cases h
  | link =>
    have q : to = false := q
    subst q
    simp only [TimeoutPatch.step] at h
    split at h
    · rename_i hw
      cases h
      obtain ⟨hm, hl⟩ := hw
      subst hm
      refine ⟨?_, ?_, ?_, by simpa using h4⟩
      · intro e
        obtain ⟨p1, p2, p3⟩ := h1 e
        refine ⟨p1, .inl rfl, fun b hb => ?_⟩
        rcases List.mem_append.1 hb with hb | hb
        · exact p3 b hb
        · exact List.mem_singleton.1 hb
      · intro i e
        exact absurd (h2 i e).1 (by simp)
      · intro e
        exact absurd ((h3 e).1 (.inr (.inl rfl))).1 (by simp)
    · cases h
  | undo =>
    simp only [TimeoutPatch.step] at h
    split at h
    · rename_i hw
      cases h
      obtain ⟨hm, hl⟩ := hw
      subst hm
      refine ⟨?_, ?_, ?_, by simpa using h4⟩
      · intro e
        rcases (h1 e).2.1 with h | h <;> cases h
      · intro i e
        simp only at e
        subst e
        exact absurd rfl hl
      · intro e
        obtain ⟨r1, r2⟩ := (h3 e).1 (.inr (.inr rfl))
        refine ⟨by simp, fun _ => ⟨r1, ?_⟩, by simp⟩
        intro b hb
        obtain ⟨c, hc, rfl⟩ := List.mem_map.1 hb
        rw [r2 c hc]; rfl
    · cases h
  | loop j =>
    simp only [TimeoutPatch.step] at h
    split at h
    · cases h
    · rename_i hm
      have hm : main = .free := by simpa using hm
      subst hm
      split at h
      · rename_i hj
        cases h
        have hto : to = true := by
          cases wd with
          | timed => exact absurd ((h1 rfl).2.2 _ (List.mem_of_getElem? hj)) (by simp)
          | patching i => exact (h2 i rfl).1
          | waiting => exact ((h3 rfl).1 (.inl rfl)).1
        subst hto
        refine ⟨?_, ?_, ?_, by simpa using h4⟩
        · intro e; exact absurd (h1 e).1 (by simp)
        · intro i e; obtain ⟨p1, p2, p3⟩ := h2 i e; exact ⟨p1, .inr (.inr rfl), p3⟩
        · intro e; exact ⟨fun _ => (h3 e).1 (.inl rfl), by simp, by simp⟩
      · cases h; exact ⟨h1, h2, h3, h4⟩
      · cases h
  | poll =>
    simp only [TimeoutPatch.step] at h
    split at h
    · cases h
    · rename_i hm
      have hm : main = .free := by simpa using hm
      subst hm
      split at h
      · rename_i hto
        cases h
        subst hto
        refine ⟨?_, ?_, ?_, by simpa using h4⟩
        · intro e; exact absurd (h1 e).1 (by simp)
        · intro i e; obtain ⟨p1, p2, p3⟩ := h2 i e; exact ⟨p1, .inr (.inr rfl), p3⟩
        · intro e; exact ⟨fun _ => (h3 e).1 (.inl rfl), by simp, by simp⟩
      · cases h; exact ⟨h1, h2, h3, h4⟩
  | compile =>
    simp only [TimeoutPatch.step] at h
    split at h
    · cases h
    · rename_i hm
      have hm : main = .free := by simpa using hm
      subst hm
      split at h
      · rename_i hto
        cases h
        subst hto
        refine ⟨?_, ?_, ?_, by simpa using h4⟩
        · intro e; exact absurd (h1 e).1 (by simp)
        · intro i e; obtain ⟨p1, p2, p3⟩ := h2 i e; exact ⟨p1, .inr (.inr rfl), p3⟩
        · intro e; exact ⟨fun _ => (h3 e).1 (.inl rfl), by simp, by simp⟩
      · rename_i hto
        cases h
        refine ⟨?_, ?_, ?_, by simpa using h4⟩
        · intro e; obtain ⟨p1, _, p3⟩ := h1 e; exact ⟨p1, .inr rfl, p3⟩
        · intro i e; obtain ⟨p1, _, p3⟩ := h2 i e; exact ⟨p1, .inr (.inl rfl), p3⟩
        · intro e; exact ⟨fun _ => (h3 e).1 (.inl rfl), by simp, by simp⟩
  | clear =>
    simp only [TimeoutPatch.step] at h
    split at h
    · rename_i hm
      cases h
      subst hm
      refine ⟨?_, ?_, ?_, by simpa using h4⟩
      · intro e; rcases (h1 e).2.1 with h | h <;> cases h
      · intro i e; rcases (h2 i e).2.1 with h | h | h <;> cases h
      · intro e; exact ⟨by simp, by simp, fun _ => ⟨rfl, ((h3 e).2.1 rfl).2⟩⟩
    · cases h
  | notify =>
    simp only [TimeoutPatch.step] at h
    split at h
    · cases h
    · rename_i hm
      rw [not_or] at hm
      have hmm : main = .notifying := by simpa using hm.1
      subst hmm
      split at h
      · rename_i hw
        cases h
        obtain ⟨r1, r2⟩ := (h3 hw).2.2 rfl
        subst r1
        exact ⟨fun _ => ⟨rfl, .inl rfl, r2⟩, by simp, by simp, by simpa using h4⟩
      · rename_i hw
        exfalso
        cases wd with
        | timed => rcases (h1 rfl).2.1 with h | h <;> cases h
        | patching i => exact hm.2 rfl
        | waiting => exact hw rfl

theorem inv_of {s : Sys} (h : Reachable s) : Inv s := by
  induction h with
  | init => exact inv_init
  | step e _ q hs ih => exact ih.step q hs

/-- **C67**, as long as no method is linked while a timeout is pending and the watchdog wakes up only when it is
notified (`Quiet`).  Once the watchdog has declared a timeout and gone to wait, a loop of any compiled method, when it
next goes around, reports the timeout; the main thread can then handle it to the end, which leaves all loops as
compiled and the watchdog going.  When no timeout is pending no loop reports one.  As many timeouts are reported as
were declared, except for one that is pending.  Missing: see `C67_compiled_during_timeout` and `C67_woken`. -/
theorem C67_reaches_all_partial (s : Sys) (h : Reachable s) :
    (s.wd = .waiting → s.main = .free → ∀ j, j < s.methods.length →
      ∃ a b c d, step (.loop j) s = some a ∧ a.reported = s.reported + 1 ∧ step .undo a = some b ∧ step .clear b = some c ∧ step .notify c = some d ∧
        d.methods = List.replicate s.methods.length false ∧ d.timedout = false ∧ d.wd = .timed ∧ d.main = .free) ∧
    (s.timedout = false → s.main = .free → ∀ j, j < s.methods.length → step (.loop j) s = some s) ∧
    s.declared = s.reported + (if s.timedout = true ∧ (s.main = .free ∨ s.main = .compiling) then 1 else 0) := by
  have I := inv_of h
  refine ⟨?_, ?_, I.count⟩
  · intro hw hm j hj
    obtain ⟨r1, r2⟩ := (I.waiting hw).1 (.inl hm)
    have hg : s.methods[j]? = some true := by
      rw [List.getElem?_eq_getElem hj, r2 _ (List.getElem_mem hj)]
    have hr : s.methods.map (!·) = List.replicate s.methods.length false := by
      rw [List.eq_replicate_iff]
      refine ⟨List.length_map _, ?_⟩
      intro b hb
      obtain ⟨c, hc, rfl⟩ := List.mem_map.1 hb
      rw [r2 c hc]; rfl
    refine ⟨{ s with main := .undoing, reported := s.reported + 1 }, { s with main := .clearing, reported := s.reported + 1, methods := s.methods.map (!·) },
      { s with main := .notifying, reported := s.reported + 1, methods := s.methods.map (!·), timedout := false },
      { s with main := .free, wd := .timed, reported := s.reported + 1, methods := s.methods.map (!·), timedout := false }, ?_, rfl, ?_, ?_, ?_, hr, rfl, rfl, rfl⟩
    · simp [step, hm, hg]
    · simp [step, hw, Wd.locks]
    · simp [step]
    · simp [step, hw, Wd.locks]
  · intro ht hm j hj
    have hf : ∀ b ∈ s.methods, b = false := by
      cases hw : s.wd with
      | timed => exact (I.timed hw).2.2
      | patching i => exact absurd (I.patching i hw).1 (by simp [ht])
      | waiting => exact absurd ((I.waiting hw).1 (.inl hm)).1 (by simp [ht])
    have hg : s.methods[j]? = some false := by
      rw [List.getElem?_eq_getElem hj, hf _ (List.getElem_mem hj)]
    simp [step, hm, hg]

/-- The hypotheses are met: two methods are compiled, a timeout is declared and both are redirected. -/
example : ∃ s, Reachable s ∧ s.wd = .waiting ∧ s.main = .free ∧ s.methods = [true, true] ∧ s.declared = 1 ∧ s.reported = 0 := by
  refine ⟨⟨.waiting, .free, true, [true, true], 1, 0⟩, ?_, rfl, rfl, rfl, rfl, rfl⟩
  exact .step .patch (.step .patch (.step .patch (.step .declare (.step .link (.step .compile (.step .link (.step .compile .init
    trivial rfl) rfl rfl) trivial rfl) rfl rfl) trivial rfl) trivial rfl) trivial rfl) trivial rfl

/-- The code does not keep the property in all interleavings: a timeout declared while the main thread compiles a
method does not reach that method.  (`CompileFromThunk` looks for a timeout before it compiles, not when it links.)
Its loop goes around for ever, with the watchdog waiting.  And if the timeout is handled after all, the exchange
that should undo the redirection redirects this method: its next loop reports a timeout although none was
declared. -/
theorem C67_compiled_during_timeout :
    (∃ s, steps [.compile, .declare, .patch, .link] Sys.init = some s ∧ s.timedout = true ∧ s.wd = .waiting ∧ s.main = .free ∧
      s.methods.length = 1 ∧ ∀ n, steps (List.replicate n (.loop 0)) s = some s) ∧
    ∃ s, steps [.compile, .declare, .patch, .link, .poll, .undo, .clear, .notify, .loop 0] Sys.init = some s ∧ s.timedout = false ∧
      s.declared = 1 ∧ s.reported = 2 := by
  refine ⟨⟨_, rfl, rfl, rfl, rfl, rfl, ?_⟩, ⟨_, rfl, rfl, rfl, rfl⟩⟩
  intro n
  induction n with
  | zero => rfl
  | succ n ih => exact ih

/-- The same happens if the watchdog's wait ends for no reason (condition variables may do so, and the wait at
vm/watchdog_timer.cpp:126 is not in a loop that looks at `timedout_`) while the main thread is busy elsewhere: the
next timeout that is declared undoes the redirection.  The loop of a method goes around for ever, although a timeout
has been declared twice. -/
theorem C67_woken : ∃ s, steps [.compile, .link, .declare, .patch, .patch, .spurious, .declare, .patch, .patch] Sys.init = some s ∧
    s.timedout = true ∧ s.wd = .waiting ∧ s.main = .free ∧ s.declared = 2 ∧ s.reported = 0 ∧ s.methods.length = 1 ∧
    ∀ n, steps (List.replicate n (.loop 0)) s = some s := by
  refine ⟨_, rfl, rfl, rfl, rfl, rfl, rfl, rfl, ?_⟩
  intro n
  induction n with
  | zero => rfl
  | succ n ih => exact ih

end Verif.TimeoutPatch

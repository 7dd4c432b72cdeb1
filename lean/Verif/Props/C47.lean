import Verif.Spec.Watchdog
import Verif.Proofs.Exec
import Verif.Props.C15

/-! C47: the watchdog. -/
namespace Verif.Watchdog

/-- The invariant of all interleavings. -/
structure Inv (s : Sys) : Prop where
  count : s.reported + (if s.timedout = true ∧ s.main ≠ .clearing then 1 else 0) ≤ s.declared
  pending : s.wd = .fired ∨ s.wd = .waiting → s.timedout = true ∨ s.main = .notifying
  last : s.wd ≠ .off → s.lastFrame ≤ s.frameId
  sec : s.second = true → s.wd ≠ .off
  stuck : s.second = true → s.lastFrame = s.frameId → 1 ≤ s.age
  clearing : s.main = .clearing → s.timedout = true

theorem inv_init : Inv Sys.init := by
  constructor <;> simp [Sys.init]

theorem Inv.step {s s' : Sys} {e : Ev} (I : Inv s) (h : step e s = some s') : Inv s' := by
  obtain ⟨wd, main, lf, sec, to, te, ig, fr, dp, de, re, ag⟩ := s
  obtain ⟨h1, h2, h3, h4, h5, h6⟩ := I
  simp only at h1 h2 h3 h4 h5 h6
  cases e <;> simp only [Watchdog.step, Sys.check, Sys.resume] at h <;> (repeat' split at h) <;>
    first
    | (cases h; done)
    | (cases h; constructor <;> simp_all <;> omega)
    | (cases h; constructor <;> simp_all <;> grind)

theorem inv_of {s : Sys} (h : Reachable s) : Inv s := by
  induction h with
  | init => exact inv_init
  | step e _ hs ih => exact ih.step hs

/-- **C47, reports.**  However the two threads interleave, no more timeouts are reported than were declared, and the main thread
is told to stop only while a declared timeout is unreported.  Missing from the property: that the timeout was declared during
the very call that is stopped (`C47_stale_timeout`). -/
theorem C47_reports_partial (s : Sys) (h : Reachable s) :
    s.reported ≤ s.declared ∧ (s.main = .free → s.answer = false → s.reported < s.declared) ∧
    (∀ s', step .poll s = some s' → s'.reported = s.reported + (if s.answer = false then 1 else 0)) := by
  have I := inv_of h
  have h1 := I.count
  refine ⟨by omega, ?_, ?_⟩
  · intro hm ha
    have : s.timedout = true := by simpa [Sys.answer] using ha
    rw [if_pos ⟨this, by rw [hm]; nofun⟩] at h1
    omega
  · intro s' hs
    simp only [step] at hs
    split at hs
    · cases hs
    · split at hs
      · rename_i ht; cases hs; simp [Sys.answer, ht]
      · rename_i ht; cases hs; simp [Sys.answer, ht]

/-- **C47, when a timeout is declared.**  Only by an expired wait during a top-level call that is not put on hold by the debugger and
was already running at an earlier expired wait, one that came after the last acknowledgement. -/
theorem C47_declared_when_stuck (s s' : Sys) (e : Ev) (h : Reachable s) (hs : step e s = some s') (hd : s'.declared ≠ s.declared) :
    e = .tick ∧ 0 < s.depth ∧ s.ignore = false ∧ 1 ≤ s.age ∧ s'.answer = false := by
  have I := inv_of h
  cases e <;> simp only [step, Sys.resume] at hs
  case tick =>
    split at hs
    · have hs' := Option.some.inj hs
      subst hs'
      unfold Sys.check at hd ⊢
      split at hd
      · exact absurd rfl hd
      · rename_i hc
        split at hd
        · exact absurd rfl hd
        · rename_i h2
          rw [not_or, not_or] at hc
          have hsec : s.second = true := by simpa using h2
          have := I.stuck hsec (by have := hc.1; omega)
          refine ⟨rfl, by omega, by simpa using hc.2.2, this, ?_⟩
          rw [if_neg (by rw [not_or, not_or]; exact hc), if_neg h2]
          rfl
    · cases hs
  all_goals
    exfalso
    apply hd
    (repeat' split at hs) <;> first | (cases hs; done) | (cases hs; rfl)

/-- **C47, the watchdog goes on.**  When the main thread is not handling a timeout and none is pending, the watchdog thread is not
stuck waiting for it; and a pending timeout can always be handled to the end, which sets the watchdog going again. -/
theorem C47_watchdog_lives (s : Sys) (h : Reachable s) :
    (s.main = .free → s.answer = true → s.wd ≠ .fired ∧ s.wd ≠ .waiting) ∧
    (s.main = .free → s.wd = .waiting → s.terminate = false →
      ∃ a b c, step .poll s = some a ∧ step .clear a = some b ∧ step .notify b = some c ∧ c.wd = .timed ∧ c.main = .free ∧
        c.answer = true) := by
  have I := inv_of h
  constructor
  · intro hm ha
    have ht : s.timedout = false := by simpa [Sys.answer] using ha
    constructor
    · intro hw
      rcases I.pending (Or.inl hw) with h | h
      · rw [ht] at h; cases h
      · rw [hm] at h; cases h
    · intro hw
      rcases I.pending (Or.inr hw) with h | h
      · rw [ht] at h; cases h
      · rw [hm] at h; cases h
  · intro hm hw hte
    have ht : s.timedout = true := by
      rcases I.pending (Or.inr hw) with h | h
      · exact h
      · rw [hm] at h; cases h
    refine ⟨{ s with main := .clearing, reported := s.reported + 1 }, { s with main := .notifying, timedout := false, reported := s.reported + 1 },
      { s with main := .free, timedout := false, reported := s.reported + 1, wd := .timed, second := false, lastFrame := s.lastFrame - 1, age := 0 },
      ?_, ?_, ?_, rfl, rfl, rfl⟩
    · simp [step, hm, ht]
    · simp [step]
    · simp [step, hw, Sys.resume, hte]

/-- Take several steps. -/
def steps : List Ev → Sys → Option Sys
  | [], s => some s
  | e :: es, s => (step e s).bind (steps es)

theorem steps_reachable : ∀ (es : List Ev) (s s' : Sys), Reachable s → steps es s = some s' → Reachable s'
  | [], s, s', h, hs => by cases hs; exact h
  | e :: es, s, s', h, hs => by
    unfold steps at hs
    cases h1 : step e s with
    | none => rw [h1] at hs; cases hs
    | some a => rw [h1] at hs; exact steps_reachable es a s' (.step e h h1) hs

/-- A run in which a timeout is declared and reported: reachable, and the hypotheses of the theorems above are met on it. -/
example : ∃ s, Reachable s ∧ s.declared = 1 ∧ s.answer = false ∧ s.main = .free ∧ s.wd = .waiting ∧ s.depth = 1 :=
  ⟨_, steps_reachable [.start, .enter, .tick, .tick, .tick, .wait] _ _ .init rfl, rfl, rfl, rfl, rfl, rfl⟩
example : ∃ s s', Reachable s ∧ step .tick s = some s' ∧ s'.declared ≠ s.declared :=
  ⟨_, _, steps_reachable [.start, .enter, .tick, .tick] _ _ .init rfl, rfl, by decide⟩

/-- **A timeout can hit the wrong call.**  A timeout is declared during one top-level call, which then ends without asking; the
next top-level call is stopped the first time it asks, although nothing was declared during it. -/
theorem C47_stale_timeout : ∃ s s', Reachable s ∧ s.depth = 0 ∧ s.main = .free ∧ steps [.enter, .poll] s = some s' ∧
    s'.declared = s.declared ∧ s'.reported = s.reported + 1 :=
  ⟨_, _, steps_reachable [.start, .enter, .tick, .tick, .tick, .wait, .leave] _ _ .init rfl, rfl, rfl, rfl, rfl, rfl⟩

end Verif.Watchdog

namespace Verif.Graph
open Verif.VM

/-- **C47, jumps.**  A jump or conditional jump that leads to before the end of the instruction asks the watchdog first: if the
answer is to stop, the script ends with a timeout error and nothing but the number of questions has changed; if a jump does
lead back, the watchdog was asked and let it. -/
theorem C47_backward_jumps (E : Env) (m : Nat) (here o : Int) (s : IState) (i : Insn)
    (hi : i = .jump o ∨ ∃ c, i = .jcmp c o ∧ cmpCells c s.pri s.alt = true) :
    (o < here → E.watchdog s.polls = false → visit E m here i s = .fail { s with polls := s.polls + 1 } .timeout) ∧
    (o < here → E.watchdog s.polls = true → visit E m here i s = .ok { s with polls := s.polls + 1 } (.goto o)) ∧
    (here ≤ o → visit E m here i s = .ok s (.goto o)) := by
  have hv : visit E m here i s = takeJump E here o s := by
    rcases hi with rfl | ⟨c, rfl, hc⟩
    · rfl
    · show (if cmpCells c s.pri s.alt = true then _ else _) = _
      rw [if_pos hc]
  rw [hv]
  unfold takeJump
  refine ⟨?_, ?_, ?_⟩
  · intro h1 h2
    rw [if_pos h1, h2]; rfl
  · intro h1 h2
    rw [if_pos h1, h2]; rfl
  · intro h1
    rw [if_neg (by omega)]

/-- Both answers, on a jump that leads back. -/
example : visit { c15Env with watchdog := fun _ => false } 0 12 (.jump 4) (c15State 7 0) =
      .fail { c15State 7 0 with polls := 1 } .timeout ∧
    visit c15Env 0 12 (.jcmp .notZero 4) (c15State 7 0) = .ok { c15State 7 0 with polls := 1 } (.goto 4) := ⟨rfl, rfl⟩

/-- **C47, loops.**  Once the watchdog says stop and keeps saying so, every further step of a method, other than by SWITCH, leads
further down the code: no loop is closed. -/
theorem C47_no_second_iteration (E : Env) (start pc pc' t : Nat) (s s' : IState) (i : Insn)
    (hw : ∀ n, s.polls ≤ n → E.watchdog n = false) (hd : decode E.code pc = some (i, pc')) (hs : ∀ o, i ≠ .switch o)
    (h : visit E start (pc' * 4) i s = .ok s' .next ∧ t = pc' ∨ (∃ o, visit E start (pc' * 4) i s = .ok s' (.call o)) ∧ t = pc' ∨
      ∃ o, visit E start (pc' * 4) i s = .ok s' (.goto o) ∧ jumpIndex E o = some t) : pc < t := by
  have hlt : pc < pc' := by
    unfold decode at hd
    cases hc : E.code[pc]? with
    | none => rw [hc] at hd; cases hd
    | some op =>
      rw [hc] at hd
      simp only at hd
      split at hd
      · split at hd
        · split at hd
          · cases hd; omega
          · cases hd
        · cases hd
      · split at hd
        · cases hd
        · split at hd
          · cases hd
          · split at hd
            · cases hd
            · cases hd; omega
  have key : ∀ o, takeJump E (pc' * 4) o s = .ok s' (.goto o) → jumpIndex E o = some t → pc < t := by
    intro o h1 h2
    unfold takeJump at h1
    split at h1
    · rw [hw s.polls (Nat.le_refl _)] at h1; cases h1
    · unfold jumpIndex at h2
      split at h2
      · cases h2
        omega
      · cases h2
  rcases h with ⟨_, rfl⟩ | ⟨_, rfl⟩ | ⟨o, h1, h2⟩
  · exact hlt
  · exact hlt
  · by_cases hf : i.flow = false
    · rcases visit_plain hf h1 with h | ⟨_, h⟩ <;> cases h
    · cases i <;> first | exact absurd rfl hf | skip
      · exact absurd (visit_retn h1) (by simp)
      · have := visit_jump h1
        cases this
        exact key _ h1 h2
      · have := visit_jcmp h1
        rcases this with h | h
        · cases h
          unfold visit at h1
          simp only at h1
          split at h1
          · exact key _ h1 h2
          · cases h1
        · cases h
      · exact absurd rfl (hs _)

/-- The hypotheses are met by a jump down. -/
example : decode [46, 51, 16, 134, 48] 1 = some (.jump 16, 3) ∧
    visit { c15Env with watchdog := fun _ => false, code := [46, 51, 16, 134, 48] } 0 12 (.jump 16) (c15State 7 0) =
      .ok (c15State 7 0) (.goto 16) := ⟨rfl, rfl⟩

/-- A method that goes round by SWITCH: `l: switch t; t: casetbl 0, default l`. -/
def switchLoop : List Cell := [46, 129, 12, 130, 0, 4]

/-- **A loop closed by SWITCH is never stopped**: the method below is accepted, and whatever the watchdog answers the interpreter
runs it for ever. -/
theorem C47_switch_loop_unchecked : (∃ r, build switchLoop 0 20 = .ok r) ∧
    ∀ (E : Env) (s : IState), E.code = switchLoop → ∀ fuel, loop E fuel 0 1 s = none := by
  constructor
  · have h : (match build switchLoop 0 20 with
        | .ok _ => true
        | _ => false) = true := by decide +kernel
    split at h
    · rename_i r hb; exact ⟨_, hb⟩
    · cases h
  · intro E s hE fuel
    induction fuel with
    | zero => rfl
    | succ fuel ih =>
      have hd : decode E.code 1 = some (.switch 12, 3) := by rw [hE]; rfl
      have hv : visit E 0 (3 * 4) (.switch 12) s = .ok s (.goto 4) := by
        show (match caseTable E.code 12 with | none => _ | some (d, cases) => _) = _
        rw [hE]; rfl
      have hj : jumpIndex E 4 = some 1 := by unfold jumpIndex; rw [hE]; rfl
      unfold loop
      rw [show E.code[1]? = some 129 by rw [hE]; rfl]
      simp only
      rw [if_neg (by decide), hd]
      simp only
      rw [show ((3 : Nat) : Int) * 4 = 3 * 4 from rfl, hv]
      simp only
      rw [hj]
      exact ih

end Verif.Graph

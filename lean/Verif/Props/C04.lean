import Verif.Proofs.HistoryExec
import Verif.Spec.Nesting

/-! C04 (calls nest) and C05 (heap scopes restore the heap). -/
namespace Verif.VM

theorem Steps.split {b} : ∀ {xs ys s g s' g'}, Steps b s g (xs ++ ys) s' g' →
    ∃ s1 g1, Steps b s g xs s1 g1 ∧ Steps b s1 g1 ys s' g'
  | [], _, s, g, _, _, h => ⟨s, g, .nil, h⟩
  | _ :: xs, ys, _, _, _, _, h => by
    cases h with
    | cons hl he h =>
      obtain ⟨s1, g1, h1, h2⟩ := h.split
      exact ⟨s1, g1, .cons hl he h1, h2⟩

theorem Steps.good {b} (Bb : Base b) {ops s g s' g'} (G : Good b s g) (h : Steps b s g ops s' g') :
    Good b s' g' := by
  induction h with
  | nil => exact G
  | cons hl he _ ih =>
    have := good_step Bb G _ hl
    rw [he] at this
    exact ih this

theorem shadow_plain {op : Op} (h : op.plain = true) (s : State) (g : List Link) : shadow s g op = g := by
  cases op <;> first | rfl | cases h

/-- Scope records only. -/
def AllScopes (l : List Link) : Prop := ∀ x ∈ l, ∃ a c, x = .scope a c

theorem toFrame_scopes : ∀ {l g}, AllScopes l → toFrame (l ++ g) = toFrame g
  | [], _, _ => rfl
  | x :: l, g, h => by
    obtain ⟨a, c, rfl⟩ := h x (by simp)
    exact toFrame_scopes (l := l) (fun y hy => h y (by simp [hy]))

mutual
theorem Nested.shadow_eq {b} : ∀ {ops}, Nested ops → ∀ {s g s' g'}, Steps b s g ops s' g' → g' = g
  | _, .nil, _, _, _, _, h => by cases h; rfl
  | _, .plain (op := op) hp hn, _, _, _, _, h => by
    cases h with
    | cons hl he h => exact (hn.shadow_eq h).trans (shadow_plain hp ..)
  | _, .scope hb hn, s, g, _, _, h => by
    cases h with
    | cons hl he h =>
      obtain ⟨s1, g1, h1, h2⟩ := Steps.split h
      have e1 := hb.shadow_eq h1
      cases h2 with
      | cons hl2 he2 h2 =>
        have e2 := hn.shadow_eq h2
        rw [e2, e1]; rfl
  | _, .call hb hn, s, g, _, _, h => by
    cases h with
    | cons hl he h =>
      obtain ⟨s1, g1, h1, h2⟩ := Steps.split h
      obtain ⟨l, hls, e1⟩ := hb.shadow_open h1
      cases h2 with
      | cons hl2 he2 h2 =>
        have e2 := hn.shadow_eq h2
        rw [e2, e1]
        show (toFrame (l ++ _)).tail = g
        rw [toFrame_scopes hls]
        rfl

theorem NestedOpen.shadow_open {b} : ∀ {ops}, NestedOpen ops → ∀ {s g s' g'}, Steps b s g ops s' g' →
    ∃ l, AllScopes l ∧ g' = l ++ g
  | _, .closed hn, _, _, _, _, h => ⟨[], (fun x hx => by cases hx), by rw [hn.shadow_eq h]; rfl⟩
  | _, .opens hp ho, _, g, _, _, h => by
    obtain ⟨s1, g1, h1, h2⟩ := Steps.split h
    have e1 := hp.shadow_eq h1
    cases h2 with
    | cons hl he h2 =>
      obtain ⟨l, hl', e2⟩ := ho.shadow_open h2
      rw [e1] at e2
      refine ⟨l ++ [.scope s1.hp s1.hpScope], ?_, ?_⟩
      · intro x hx
        rcases List.mem_append.1 hx with hx | hx
        · exact hl' x hx
        · simp only [List.mem_singleton] at hx; exact ⟨_, _, hx⟩
      · rw [e2]; simp [shadow]
end

/-- **C04.** After any history, let a function be called (its argument count `n` on the stack top,
its arguments below it) and let it do anything that is well nested — nested calls and scopes to any
depth, scopes left open, any pushes, allocations and stores that do not hit the linkage cells.  Then
returning succeeds, restores the caller's frame pointer, heap pointer and heap scope, and leaves the
stack pointer just above the argument count and the arguments. -/
theorem C04_call_return {b s s1 : State} {pre body : List Op} {g g1 : List Link} (Bb : Base b)
    (H : History b pre s g) (hb : NestedOpen body) (h : Steps b s g (.call :: body) s1 g1) :
    ∃ s', Op.exec .ret s1 = .ok s' () ∧ s'.frm = s.frm ∧ s'.hp = s.hp ∧ s'.hpScope = s.hpScope ∧
      s'.sp = s.sp + 4 + 4 * (rd32 s.mem s.sp).toInt ∧ s'.mem = s1.mem := by
  have G := good_history Bb H
  have G1 := h.good Bb G
  cases h with
  | cons hl he h =>
    obtain ⟨l, hls, e⟩ := hb.shadow_open h
    have ht : toFrame g1 = .frame s.sp (rd32 s.mem s.sp).toInt s.frm s.hp s.hpScope :: g := by
      rw [e, toFrame_scopes hls]; rfl
    obtain ⟨s', e', _, h1, h2, h3, h4, h5⟩ := good_ret Bb G1 ht
    exact ⟨s', e', h3, h1, h2, h4, h5⟩

/-- **C05.** After any history, let a heap scope be entered and anything well nested happen inside:
leaving it succeeds and puts the heap pointer and the scope register back to exactly their values
before the scope was entered, touching nothing else. -/
theorem C05_scope_restores {b s s1 : State} {pre body : List Op} {g g1 : List Link} (Bb : Base b)
    (H : History b pre s g) (hb : Nested body) (h : Steps b s g (.enter :: body) s1 g1) :
    ∃ s', Op.exec .leave s1 = .ok s' () ∧ s'.hp = s.hp ∧ s'.hpScope = s.hpScope ∧
      s'.sp = s1.sp ∧ s'.frm = s1.frm ∧ s'.mem = s1.mem := by
  have G := good_history Bb H
  have G1 := h.good Bb G
  cases h with
  | cons hl he h =>
    have e := hb.shadow_eq h
    rw [e] at G1
    obtain ⟨s', e', _, h1, h2, h3, h4, h5⟩ := good_leave Bb G1
    exact ⟨s', e', h1, h2, h3, h4, h5⟩

/-- Between the call and the return the callee never sees undefined behaviour, and an operation that
is refused leaves the layout intact (so the error can unwind to the host). -/
theorem C04_callee_never_ub {b s s1 : State} {pre body : List Op} {g g1 : List Link} (Bb : Base b)
    (H : History b pre s g) (h : Steps b s g body s1 g1) (op : Op) (hl : Legal b s1 g1 op) :
    op.exec s1 ≠ .ub := by
  have := good_step Bb (h.good Bb (good_history Bb H)) op hl
  intro e
  rw [e] at this
  exact this

/-! ### Non-vacuity -/

theorem Steps.of_history {b} : ∀ {ops : List Op} {s g}, History b ops s g → Steps b b [] ops s g := by
  intro ops s g H
  induction H with
  | start => exact .nil
  | step _ hl he ih =>
    have app : ∀ {xs s g s1 g1 ys s' g'}, Steps b s g xs s1 g1 → Steps b s1 g1 ys s' g' →
        Steps b s g (xs ++ ys) s' g' := by
      intro xs s g s1 g1 ys s' g' h1 h2
      induction h1 with
      | nil => exact h2
      | cons a c _ ih => exact .cons a c (ih h2)
    exact app ih (.cons hl he .nil)

/-- A small plugin. -/
def c04Start : State := init (fun _ => 0) 64 (computeMemSize 64 0) true true

/-- A call with two arguments whose body allocates, opens a scope, calls another function and returns
from inside the scope. -/
def c04Body : List Op :=
  [.push 3, .enter, .heap 16, .store 0 5, .push 0, .call, .heap 8, .enter, .heap 4, .ret, .push 9]

example : ∃ s g, History c04Start [.push 7, .push 8, .push 2] s g ∧
    ∃ s1 g1, Steps c04Start s g (.call :: c04Body) s1 g1 := by
  obtain ⟨s1, g1, H⟩ : ∃ s g, History c04Start ([.push 7, .push 8, .push 2] ++ (.call :: c04Body)) s g :=
    runFrom_isSome (by decide +kernel)
  have P : ∃ s g, History c04Start [.push 7, .push 8, .push 2] s g := runFrom_isSome (by decide +kernel)
  obtain ⟨s, g, P⟩ := P
  obtain ⟨s', g', h1, h2⟩ := Steps.split (Steps.of_history H)
  have det : ∀ {ops a ga b1 g1 b2 g2}, Steps c04Start a ga ops b1 g1 → Steps c04Start a ga ops b2 g2 →
      b1 = b2 ∧ g1 = g2 := by
    intro ops a ga b1 g1 b2 g2 h
    induction h with
    | nil => intro h; cases h; exact ⟨rfl, rfl⟩
    | cons _ he _ ih =>
      intro h
      cases h with
      | cons _ he2 h2 => rw [he] at he2; cases he2; exact ih h2
  obtain ⟨rfl, rfl⟩ := det h1 (Steps.of_history P)
  exact ⟨_, _, P, _, _, h2⟩

example : NestedOpen c04Body := by
  unfold c04Body
  refine .opens (pre := [.push 3]) (.plain rfl .nil) (.closed (.plain rfl (.plain rfl (.plain rfl ?_))))
  exact .call (body := [.heap 8, .enter, .heap 4])
    (.opens (pre := [.heap 8]) (.plain rfl .nil) (.closed (.plain rfl .nil))) (.plain rfl .nil)

example : Nested [.heap 8, .enter, .heap 4, .enter, .leave, .leave, .push 1] :=
  .plain rfl (.scope (body := [.heap 4, .enter, .leave])
    (.plain rfl (.scope (body := []) .nil .nil)) (.plain rfl .nil))

example : ∃ s g, History c04Start [.heap 8, .enter, .heap 4, .enter, .leave, .leave, .push 1] s g :=
  runFrom_isSome (by decide +kernel)

end Verif.VM

import Verif.Proofs.GenProg
import Verif.Proofs.LangMono

/-! # C39: compiled control flow follows the source

`exec` gives the behaviour of a statement with a bound `n` on the depth of calls and the number of iterations of each loop:
`C39_bound_irrelevant` shows that the bound only decides whether there is a result.  Functions that are called are those of a
program `prog` whose compiled code is in the plugin (`Loaded`; for statements without calls take the empty program). -/
namespace Verif.C39
open Verif.VM Verif.Lang Verif.CodeGen Verif.Compiled

section
variable {E : Env} {L : Layout} {lim : Int} {prog : Nat → Option Func} {m n p B C : Nat} {b : State} {st : Stmt} {s : IState} {σ σ' : Store}
  {r : Sig} {er : Err}

/-- A statement the compiler accepts, compiled with `B` and `C` as the targets of `break` and `continue`, run from a state that holds
the variables.  If in the source it ends, the machine gets to the corresponding point: behind the code; at the target of `break` or
`continue`; at a return instruction with the value in PRI.  Memory then holds the variables after all the assignments of the source.  Everything else in the machine is as before,
and other memory differs at most in free space between heap and stack.  Unless the stack is exhausted or the watchdog stops the plugin. -/
theorem C39_follows (hP : Loaded E L lim prog) (hF : Fits E L lim b) (hA : Activation E L m b) (hacc : (genS L st).bad = false)
    (hB : B < E.code.length) (hC : C < E.code.length) (hc : At E.code p ((genS L st).code B C p)) (hH : Holds L b σ s.vm)
    (hx : exec L.size (callFn L.size prog n) n st σ = .ok r σ') :
    (∃ q s', GetsTo E m p s q s' ∧
      (match r with
       | .next => q = p + ((genS L st).code B C p).length
       | .brk => q = B
       | .cont => q = C
       | .ret v => At E.code q (ins .retn q) ∧ s'.pri = v) ∧
      s'.vm = { s.vm with mem := s'.vm.mem } ∧ Holds L b σ' s'.vm ∧ Keeps L b s.vm.sp s.vm.mem s'.vm.mem) ∨ Exhausted E lim m p s := by
  have h := (genS_ok hF hA (calls_ok n hP hF hA) st hacc).run n p s σ B C (Nat.le_refl _) hB hC hc hH
  rw [hx] at h
  rcases h with ⟨N', q, s', hr, hP, hq⟩ | h
  · refine Or.inl ⟨q, s', hr.fwd, ?_, hP.vm, hP.holds, hP.keeps⟩
    cases r with
    | next => exact hq.2
    | brk => exact hq.2
    | cont => exact hq.2
    | ret v => exact hq.2
  · exact Or.inr h

/-- If the statement ends in an error, the machine stops with that error, and the globals hold what the source had assigned. -/
theorem C39_error (hP : Loaded E L lim prog) (hF : Fits E L lim b) (hA : Activation E L m b) (hacc : (genS L st).bad = false)
    (hB : B < E.code.length) (hC : C < E.code.length) (hc : At E.code p ((genS L st).code B C p)) (hH : Holds L b σ s.vm)
    (hx : exec L.size (callFn L.size prog n) n st σ = .err σ' er) :
    (∃ s', Fails E m p s s' er ∧ Globals L σ'.g s'.vm.mem) ∨ Exhausted E lim m p s := by
  have h := (genS_ok hF hA (calls_ok n hP hF hA) st hacc).run n p s σ B C (Nat.le_refl _) hB hC hc hH
  rw [hx] at h
  exact h

/-- If the statement never ends, whatever the bound, the machine never stops. -/
theorem C39_runs_forever (hP : Loaded E L lim prog) (hF : Fits E L lim b) (hA : Activation E L m b) (hacc : (genS L st).bad = false)
    (hB : B < E.code.length) (hC : C < E.code.length) (hc : At E.code p ((genS L st).code B C p)) (hH : Holds L b σ s.vm)
    (hx : ∀ n, exec L.size (callFn L.size prog n) n st σ = .more) :
    (∀ k, loop E k m p s = none) ∨ Exhausted E lim m p s := by
  by_cases hex : Exhausted E lim m p s
  · exact Or.inr hex
  · refine Or.inl fun k => ?_
    have h := (genS_ok hF hA (calls_ok k hP hF hA) st hacc).run k p s σ B C (Nat.le_refl _) hB hC hc hH
    rw [hx] at h
    rcases h with h | h
    · exact h
    · exact absurd h hex

/-- The bound is irrelevant: the result with one bound, if there is one, is the result with any larger bound. -/
theorem C39_bound_irrelevant {size : Nat → Nat} {n' : Nat} (h : exec size (callFn size prog n) n st σ ≠ .more) (hn : n ≤ n') :
    exec size (callFn size prog n') n' st σ = exec size (callFn size prog n) n st σ := by
  rcases exec_sub (size := size) (callFn_sub (prog := prog) hn) hn st σ with h' | h'
  · exact absurd h' h
  · exact h'.symm

/-- A `break` or `continue` that is not inside a loop of the statement is reported: a statement without the flags never ends so. -/
theorem C39_break_inside {n : Nat} (hP : Loaded E L lim prog) (hF : Fits E L lim b) (hA : Activation E L m b) (hacc : (genS L st).bad = false)
    (h1 : (genS L st).brk = false) (h2 : (genS L st).cont = false) (hx : exec L.size (callFn L.size prog n) n st σ = .ok r σ') :
    r = .next ∨ ∃ v, r = .ret v := by
  have hs := (genS_ok hF hA (calls_ok n hP hF hA) st hacc).sig
  cases r with
  | next => exact Or.inl rfl
  | ret v => exact Or.inr ⟨v, rfl⟩
  | brk => have := hs.brk _ _ hx; rw [h1] at this; cases this
  | cont => have := hs.cont _ _ hx; rw [h2] at this; cases this

end

/-! ### Example -/

/-- Global 0 is an integer at address 0; the function has one parameter and two locals. -/
def exLayout : Layout :=
  { gaddr := fun _ => 0, size := fun x => if x = 0 then 1 else 0, entry := fun _ => 0, arity := fun _ => 0, params := 1, slots := 2 }

abbrev v0 : Expr := .get (.var (.loc 0))
abbrev v1 : Expr := .get (.var (.loc 1))
abbrev arg : Expr := .get (.var (.loc (-1)))

/-- `{ int x = 0; for (int i = 1; ; i++) { switch (i) { case 2, 4: continue; case 7: break; default: x += i; } if (i > arg) return x; } g = x; }` -/
def exStmt : Stmt :=
  .block <| .cons (.decl 0 none) <| .cons
    (.for (.cons (.decl 1 (some (.num 1))) .nil) none (some (.incdec true false (.var (.loc 1))))
      (.block <| .cons (.switch v1 (.case [2, 4] .cont (.case [7] .brk (.dflt (.expr (.assign (some .add) (.var (.loc 0)) v1)))))) <|
        .cons (.ifThen (.bin .gt v1 arg) (.ret (some v0))) .nil)) <|
    .cons (.expr (.assign none (.var (.glob 0)) v0)) .nil

def exEnv : Env :=
  { code := (genS exLayout exStmt).code 0 0 0 ++ [0], floats := ⟨fun _ => false, fun _ => 0, fun _ _ _ => 0, fun _ _ _ => false, fun _ => 0⟩,
    natives := fun _ => none, legacyStack := false, localOffsets := fun _ => [-4, -8], validate := fun _ => none, watchdog := fun _ => true }

def exState : State :=
  { mem := wr32 (fun _ => 0) 312 4, memSize := 1000, dataSize := 4, stp := 400, hp := 4, sp := 292, frm := 300, hpScope := -1,
    directArrays := true, usesHeapScopes := true }

def exStore : Store := { g := fun _ _ => 0, l := fun i => if i = -1 then some 4 else none }

example : Loaded exEnv exLayout 72 fun _ => none := by
  constructor <;> intro _ _ h <;> cases h

example : Fits exEnv exLayout 72 exState := by
  refine ⟨by decide +kernel, rfl, by decide, by decide, by decide, by decide, ?_, ?_, by decide, by decide⟩
  · intro x i hi
    simp only [exLayout, exState] at hi ⊢
    split at hi <;> omega
  · intro x y i j hi hj hne
    simp only [exLayout] at hi hj ⊢
    split at hi <;> split at hj <;> omega

example : Activation exEnv exLayout 0 exState := ⟨rfl, by decide⟩

example : (genS exLayout exStmt).bad = false := by decide +kernel

example : At exEnv.code 0 ((genS exLayout exStmt).code 0 0 0) := by
  refine ⟨fun k hk => ?_, by simp [exEnv]⟩
  rw [Nat.zero_add]
  exact List.getElem?_append_left hk

example : Holds exLayout exState exStore exState := by
  refine ⟨rfl, by decide, by decide, ?_, ?_⟩
  · intro x i hi
    simp only [exLayout] at hi
    split at hi
    · have : i = 0 := by omega
      subst this
      show rd32 exState.mem (0 + 4 * (0 : Int)) = 0
      decide +kernel
    · omega
  · intro i w hi
    simp only [exStore] at hi
    split at hi
    · rename_i h; subst h; cases hi; exact ⟨by decide, by decide +kernel⟩
    · cases hi

/-- With argument 4: 1 + 3 + 5, then 5 > 4 returns 9. -/
example : ∃ σ', exec exLayout.size (callFn exLayout.size (fun _ => none) 10) 10 exStmt exStore = .ok (.ret 9) σ' := ⟨_, rfl⟩

/-- With argument 6: 1 + 3 + 5 + 6, then 7 leaves the loop and 15 is stored. -/
example : ∃ σ', exec exLayout.size (callFn exLayout.size (fun _ => none) 10) 10 exStmt (exStore.setL (-1) 6) = .ok .next σ' ∧ σ'.g 0 0 = 15 :=
  ⟨_, rfl, by decide +kernel⟩

/-- `while (1) {}` never ends. -/
example (n : Nat) : exec exLayout.size (callFn exLayout.size (fun _ => none) n) n (.while (.num 1) (.block .nil)) exStore = .more := by
  simp only [exec]
  have h : ∀ k, iterate (whileRound (eval exLayout.size (callFn exLayout.size (fun _ => none) n) (.num 1))
      (execAll exLayout.size (callFn exLayout.size (fun _ => none) n) n .nil)) k exStore = .more := by
    intro k
    induction k with
    | zero => rfl
    | succ k ih => exact ih
  exact h n

end Verif.C39

import Verif.Proofs.GenFlow

/-! # C38: compiled integer expressions compute their value

Calls are covered by C57; here a call has no meaning, so the theorems say nothing about expressions that evaluate one. -/
namespace Verif.C38
open Verif.VM Verif.Lang Verif.CodeGen Verif.Compiled

/-- Calls are not considered. -/
def noCalls : Nat → List Cell → Ev Cell := fun _ _ => meaningless

theorem noCalls_ok {E : Env} {L : Layout} {lim : Int} {m n : Nat} {b : State} : CallOk E L lim m n b noCalls :=
  fun _ _ _ _ _ _ _ _ _ _ _ _ => True.intro

section
variable {E : Env} {L : Layout} {lim : Int} {m p : Nat} {b : State} {e : Expr} {s : IState} {σ σ' : Store} {v : Cell} {er : Err}

/-- An expression that the compiler accepts and that has a value: running its code from a state that holds the variables ends
right behind the code with the value in PRI; the stack pointer and everything else in the machine except memory is as before;
memory holds the variables after the assignments the source makes, and otherwise differs at most in free space between heap and
stack.  Unless the stack is exhausted or the watchdog stops the plugin. -/
theorem C38_value (hF : Fits E L lim b) (hA : Activation E L m b) (hacc : (gen L e).bad = false)
    (hc : At E.code p ((gen L e).expr p)) (hH : Holds L b σ s.vm) (hv : eval L.size noCalls e σ = .ok v σ') :
    (∃ s', GetsTo E m p s (p + ((gen L e).expr p).length) s' ∧ s'.pri = v ∧ s'.vm = { s.vm with mem := s'.vm.mem } ∧
      Holds L b σ' s'.vm ∧ Keeps L b s.vm.sp s.vm.mem s'.vm.mem) ∨ Exhausted E lim m p s := by
  have h := (gen_ok (n := 0) hF hA noCalls_ok e hacc).expr 0 p s σ (Nat.le_refl _) hc hH
  rw [hv] at h
  rcases h with ⟨N', q, s', hr, rfl, rfl, hP, hpri⟩ | h
  · exact Or.inl ⟨s', hr.fwd, hpri, hP.vm, hP.holds, hP.keeps⟩
  · exact Or.inr h

/-- An expression that ends in an error: the machine stops with exactly that error, and the globals hold what the source had
assigned before the error. -/
theorem C38_error (hF : Fits E L lim b) (hA : Activation E L m b) (hacc : (gen L e).bad = false)
    (hc : At E.code p ((gen L e).expr p)) (hH : Holds L b σ s.vm) (hv : eval L.size noCalls e σ = .err σ' er) :
    (∃ s', Fails E m p s s' er ∧ Globals L σ'.g s'.vm.mem) ∨ Exhausted E lim m p s := by
  have h := (gen_ok (n := 0) hF hA noCalls_ok e hacc).expr 0 p s σ (Nat.le_refl _) hc hH
  rw [hv] at h
  exact h

/-- The code for a condition that jumps to `t` when the expression is true (`j`), or when it is false (not `j`), has the effects of
the expression and jumps, or not, according to its value. -/
theorem C38_condition {j : Bool} {t : Nat} (hF : Fits E L lim b) (hA : Activation E L m b) (hacc : (gen L e).bad = false)
    (ht : t < E.code.length) (hc : At E.code p ((gen L e).test j t p)) (hH : Holds L b σ s.vm)
    (hv : eval L.size noCalls e σ = .ok v σ') :
    (∃ s', GetsTo E m p s (if decide (v ≠ 0) = j then t else p + ((gen L e).test j t p).length) s' ∧
      s'.vm = { s.vm with mem := s'.vm.mem } ∧ Holds L b σ' s'.vm ∧ Keeps L b s.vm.sp s.vm.mem s'.vm.mem) ∨
    Exhausted E lim m p s := by
  have h := (gen_ok (n := 0) hF hA noCalls_ok e hacc).test j t 0 p s σ (Nat.le_refl _) ht hc hH
  rw [hv] at h
  rcases h with ⟨N', q, s', hr, _, rfl, hP⟩ | h
  · exact Or.inl ⟨s', hr.fwd, hP.vm, hP.holds, hP.keeps⟩
  · exact Or.inr h

/-- A condition whose expression ends in an error. -/
theorem C38_condition_error {j : Bool} {t : Nat} (hF : Fits E L lim b) (hA : Activation E L m b) (hacc : (gen L e).bad = false)
    (ht : t < E.code.length) (hc : At E.code p ((gen L e).test j t p)) (hH : Holds L b σ s.vm)
    (hv : eval L.size noCalls e σ = .err σ' er) :
    (∃ s', Fails E m p s s' er ∧ Globals L σ'.g s'.vm.mem) ∨ Exhausted E lim m p s := by
  have h := (gen_ok (n := 0) hF hA noCalls_ok e hacc).test j t 0 p s σ (Nat.le_refl _) ht hc hH
  rw [hv] at h
  exact h

/-- The shorter code for an expression whose value is not used has the same effects. -/
theorem C38_effects {d : Bool} (hF : Fits E L lim b) (hA : Activation E L m b) (hacc : (gen L e).bad = false)
    (hc : At E.code p ((gen L e).bare d p)) (hH : Holds L b σ s.vm) (hv : eval L.size noCalls e σ = .ok v σ') :
    (∃ s', GetsTo E m p s (p + ((gen L e).bare d p).length) s' ∧ s'.vm = { s.vm with mem := s'.vm.mem } ∧
      Holds L b σ' s'.vm ∧ Keeps L b s.vm.sp s.vm.mem s'.vm.mem) ∨ Exhausted E lim m p s := by
  have h := ((gen_ok (n := 0) hF hA noCalls_ok e hacc).bare d) 0 p s σ (Nat.le_refl _) hc hH
  rw [hv] at h
  rcases h with ⟨N', q, s', hr, rfl, rfl, hP, _⟩ | h
  · exact Or.inl ⟨s', hr.fwd, hP.vm, hP.holds, hP.keeps⟩
  · exact Or.inr h

end

/-! ### Evaluation always ends -/

/-- Does not run out of its bound. -/
abbrev Ends {α : Type} (x : Ev α) : Prop := ∀ σ, x σ ≠ .more

theorem Ends.pure {α : Type} (a : α) : Ends (Pure.pure a : Ev α) := fun _ h => by cases h
theorem Ends.raise {α : Type} (e : Err) : Ends (raise e : Ev α) := fun _ h => by cases h
theorem Ends.meaningless {α : Type} : Ends (meaningless : Ev α) := fun _ h => by cases h
theorem Ends.bind {α β : Type} {x : Ev α} {f : α → Ev β} (hx : Ends x) (hf : ∀ a, Ends (f a)) : Ends (x >>= f) := by
  intro σ h
  have h : Ev.bind x f σ = _ := h
  unfold Ev.bind at h
  cases hxs : x σ with
  | ok a s => rw [hxs] at h; exact hf a s h
  | err => rw [hxs] at h; cases h
  | undef => rw [hxs] at h; cases h
  | more => exact hx σ hxs

theorem Ends.binop (op : BinOp) (x y : Cell) : Ends (binop op x y) := by
  cases op <;> simp only [Lang.binop] <;> first
    | exact Ends.pure _
    | (split
       · first | exact Ends.pure _ | exact Ends.raise _
       · first | exact Ends.meaningless | (split; exact Ends.raise _; exact Ends.pure _))

theorem Ends.load (r : Place) : Ends (load r) := by
  intro σ h
  cases r with
  | elem => cases h
  | var v =>
    cases v with
    | glob => cases h
    | loc i => simp only [Lang.load] at h; split at h <;> cases h

theorem Ends.save (r : Place) (v : Cell) : Ends (save r v) := by
  intro σ h
  cases r with
  | elem => cases h
  | var w =>
    cases w with
    | glob => cases h
    | loc i => simp only [Lang.save] at h; split at h <;> cases h

mutual
theorem eval_ends (size : Nat → Nat) : ∀ e : Expr, Ends (eval size noCalls e)
  | .num v => by simp only [eval]; exact Ends.pure _
  | .get l => by simp only [eval]; exact (place_ends size l).bind fun _ => Ends.load _
  | .un op e => by simp only [eval]; exact (eval_ends size e).bind fun _ => Ends.pure _
  | .bin op a b => by simp only [eval]; exact (eval_ends size a).bind fun _ => (eval_ends size b).bind fun _ => Ends.binop _ _ _
  | .assign none l e => by
    simp only [eval]
    exact (place_ends size l).bind fun _ => (eval_ends size e).bind fun _ => (Ends.save _ _).bind fun _ => Ends.pure _
  | .assign (some op) l e => by
    simp only [eval]
    exact (place_ends size l).bind fun _ => (Ends.load _).bind fun _ => (eval_ends size e).bind fun _ => (Ends.binop _ _ _).bind fun _ =>
      (Ends.save _ _).bind fun _ => Ends.pure _
  | .incdec inc pre l => by
    simp only [eval]
    exact (place_ends size l).bind fun _ => (Ends.load _).bind fun _ => (Ends.save _ _).bind fun _ => Ends.pure _
  | .logic isOr a b => by
    simp only [eval]
    refine (eval_ends size a).bind fun _ => ?_
    split
    · exact Ends.pure _
    · exact (eval_ends size b).bind fun _ => Ends.pure _
  | .chain first op e rest => by
    simp only [eval]
    exact (eval_ends size first).bind fun _ => (eval_ends size e).bind fun y => (evalRest_ends size rest y).bind fun _ => Ends.pure _
  | .tern c a b => by
    simp only [eval]
    refine (eval_ends size c).bind fun _ => ?_
    split
    · exact eval_ends size a
    · exact eval_ends size b
  | .comma a b => by simp only [eval]; exact (eval_ends size a).bind fun _ => eval_ends size b
  | .call f args => by simp only [eval]; exact (evalArgs_ends size args).bind fun _ => Ends.meaningless

theorem place_ends (size : Nat → Nat) : ∀ l : LVal, Ends (place size noCalls l)
  | .var v => by simp only [place]; exact Ends.pure _
  | .elem x i => by
    simp only [place]
    refine (eval_ends size i).bind fun _ => ?_
    split
    · exact Ends.pure _
    · exact Ends.raise _

theorem evalRest_ends (size : Nat → Nat) : ∀ (rest : Rest) (x : Cell), Ends (evalRest size noCalls x rest)
  | .one op e, x => by simp only [evalRest]; exact (eval_ends size e).bind fun _ => Ends.pure _
  | .cons op e rest, x => by
    simp only [evalRest]
    exact (eval_ends size e).bind fun y => (evalRest_ends size rest y).bind fun _ => Ends.pure _

theorem evalArgs_ends (size : Nat → Nat) : ∀ args : Args, Ends (evalArgs size noCalls args)
  | .nil => by simp only [evalArgs]; exact Ends.pure _
  | .cons e rest => by
    simp only [evalArgs]
    exact (evalArgs_ends size rest).bind fun _ => (eval_ends size e).bind fun _ => Ends.pure _
end

/-- Every expression has a value or ends in an error, unless it has no meaning (an undefined shift, a variable that was not
declared, a call): `C38_value` and `C38_error` cover all other cases. -/
theorem C38_covers_all (size : Nat → Nat) (e : Expr) (σ : Store) :
    (∃ v σ', eval size noCalls e σ = .ok v σ') ∨ (∃ σ' er, eval size noCalls e σ = .err σ' er) ∨ eval size noCalls e σ = .undef := by
  cases h : eval size noCalls e σ with
  | ok v σ' => exact Or.inl ⟨v, σ', rfl⟩
  | err σ' er => exact Or.inr (Or.inl ⟨σ', er, rfl⟩)
  | undef => exact Or.inr (Or.inr rfl)
  | more => exact absurd h (eval_ends size e σ)

/-! ### Examples -/

/-- Global 0 is an integer at address 0, global 1 an array of three at address 4; the function has one parameter and one local. -/
def exLayout : Layout :=
  { gaddr := fun x => if x = 0 then 0 else 4, size := fun x => if x = 0 then 1 else if x = 1 then 3 else 0,
    entry := fun _ => 0, arity := fun _ => 0, params := 1, slots := 1 }

/-- `g = (local < 3 && a[param] != 0) ? a[param]++ / local : -1` -/
def exExpr : Expr :=
  .assign none (.var (.glob 0))
    (.tern (.logic false (.bin .lt (.get (.var (.loc 0))) (.num 3)) (.bin .ne (.get (.elem 1 (.get (.var (.loc (-1)))))) (.num 0)))
      (.bin .div (.incdec true false (.elem 1 (.get (.var (.loc (-1)))))) (.get (.var (.loc 0))))
      (.un .neg (.num 1)))

def exEnv : Env :=
  { code := (gen exLayout exExpr).expr 0 ++ [0], floats := ⟨fun _ => false, fun _ => 0, fun _ _ _ => 0, fun _ _ _ => false, fun _ => 0⟩,
    natives := fun _ => none, legacyStack := false, localOffsets := fun _ => [-4], validate := fun _ => none, watchdog := fun _ => true }

/-- `a[0]` is 7 and the local is 2; the parameter and `g` are 0. -/
def exState : State :=
  { mem := wr32 (wr32 (fun _ => 0) 4 7) 296 2, memSize := 1000, dataSize := 16, stp := 400, hp := 16, sp := 296, frm := 300, hpScope := -1,
    directArrays := true, usesHeapScopes := true }

def exStore : Store :=
  { g := fun x i => if x = 1 ∧ i = 0 then 7 else 0, l := fun i => if i = 0 then some 2 else if i = -1 then some 0 else none }

example : Fits exEnv exLayout 72 exState := by
  refine ⟨by decide, rfl, by decide, by decide, by decide, by decide, ?_, ?_, by decide, by decide⟩
  · intro x i hi
    simp only [exLayout, exState] at hi ⊢
    split at hi
    · simp_all
    · split at hi
      · simp_all; omega
      · omega
  · intro x y i j hi hj hne
    simp only [exLayout] at hi hj ⊢
    split at hi
    · rename_i hx
      split at hj
      · rename_i hy; rw [if_pos hx, if_pos hy]; omega
      · rename_i hy; rw [if_pos hx, if_neg hy]; omega
    · rename_i hx
      split at hj
      · rename_i hy; rw [if_neg hx, if_pos hy]; omega
      · rename_i hy
        rw [if_neg hx, if_neg hy]
        split at hi
        · split at hj <;> omega
        · omega

example : Activation exEnv exLayout 0 exState := ⟨rfl, by decide⟩

example : (gen exLayout exExpr).bad = false := by decide +kernel

example : At exEnv.code 0 ((gen exLayout exExpr).expr 0) := by
  refine ⟨fun k hk => ?_, by simp [exEnv]⟩
  rw [Nat.zero_add]
  exact List.getElem?_append_left hk

example : Holds exLayout exState exStore exState := by
  refine ⟨rfl, by decide, by decide, ?_, ?_⟩
  · intro x i hi
    simp only [exLayout] at hi
    split at hi
    · rename_i h; subst h
      have : i = 0 := by omega
      subst this
      decide +kernel
    · split at hi
      · rename_i h; subst h
        have : i = 0 ∨ i = 1 ∨ i = 2 := by omega
        rcases this with rfl | rfl | rfl <;> decide +kernel
      · omega
  · intro i w hi
    simp only [exStore] at hi
    split at hi
    · rename_i h; subst h; cases hi; exact ⟨by decide, by decide +kernel⟩
    · split at hi
      · rename_i h; subst h; cases hi; exact ⟨by decide, by decide +kernel⟩
      · cases hi

/-- The value is 7 / 2 = 3, stored in `g`; afterwards `a[0]` is 8. -/
example : ∃ σ', eval exLayout.size noCalls exExpr exStore = .ok 3 σ' ∧ σ'.g 0 0 = 3 ∧ σ'.g 1 0 = 8 :=
  ⟨_, rfl, by decide +kernel, by decide +kernel⟩

/-- With the local 0 the division fails, after `a[0]` has been incremented. -/
example : ∃ σ', eval exLayout.size noCalls exExpr (exStore.setL 0 0) = .err σ' .divideByZero ∧ σ'.g 1 0 = 8 :=
  ⟨_, rfl, by decide +kernel⟩

end Verif.C38

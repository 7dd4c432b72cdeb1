import Verif.Spec.Lang

/-! A larger bound on calls and iterations gives the same result, or a result where there was none. -/
namespace Verif.Lang
open Verif.VM (Cell Err)

/-- The second computation gives the result of the first, if that has one. -/
def Sub {α : Type} (x y : Ev α) : Prop := ∀ σ, x σ = .more ∨ x σ = y σ

theorem Sub.rfl {α : Type} {x : Ev α} : Sub x x := fun _ => Or.inr (Eq.refl _)

theorem Sub.bind {α β : Type} {x y : Ev α} {f g : α → Ev β} (h : Sub x y) (k : ∀ a, Sub (f a) (g a)) : Sub (x >>= f) (y >>= g) := by
  intro σ
  show Ev.bind x f σ = .more ∨ Ev.bind x f σ = Ev.bind y g σ
  unfold Ev.bind
  rcases h σ with h | h
  · rw [h]; exact Or.inl (Eq.refl _)
  · rw [← h]
    cases x σ with
    | ok a s => exact k a s
    | err => exact Or.inr (Eq.refl _)
    | undef => exact Or.inr (Eq.refl _)
    | more => exact Or.inl (Eq.refl _)

theorem Sub.ite {α : Type} {c : Prop} [Decidable c] {x x' y y' : Ev α} (h : Sub x x') (k : Sub y y') : Sub (if c then x else y) (if c then x' else y') := by
  split
  · exact h
  · exact k

section
variable {size : Nat → Nat} {call call' : Nat → List Cell → Ev Cell} (hc : ∀ f vs, Sub (call f vs) (call' f vs))
include hc

mutual
theorem eval_sub : ∀ e : Expr, Sub (eval size call e) (eval size call' e)
  | .num v => by simp only [eval]; exact Sub.rfl
  | .get l => by simp only [eval]; exact (place_sub l).bind fun _ => Sub.rfl
  | .un op e => by simp only [eval]; exact (eval_sub e).bind fun _ => Sub.rfl
  | .bin op a b => by simp only [eval]; exact (eval_sub a).bind fun _ => (eval_sub b).bind fun _ => Sub.rfl
  | .assign none l e => by simp only [eval]; exact (place_sub l).bind fun _ => (eval_sub e).bind fun _ => Sub.rfl
  | .assign (some op) l e => by
    simp only [eval]
    exact (place_sub l).bind fun _ => Sub.rfl.bind fun _ => (eval_sub e).bind fun _ => Sub.rfl
  | .incdec inc pre l => by simp only [eval]; exact (place_sub l).bind fun _ => Sub.rfl
  | .logic isOr a b => by
    simp only [eval]
    exact (eval_sub a).bind fun _ => Sub.ite Sub.rfl ((eval_sub b).bind fun _ => Sub.rfl)
  | .chain first op e rest => by
    simp only [eval]
    exact (eval_sub first).bind fun _ => (eval_sub e).bind fun y => (evalRest_sub rest y).bind fun _ => Sub.rfl
  | .tern c a b => by simp only [eval]; exact (eval_sub c).bind fun _ => Sub.ite (eval_sub a) (eval_sub b)
  | .comma a b => by simp only [eval]; exact (eval_sub a).bind fun _ => eval_sub b
  | .call f args => by simp only [eval]; exact (evalArgs_sub args).bind fun vs => hc f vs

theorem place_sub : ∀ l : LVal, Sub (place size call l) (place size call' l)
  | .var v => by simp only [place]; exact Sub.rfl
  | .elem x i => by simp only [place]; exact (eval_sub i).bind fun _ => Sub.rfl

theorem evalRest_sub : ∀ (rest : Rest) (x : Cell), Sub (evalRest size call x rest) (evalRest size call' x rest)
  | .one op e, x => by simp only [evalRest]; exact (eval_sub e).bind fun _ => Sub.rfl
  | .cons op e rest, x => by
    simp only [evalRest]
    exact (eval_sub e).bind fun y => (evalRest_sub rest y).bind fun _ => Sub.rfl

theorem evalArgs_sub : ∀ args : Args, Sub (evalArgs size call args) (evalArgs size call' args)
  | .nil => by simp only [evalArgs]; exact Sub.rfl
  | .cons e rest => by simp only [evalArgs]; exact (evalArgs_sub rest).bind fun _ => (eval_sub e).bind fun _ => Sub.rfl
end

theorem evalOpt_sub (d : Cell) : ∀ e : Option Expr, Sub (evalOpt size call d e) (evalOpt size call' d e)
  | none => Sub.rfl
  | some e => eval_sub hc e
end

theorem iterate_sub {x y : Ev (Option Sig)} (h : Sub x y) : ∀ {n n' : Nat}, n ≤ n' → Sub (iterate x n) (iterate y n')
  | 0, _, _ => fun _ => Or.inl (Eq.refl _)
  | n+1, 0, hn => by omega
  | n+1, n'+1, hn => by
    show Sub (x >>= _) (y >>= _)
    refine h.bind fun r => ?_
    cases r with
    | none => exact iterate_sub h (by omega)
    | some r => exact Sub.rfl

theorem Sig.andThen_sub {x y : Ev Sig} (h : Sub x y) (r : Sig) : Sub (r.andThen x) (r.andThen y) := by
  cases r with
  | next => exact h
  | brk => exact Sub.rfl
  | cont => exact Sub.rfl
  | ret v => exact Sub.rfl

theorem unlessDone_sub {x y : Ev (Option Sig)} (h : Sub x y) (r : Option Sig) : Sub (unlessDone x r) (unlessDone y r) := by
  cases r with
  | none => exact h
  | some r => exact Sub.rfl

section
variable {size : Nat → Nat} {call call' : Nat → List Cell → Ev Cell} (hc : ∀ f vs, Sub (call f vs) (call' f vs)) {n n' : Nat} (hn : n ≤ n')
include hc hn

mutual
theorem exec_sub : ∀ s : Stmt, Sub (exec size call n s) (exec size call' n' s)
  | .expr e => by simp only [exec]; exact (eval_sub hc e).bind fun _ => Sub.rfl
  | .decl slot init => by simp only [exec]; exact (evalOpt_sub hc 0 init).bind fun _ => Sub.rfl
  | .block ss => by simp only [exec]; exact execAll_sub ss
  | .ifThen c a => by simp only [exec]; exact (eval_sub hc c).bind fun _ => Sub.ite (exec_sub a) Sub.rfl
  | .ifElse c a b => by simp only [exec]; exact (eval_sub hc c).bind fun _ => Sub.ite (exec_sub a) (exec_sub b)
  | .while c body => by
    simp only [exec]
    exact iterate_sub ((eval_sub hc c).bind fun _ => Sub.ite ((exec_sub body).bind fun _ => Sub.rfl) Sub.rfl) hn
  | .doWhile body c => by
    simp only [exec]
    exact iterate_sub ((exec_sub body).bind fun r => unlessDone_sub ((eval_sub hc c).bind fun _ => Sub.rfl) _) hn
  | .for init c step body => by
    simp only [exec]
    refine (execAll_sub init).bind fun r => Sig.andThen_sub (iterate_sub ?_ hn) r
    exact (evalOpt_sub hc 1 c).bind fun _ => Sub.ite ((exec_sub body).bind fun r => unlessDone_sub ((evalOpt_sub hc 0 step).bind fun _ => Sub.rfl) _) Sub.rfl
  | .switch e cases => by simp only [exec]; exact (eval_sub hc e).bind fun x => execCases_sub x cases
  | .brk => by simp only [exec]; exact Sub.rfl
  | .cont => by simp only [exec]; exact Sub.rfl
  | .ret e => by simp only [exec]; exact (evalOpt_sub hc 0 e).bind fun _ => Sub.rfl
  | .assert c => by simp only [exec]; exact (eval_sub hc c).bind fun _ => Sub.rfl
  | .exit e => by simp only [exec]; exact (evalOpt_sub hc 0 e).bind fun _ => Sub.rfl

theorem execAll_sub : ∀ ss : Stmts, Sub (execAll size call n ss) (execAll size call' n' ss)
  | .nil => by simp only [execAll]; exact Sub.rfl
  | .cons s rest => by simp only [execAll]; exact (exec_sub s).bind fun r => Sig.andThen_sub (execAll_sub rest) r

theorem execCases_sub (x : Cell) : ∀ cs : Cases, Sub (execCases size call n x cs) (execCases size call' n' x cs)
  | .nil => by simp only [execCases]; exact Sub.rfl
  | .dflt s => by simp only [execCases]; exact exec_sub s
  | .case labels s rest => by simp only [execCases]; exact Sub.ite (exec_sub s) (execCases_sub x rest)
end
end

theorem callFn_sub {size : Nat → Nat} {prog : Nat → Option Func} : ∀ {n n' : Nat}, n ≤ n' → ∀ f vs, Sub (callFn size prog n f vs) (callFn size prog n' f vs)
  | 0, _, _, _, _ => fun _ => Or.inl rfl
  | n+1, 0, hn, _, _ => by omega
  | n+1, n'+1, hn, f, vs => by
    intro σ
    unfold callFn
    cases prog f with
    | none => exact Or.inr rfl
    | some F =>
      simp only
      split
      · exact Or.inr rfl
      · rcases exec_sub (callFn_sub (size := size) (prog := prog) (show n ≤ n' by omega)) (show n ≤ n' by omega) F.body ⟨σ.g, argLocals vs⟩ with h | h
        · rw [h]; exact Or.inl rfl
        · rw [h]; exact Or.inr rfl

end Verif.Lang

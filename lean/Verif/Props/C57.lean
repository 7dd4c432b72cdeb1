import Verif.Proofs.GenProg
import Verif.Proofs.LangMono
import Verif.Model.Invoke

/-! # C57: compiled programs do what the source says

`callFn L.size prog n f vs σ` is what the source says about calling function `f` of the program with arguments `vs` when the globals
are `σ.g`, with a bound `n` on the depth of calls and the number of iterations of each loop; by `C57_bound_irrelevant` the bound only
decides whether there is a result. -/
namespace Verif.C57
open Verif.VM Verif.Lang Verif.CodeGen Verif.Compiled

section
variable {E : Env} {L : Layout} {lim : Int} {prog : Nat → Option Func} {n f : Nat} {F : Func} {vs : List Cell} {s : IState} {σ σ' : Store}
  {v : Cell} {er : Err}

/-- What the machine does with a function, for every bound. -/
theorem fn_runs (hP : Loaded E L lim prog) (hf : prog f = some F) (hF : Fits E L lim s.vm) (hl : vs.length = F.params) (hv : Passed vs s.vm)
    (hG : Globals L σ.g s.vm.mem) (n : Nat) : FnRuns E L lim (L.entry f) n vs s (callFn L.size prog (n + 1) f vs σ) :=
  fn_ok hP hf (Nat.le_refl n) hF hl hv hG
    (calls_ok n (L := fnLayout L F) ⟨hP.accepted, hP.code, hP.arity, hP.offsets, hP.valid, hP.slots, hP.room⟩ (entered_fits hF) (entered_activation hP hf hl hv))

/-- A function called with its arguments on the stack.  If the source returns a value, the machine returns that value; the arguments
have been removed, registers are as before, memory holds the globals as the source leaves them, and other memory differs at most in
free space.  Unless the stack is exhausted or the watchdog stops the plugin. -/
theorem C57_returns (hP : Loaded E L lim prog) (hf : prog f = some F) (hF : Fits E L lim s.vm) (hl : vs.length = F.params) (hv : Passed vs s.vm)
    (hG : Globals L σ.g s.vm.mem) (hx : callFn L.size prog n f vs σ = .ok v σ') :
    (∃ k s', run E k (L.entry f) s = some (.ok s' v) ∧ Returned L vs s.vm s'.vm ∧ Globals L σ'.g s'.vm.mem) ∨
    ExhaustedRun E lim (L.entry f) s := by
  cases n with
  | zero => cases hx
  | succ n =>
    have h := fn_runs hP hf hF hl hv hG n
    rw [hx] at h
    exact h

/-- If the source ends in an error, the machine stops with that error, and the globals are as the source left them. -/
theorem C57_error (hP : Loaded E L lim prog) (hf : prog f = some F) (hF : Fits E L lim s.vm) (hl : vs.length = F.params) (hv : Passed vs s.vm)
    (hG : Globals L σ.g s.vm.mem) (hx : callFn L.size prog n f vs σ = .err σ' er) :
    (∃ k s', run E k (L.entry f) s = some (.fail s' er) ∧ Globals L σ'.g s'.vm.mem) ∨ ExhaustedRun E lim (L.entry f) s := by
  cases n with
  | zero => cases hx
  | succ n =>
    have h := fn_runs hP hf hF hl hv hG n
    rw [hx] at h
    exact h

/-- If the source never ends, the machine never stops. -/
theorem C57_runs_forever (hP : Loaded E L lim prog) (hf : prog f = some F) (hF : Fits E L lim s.vm) (hl : vs.length = F.params) (hv : Passed vs s.vm)
    (hG : Globals L σ.g s.vm.mem) (hx : ∀ n, callFn L.size prog n f vs σ = .more) :
    (∀ k, run E k (L.entry f) s = none) ∨ ExhaustedRun E lim (L.entry f) s := by
  by_cases hex : ExhaustedRun E lim (L.entry f) s
  · exact Or.inr hex
  · refine Or.inl fun k => ?_
    have h := fn_runs hP hf hF hl hv hG k
    rw [hx] at h
    rcases h with h | h
    · exact h
    · exact absurd h hex

/-- The machine has at most one result: the number of steps it is given only decides whether it is reached. -/
theorem C57_one_result {t k k' : Nat} {r r' : Res IState Cell} (h : run E k t s = some r) (h' : run E k' t s = some r') : r = r' := by
  have h1 := run_mono h (Nat.le_max_left k k')
  rw [run_mono h' (Nat.le_max_right k k')] at h1
  cases h1
  rfl

/-- The result in the source with one bound, if there is one, is the result with any larger bound. -/
theorem C57_bound_irrelevant {size : Nat → Nat} {n' : Nat} (h : callFn size prog n f vs σ ≠ .more) (hn : n ≤ n') :
    callFn size prog n' f vs σ = callFn size prog n f vs σ := by
  rcases callFn_sub (size := size) (prog := prog) hn f vs σ with h' | h'
  · exact absurd h' h
  · exact h'.symm

/-! ### Calls from the host -/

/-- What the host runs for a public function is the machine. -/
def Implements (E : Env) (t : Nat) (body : VMM Cell) : Prop := ∀ v, ∃ polls, ∀ k r, run E k t ⟨v, 0, 0, polls⟩ = some r →
  body v = match r with
    | .ok s x => .ok s.vm x
    | .fail s e => .fail s.vm e
    | .ub => .ub

theorem storeParams_far : ∀ {ps : List Cell} {m : Int → BitVec 8} {a x : Int}, (x < a ∨ a + 4 * (ps.length : Int) ≤ x) → storeParams m a ps x = m x
  | [], _, _, _, _ => rfl
  | p :: ps, m, a, x, h => by
    rw [List.length_cons] at h
    unfold storeParams
    rw [storeParams_far (by omega), wr32_far (by omega)]

theorem storeParams_get : ∀ {ps : List Cell} {m : Int → BitVec 8} {a : Int} (i : Nat) (h : i < ps.length), rd32 (storeParams m a ps) (a + 4 * (i : Int)) = ps[i]
  | [], _, _, _, h => by simp at h
  | p :: ps, m, a, 0, _ => by
    unfold storeParams
    rw [rd32_congr (m' := storeParams (wr32 m a p) (a + 4) ps) (m := wr32 m a p) fun x h1 h2 => storeParams_far (by omega)]
    rw [show a + 4 * ((0 : Nat) : Int) = a by omega, rd32_wr32_same]
    rfl
  | p :: ps, m, a, i+1, h => by
    unfold storeParams
    have := storeParams_get (ps := ps) (m := wr32 m a p) (a := a + 4) i (by simpa using h)
    rw [show a + 4 * ((i + 1 : Nat) : Int) = a + 4 + 4 * (i : Int) by omega, this]
    rfl

/-- A call from the host pushes the arguments and runs the machine, unless the stack is low. -/
theorem host_run {env : InvokeEnv} {fnid t : Nat} {body : VMM Cell} {w : State} (hi : env.interruptOk = true) (hpaused : env.paused = false)
    (hpub : env.publics (fnid / 2) = some (some body)) (hb : Implements E t body) (hF : Fits E L lim w)
    (hsp : w.hp ≤ w.sp) (hstp : w.sp ≤ w.stp) (hfrm : 0 ≤ w.frm ∧ w.frm ≤ 2147483000) (hsmall : vs.length < 536870912)
    {g : Nat → Nat → Cell} (hG : Globals L g w.mem) :
    invoke env fnid vs w = .fail w .stackLow ∨
    ∃ m polls, let w1 : State := { w with mem := m, sp := w.sp - 4 * ((vs.length : Int) + 1) }
      Passed vs w1 ∧ Fits E L lim w1 ∧ Globals L g m ∧ (∀ a, (a < w.hp ∨ w.sp ≤ a) → m a = w.mem a) ∧
      ∀ k r, run E k t ⟨w1, 0, 0, polls⟩ = some r → invoke env fnid vs w = match r with
        | .ok s r => .ok (restoreRegs w s.vm) r
        | .fail s e => .fail (restoreRegs w s.vm) e
        | .ub => .ub := by
  have hd := hF.data
  have hh := hF.heap
  have hm := hF.mem
  have hbig := hF.big
  have e1 : wrap32 (w.hp + stackMargin) = w.hp + 64 := by unfold stackMargin; exact wrap32_id (by omega) (by omega)
  have e2 : wrap32 (w.sp - 4 * ((vs.length : Int) + 1)) = w.sp - 4 * ((vs.length : Int) + 1) := wrap32_id (by omega) (by omega)
  by_cases hlow : w.hp + 64 > w.sp - 4 * ((vs.length : Int) + 1)
  · left
    unfold invoke
    rw [hi, hpub, hpaused]
    simp only [Bool.not_true, Bool.false_eq_true, if_false]
    rw [e1, e2, if_pos hlow]
  right
  let m := storeParams (wr32 w.mem (w.sp - 4 * ((vs.length : Int) + 1)) (BitVec.ofInt 32 vs.length)) (w.sp - 4 * ((vs.length : Int) + 1) + 4) vs
  have hfar : ∀ a, (a < w.hp ∨ w.sp ≤ a) → m a = w.mem a := fun a ha => by
    show storeParams _ _ _ _ = _
    rw [storeParams_far (by omega), wr32_far (by omega)]
  obtain ⟨polls, hb⟩ := hb { w with mem := m, sp := w.sp - 4 * ((vs.length : Int) + 1) }
  refine ⟨m, polls, ⟨?_, fun i h => storeParams_get i h, ?_, ?_, hfrm⟩, ⟨hF.code, hF.typed, hF.data, hF.heap, hF.mem, hF.big, hF.globals, hF.disjoint, hF.scope, hF.lim⟩,
    ?_, hfar, ?_⟩
  · show rd32 m (w.sp - 4 * ((vs.length : Int) + 1)) = _
    rw [show rd32 m (w.sp - 4 * ((vs.length : Int) + 1)) = rd32 (wr32 w.mem (w.sp - 4 * ((vs.length : Int) + 1)) (BitVec.ofInt 32 vs.length)) (w.sp - 4 * ((vs.length : Int) + 1)) from
      rd32_congr fun x h1 h2 => storeParams_far (by omega), rd32_wr32_same]
    exact BitVec.ofInt_natCast _ _
  · show w.hp ≤ w.sp - _; omega
  · show w.sp - _ + _ + _ ≤ w.stp; omega
  · intro x i h
    rw [← hG x i h]
    have := hF.globals x i h
    exact rd32_congr fun a h1 h2 => hfar a (by omega)
  · intro k r hk
    have hinv : invoke env fnid vs w = match body { w with mem := m, sp := w.sp - 4 * ((vs.length : Int) + 1) } with
        | .ok t r => .ok (restoreRegs w t) r
        | .fail t e => .fail (restoreRegs w t) e
        | .ub => .ub := by
      unfold invoke
      rw [hi, hpub, hpaused]
      simp only [Bool.not_true, Bool.false_eq_true, if_false]
      rw [e1, e2, if_neg hlow, if_neg (by unfold State.inMem; omega)]
      rfl
    rw [hinv, hb k r hk]
    cases r <;> rfl

/-- The errors that mean lack of stack or time. -/
theorem outOf_kind {s' : IState} {e : Err} (h : OutOf E lim s' e) : e = .stackLow ∨ e = .heapLow ∨ e = .timeout := by
  cases e with
  | stackLow => exact Or.inl rfl
  | heapLow => exact Or.inr (Or.inl rfl)
  | timeout => exact Or.inr (Or.inr rfl)
  | _ => exact h.elim

/-- The host calls a public function that returns a value in the source: it gets that value, the globals are as the source leaves
them, the stack and heap are as before, and memory outside the globals and the free space is untouched; or the call fails for lack of
stack or time. -/
theorem C57_host_call {env : InvokeEnv} {fnid : Nat} {body : VMM Cell} {w : State} (hi : env.interruptOk = true) (hpaused : env.paused = false)
    (hpub : env.publics (fnid / 2) = some (some body)) (hb : Implements E (L.entry f) body)
    (hP : Loaded E L lim prog) (hf : prog f = some F) (hF : Fits E L lim w) (hl : vs.length = F.params)
    (hsp : w.hp ≤ w.sp) (hstp : w.sp ≤ w.stp) (hfrm : 0 ≤ w.frm ∧ w.frm ≤ 2147483000) (hsmall : vs.length < 536870912)
    (hG : Globals L σ.g w.mem) (hx : callFn L.size prog n f vs σ = .ok v σ') :
    (∃ w', invoke env fnid vs w = .ok w' v ∧ w' = { w with mem := w'.mem } ∧ Globals L σ'.g w'.mem ∧
      ∀ a, (a < w.hp ∨ w.sp ≤ a) → ¬ OwnG L a → w'.mem a = w.mem a) ∨
    ∃ w' e, invoke env fnid vs w = .fail w' e ∧ (e = .stackLow ∨ e = .heapLow ∨ e = .timeout) := by
  rcases host_run hi hpaused hpub hb hF hsp hstp hfrm hsmall hG with h | ⟨m, polls, hpassed, hfits, hglob, hfar, hinv⟩
  · exact Or.inr ⟨w, _, h, Or.inl rfl⟩
  rcases C57_returns (s := ⟨_, 0, 0, polls⟩) hP hf hfits hl hpassed hglob hx with ⟨k, s', hk, hret, hg⟩ | ⟨k, s', e, hk, ho⟩
  · left
    refine ⟨restoreRegs w s'.vm, hinv k _ hk, ?_, hg, ?_⟩
    · have h := hret.vm
      generalize s'.vm = u at h ⊢
      rw [h]
      rfl
    · intro a ha hng
      show s'.vm.mem a = w.mem a
      rw [hret.keeps a (by show a < w.hp ∨ w.sp - 4 * ((vs.length : Int) + 1) + 4 + 4 * (vs.length : Int) ≤ a; omega) hng]
      exact hfar a ha
  · exact Or.inr ⟨restoreRegs w s'.vm, e, hinv k _ hk, outOf_kind ho⟩

/-- The host calls a public function that ends in an error in the source: the call fails with that error, or for lack of stack or
time; the stack and heap are as before. -/
theorem C57_host_error {env : InvokeEnv} {fnid : Nat} {body : VMM Cell} {w : State} (hi : env.interruptOk = true) (hpaused : env.paused = false)
    (hpub : env.publics (fnid / 2) = some (some body)) (hb : Implements E (L.entry f) body)
    (hP : Loaded E L lim prog) (hf : prog f = some F) (hF : Fits E L lim w) (hl : vs.length = F.params)
    (hsp : w.hp ≤ w.sp) (hstp : w.sp ≤ w.stp) (hfrm : 0 ≤ w.frm ∧ w.frm ≤ 2147483000) (hsmall : vs.length < 536870912)
    (hG : Globals L σ.g w.mem) (hx : callFn L.size prog n f vs σ = .err σ' er) :
    ∃ w' e, invoke env fnid vs w = .fail w' e ∧ (w'.sp = w.sp ∧ w'.hp = w.hp ∧ w'.frm = w.frm ∧ w'.hpScope = w.hpScope) ∧
      ((e = er ∧ Globals L σ'.g w'.mem) ∨ e = .stackLow ∨ e = .heapLow ∨ e = .timeout) := by
  rcases host_run hi hpaused hpub hb hF hsp hstp hfrm hsmall hG with h | ⟨m, polls, hpassed, hfits, hglob, hfar, hinv⟩
  · exact ⟨w, _, h, ⟨rfl, rfl, rfl, rfl⟩, Or.inr (Or.inl rfl)⟩
  rcases C57_error (s := ⟨_, 0, 0, polls⟩) hP hf hfits hl hpassed hglob hx with ⟨k, s', hk, hg⟩ | ⟨k, s', e, hk, ho⟩
  · exact ⟨restoreRegs w s'.vm, er, hinv k _ hk, ⟨rfl, rfl, rfl, rfl⟩, Or.inl ⟨rfl, hg⟩⟩
  · exact ⟨restoreRegs w s'.vm, e, hinv k _ hk, ⟨rfl, rfl, rfl, rfl⟩, Or.inr (outOf_kind ho)⟩

end

/-! ### Example -/

abbrev v0 : Expr := .get (.var (.loc 0))
abbrev v1 : Expr := .get (.var (.loc 1))
abbrev arg : Expr := .get (.var (.loc (-1)))

/-- `int fact(int n) { if (n <= 1) return 1; return n * fact(n - 1); }` -/
def fact : Func :=
  { params := 1, slots := 0,
    body := .block <| .cons (.ifThen (.bin .le arg (.num 1)) (.ret (some (.num 1)))) <|
      .cons (.ret (some (.bin .mul arg (.call 0 (.cons (.bin .sub arg (.num 1)) .nil))))) .nil }

/-- `int sum(int n) { int s = 0; for (int i = 1; i <= n; i++) { if (i == 2) continue; s += fact(i); } g = 100 / s; return s; }` -/
def sum : Func :=
  { params := 1, slots := 2,
    body := .block <| .cons (.decl 0 (some (.num 0))) <|
      .cons (.for (.cons (.decl 1 (some (.num 1))) .nil) (some (.bin .le v1 arg)) (some (.incdec true false (.var (.loc 1))))
        (.block <| .cons (.ifThen (.bin .eq v1 (.num 2)) .cont) <|
          .cons (.expr (.assign (some .add) (.var (.loc 0)) (.call 0 (.cons v1 .nil)))) .nil)) <|
      .cons (.expr (.assign none (.var (.glob 0)) (.bin .div (.num 100) v0))) <|
      .cons (.ret (some v0)) .nil }

def exProg : Nat → Option Func
  | 0 => some fact
  | 1 => some sum
  | _ => none

/-- `fact` is at 0, `sum` behind it; `g` at address 0. -/
def exLayout : Layout :=
  { gaddr := fun _ => 0, size := fun x => if x = 0 then 1 else 0, entry := fun f => if f = 0 then 0 else 35, arity := fun _ => 1,
    params := 0, slots := 0 }

def exEnv : Env :=
  { code := emitFn exLayout fact 0 ++ emitFn exLayout sum 35 ++ [0], floats := ⟨fun _ => false, fun _ => 0, fun _ _ _ => 0, fun _ _ _ => false, fun _ => 0⟩,
    natives := fun _ => none, legacyStack := false, localOffsets := fun t => if t = 0 then [] else [-4, -8], validate := fun _ => none,
    watchdog := fun _ => true }

theorem exCode0 : At exEnv.code 0 (emitFn exLayout fact 0) := by unfold At; decide +kernel
theorem exCode1 : At exEnv.code 35 (emitFn exLayout sum 35) := by unfold At; decide +kernel

theorem exLoaded : Loaded exEnv exLayout 72 exProg := by
  have key : ∀ {P : Nat → Func → Prop}, P 0 fact → P 1 sum → ∀ f F, exProg f = some F → P f F := by
    intro P h0 h1 f F h
    match f with
    | 0 => cases h; exact h0
    | 1 => cases h; exact h1
    | k+2 => cases h
  exact ⟨key (P := fun _ F => badFn exLayout F = false) (by decide +kernel) (by decide +kernel),
    key (P := fun f F => At exEnv.code (exLayout.entry f) (emitFn exLayout F (exLayout.entry f))) exCode0 exCode1,
    key (P := fun f F => exLayout.arity f = F.params) rfl rfl,
    key (P := fun f F => exEnv.localOffsets (exLayout.entry f) = (List.range F.slots).map fun (i : Nat) => -4 * ((i : Int) + 1)) rfl rfl,
    key (P := fun f F => exEnv.validate (exLayout.entry f) = none) rfl rfl,
    key (P := fun _ F => F.slots ≤ 536870912) (by decide) (by decide),
    key (P := fun _ F => 64 + 4 * (F.slots : Int) ≤ 72) (by decide) (by decide)⟩

/-- Called with argument 4. -/
def exState : State :=
  { mem := wr32 (wr32 (fun _ => 0) 380 4) 376 1, memSize := 1000, dataSize := 4, stp := 400, hp := 4, sp := 376, frm := 384, hpScope := -1,
    directArrays := true, usesHeapScopes := true }

theorem exFits : Fits exEnv exLayout 72 exState := by
  refine ⟨by decide +kernel, rfl, by decide, by decide, by decide, by decide, ?_, ?_, by decide, by decide⟩
  · intro x i hi
    simp only [exLayout, exState] at hi ⊢
    split at hi <;> omega
  · intro x y i j hi hj hne
    simp only [exLayout] at hi hj ⊢
    split at hi <;> split at hj <;> omega

theorem exPassed : Passed [4] exState := by
  refine ⟨by decide +kernel, ?_, by decide, by decide, by decide⟩
  intro i h
  have : i = 0 := by simp at h; omega
  subst this
  show rd32 exState.mem 380 = 4
  decide +kernel

theorem exGlobals : Globals exLayout (fun _ _ => 0) exState.mem := by
  intro x i hi
  simp only [exLayout] at hi
  split at hi
  · have : i = 0 := by omega
    subst this
    show rd32 exState.mem (0 + 4 * (0 : Int)) = 0
    decide +kernel
  · omega

/-- `sum(4)` is 1! + 3! + 4! = 31, and `g` becomes 100 / 31 = 3. -/
theorem exSource : ∃ σ', callFn exLayout.size exProg 10 1 [4] ⟨fun _ _ => 0, fun _ => none⟩ = .ok 31 σ' ∧ σ'.g 0 0 = 3 := ⟨_, rfl, by decide +kernel⟩

/-- The theorem applies. -/
example : (∃ k s', run exEnv k 35 ⟨exState, 0, 0, 0⟩ = some (.ok s' 31) ∧ rd32 s'.vm.mem 0 = 3) ∨ ExhaustedRun exEnv 72 35 ⟨exState, 0, 0, 0⟩ := by
  obtain ⟨σ', h, hg⟩ := exSource
  rcases C57_returns (s := ⟨exState, 0, 0, 0⟩) (f := 1) exLoaded rfl exFits rfl exPassed exGlobals h with ⟨k, s', h1, _, h2⟩ | h
  · exact Or.inl ⟨k, s', h1, by rw [← hg]; exact h2 0 0 (by decide)⟩
  · exact Or.inr h

/-- The machine indeed ends so, without running out of stack. -/
example : (match run exEnv 1000 35 ⟨exState, 0, 0, 0⟩ with
    | some (.ok s' v) => decide (v = 31 ∧ rd32 s'.vm.mem 0 = 3 ∧ s'.vm.sp = 384)
    | _ => false) = true := by decide +kernel

/-- `sum(0)` divides by zero. -/
example : ∃ σ', callFn exLayout.size exProg 10 1 [0] ⟨fun _ _ => 7, fun _ => none⟩ = .err σ' .divideByZero ∧ σ'.g 0 0 = 7 := ⟨_, rfl, rfl⟩

end Verif.C57

import Verif.Proofs.GenTypedStmt
import Verif.Proofs.VerifyFuel
import Verif.Props.C57

/-! # C60: the verifier accepts what the compiler emits

The virtual machine refuses to run a function that its verifier rejects, so a compiled function is of use only if the verifier accepts it.
It does, for every function of the modelled language that uses neither `assert` nor `exit` and in which no `while` or `do` loop has a
constant, non-zero condition.  It does not for the others: see the witnesses below. -/
namespace Verif.C60
open Verif.VM Verif.Lang Verif.CodeGen Verif.Compiled

section
variable {C : Verifier.Ctx} {L : Layout} {F : Func} {start fuel : Nat}

/-- The code of an accepted function, wherever it is in the plugin, passes the verifier.  The functions it calls have to be there (46 is
OP_PROC), and the plugin's metadata has to be right.  Missing for C60: functions with `assert` or `exit` and with endless loops, which the
verifier rejects; language constructs that are not modelled. -/
theorem C60_accepted_partial (hat : At C.code start (emitFn L F start)) (hok : badFn L F = false) (hS : Suits C { L with params := F.params, slots := F.slots })
    (hcalls : ∀ g ∈ callsS F.body, C.code[L.entry g]? = some 46) (hhalt : haltFree F.body = true)
    (htest : tested { L with params := F.params, slots := F.slots } F.body = true) (hfuel : C.code.length + 2 ≤ fuel) :
    ∃ V, Verifier.verify C start fuel = .ok V :=
  emitFn_accepted hS hok hhalt hcalls (genS_returns F.body htest) hat hfuel

end

/-! ### Whole programs -/

/-- The functions of the program have been compiled and are in the code of the plugin, the plugin's metadata is right, and a function is
run if the verifier accepts it.  `Verifier.Ctx` is what the verifier sees when it looks at the function at that position. -/
structure Shipped (E : Env) (L : Layout) (lim : Int) (prog : Nat → Option Func) (C : Nat → Verifier.Ctx) : Prop where
  accepted : ∀ f F, prog f = some F → badFn L F = false
  code : ∀ f F, prog f = some F → At E.code (L.entry f) (emitFn L F (L.entry f))
  arity : ∀ f F, prog f = some F → L.arity f = F.params
  offsets : ∀ f F, prog f = some F → E.localOffsets (L.entry f) = (List.range F.slots).map fun (i : Nat) => -4 * ((i : Int) + 1)
  room : ∀ f F, prog f = some F → 64 + 4 * (F.slots : Int) ≤ lim
  closed : ∀ f F, prog f = some F → ∀ g ∈ callsS F.body, ∃ G, prog g = some G
  halts : ∀ f F, prog f = some F → haltFree F.body = true
  tested : ∀ f F, prog f = some F → tested { L with params := F.params, slots := F.slots } F.body = true
  suits : ∀ f F, prog f = some F → Suits (C (L.entry f)) { L with params := F.params, slots := F.slots }
  sees : ∀ t, (C t).code = E.code
  verifies : ∀ t fuel V, Verifier.verify (C t) t fuel = .ok V → E.validate t = none

section
variable {E : Env} {L : Layout} {lim : Int} {prog : Nat → Option Func} {C : Nat → Verifier.Ctx}

/-- Every function of the program is accepted when the machine asks the verifier: the assumption of C57 about the verifier holds. -/
theorem C60_program_partial (hP : Shipped E L lim prog C) : Loaded E L lim prog := by
  refine ⟨hP.accepted, hP.code, hP.arity, hP.offsets, ?_, ?_, hP.room⟩
  · intro f F hf
    have hcode := hP.code f F hf
    obtain ⟨V, hV⟩ := C60_accepted_partial (C := C (L.entry f)) (by rw [hP.sees]; exact hcode) (hP.accepted f F hf) (hP.suits f F hf) (by
      intro g hg
      obtain ⟨G, hG⟩ := hP.closed f F hf g hg
      rw [hP.sees]
      have h : At E.code (L.entry g) ([46] ++ _) := hP.code g G hG
      exact h.left.head) (hP.halts f F hf) (hP.tested f F hf) (Nat.le_refl _)
    exact hP.verifies _ _ _ hV
  · intro f F hf
    have := (hP.suits f F hf).small
    simp only at this
    omega

/-- So a function that returns in the source returns that value on the machine, which verifies every function before it runs it. -/
theorem C60_returns_partial {n f : Nat} {F : Func} {vs : List Cell} {s : IState} {σ σ' : Store} {v : Cell} (hP : Shipped E L lim prog C) (hf : prog f = some F)
    (hF : Fits E L lim s.vm) (hl : vs.length = F.params) (hv : Passed vs s.vm) (hG : Globals L σ.g s.vm.mem) (hx : callFn L.size prog n f vs σ = .ok v σ') :
    E.validate (L.entry f) = none ∧
    ((∃ k s', run E k (L.entry f) s = some (.ok s' v) ∧ Returned L vs s.vm s'.vm ∧ Globals L σ'.g s'.vm.mem) ∨ ExhaustedRun E lim (L.entry f) s) :=
  ⟨(C60_program_partial hP).valid f F hf, C57.C57_returns (C60_program_partial hP) hf hF hl hv hG hx⟩

end

/-! ### Functions the verifier rejects -/

/-- A layout with one global, `g`, and the witness as only function. -/
def L0 : Layout := { gaddr := fun _ => 0, size := fun x => if x = 0 then 1 else 0, entry := fun _ => 1, arity := fun _ => 0, params := 0, slots := 0 }

/-- `g`. -/
def g : Expr := .get (.var (.glob 0))

/-- A plugin whose only function starts at position 1. -/
def only (s : Stmt) : Verifier.Ctx := ⟨0 :: emitFn L0 ⟨0, 0, s⟩ 1 ++ [0], true, true, true, 1000, 4, 0, 0, []⟩

/-- The plugin is as `C60_accepted_partial` wants it. -/
structure Proper (s : Stmt) : Prop where
  code : At (only s).code 1 (emitFn L0 ⟨0, 0, s⟩ 1)
  ok : badFn L0 ⟨0, 0, s⟩ = false
  suits : Suits (only s) L0
  calls : ∀ g ∈ callsS s, (only s).code[L0.entry g]? = some 46

theorem proper {s : Stmt} (hb : badFn L0 ⟨0, 0, s⟩ = false) (hl : (emitFn L0 ⟨0, 0, s⟩ 1).length < 1000) : Proper s := by
  have hcode : (only s).code = 0 :: (emitFn L0 ⟨0, 0, s⟩ 1 ++ [0]) := rfl
  have hat : At (only s).code 1 (emitFn L0 ⟨0, 0, s⟩ 1) := by
    rw [hcode]
    refine ⟨fun k hk => ?_, ?_⟩
    · rw [Nat.add_comm, List.getElem?_cons_succ, List.getElem?_append_left hk]
    · simp only [List.length_cons, List.length_append, List.length_nil]; omega
  refine ⟨hat, hb, ⟨?_, rfl, rfl, rfl, by decide, by decide, (show (4 : Nat) ≤ _ by decide), ?_⟩, fun g _ => ?_⟩
  · rw [hcode]
    simp only [List.length_cons, List.length_append, List.length_nil]
    omega
  · intro x i hi
    have : i < if x = 0 then 1 else 0 := hi
    have : i = 0 := by split at this <;> omega
    subst this
    exact ⟨by show (0 : Int) ≤ 0 + 4 * 0; omega, by show (0 : Int) + 4 * 0 + 4 ≤ ((4 : Nat) : Int); omega⟩
  · have h : At (only s).code 1 ([46] ++ _) := hat
    exact h.left.head

/-- The verifier rejects the function, however long it may run. -/
def Rejected (s : Stmt) : Prop := ∀ fuel ≥ (only s).code.length + 2, Verifier.verify (only s) 1 fuel = .rejected

/-- The outcome is a rejection. -/
def isRejected {α : Type} : Graph.Out α → Bool
  | .rejected => true
  | _ => false

theorem rejected {s : Stmt} (h : isRejected (Verifier.verify (only s) 1 ((only s).code.length + 2)) = true) : Rejected s := by
  intro fuel hf
  cases hv : Verifier.verify (only s) 1 ((only s).code.length + 2) with
  | rejected => rw [Verifier.verify_mono hf (by rw [hv]; nofun), hv]
  | ok _ => rw [hv] at h; cases h
  | ub => rw [hv] at h; cases h
  | fuel => rw [hv] at h; cases h

/-- `assert(g);` is compiled and then rejected: the compiler emits HALT, which the verifier never accepts. -/
theorem C60_assert_rejected : Proper (.assert g) ∧ tested L0 (.assert g) = true ∧ Rejected (.assert g) :=
  ⟨proper (by decide +kernel) (by decide +kernel), by decide +kernel, rejected (by decide +kernel)⟩

/-- `exit;` is compiled and then rejected, for the same reason. -/
theorem C60_exit_rejected : Proper (.exit none) ∧ tested L0 (.exit none) = true ∧ Rejected (.exit none) :=
  ⟨proper (by decide +kernel) (by decide +kernel), by decide +kernel, rejected (by decide +kernel)⟩

/-- `while (1) if (g) return 1;` -/
def endlessWhile : Stmt := .while (.num 1) (.ifThen g (.ret (some (.num 1))))

/-- `do if (g) return 1; while (1);` -/
def endlessDo : Stmt := .doWhile (.ifThen g (.ret (some (.num 1)))) (.num 1)

/-- `for (;;) if (g) return 1;` -/
def endlessFor : Stmt := .for .nil none none (.ifThen g (.ret (some (.num 1))))

/-- A function that ends in `while (1)` and returns inside is compiled and then rejected: no return is emitted behind the loop, but the
condition is tested, and its jump goes behind the last instruction. -/
theorem C60_endless_while_rejected : Proper endlessWhile ∧ haltFree endlessWhile = true ∧ Rejected endlessWhile :=
  ⟨proper (by decide +kernel) (by decide +kernel), by decide +kernel, rejected (by decide +kernel)⟩

/-- The same with `do`. -/
theorem C60_endless_do_rejected : Proper endlessDo ∧ haltFree endlessDo = true ∧ Rejected endlessDo :=
  ⟨proper (by decide +kernel) (by decide +kernel), by decide +kernel, rejected (by decide +kernel)⟩

/-! ### Functions the verifier accepts -/

/-- The hypotheses of `C60_accepted_partial` are met by a function with loops, a switch with a default, a recursive call and an endless
`for` loop that is left by returning. -/
def rich : Stmt :=
  .block (.cons (.while g (.block (.cons (.expr (.call 0 .nil)) (.cons (.ifThen g .brk) .nil))))
    (.cons (.doWhile (.ifElse g .cont (.expr (.assign none (.var (.glob 0)) (.tern g (.num 1) (.bin .add g (.num 2)))))) g)
    (.cons (.switch g (.case [1, 2] (.expr g) (.case [5] (.ret (some g)) (.dflt (.expr (.incdec true true (.var (.glob 0))))))))
    (.cons endlessFor .nil))))

example : ∃ V, Verifier.verify (only rich) 1 ((only rich).code.length + 2) = .ok V :=
  have h : Proper rich := proper (by decide +kernel) (by decide +kernel)
  C60_accepted_partial (L := L0) (F := ⟨0, 0, rich⟩) h.code h.ok h.suits h.calls (by decide +kernel) (by decide +kernel) (Nat.le_refl _)

open Classical in
/-- A machine with this plugin, which asks the verifier. -/
noncomputable def machine (s : Stmt) : Env :=
  { code := (only s).code, floats := ⟨fun _ => false, fun _ => 0, fun _ _ _ => 0, fun _ _ _ => false, fun _ => 0⟩, natives := fun _ => none, legacyStack := false
    localOffsets := fun _ => [], validate := fun t => if ∃ fuel V, Verifier.verify (only s) t fuel = .ok V then none else some .invalidInstruction, watchdog := fun _ => true }

/-- The program with this function. -/
def program (s : Stmt) : Nat → Option Func := fun f => if f = 0 then some ⟨0, 0, s⟩ else none

example : Shipped (machine rich) L0 72 (program rich) fun _ => only rich := by
  have h : Proper rich := proper (by decide +kernel) (by decide +kernel)
  have e : ∀ f F, program rich f = some F → F = ⟨0, 0, rich⟩ := by
    intro f F hf
    unfold program at hf
    split at hf
    · exact (Option.some.inj hf).symm
    · cases hf
  refine ⟨?_, ?_, ?_, ?_, ?_, ?_, ?_, ?_, ?_, fun _ => rfl, ?_⟩
  · intro f F hf; rw [e f F hf]; exact h.ok
  · intro f F hf; rw [e f F hf]; exact h.code
  · intro f F hf; rw [e f F hf]; rfl
  · intro f F hf; rw [e f F hf]; rfl
  · intro f F hf; rw [e f F hf]; decide
  · intro f F hf; rw [e f F hf]
    intro g hg
    have : ∀ g ∈ callsS rich, g = 0 := by decide +kernel
    rw [this g hg]
    exact ⟨_, rfl⟩
  · intro f F hf; rw [e f F hf]; decide +kernel
  · intro f F hf; rw [e f F hf]; decide +kernel
  · intro f F hf; rw [e f F hf]; exact h.suits
  · intro t fuel V hV
    exact if_pos ⟨fuel, V, hV⟩

end Verif.C60

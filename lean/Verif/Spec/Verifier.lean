import Verif.Model.Interp

/-! What running an accepted method should be like, in terms of the interpreter. -/
namespace Verif.Verifier
open Verif.VM

/-- A value of type `cell_t`. -/
def Is32 (x : Int) : Prop := -2147483648 ≤ x ∧ x < 2147483648

/-- A called function came back having removed its arguments: the count on top of the caller's stack and as many cells as it says. -/
def Returned (s s' : IState) : Prop :=
  s'.vm.sp = wrap32 (s.vm.sp + 4 * ((rd32 s.vm.mem s.vm.sp).toInt + 1))

/-- The positions and states the interpreter's main loop (`Verif.VM.loop`) goes through when it runs the method at `start` from state
`s0`, and the instructions executed so far, the last one first.  A called function may leave anything behind, but removes its arguments. -/
inductive Runs (E : Env) (start : Nat) (s0 : IState) : List Insn → Nat → IState → Prop where
  | enter : Runs E start s0 [] (start + 1) s0
  | next {tr : List Insn} {pc pc' : Nat} {s s' : IState} {i : Insn} : Runs E start s0 tr pc s → decode E.code pc = some (i, pc') →
      visit E start (pc' * 4) i s = .ok s' .next → Runs E start s0 (i :: tr) pc' s'
  | jump {tr : List Insn} {pc pc' t : Nat} {s s' : IState} {i : Insn} {o : Int} : Runs E start s0 tr pc s →
      decode E.code pc = some (i, pc') → visit E start (pc' * 4) i s = .ok s' (.goto o) → jumpIndex E o = some t →
      Runs E start s0 (i :: tr) t s'
  | back {tr : List Insn} {pc pc' : Nat} {s s' s'' : IState} {i : Insn} {o : Int} : Runs E start s0 tr pc s →
      decode E.code pc = some (i, pc') → visit E start (pc' * 4) i s = .ok s' (.call o) → Returned s' s'' →
      Runs E start s0 (i :: tr) pc' s''

/-- As `Runs`, but a called function comes back in any state. -/
inductive Traces (E : Env) (start : Nat) (s0 : IState) : List Insn → Nat → IState → Prop where
  | enter : Traces E start s0 [] (start + 1) s0
  | next {tr : List Insn} {pc pc' : Nat} {s s' : IState} {i : Insn} : Traces E start s0 tr pc s → decode E.code pc = some (i, pc') →
      visit E start (pc' * 4) i s = .ok s' .next → Traces E start s0 (i :: tr) pc' s'
  | jump {tr : List Insn} {pc pc' t : Nat} {s s' : IState} {i : Insn} {o : Int} : Traces E start s0 tr pc s →
      decode E.code pc = some (i, pc') → visit E start (pc' * 4) i s = .ok s' (.goto o) → jumpIndex E o = some t →
      Traces E start s0 (i :: tr) t s'
  | back {tr : List Insn} {pc pc' : Nat} {s s' s'' : IState} {i : Insn} {o : Int} : Traces E start s0 tr pc s →
      decode E.code pc = some (i, pc') → visit E start (pc' * 4) i s = .ok s' (.call o) → Traces E start s0 (i :: tr) pc' s''

/-- Natives that are replaced by an instruction are called with as many arguments as the instruction takes. -/
def ReplacementsFit (E : Env) : Prop :=
  ∀ pc i n pc' nat k f, decode E.code pc = some (.sysreqN i n, pc') → E.natives i.toNat = some nat → nat.bound = true →
    nat.fixed = true → nat.replacement = some (k, f) → n = k

/-- The cells an instruction takes from the stack (for a native call, the arguments; a CALL leaves that to the callee). -/
def pops : Insn → Int
  | .pop _ => 1
  | .swap _ => 1
  | .stack n => n / 4
  | .sysreqN _ n => n
  | .genarray n _ => n - 1
  | _ => 0

/-- The global addresses an instruction names. -/
def globals : Insn → List Int
  | .load _ a => [a]
  | .stor a _ => [a]
  | .incA a => [a]
  | .decA a => [a]
  | .zeroA a => [a]
  | .loadBoth a b => [a, b]
  | .constA a _ => [a]
  | .pushA vs => vs.map (·.toInt)
  | _ => []

/-- Heap scopes opened minus closed by the instructions executed. -/
def scopesOpen : List Insn → Int
  | [] => 0
  | .heapSave :: tr => scopesOpen tr + 1
  | .heapRestore :: tr => scopesOpen tr - 1
  | _ :: tr => scopesOpen tr

/-- Entries pushed minus popped on the heap tracker by the instructions executed, in code without heap scopes. -/
def tracked : List Insn → Int
  | [] => 0
  | .trackPushC _ :: tr => tracked tr + 1
  | .genarray _ _ :: tr => tracked tr + 1
  | .trackPop :: tr => tracked tr - 1
  | _ :: tr => tracked tr

end Verif.Verifier

import Verif.Spec.Compiled
import Verif.Model.StmtGen

/-!
What it means for a plugin to contain the compiled functions of a program, and for a run of a function to do what the source
says.
-/
namespace Verif.Compiled
open Verif.VM Verif.Lang Verif.CodeGen

/-- The functions of the program have been compiled and are in the code of the plugin: the compiler accepts each of them, its code
starts at its entry, the plugin's metadata gives the offsets of its local slots, and the verifier accepts it. -/
structure Loaded (E : Env) (L : Layout) (lim : Int) (prog : Nat → Option Func) : Prop where
  accepted : ∀ f F, prog f = some F → badFn L F = false
  code : ∀ f F, prog f = some F → At E.code (L.entry f) (emitFn L F (L.entry f))
  arity : ∀ f F, prog f = some F → L.arity f = F.params
  offsets : ∀ f F, prog f = some F → E.localOffsets (L.entry f) = (List.range F.slots).map fun (i : Nat) => -4 * ((i : Int) + 1)
  valid : ∀ f F, prog f = some F → E.validate (L.entry f) = none
  slots : ∀ f F, prog f = some F → F.slots ≤ 536870912
  room : ∀ f F, prog f = some F → 64 + 4 * (F.slots : Int) ≤ lim

/-- The arguments and their number have been pushed. -/
structure Passed (vs : List Cell) (v : State) : Prop where
  count : rd32 v.mem v.sp = BitVec.ofNat 32 vs.length
  args : ∀ (i : Nat) (h : i < vs.length), rd32 v.mem (v.sp + 4 + 4 * (i : Nat)) = vs[i]
  heap : v.hp ≤ v.sp
  top : v.sp + 4 + 4 * (vs.length : Int) ≤ v.stp
  frm : 0 ≤ v.frm ∧ v.frm ≤ 2147483000

/-- After the call: the arguments are gone, and everything but the memory is as before. Outside the globals, memory differs at most in the free
space between heap and stack, which now includes the arguments. -/
structure Returned (L : Layout) (vs : List Cell) (v v' : State) : Prop where
  vm : v' = { v with sp := v.sp + 4 + 4 * (vs.length : Int), mem := v'.mem }
  keeps : ∀ a, (a < v.hp ∨ v.sp + 4 + 4 * (vs.length : Int) ≤ a) → ¬ OwnG L a → v'.mem a = v.mem a

/-- The run stops because it is out of stack or time. -/
def ExhaustedRun (E : Env) (lim : Int) (t : Nat) (s : IState) : Prop :=
  ∃ k s' e, run E k t s = some (.fail s' e) ∧ OutOf E lim s' e

end Verif.Compiled

import Verif.Model.Mem

/-! Calling a plugin function from the host (vm/plugin-runtime.cpp:727-797). -/
namespace Verif.VM

/-- The parts of the environment that `Invoke` consults.  What the callee does is arbitrary: `run` is
any function on states. -/
structure InvokeEnv where
  /-- `env_->watchdog()->HandleInterrupt()` -/
  interruptOk : Bool
  /-- `GetPublicFunction(public_id)`: `none` if there is no such public; the inner `none` if
  `AcquireMethod` fails; otherwise the code that `env_->Invoke` runs. -/
  publics : Nat → Option (Option (VMM Cell))
  /-- `IsPaused()` -/
  paused : Bool

/-- vm/plugin-runtime.cpp:785-786, the loop `sp[i + 1] = params[i]`, storing upwards from `a`. -/
def storeParams (m : Int → BitVec 8) (a : Int) : List Cell → (Int → BitVec 8)
  | [] => m
  | p :: ps => storeParams (wr32 m a p) (a + 4) ps

/-- vm/plugin-runtime.cpp:791-794: the saved registers are put back, whatever the callee did. -/
def restoreRegs (s t : State) : State :=
  { t with sp := s.sp, hp := s.hp, frm := s.frm, hpScope := s.hpScope }

/-- vm/plugin-runtime.cpp:727-797 PluginRuntime::Invoke.  Profiling scopes and the clearing of a
pending exception are left out.  The stack check compares two `cell_t` casts of `size_t` sums. -/
def invoke (env : InvokeEnv) (fnid : Nat) (params : List Cell) : VMM Cell := fun s =>
  if !env.interruptOk then .fail s .timeout
  else match env.publics (fnid / 2) with
    | none => .fail s .notFound
    | some method =>
      if env.paused then .fail s .notRunnable
      else
        let n : Int := params.length
        let newSp := wrap32 (s.sp - 4 * (n + 1))
        if wrap32 (s.hp + stackMargin) > newSp then .fail s .stackLow
        else match method with
          | none => .fail s .invalidAddress
          | some body =>
            if ¬ s.inMem newSp (4 * (n + 1)) then .ub
            else
              let m := storeParams (wr32 s.mem newSp (BitVec.ofInt 32 n)) (newSp + 4) params
              match body { s with mem := m, sp := newSp } with
              | .ok t r => .ok (restoreRegs s t) r
              | .fail t e => .fail (restoreRegs s t) e
              | .ub => .ub

end Verif.VM

import Verif.Model.TimeoutPatch

/-! Histories of timeouts and compiled code. -/
namespace Verif.TimeoutPatch

/-- Take several steps. -/
def steps : List Ev → Sys → Option Sys
  | [], s => some s
  | e :: es, s => (step e s).bind (steps es)

/-- A method is not linked while a timeout is pending, and the watchdog wakes up only when it is notified. -/
def Quiet (s : Sys) : Ev → Prop
  | .link => s.timedout = false
  | .spurious => s.wd ≠ .waiting
  | _ => True

/-- The states reached by some interleaving of the two threads' steps, all of them quiet. -/
inductive Reachable : Sys → Prop where
  | init : Reachable Sys.init
  | step {s s' : Sys} (e : Ev) : Reachable s → Quiet s e → step e s = some s' → Reachable s'

end Verif.TimeoutPatch

import Verif.Model.Watchdog

/-! Histories of the watchdog. -/
namespace Verif.Watchdog

/-- The states reached by some interleaving of the two threads' steps. -/
inductive Reachable : Sys → Prop where
  | init : Reachable Sys.init
  | step {s s' : Sys} (e : Ev) : Reachable s → step e s = some s' → Reachable s'

end Verif.Watchdog

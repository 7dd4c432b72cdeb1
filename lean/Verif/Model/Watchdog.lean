/-!
The watchdog timer (vm/watchdog_timer.cpp): a thread that declares a timeout when one top-level call keeps running, and the
main thread's handling of it.

Two threads over shared memory, one step of one thread at a time.  A step is what a thread does between two points where the
other can be seen or can get in: the watchdog holds its mutex except while it waits, and the main thread takes it to notify.
Simplifications: memory is sequentially consistent (`timedout_` is a plain `bool` in the code); the three reads of one check
are one step; frame numbers do not wrap; patching the JIT's jumps is not modelled; waiting, both kinds, may end spuriously.
-/
namespace Verif.Watchdog

/-- Where the watchdog thread is (vm/watchdog_timer.cpp:76-142). -/
inductive Wd where
  /-- not started -/
  | off
  /-- 83: in the timed wait -/
  | timed
  /-- 112-122: a timeout was declared, the mutex is held -/
  | fired
  /-- 126: waiting to be notified, the mutex is free -/
  | waiting
  /-- returned from `Run` -/
  | gone
deriving DecidableEq

/-- Where the main thread is. -/
inductive Main where
  /-- not in the watchdog's code -/
  | free
  /-- 145-153: saw the timeout, is to clear it -/
  | clearing
  /-- 157-160: cleared it, is to take the mutex and notify -/
  | notifying
deriving DecidableEq

/-- Both threads, the shared fields, and three counters the code does not have. -/
structure Sys where
  wd : Wd
  main : Main
  lastFrame : Int
  second : Bool
  timedout : Bool
  terminate : Bool
  ignore : Bool
  frameId : Int
  /-- invocations in progress; `RunningCode` is whether there are any -/
  depth : Nat
  /-- timeouts declared -/
  declared : Nat
  /-- timeouts reported to a script -/
  reported : Nat
  /-- expired waits since the running top-level call began or the last timeout was acknowledged -/
  age : Nat
deriving DecidableEq

/-- vm/watchdog_timer.cpp:35-43; vm/environment.cpp: no frames, frame number 0. -/
def Sys.init : Sys := ⟨.off, .free, 0, false, false, false, false, 0, 0, 0, 0, 0⟩

/-- The steps. -/
inductive Ev where
  /-- watchdog: enter `Run` -/
  | start
  /-- watchdog: the timed wait expires -/
  | tick
  /-- watchdog: go to wait for the notification -/
  | wait
  /-- watchdog: a wait ends for no reason -/
  | spurious
  /-- main: begin an invocation -/
  | enter
  /-- main: end one -/
  | leave
  /-- main: the debugger is entered or left -/
  | ignore (b : Bool)
  /-- main: `HandleInterrupt` -/
  | poll
  /-- main: clear the timeout -/
  | clear
  /-- main: notify -/
  | notify
  /-- main: `Shutdown` -/
  | shutdown
deriving DecidableEq

/-- vm/watchdog_timer.cpp:128-138: after the wait for the notification. -/
def Sys.resume (s : Sys) : Sys :=
  { s with wd := if s.terminate then .gone else .timed, second := false, lastFrame := s.lastFrame - 1, age := 0 }

/-- vm/watchdog_timer.cpp:100-122: an expired wait. -/
def Sys.check (s : Sys) : Sys :=
  if s.frameId ≠ s.lastFrame ∨ s.depth = 0 ∨ s.ignore then
    { s with lastFrame := s.frameId, second := false, age := s.age + 1 }
  else if ¬ s.second then { s with second := true, age := s.age + 1 }
  else { s with timedout := true, wd := .fired, declared := s.declared + 1, age := s.age + 1 }

/-- One step, if it can be taken. -/
def step : Ev → Sys → Option Sys
  -- 78-80
  | .start, s => if s.wd = .off then some { s with wd := .timed, lastFrame := s.frameId } else none
  | .tick, s => if s.wd = .timed then some s.check else none
  | .wait, s => if s.wd = .fired then some { s with wd := .waiting } else none
  | .spurious, s =>
    match s.wd with
    | .timed => some s
    | .waiting => some s.resume
    | _ => none
  -- vm/environment.cpp:503-508 enterInvoke
  | .enter, s =>
    if s.main ≠ .free then none
    else if s.depth = 0 then some { s with depth := 1, frameId := s.frameId + 1, age := 0 }
    else some { s with depth := s.depth + 1 }
  -- vm/environment.cpp:516-519 leaveInvoke
  | .leave, s => if s.main ≠ .free ∨ s.depth = 0 then none else some { s with depth := s.depth - 1 }
  -- vm/debugging.cpp:43-47
  | .ignore b, s => if s.main ≠ .free then none else some { s with ignore := b }
  -- 163-168 HandleInterrupt
  | .poll, s =>
    if s.main ≠ .free then none
    else if s.timedout then some { s with main := .clearing, reported := s.reported + 1 }
    else some s
  -- 155
  | .clear, s => if s.main = .clearing then some { s with timedout := false, main := .notifying } else none
  -- 158-160: the mutex must be free
  | .notify, s =>
    if s.main ≠ .notifying ∨ s.wd = .fired then none
    else if s.wd = .waiting then some { s.resume with main := .free }
    else some { s with main := .free }
  -- 63-73 Shutdown: the mutex must be free
  | .shutdown, s =>
    if s.main ≠ .free ∨ s.wd = .fired then none
    else some { s with terminate := true, wd := if s.wd = .off then .off else .gone }

/-- What `HandleInterrupt` answers: may the script go on? -/
def Sys.answer (s : Sys) : Bool := ! s.timedout

end Verif.Watchdog

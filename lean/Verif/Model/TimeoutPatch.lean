/-!
Timeouts and compiled code: the watchdog thread redirects the loop edges of all compiled methods, while the main
thread runs them, compiles more of them, and undoes the redirection when it sees the timeout
(vm/watchdog_timer.cpp, vm/environment.cpp:228-277, vm/method-info.cpp:33-40, vm/jit.cpp:57-68, 268-298).

Two threads, one step of one thread at a time.  `Verif.Model.Watchdog` (C47) says when a timeout is declared; here
it may be declared at any time.  `Verif.Model.JitEdges` (C66) has the exchange of one method's distances; here a
method is redirected or it is not, and the watchdog does one method per step.  Memory is sequentially consistent,
as in C47.  The locks: the watchdog holds its own mutex except while it waits, and `env_->lock()` while it redirects
jumps; the main thread takes `env_->lock()` to link a method, to destroy one and to undo the redirection, and the
watchdog's mutex to notify it.  `Shutdown` is left out.
-/
namespace Verif.TimeoutPatch

/-- Where the watchdog thread is (vm/watchdog_timer.cpp:76-142). -/
inductive Wd where
  /-- 82-110: waiting for time to pass -/
  | timed
  /-- 113-123: declared a timeout, has redirected the jumps of the first `i` methods -/
  | patching (i : Nat)
  /-- 126 `cv_.wait(lock)` -/
  | waiting
deriving DecidableEq

/-- Where the main thread is. -/
inductive Main where
  /-- in compiled code, in the interpreter or in the host -/
  | free
  /-- vm/jit.cpp:57-68: compiling a method -/
  | compiling
  /-- vm/watchdog_timer.cpp:145-152: is to undo the redirection -/
  | undoing
  /-- 154: is to clear the timeout -/
  | clearing
  /-- 157-158: is to notify the watchdog -/
  | notifying
deriving DecidableEq

/-- Both threads and what they share. -/
structure Sys where
  wd : Wd
  main : Main
  timedout : Bool
  /-- the linked methods: are the loops of this one redirected? -/
  methods : List Bool
  /-- timeouts declared -/
  declared : Nat
  /-- timeouts reported to a script -/
  reported : Nat
deriving DecidableEq

/-- The start: nothing is compiled. -/
def Sys.init : Sys := ⟨.timed, .free, false, [], 0, 0⟩

/-- The steps. -/
inductive Ev where
  /-- watchdog: declare a timeout -/
  | declare
  /-- watchdog: redirect the jumps of one method, or go to wait when all is done -/
  | patch
  /-- watchdog: the wait ends for no reason, as waiting on a condition variable may -/
  | spurious
  /-- main: `HandleInterrupt`, in the interpreter or before a call of a script -/
  | poll
  /-- main: a method is to be called that has not been compiled -/
  | compile
  /-- main: the code is ready -/
  | link
  /-- main: a method of a plugin is destroyed -/
  | unload (j : Nat)
  /-- main: a loop of compiled method `j` goes around -/
  | loop (j : Nat)
  /-- main: undo the redirection -/
  | undo
  /-- main: clear the timeout -/
  | clear
  /-- main: notify the watchdog -/
  | notify
deriving DecidableEq

/-- The watchdog holds `env_->lock()`. -/
def Wd.locks : Wd → Bool
  | .patching _ => true
  | _ => false

/-- One step, if it can be taken. -/
def step : Ev → Sys → Option Sys
  -- vm/watchdog_timer.cpp:113-119
  | .declare, s => if s.wd = .timed then some { s with wd := .patching 0, timedout := true, declared := s.declared + 1 } else none
  -- 123-126, vm/environment.cpp:236-255
  | .patch, s =>
    match s.wd with
    | .patching i =>
      if i < s.methods.length then some { s with wd := .patching (i + 1), methods := s.methods.modify i (!·) }
      else some { s with wd := .waiting }
    | _ => none
  -- 126-141
  | .spurious, s => if s.wd = .waiting then some { s with wd := .timed } else none
  -- 163-168 HandleInterrupt, at vm/interpreter.cpp:296, 341
  | .poll, s =>
    if s.main ≠ .free then none
    else if s.timedout then some { s with main := .undoing, reported := s.reported + 1 }
    else some s
  -- vm/jit.cpp:274-286; vm/plugin-runtime.cpp:732-735 and then vm/environment.cpp:293-299
  | .compile, s =>
    if s.main ≠ .free then none
    else if s.timedout then some { s with main := .undoing, reported := s.reported + 1 }
    else some { s with main := .compiling }
  -- vm/method-info.cpp:33-40 setCompiledFunction
  | .link, s => if s.main = .compiling ∧ ¬ s.wd.locks then some { s with main := .free, methods := s.methods ++ [false] } else none
  -- vm/plugin-runtime.cpp:70-82
  | .unload j, s => if s.main = .free ∧ ¬ s.wd.locks then some { s with methods := s.methods.eraseIdx j } else none
  -- a redirected jump leads to vm/jit.cpp:325-330 InvokeReportTimeout
  | .loop j, s =>
    if s.main ≠ .free then none
    else match s.methods[j]? with
      | some true => some { s with main := .undoing, reported := s.reported + 1 }
      | some false => some s
      | none => none
  -- vm/watchdog_timer.cpp:149-152, vm/environment.cpp:257-277
  | .undo, s => if s.main = .undoing ∧ ¬ s.wd.locks then some { s with main := .clearing, methods := s.methods.map (!·) } else none
  -- 154
  | .clear, s => if s.main = .clearing then some { s with main := .notifying, timedout := false } else none
  -- 157-158: the watchdog's mutex must be free
  | .notify, s =>
    if s.main ≠ .notifying ∨ s.wd.locks then none
    else if s.wd = .waiting then some { s with main := .free, wd := .timed }
    else some { s with main := .free }

end Verif.TimeoutPatch

/-!
Error texts and exception-handling scopes (vm/environment.cpp).
-/
namespace Verif.Errors

/-- vm/environment.cpp:131-166 sErrorMsgTable. -/
def errorTable : List (Option String) := [
  none,
  some "Unrecognizable file format",
  some "Decompressor was not found",
  some "Not enough space on the heap",
  some "Invalid parameter or parameter type",
  some "Invalid plugin address",
  some "Object or index not found",
  some "Invalid index or index not found",
  some "Not enough space on the stack",
  some "Debug section not found or debug not enabled",
  some "Invalid instruction",
  some "Invalid memory access",
  some "Stack went below stack boundary",
  some "Heap went below heap boundary",
  some "Divide by zero",
  some "Array index is out of bounds",
  some "Instruction contained invalid parameter",
  some "Stack memory leaked by native",
  some "Heap memory leaked by native",
  some "Dynamic array is too big",
  some "Tracker stack is out of bounds",
  some "Native is not bound",
  some "Maximum number of parameters reached",
  some "Native detected error",
  some "Plugin not runnable",
  some "Call was aborted",
  some "Plugin format is too old",
  some "Plugin format is too new",
  some "Out of memory",
  some "Integer overflow",
  some "Script execution timed out",
  some "Custom error",
  some "Fatal error",
  some "Invalid array size"]

/-- vm/environment.cpp:168-173 GetErrorString.  The outer `none` is a read outside the table; the inner one is a null
result. -/
def getErrorString (error : Int) : Option (Option String) :=
  if error < 1 ∨ error > errorTable.length then some none else errorTable[error.toNat]?

/-- vm/environment.cpp:325-335 ReportError(code): the message reported. -/
def reportText (code : Int) : Option String :=
  match getErrorString code with
  | none => none
  | some none => some (s!"Unknown error code {code}")
  | some (some m) => some m

/-! ## Exception-handling scopes -/

/-- The environment's exception state, and the fields of the handler objects, which live at addresses.
vm/environment.h eh_top_, exception_code_, exception_message_; include/sp_vm_api.h:938-993 next_, catch_.  The message buffer's
limit of 1024 bytes is not modelled. -/
structure EH where
  top : Option Nat
  next : Nat → Option Nat
  catches : Nat → Bool
  code : Int
  msg : String

/-- A new environment. -/
def EH.init : EH := ⟨none, fun _ => none, fun _ => false, 0, ""⟩

/-- vm/environment.cpp:487-490. -/
def EH.pending (s : EH) : Bool := s.code ≠ 0

/-- vm/environment.cpp:492-495 clearPendingException. -/
def EH.clear (s : EH) : EH := { s with code := 0 }

/-- vm/environment.cpp:425-447 DispatchReport without the debugger; `none` is the failed assertion. -/
def EH.report (s : EH) (code : Int) (msg : String) : Option EH :=
  if s.pending then none
  else if s.top.isSome then some { s with code := code, msg := msg } else some s

/-- include/sp_vm_api.h:943-954 and vm/environment.cpp:449-453 EnterExceptionHandlingScope. -/
def EH.enter (s : EH) (h : Nat) : EH :=
  { s with
    catches := fun a => if a = h then true else s.catches a
    next := fun a => if a = h then s.top else s.next a
    top := some h }

/-- vm/environment.cpp:455-464 LeaveExceptionHandlingScope. -/
def EH.leave (s : EH) (h : Nat) : Option EH :=
  if s.top = some h then
    let s' := { s with top := s.next h }
    some (if s'.top.isNone ∨ s.catches h then { s' with code := 0 } else s')
  else none

/-- vm/environment.cpp:466-472 HasPendingException. -/
def EH.hasPending (s : EH) (h : Nat) : Option Bool := if s.top = some h then some s.pending else none

/-- vm/environment.cpp:474-486: the code and message of the pending exception. -/
def EH.pendingInfo (s : EH) (h : Nat) : Option (Int × String) :=
  if s.top = some h ∧ s.pending then some (s.code, s.msg) else none

/-- include/sp_vm_api.h:962-965 Rethrow. -/
def EH.rethrow (s : EH) (h : Nat) : Option EH :=
  if s.catches h ∧ s.hasPending h = some true then some { s with catches := fun a => if a = h then false else s.catches a }
  else none

/-- Host code that follows the rules of the interface: after an error it returns at once until a scope is reached. -/
inductive Host where
  | skip
  /-- raise an error -/
  | report (code : Int) (msg : String)
  /-- the second part runs only if the first left nothing pending -/
  | seq (a b : Host)
  /-- a handler object at address `h`; if there is an exception at the end of the body it is rethrown if `again` says so -/
  | scope (h : Nat) (again : Int → String → Bool) (body : Host)
  /-- vm/scripted-invoker.cpp:236-258 Execute: clear, and call inside a scope which catches everything -/
  | execute (h : Nat) (body : Host)

/-- Run host code.  The list is what each scope saw at its end; `none` is a failed assertion. -/
def Host.run : Host → EH → Option (EH × List (Nat × Int × String))
  | .skip, s => some (s, [])
  | .report c m, s => (s.report c m).map fun s => (s, [])
  | .seq a b, s =>
    match a.run s with
    | none => none
    | some (s1, l1) =>
      if s1.pending then some (s1, l1)
      else
        match b.run s1 with
        | none => none
        | some (s2, l2) => some (s2, l1 ++ l2)
  | .scope h again body, s =>
    match body.run (s.enter h) with
    | none => none
    | some (s1, l1) =>
      match s1.hasPending h with
      | none => none
      | some false => (s1.leave h).map fun s => (s, l1)
      | some true =>
        match s1.pendingInfo h with
        | none => none
        | some (c, m) =>
          if again c m then
            match s1.rethrow h with
            | none => none
            | some s2 => (s2.leave h).map fun s => (s, l1 ++ [(h, c, m)])
          else (s1.leave h).map fun s => (s, l1 ++ [(h, c, m)])
  | .execute h body, s =>
    match body.run (s.clear.enter h) with
    | none => none
    | some (s1, l1) =>
      if s1.pending then (s1.leave h).map fun s => (s, l1 ++ [(h, s1.code, s1.msg)])
      else (s1.leave h).map fun s => (s, l1)

end Verif.Errors

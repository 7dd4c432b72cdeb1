import Verif.Model.Invoke
import Verif.Model.Strings

/-!
Calling a plugin function with host arguments (include/sp_callable.h, vm/scripted-invoker.cpp).

Host memory is a set of objects, each known by its address and holding some bytes; pointers into the middle of an object are
not modelled.  Reading or writing an object that does not exist or is too short is undefined behaviour.  What the callee does
to plugin memory is arbitrary; it does not change host objects.
-/
namespace Verif.VM

/-- Host objects by address. -/
abbrev Host := BitVec 64 → Option (List (BitVec 8))

/-- include/sp_callable.h:166-178 ArgInfo.  `u` is the union: a cell is its low half. -/
structure ArgSlot where
  u : BitVec 64
  flags : BitVec 16
  type : Nat
  size : BitVec 32
deriving DecidableEq

/-- include/sp_callable.h:139-146. -/
abbrev argCell : Nat := 0
abbrev argRef : Nat := 1
abbrev argArray : Nat := 2
abbrev argChars : Nat := 3
abbrev argInt64 : Nat := 4

/-- include/sp_callable.h:179-181: 32 slots, whose contents are left over from earlier calls. -/
structure CallArgs where
  argv : List ArgSlot
  argc : Nat
  error : Bool

/-- What can be pushed. -/
inductive Push where
  | cell (v : Cell)
  | float (bits : Cell)
  | ref (addr : BitVec 64) (flags : BitVec 16)
  | floatRef (addr : BitVec 64) (flags : BitVec 16)
  | array (addr : BitVec 64) (cells : BitVec 32) (flags : BitVec 16)
  /-- `PushString(const char*)`, for a string of `len` characters -/
  | string (addr : BitVec 64) (len : Nat)
  | stringEx (addr : BitVec 64) (length : BitVec 64) (flags : BitVec 16)
  | int64 (v : BitVec 64)

/-- include/sp_callable.h:43-131: the assignments to `argv[argc]`.  `PushInt64` does not assign `flags`. -/
def Push.fill (x : ArgSlot) : Push → ArgSlot
  | .cell v => { x with u := x.u.extractLsb' 32 32 ++ v, type := argCell, flags := 0 }
  | .float v => { x with u := x.u.extractLsb' 32 32 ++ v, type := argCell, flags := 16 }
  | .ref a fl => { x with u := a, flags := fl, type := argRef }
  | .floatRef a fl => { x with u := a, flags := fl ||| 16, type := argRef }
  | .array a n fl => { x with u := a, flags := fl, type := argArray, size := n }
  | .string a len => { x with u := a, flags := 4, type := argChars, size := BitVec.ofNat 32 (len + 1) }
  | .stringEx a n fl => { x with u := a, flags := fl, type := argChars, size := n.setWidth 32 }
  | .int64 v => { x with u := v, type := argInt64 }

/-- include/sp_callable.h:43-131: one push. -/
def CallArgs.push (A : CallArgs) (p : Push) : CallArgs :=
  if A.argc ≥ 32 then { A with error := true }
  else { A with argv := A.argv.modify A.argc p.fill, argc := A.argc + 1 }

/-- include/sp_callable.h:134-137 Reset. -/
def CallArgs.reset (A : CallArgs) : CallArgs := { A with argc := 0, error := false }

/-- vm/plugin-runtime.cpp:551-583 AllocArray in a release build: the address of the cells.  The sum `sp_ - hp_ - realmem` is
unsigned. -/
def allocArray (cells : Nat) : VMM Int := fun s =>
  let realmem : Int := (cells * 4 % 4294967296 : Nat)
  if wrap32 (s.sp - s.hp - realmem) < stackMargin then .fail s .heapLow
  else
    match storeRaw s.hp (BitVec.ofNat 32 cells) s with
    | .ok s1 () => .ok { s1 with hp := wrap32 (s.hp + 4 + realmem) } (wrap32 (s.hp + 4))
    | .fail s1 e => .fail s1 e
    | .ub => .ub

/-- The bytes of a host object that the code reads. -/
def hostRead (H : Host) (a : BitVec 64) (n : Nat) : VMM (List (BitVec 8)) := fun s =>
  match H a with
  | some bs => if n ≤ bs.length then .ok s (bs.take n) else .ub
  | none => .ub

/-- The characters before the terminator. -/
def hostString (H : Host) (a : BitVec 64) : VMM (List (BitVec 8)) := fun s =>
  match H a with
  | some bs => if 0 ∈ bs then .ok s (bs.takeWhile (· ≠ 0)) else .ub
  | none => .ub

/-- An operation whose reported error is ignored. -/
def ignoring {α : Type} (x : VMM α) : VMM Unit := fun s =>
  match x s with
  | .ok s _ => .ok s ()
  | .fail s _ => .ok s ()
  | .ub => .ub

/-- vm/scripted-invoker.cpp:165-191: filling a char array at `a`. -/
def fillChars (H : Host) (x : ArgSlot) (a : Int) : VMM Unit :=
  if x.flags.getLsbD 2 then
    if x.flags.getLsbD 1 then do
      let src ← hostString H x.u
      ignoring (stringToLocalUTF8 a x.size.toNat src)
    else if x.flags.getLsbD 3 then do
      let bs ← hostRead H x.u x.size.toNat
      copyIn a bs
    else do
      let src ← hostString H x.u
      ignoring (stringToLocal a x.size.toNat src)
  else storeRaw a 0

/-- vm/scripted-invoker.cpp:129-193: one argument; the parameter passed. -/
def marshal (H : Host) (x : ArgSlot) : VMM Cell :=
  if x.type = argCell then pure (x.u.setWidth 32)
  else if x.type = argRef then do
    let a ← heapAlloc 4
    let bs ← hostRead H x.u 4
    copyIn a bs
    pure (BitVec.ofInt 32 a)
  else if x.type = argInt64 then do
    let a ← heapAlloc 8
    let bs ← hostRead H x.u 8
    copyIn a bs
    pure (BitVec.ofInt 32 a)
  else if x.type = argArray then do
    let a ← allocArray x.size.toNat
    let bs ← hostRead H x.u (4 * x.size.toNat)
    copyIn a bs
    pure (BitVec.ofInt 32 a)
  else if x.type = argChars then do
    -- 155: `(arg.array_size + sizeof(cell_t) - 1) / sizeof(cell_t)` is a `size_t`
    let a ← allocArray ((x.size.toNat + 3) / 4 % 4294967296)
    fillChars H x a
    pure (BitVec.ofInt 32 a)
  else report .param

/-- The loop vm/scripted-invoker.cpp:129-197. -/
def marshalAll (H : Host) : List ArgSlot → VMM (List Cell)
  | [] => pure []
  | x :: xs => do
    let p ← marshal H x
    let ps ← marshalAll H xs
    pure (p :: ps)

/-- Bytes copied back for an argument, vm/scripted-invoker.cpp:215-228. -/
def ArgSlot.extent (x : ArgSlot) : Nat :=
  if x.type = argRef then 4
  else if x.type = argInt64 then 8
  else if x.type = argArray then 4 * x.size.toNat
  else x.size.toNat

/-- `memcpy(host, memory_ + a, n)`. -/
def hostWrite (s : State) (a : Int) (n : Nat) (addr : BitVec 64) (H : Host) : Option Host :=
  match H addr with
  | none => none
  | some bs =>
    if n ≤ bs.length ∧ s.inMem a n then
      some fun k => if k = addr then some ((List.range n).map (fun i : Nat => s.mem (a + i)) ++ bs.drop n) else H k
    else none

/-- vm/scripted-invoker.cpp:195-196 and 211-231: the copy back. -/
def copyBack (s : State) : List (ArgSlot × Cell) → Host → Option Host
  | [], H => some H
  | (x, p) :: rest, H =>
    if x.type ≠ argCell ∧ x.flags.getLsbD 0 then
      match hostWrite s p.toInt x.extent x.u H with
      | none => none
      | some H => copyBack s rest H
    else copyBack s rest H

/-- vm/plugin-runtime.cpp:1381-1389: the errors of the two heap-scope operations are reported but not returned.  A pending
error this leaves behind is not modelled. -/
def leaveScope (s : State) : Option State :=
  match ignoring leaveHeapScope s with
  | .ok s _ => some s
  | _ => none

/-- Outcome of a call from the host. -/
inductive CallRes where
  | ok (s : State) (H : Host) (result : Cell)
  | fail (s : State) (H : Host) (e : Err)
  | ub

/-- After the heap scope is entered, vm/scripted-invoker.cpp:122-234. -/
def callIn (E : InvokeEnv) (fnid : Nat) (args : List ArgSlot) (s : State) (H : Host) : CallRes :=
  match marshalAll H args s with
  | .ub => .ub
  | .fail s e => match leaveScope s with | some s => .fail s H e | none => .ub
  | .ok s params =>
    match invoke E fnid params s with
    | .ub => .ub
    | .fail s e => match leaveScope s with | some s => .fail s H e | none => .ub
    | .ok s r =>
      match copyBack s (args.zip params) H with
      | none => .ub
      | some H => match leaveScope s with | some s => .ok s H r | none => .ub

/-- vm/scripted-invoker.cpp:106-234 Invoke(args, result). -/
def callWith (E : InvokeEnv) (fnid : Nat) (A : CallArgs) (s : State) (H : Host) : CallRes :=
  if E.paused then .fail s H .notRunnable
  else if A.error then .fail s H .paramsMax
  else
    match ignoring enterHeapScope s with
    | .ok s _ => callIn E fnid (A.argv.take A.argc) s H
    | _ => .ub

/-- vm/scripted-invoker.cpp:260-265 Invoke(result), also the call made by Execute (236-258): the arguments are copied and the
pending list is emptied first. -/
def callPending (E : InvokeEnv) (fnid : Nat) (A : CallArgs) (s : State) (H : Host) : CallRes × CallArgs :=
  (callWith E fnid A s H, A.reset)

end Verif.VM

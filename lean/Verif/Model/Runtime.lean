import Verif.Model.Interp

/-!
The runtime's tables of native bindings and of public functions (vm/plugin-runtime.cpp).  Pointers to host
functions and callback objects are natural numbers; a null pointer is `none`.
-/
namespace Verif.Runtime

/-- A pointer to a host function or to an `INativeCallback`. -/
abbrev HostPtr := Nat

/-- vm/plugin-runtime.h:37-43 NativeEntry with the members of include/sp_vm_types.h:176-191 sp_native_t.  The
lazily filled name is omitted. -/
structure Entry where
  legacyFn : Option HostPtr
  callback : Option HostPtr
  bound : Bool
  flags : BitVec 32
  user : Nat

/-- A value-initialised entry: vm/plugin-runtime.cpp:95-99 (the array is zero filled). -/
def Entry.fresh : Entry := ⟨none, none, false, 0, 0⟩

/-- The result code of a binding request. include/sp_vm_types.h SP_ERROR_NONE, SP_ERROR_INDEX, SP_ERROR_PARAM. -/
inductive Code where
  | none | index | param
deriving DecidableEq, Repr

/-- include/sp_vm_types.h:164-165: `flags & (SP_NTVFLAG_OPTIONAL | SP_NTVFLAG_EPHEMERAL)` is non-zero. -/
def Entry.loose (e : Entry) : Bool := e.flags &&& 3#32 ≠ 0

/-- vm/plugin-runtime.cpp:293-315 UpdateNativeBinding. -/
def updateBinding (t : List Entry) (index : Nat) (pfn : Option HostPtr) (flags : BitVec 32) (data : Nat) :
    Code × List Entry :=
  match t[index]? with
  | none => (.index, t)
  | some e =>
    if e.bound ∧ ¬ e.loose then (.param, t)
    else (.none, t.set index ⟨pfn, none, pfn.isSome, flags, data⟩)

/-- vm/plugin-runtime.cpp:317-341 UpdateNativeBindingObject.  Reference counting is not modelled. -/
def updateBindingObject (t : List Entry) (index : Nat) (cb : Option HostPtr) (flags : BitVec 32) (data : Nat) :
    Code × List Entry :=
  match t[index]? with
  | none => (.index, t)
  | some e =>
    if e.bound ∧ ¬ e.loose then (.param, t)
    else (.none, t.set index ⟨none, cb, cb.isSome, flags, data⟩)

/-- What calling a native runs: vm/interpreter.cpp:94-107 and vm/runtime-helpers.cpp:66-73 NativeInvokeThunk. -/
inductive Target where
  /-- `SP_ERROR_INVALID_NATIVE` is reported -/
  | unbound
  | run (p : HostPtr)
  /-- a null callback would be called -/
  | nullCall
deriving DecidableEq

/-- vm/interpreter.cpp:94-107, vm/runtime-helpers.cpp:66-73. -/
def Entry.target (e : Entry) : Target :=
  if e.bound then
    match e.legacyFn with
    | some f => .run f
    | none =>
      match e.callback with
      | some c => .run c
      | none => .nullCall
  else .unbound

/-- One iteration of vm/plugin-runtime.cpp:216-226: `builtin i` is the function installed for a native whose
name is in the float table, `none` for all others. -/
def installOne (builtin : Nat → Option HostPtr) (t : List Entry) (i : Nat) : List Entry :=
  match builtin i with
  | none => t
  | some f => (updateBinding t i (some f) 0 0).2

/-- vm/plugin-runtime.cpp:211-227 InstallBuiltinNatives. -/
def installBuiltins (builtin : Nat → Option HostPtr) (t : List Entry) : List Entry :=
  (List.range t.length).foldl (installOne builtin) t

/-- The interpreter's view of the table (`Verif.VM.Env.natives`), given what each host pointer does when it is
called and the table of replacing instructions. -/
def view (behaviour : HostPtr → VM.State → VM.Res VM.State VM.Cell)
    (replacement : Nat → Option (Nat × (List VM.Cell → VM.Cell))) (t : List Entry) (i : Nat) : Option VM.Native :=
  t[i]?.map fun e =>
    { bound := e.bound, fixed := !e.loose, replacement := replacement i,
      call := match e.target with
        | .run p => behaviour p
        | _ => fun _ => .ub }

/-! ## Function ids -/

/-- vm/scripted-invoker.h: an invoker object; `obj` is its identity, `funcid` and `index` its constructor
arguments. -/
structure Invoker where
  obj : Nat
  funcid : BitVec 32
  index : Nat

/-- `entrypoints_` and the allocation counter giving each new object its identity.  `outside` records an access past the end of
the array (undefined behaviour in the code). -/
structure FnTable where
  slots : List (Option Invoker)
  nextObj : Nat
  outside : Bool

/-- vm/plugin-runtime.cpp:111-114: all entry points start null. -/
def FnTable.init (publics : Nat) : FnTable := ⟨List.replicate publics none, 0, false⟩

/-- vm/plugin-runtime.cpp:377-381: the id stored in `sp_public_t::funcid`; also compiler/code-generator.cpp:2349. -/
def funcIdOf (index : Nat) : BitVec 32 := (BitVec.ofNat 32 index <<< 1) ||| 1#32

/-- vm/plugin-runtime.cpp:369-385 GetPublicByIndex: the id handed out, if the index is valid. -/
def getPublicByIndex (T : FnTable) (index : Nat) : Option (BitVec 32) :=
  if index ≥ T.slots.length then none else some (funcIdOf index)

/-- The lazily created entry point, vm/plugin-runtime.cpp:448-452 and 461-467. -/
def ensure (T : FnTable) (index : Nat) (id : BitVec 32) : Option Invoker × FnTable :=
  match T.slots[index]? with
  | none => (none, { T with outside := true })
  | some (some v) => (some v, T)
  | some none =>
    let v : Invoker := ⟨T.nextObj, id, index⟩
    (some v, ⟨T.slots.set index (some v), T.nextObj + 1, T.outside⟩)

/-- vm/plugin-runtime.cpp:440-457 GetFunctionById. -/
def getFunctionById (T : FnTable) (id : BitVec 32) : Option Invoker × FnTable :=
  if id &&& 1#32 ≠ 0 then
    let k := id >>> 1
    if k.toNat ≥ T.slots.length then (none, T)
    else ensure T k.toNat ((k <<< 1) ||| 1#32)
  else (none, T)

/-- vm/plugin-runtime.cpp:459-471 GetPublicFunction. -/
def getPublicFunction (T : FnTable) (index : Nat) : Option Invoker × FnTable :=
  ensure T index (funcIdOf index)

/-- vm/plugin-runtime.cpp:1391-1397 GetNullFunctionValue. -/
def nullFunctionValue (nullFunctions : Bool) : BitVec 32 := if nullFunctions then 0 else BitVec.allOnes 32

/-- vm/plugin-runtime.cpp:1404-1417 GetFunctionByIdOrNull: `none` when an error is reported, otherwise the
(possibly null) function. -/
def getFunctionByIdOrNull (nullFunctions : Bool) (T : FnTable) (id : BitVec 32) :
    Option (Option Invoker) × FnTable :=
  if id = nullFunctionValue nullFunctions then (some none, T)
  else
    match getFunctionById T id with
    | (none, T) => (none, T)
    | (some v, T) => (some (some v), T)

end Verif.Runtime

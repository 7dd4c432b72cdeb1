import Verif.Model.JitCall
import Verif.Model.JitEdges

/-!
How a stack trace of compiled code is made: the map from addresses to instructions (vm/compiled-function.cpp) and the
walk through the frames of the native stack (vm/stack-frames.cpp, vm/x64/frames-x64.h).
-/
namespace Verif.Jit
open Verif.X64 Verif.VM

/-- vm/x64/jit_x64.cpp:411-412: visitCALL maps the return address of the call, which is where its code ends, to the
instruction. -/
def callCips (code : List Cell) (F : Parts) (places : List (Nat × Nat)) : List (Nat × Nat) :=
  places.filterMap fun (pc, n) => match decode code pc with
    | some (.call _, _) => some (n + (F.other pc).1.length, pc)
    | _ => none

/-- vm/jit.h:99-104 emitCipMapping, for all calls, error paths and loop edges of a method: an offset in the code, and the
offset of the instruction in the plugin's code.  In the code, the second is kept relative to the method, and
FindCipByPc adds that (vm/compiled-function.cpp:76).  Left out: the entries of natives, index errors and debug breaks. -/
def Compiled.cipMap (C : Compiled) (code : List Cell) (F : Parts) : List (Nat × Nat) :=
  (callCips code F C.places ++ C.cips).map fun (n, pc) => (pcAt C.ops n, pc * 4)

/-- vm/compiled-function.cpp:53-77 FindCipByPc; `none` is kInvalidCip.  qsort and bsearch are a search: it is shown that
there is only one entry it can find. -/
def findCip (entry : BitVec 64) (size : Nat) (map : List (Nat × Nat)) (pc : BitVec 64) : Option Nat :=
  if pc.toNat < entry.toNat then none
  else if size < (pc - entry).toNat % 4294967296 then none
  else match map.find? fun e => decide (e.1 = (pc - entry).toNat % 4294967296) with
    | some e => some e.2
    | none => none

/-- vm/x64/frames-x64.h:35-52 FrameLayout. -/
structure FrameLayout where
  word : BitVec 64
  prevFp : BitVec 64
  ret : BitVec 64
deriving DecidableEq

/-- vm/x64/frames-x64.h:43, 48-50 FromFp, and the reads that follow; `rd` is the memory of the native stack. -/
def frameFromFp (rd : BitVec 64 → Option (BitVec 64)) (fp : BitVec 64) : Option FrameLayout :=
  match rd (fp - 8), rd fp, rd (fp + 8) with
  | some w, some p, some r => some ⟨w, p, r⟩
  | _, _, _ => none

/-- vm/x64/frames-x64.h:45 function_id. -/
def FrameLayout.functionId (f : FrameLayout) : BitVec 32 := (f.word.sshiftRight 32).setWidth 32
/-- vm/x64/frames-x64.h:46 frame_type. -/
def FrameLayout.frameType (f : FrameLayout) : BitVec 32 := f.word.setWidth 32

/-- vm/stack-frames.h:43 JitFrameType::Entry. -/
def entryFrame : Nat := 1
/-- vm/stack-frames.h:43 JitFrameType::Exit. -/
def exitFrame : Nat := 3

/-- vm/stack-frames.h: JitFrameIterator. -/
structure JitIter where
  cur : FrameLayout
  pc : Option (BitVec 64)

/-- vm/stack-frames.cpp:130-140, the constructor; its assertions are compiled out. -/
def JitIter.init (rd : BitVec 64 → Option (BitVec 64)) (exitFp : BitVec 64) : Option JitIter :=
  match frameFromFp rd exitFp with
  | some f => some ⟨f, none⟩
  | none => none

/-- vm/stack-frames.cpp:142-145 done. -/
def JitIter.done (it : JitIter) : Bool := decide (it.cur.frameType = BitVec.ofNat 32 entryFrame)

/-- vm/stack-frames.cpp:147-154 next. -/
def JitIter.next (rd : BitVec 64 → Option (BitVec 64)) (it : JitIter) : Option JitIter :=
  match frameFromFp rd it.cur.prevFp with
  | some f => some ⟨f, some it.cur.ret⟩
  | none => none

/-- What a stack trace shows for a frame. -/
inductive Shown where
  | internal
  | native (index : Nat)
  /-- a function of the plugin, and the instruction it is at; `none` if that is not known -/
  | scripted (function : Nat) (cip : Option Nat)
deriving DecidableEq, Repr

/-- vm/stack-frames.cpp:156-194 type, function_cip, cip, native_index.  `find` finds the compiled code of a method
(GetMethod, jit), and in it the instruction of an address. -/
def JitIter.shown (find : Nat → Option (BitVec 64 → Option Nat)) (it : JitIter) : Shown :=
  if it.cur.frameType = BitVec.ofNat 32 scripted then
    let f := it.cur.functionId.toNat
    .scripted f (match find f with
      | none => some 0
      | some find => match it.pc with
        | some pc => find pc
        | none => some f)
  else if it.cur.frameType = BitVec.ofNat 32 exitFrame ∧ it.cur.functionId.toNat % 8 = 0 then .native (it.cur.functionId.toNat / 8)
  else .internal

/-- vm/stack-frames.cpp:220-233 FrameIterator::Next, as far as the frames of one call from the host: what a trace shows,
the innermost frame first.  `none`: the walk leaves the native stack, or does not end within `fuel` frames. -/
def backtrace (rd : BitVec 64 → Option (BitVec 64)) (find : Nat → Option (BitVec 64 → Option Nat)) : Nat → JitIter → Option (List Shown)
  | 0, _ => none
  | fuel + 1, it =>
    if it.done then some [it.shown find]
    else match it.next rd with
      | none => none
      | some it' => match backtrace rd find fuel it' with
        | none => none
        | some l => some (it.shown find :: l)

/-- vm/jit.cpp:303-316 find_entry_fp, from frame `it` on; `fp` is what has been found so far. -/
def findEntryFp (rd : BitVec 64 → Option (BitVec 64)) : Nat → JitIter → BitVec 64 → Option (BitVec 64)
  | 0, _, _ => none
  | fuel + 1, it, fp =>
    if it.done then some fp
    else match it.next rd with
      | none => none
      | some it' => findEntryFp rd fuel it' it.cur.prevFp

/-- vm/x64/macro-assembler-x64.cpp:36-40 enterExitFrame(Helper, 0), without the store of rbp to `exit_fp_`, which is
outside of what the processor of the model can address: the walk begins at rbp. -/
def exitCalls : List Call :=
  [.push 5, .movqRR 5 4, .movqRI 10 (BitVec.ofNat 64 (1 * 4294967296 + exitFrame)), .push 10]

end Verif.Jit

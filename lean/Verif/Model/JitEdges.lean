import Verif.Model.JitFlow

/-!
The loop edges of compiled code: jumps that the watchdog timer redirects when it declares a timeout
(vm/compiled-function.h:30-37, vm/jit.cpp:170-177, 208-213, vm/environment.cpp:228-277).

The lists of runtimes and methods are left out: what follows is done for each compiled method.  Other threads see
each store of a distance as a whole (vm/watchdog_timer.cpp:122-124).
-/
namespace Verif.Jit
open Verif.X64

/-- vm/compiled-function.h:30-37 LoopEdge. -/
structure LoopEdge where
  /-- just after the distance of the jump -/
  offset : Nat
  disp32 : BitVec 32
deriving DecidableEq, Repr

/-- vm/assembler.h:75-78 pc, when the first `n` of the calls had been made. -/
def pcAt (ops : List Op) (n : Nat) : Nat :=
  match Asm.run true {} (ops.take n) with
  | some A => A.pc
  | none => 0

/-- vm/jit.cpp:170-177, 208-213: the edges that the compiler stores. -/
def Compiled.loopEdges (C : Compiled) : List LoopEdge :=
  C.edges.map fun (timeout, jump, _) =>
    ⟨pcAt C.ops jump, BitVec.ofInt 32 ((pcAt C.ops timeout : Int) - pcAt C.ops jump)⟩

/-- vm/environment.cpp:228-234 SwapLoopEdge; the code begins `start` bytes into `bytes`. -/
def swapEdge (start : Nat) (bytes : List Byte) (e : LoopEdge) : Option (List Byte × LoopEdge) :=
  match peek32 bytes (start + e.offset - 4), poke32 bytes (start + e.offset - 4) e.disp32 with
  | some old, some bytes => some (bytes, { e with disp32 := old })
  | _, _ => none

/-- vm/environment.cpp:236-255 PatchAllJumpsForTimeout and 257-277 UnpatchAllJumpsFromTimeout, for one method. -/
def swapEdges (start : Nat) : List Byte → List LoopEdge → Option (List Byte × List LoopEdge)
  | bytes, [] => some (bytes, [])
  | bytes, e :: es =>
    match swapEdge start bytes e with
    | none => none
    | some (bytes, e) => match swapEdges start bytes es with
      | none => none
      | some (bytes, es) => some (bytes, e :: es)

end Verif.Jit

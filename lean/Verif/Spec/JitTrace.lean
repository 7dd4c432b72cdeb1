import Verif.Model.JitTrace
import Verif.Spec.JitCall

/-!
What a stack trace of compiled code should show: the functions that were called and have not returned.
-/
namespace Verif.X64

/-- The word of the native stack at an address; the stack is kept as a list whose first element is at rsp. -/
def World.word (W : World) (st : List (BitVec 64)) (a : BitVec 64) : Option (BitVec 64) :=
  if W.rsp (W.words a) = a ∧ 0 < W.words a ∧ W.words a ≤ st.length then st[st.length - W.words a]? else none

end Verif.X64

namespace Verif.Jit
open Verif.VM hiding Op
open Verif.X64 hiding Pre decode

/-- The host has called the function that starts at cell `t0`, in state `s0`.  Since then the functions in `ch` have been
called and have not returned, the last of them first, and each is at the call instruction given with it; the function
that runs is that at `t`, and it is at instruction `pc`.  The calls nest at most `d` deeper. -/
inductive Active (H : Host) (P : Plugin) (E : Env) (W : World) (d0 t0 : Nat) (s0 : IState) :
    Nat → List (Nat × Nat) → Nat → Nat → IState → Bool → Bool → Prop where
  | start {s1 : IState} : Enter P E t0 s0 s1 → Active H P E W d0 t0 s0 d0 [] t0 (t0 + 1) s1 false false
  | run {d t pc pc' : Nat} {ch : List (Nat × Nat)} {s s' : IState} {kp ka kp' ka' : Bool} : Active H P E W d0 t0 s0 d ch t pc s kp ka →
    Trace H P E W d t pc s kp ka pc' s' kp' ka' → Active H P E W d0 t0 s0 d ch t pc' s' kp' ka'
  | call {d t pc next u : Nat} {ch : List (Nat × Nat)} {o : Int} {s s1 : IState} {kp ka : Bool} : Active H P E W d0 t0 s0 (d + 1) ch t pc s kp ka →
    decode E.code pc = some (.call o, next) → acquireMethod E o = some u → P.Has E W u → Enter P E u s s1 →
    Active H P E W d0 t0 s0 d ((t, pc) :: ch) u (u + 1) s1 false false

/-- vm/plugin-runtime.cpp GetMethod and vm/compiled-function.cpp FindCipByPc, for a plugin all of whose methods are
compiled; vm/linking.h:32 code_size. -/
def Plugin.find (P : Plugin) (E : Env) (f : Nat) : Option (BitVec 64 → Option Nat) :=
  some (findCip (P.image (f / 4)).entry ((P.image (f / 4)).bytes.length - (P.image (f / 4)).start) ((P.C (f / 4)).cipMap E.code (P.F (f / 4))))

/-- The code of a method does not lie across the end of the address space, and the offset of the method is a cell. -/
structure Placed (P : Plugin) (t : Nat) : Prop where
  fits : (P.image t).entry.toNat + ((P.image t).bytes.length - (P.image t).start) < 18446744073709551616
  offset : t * 4 < 2147483648

end Verif.Jit

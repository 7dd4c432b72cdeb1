import Verif.Spec.JitFlow
import Verif.Model.JitEdges

/-!
What it takes for the watchdog to stop compiled code.
-/
namespace Verif.Jit
open Verif.VM hiding Op
open Verif.X64 hiding Pre decode

/-- A given number of instructions. -/
inductive StepsN (H : Host) (J : JitEnv) (E : Env) (method : Nat) : Nat → Nat → IState → Bool → Bool → Nat → IState → Bool → Bool → Prop where
  | none (pc : Nat) (s : IState) (kp ka : Bool) : StepsN H J E method 0 pc s kp ka pc s kp ka
  | more {count pc pc' pc'' : Nat} {s s' s'' : IState} {kp ka kp' ka' kp'' ka'' : Bool} : Step H J E method pc s kp ka pc' s' kp' ka' →
    StepsN H J E method count pc' s' kp' ka' pc'' s'' kp'' ka'' → StepsN H J E method (count + 1) pc s kp ka pc'' s'' kp'' ka''

/-- Blocks are compiled one after the other, `blks` in this order.  A conditional jump that does not jump, and a
SWITCH, lead to a later block.  (The compiler remembers all other ways back.) -/
def NoHiddenLoop (code : List Cell) (C : Compiled) (blks : List Blk) : Prop :=
  ∀ (k : Nat) (b : Blk), blks[k]? = some b → ∀ (pc n : Nat), (pc, n) ∈ C.places →
    (∀ c o, decode code pc = some (.jcmp c o, b.stop) → ∀ f, b.succs.head? = some f → k < f) ∧
    (∀ o, decode code pc = some (.switch o, b.stop) → ∀ t ∈ b.succs, k < t)

/-- A compiled method without hidden loops. -/
structure Watched (code : List Cell) (J : JitEnv) (F : Parts) (start : Nat) (C : Compiled) (A : Asm) : Prop where
  tables : Graph.NoNegativeTable code start
  compiled : ∃ fuel P B G blks, Graph.build code start fuel = .ok (P, B, G) ∧ blocksOf start B G.order G.order = some blks ∧
    compile code J F blks = some C ∧ NoHiddenLoop code C blks
  linked : Asm.run true {} C.ops = some A

/-- The memory of a compiled method in which the distances of the loop edges `es` have been exchanged. -/
def Patched (C : Compiled) (A : Asm) (chunk : BitVec 64) (es : List LoopEdge) (I : Image) : Prop :=
  es.Sublist C.loopEdges ∧ ∃ bytes old, swapEdges (A.table.length * 8) (A.image chunk) es = some (bytes, old) ∧
    I = ⟨bytes, chunk, A.table.length * 8⟩

/-- What happens to a run of `count` instructions that the watchdog cuts short: at some instruction `pc1` of the
run the processor goes to the code that reports the timeout (call number `r` of the assembler).  The state is that
after the instruction, and the map from addresses to instructions (`C.cips`) takes the return address on the stack
back to the instruction. -/
def Stopped (H : Host) (J : JitEnv) (E : Env) (method : Nat) (C : Compiled) (I : Image) (r count pc : Nat) (s : IState) (kp ka : Bool) (n : Nat) (m : Mach) : Prop :=
  ∃ count1 pc1 pc2 s1 s2 kp1 ka1 kp2 ka2 q m', StepsN H J E method count1 pc s kp ka pc1 s1 kp1 ka1 ∧ Step H J E method pc1 s1 kp1 ka1 pc2 s2 kp2 ka2 ∧
    count1 < count ∧ (q, pc1) ∈ C.cips ∧ Reach H I (pos C.ops n) m (pos C.ops r) m' ∧ Sim H kp2 ka2 m' s2 ∧
    m'.outer = ((I.entry + BitVec.ofNat 64 (pos C.ops q)) :: m.stack, m.outer.2)

end Verif.Jit

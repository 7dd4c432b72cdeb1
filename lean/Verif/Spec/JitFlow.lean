import Verif.Model.JitFlow
import Verif.Spec.Jit
import Verif.Spec.Graph
import Verif.Spec.X64Run

/-!
What it means that compiled code follows the interpreter through a method.
-/
namespace Verif.Jit
open Verif.VM hiding Op
open Verif.X64 hiding Pre decode

/-- A method was scanned, compiled and linked: `C` is what the compiler did and `A` the assembler afterwards. -/
structure Method (code : List Cell) (J : JitEnv) (F : Parts) (start : Nat) (C : Compiled) (A : Asm) : Prop where
  /-- no case table says that it has a negative number of cases (see C18) -/
  tables : Graph.NoNegativeTable code start
  compiled : ∃ fuel P B G blks, Graph.build code start fuel = .ok (P, B, G) ∧ blocksOf start B G.order G.order = some blks ∧
    compile code J F blks = some C
  linked : Asm.run true {} C.ops = some A

/-- Instructions that need rax to hold PRI, jumps among them. -/
def readsPri : Insn → Bool
  | .jcmp _ _ | .switch _ => true
  | i => needsPri i

/-- Instructions that need rdx to hold ALT. -/
def readsAlt : Insn → Bool
  | .jcmp .zero _ | .jcmp .notZero _ => false
  | .jcmp _ _ => true
  | i => needsAlt i

/-- The compiler translates the instruction without a call of the host or of another method. -/
def Inline (J : JitEnv) : Insn → Prop
  | .jump _ | .jcmp _ _ | .switch _ => True
  | i => ∃ is, jit J i = .code is ∧ hasCall is = false

/-- Where the interpreter goes on after an instruction that is followed by the one at `next`. -/
def Lands (E : Env) (next : Nat) : Ctl → Nat → Prop
  | .next, pc => pc = next
  | .goto o, pc => jumpIndex E o = some pc
  | _, _ => False

/-- The interpreter carries out one instruction in a method; `kp` and `ka` say whether the registers of the
compiled code follow PRI and ALT (compare `C62_compiled_instruction_partial`). -/
structure Step (H : Host) (J : JitEnv) (E : Env) (method : Nat) (pc : Nat) (s : IState) (kp ka : Bool) (pc' : Nat) (s' : IState)
    (kp' ka' : Bool) : Prop where
  ex : ∃ i next ctl, decode E.code pc = some (i, next) ∧ Inline J i ∧ (readsPri i = true → kp = true) ∧ (readsAlt i = true → ka = true) ∧
    Side H s i ∧ visit E method (next * 4) i s = .ok s' ctl ∧ Lands E next ctl pc' ∧ kp' = priAfter i kp ∧ ka' = altAfter i ka
  layout : Layout s'.vm

/-- Any number of instructions. -/
inductive Steps (H : Host) (J : JitEnv) (E : Env) (method : Nat) : Nat → IState → Bool → Bool → Nat → IState → Bool → Bool → Prop where
  | none (pc : Nat) (s : IState) (kp ka : Bool) : Steps H J E method pc s kp ka pc s kp ka
  | more {pc pc' pc'' : Nat} {s s' s'' : IState} {kp ka kp' ka' kp'' ka'' : Bool} : Step H J E method pc s kp ka pc' s' kp' ka' →
    Steps H J E method pc' s' kp' ka' pc'' s'' kp'' ka'' → Steps H J E method pc s kp ka pc'' s'' kp'' ka''

end Verif.Jit

import Verif.Model.Graph
import Verif.Model.Interp

/-! What a scanned method should satisfy, in terms of the instruction reader and the interpreter. -/
namespace Verif.Graph
open Verif.VM

/-- The positions met when the code after the PROC at `start` is decoded from front to back, up to the next PROC or ENDPROC or
the end of the code (that last position included). -/
inductive Boundary (code : List Cell) (start : Nat) : Nat → Prop where
  | first : Boundary code start (start + 1)
  | next {pc pc' : Nat} {i : Insn} : Boundary code start pc → code[pc]? ≠ some 46 → code[pc]? ≠ some 166 →
      decode code pc = some (i, pc') → Boundary code start pc'

/-- No case table met in that decoding has a negative number of cases. -/
def NoNegativeTable (code : List Cell) (start : Nat) : Prop :=
  ∀ pc n, Boundary code start pc → code[pc]? = some 130 → code[pc + 1]? = some n → 0 ≤ n.toInt

/-- The positions and states the interpreter's main loop (`Verif.VM.loop`) goes through when it runs the method at `start` from
state `s0`.  A callee may come back in any state. -/
inductive Executes (E : Env) (start : Nat) (s0 : IState) : Nat → IState → Prop where
  | enter : Executes E start s0 (start + 1) s0
  | next {pc pc' : Nat} {s s' : IState} {i : Insn} : Executes E start s0 pc s → decode E.code pc = some (i, pc') →
      visit E start (pc' * 4) i s = .ok s' .next → Executes E start s0 pc' s'
  | jump {pc pc' t : Nat} {s s' : IState} {i : Insn} {o : Int} : Executes E start s0 pc s → decode E.code pc = some (i, pc') →
      visit E start (pc' * 4) i s = .ok s' (.goto o) → jumpIndex E o = some t → Executes E start s0 t s'
  | back {pc pc' : Nat} {s s' s'' : IState} {i : Insn} {o : Int} : Executes E start s0 pc s → decode E.code pc = some (i, pc') →
      visit E start (pc' * 4) i s = .ok s' (.call o) → Executes E start s0 pc' s''

end Verif.Graph

import Verif.Spec.Memory

/-!
Well-nested activity (C04, C05): what a function may do between entering and leaving a heap scope or
between being called and returning.
-/
namespace Verif.VM

/-- Operations that neither open nor close a frame or a scope. -/
def Op.plain : Op → Bool
  | .enter | .leave | .call | .ret => false
  | _ => true

mutual
/-- Sequences in which every scope entered is left and every call returns. -/
inductive Nested : List Op → Prop where
  | nil : Nested []
  | plain {op ops} : op.plain = true → Nested ops → Nested (op :: ops)
  | scope {body ops} : Nested body → Nested ops → Nested (.enter :: body ++ .leave :: ops)
  | call {body ops} : NestedOpen body → Nested ops → Nested (.call :: body ++ .ret :: ops)
/-- The same, but scopes may still be open at the end (a return from inside a scope). -/
inductive NestedOpen : List Op → Prop where
  | closed {ops} : Nested ops → NestedOpen ops
  | opens {pre ops} : Nested pre → NestedOpen ops → NestedOpen (pre ++ .enter :: ops)
end

/-- `Steps b s g ops s' g'`: from state `s` with live records `g` the operations all succeed, each one
being legal, and lead to `s'` and `g'`; `b` is the state in which the whole history began. -/
inductive Steps (b : State) : State → List Link → List Op → State → List Link → Prop where
  | nil {s g} : Steps b s g [] s g
  | cons {s g op s1 ops s' g'} : Legal b s g op → op.exec s = .ok s1 () →
      Steps b s1 (shadow s g op) ops s' g' → Steps b s g (op :: ops) s' g'

end Verif.VM

import Verif.Model.Storage
import Verif.Spec.Memory

/-! C76: where the parts of a variable should be, in bytes. -/
namespace Verif.Storage
open Verif.VM (Cell IM IState)

/-- One step to a part: the element with this number, or the field with this name. -/
inductive Step
  | index (i : Nat)
  | field (f : Nat)
deriving DecidableEq, Repr

/-- A value that is not in an array of characters: a cell has four bytes. -/
def baseBytes (S : Structs) : Base → Nat
  | .cell | .char => 4
  | .int64 => 8
  | .struct s => ((find S s).map (·.size)).getD 0 * 4

/-- How many bytes a variable or a part of it has.  An array of characters fills whole cells. -/
def bytes (S : Structs) : Place → Nat
  | .byte => 1
  | .obj (.one b) => baseBytes S b
  | .obj (.array .char n) => (n + 3) / 4 * 4
  | .obj (.array b n) => n * baseBytes S b

/-- The elements of an array. -/
def elem : Base → Place
  | .char => .byte
  | b => .obj (.one b)

/-- Fields follow each other: where a field is, and its type. -/
def fieldPos (S : Structs) (f : Nat) : List Field → Option (Nat × Ty)
  | [] => none
  | d :: ds => if d.name = f then some (0, d.ty) else (fieldPos S f ds).map fun (o, t) => (bytes S (.obj d.ty) + o, t)

/-- Where one step leads. -/
def next (S : Structs) : Place → Step → Option (Nat × Place)
  | .obj (.array b n), .index i => if i < n then some (i * bytes S (elem b), elem b) else none
  | .obj (.one (.struct s)), .field f => (find S s).bind fun d => (fieldPos S f d.fields).map fun (o, t) => (o, .obj t)
  | _, _ => none

/-- Where several steps lead: the distance from the start of the variable, and the part that is there. -/
def follow (S : Structs) : Place → List Step → Option (Nat × Place)
  | p, [] => some (0, p)
  | p, x :: xs =>
    match next S p x with
    | none => none
    | some (o, p') => (follow S p' xs).map fun (o', q) => (o + o', q)

/-- The steps of an access, if the index expressions have the values `v`. -/
def Access.steps (v : Nat → Cell) : Access → List Step
  | .var => []
  | .index e (.const c) => e.steps v ++ [.index c.toNat]
  | .index e (.code k) => e.steps v ++ [.index (v k).toNat]
  | .field e f => e.steps v ++ [.field f]

/-- The code of the index expressions computes `v` and leaves the stack as it was.  (In one run the code of an expression is only
reached once, so that one may think of `ev` as what it does in that state.) -/
def Evaluates (ev : Nat → IM Unit) (v : Nat → Cell) : Prop :=
  ∀ k s s' u, Verif.VM.Layout s.vm → ev k s = .ok s' u →
    s'.pri = v k ∧ Verif.VM.Layout s'.vm ∧ s'.vm.sp = s.vm.sp ∧ s'.vm.hp = s.vm.hp ∧ s'.vm.stp = s.vm.stp ∧
      Verif.VM.rd32 s'.vm.mem s.vm.sp = Verif.VM.rd32 s.vm.mem s.vm.sp

/-- The program is accepted, and `S` are its enum structs. -/
def Accepted (ds : List Decl) (S : Structs) : Prop := enterAll [] ds = some (S, [])

/-- A type with a known size (a positive `cell`), whose enum struct is declared. -/
def Known (S : Structs) : Ty → Prop
  | .one (.struct s) => (find S s).isSome
  | .one _ => True
  | .array (.struct s) n => (0 < n ∧ n < 2147483648) ∧ (find S s).isSome
  | .array _ n => 0 < n ∧ n < 2147483648

/-- The type that a field is declared with: `int x` or `int x[3]`. -/
def FieldDecl.declared (f : FieldDecl) : Ty :=
  match f.dims with
  | [some n] => .array f.base n.toNat
  | _ => .one f.base

end Verif.Storage

import Verif.Model.Convert

/-!
How values of one type become values of another.
-/
namespace Verif.Convert

/-- A methodmap is another one, or extends it. -/
inductive Extends : Map → Map → Prop
  | refl (m : Map) : Extends m m
  | step {p m : Map} (i : Nat) (n : Bool) : Extends p m → Extends (.ext i n p) m

/-- What the bits of a value mean. -/
inductive Kind
  /-- a number, or a handle -/
  | cell
  | float | int64 | func
  | struct (id : Nat)
  | any | void | null
deriving DecidableEq

def kind : Ty → Kind
  | .int | .char | .bool | .enum _ | .map _ => .cell
  | .int64 => .int64
  | .float => .float
  | .func _ => .func
  | .struct i => .struct i
  | .any => .any
  | .void => .void
  | .null => .null

/-- The types that are numbers of their own: values of other types do not belong in them. -/
def Named : Ty → Prop
  | .enum _ | .map _ => True
  | _ => False

/-- A value of the type `s` belongs in a variable of the type `t`, which is an enum or a methodmap. -/
def Belongs (t s : Ty) : Prop :=
  s = t ∨ s = .any ∨ (∃ a b, t = .map a ∧ s = .map b ∧ Extends b a) ∨ (∃ a, t = .map a ∧ a.nullable = true ∧ s = .null)

/-- A value of the type `s` gets into a variable of the type `t`, by any number of assignments, calls and returns, and of choices `c ? x : y`, none of which has a
message, and without a variable of type `any`, or a choice with `any` or `null`.  (There are no variables whose type is that of `null`.)  The first value of a choice
keeps its type; the second gets the type of the choice. -/
inductive Flow (E : Env) (s : Ty) : Ty → Prop
  | start : Flow E s s
  | move {t t' : Ty} (how : How) : Flow E s t → messages E how t' t = [] → t' ≠ .any → t' ≠ .null → Flow E s t'
  | choose {t x : Ty} : Flow E s t → (ternary E x t).1 = [] → x ≠ .any → x ≠ .null → Flow E s (ternary E x t).2

/-- The same, from methodmap to methodmap. -/
inductive MapFlow (E : Env) (s : Map) : Map → Prop
  | start : MapFlow E s s
  | move {t t' : Map} (how : How) : MapFlow E s t → messages E how (.map t') (.map t) = [] → MapFlow E s t'

/-- The types whose values are one cell, of which `view_as` only changes what is taken to be in it. -/
def OneCell : Ty → Prop
  | .int | .char | .bool | .float | .any | .enum _ | .map _ => True
  | .int64 | .void | .null | .struct _ | .func _ => False

/-- A value of the type `s` can be viewed as a `t`. -/
inductive Viewable (E : Env) : Ty → Ty → Prop
  | same (t : Ty) : Viewable E t t
  | cell {t s : Ty} : OneCell t → OneCell s → Viewable E t s
  | narrow : Viewable E .int .int64
  | widen : Viewable E .int64 .int
  | widenAny : Viewable E .int64 .any
  | nullMap {m : Map} : m.nullable = true → Viewable E (.map m) .null
  | nullFunc (f : Option Nat) : Viewable E (.func f) .null
  | anyFunc (f : Option Nat) : Viewable E (.func none) (.func f)
  | fits {a b : Nat} : E.fits' a b = true → Viewable E (.func (some a)) (.func (some b))

end Verif.Convert

import Verif.Model.Methodmap
/-
What a reader of the source expects of methodmaps, in terms of the declarations as written.
-/
namespace Verif.Methodmap

/-- Map `i` is declared as extending map `j`. -/
def Extends (ds : List Decl) (i j : Nat) : Prop :=
  ∃ d e, ds[i]? = some d ∧ ds[j]? = some e ∧ d.extends_ = some e.name

/-- The line of a map: itself, the map it extends, the one that extends, and so on to a map that
extends nothing. -/
inductive Line (ds : List Decl) : Nat → List Nat → Prop where
  | root {i d} : ds[i]? = some d → d.extends_ = none → Line ds i [i]
  | step {i j l} : Extends ds i j → Line ds j l → Line ds i (i :: l)

/-- Map `j` declares the member `m` under the name `n`.  A destructor has no name a program can
use. -/
def Declares (ds : List Decl) (j : Nat) (n : Atom) : Member → Prop
  | .property k => ∃ d, ds[j]? = some d ∧ d.properties[k]? = some n
  | .method k => ∃ d m, ds[j]? = some d ∧ d.methods[k]? = some m ∧ m.isDtor = false ∧ m.name = n

/-- Method `k` of map `j` is a destructor. -/
def Destroys (ds : List Decl) (j k : Nat) : Prop :=
  ∃ d m, ds[j]? = some d ∧ d.methods[k]? = some m ∧ m.isDtor = true

/-- Method `k` of map `j` is a constructor: it has the map's name and no `~`. -/
def Constructs (ds : List Decl) (j k : Nat) : Prop :=
  ∃ d m, ds[j]? = some d ∧ d.methods[k]? = some m ∧ m.isDtor = false ∧ m.name = d.name

/-- `x` is the first on the line for which `P` holds of something. -/
def Nearest {α : Type} (l : List Nat) (P : Nat → α → Prop) (j : Nat) (a : α) : Prop :=
  ∃ before after, l = before ++ j :: after ∧ P j a ∧ ∀ k ∈ before, ∀ b, ¬ P k b

/-- A name a program can write: no identifier begins with `~`. -/
def Identifier (n : Atom) : Prop := n.head? ≠ some '~'

/-- The steps of a state's parents, one or more. -/
inductive Above (s : State) : Nat → Nat → Prop where
  | one {i j} : s[i]?.bind (·.parent) = some j → Above s i j
  | more {i j k} : s[i]?.bind (·.parent) = some j → Above s j k → Above s i k

end Verif.Methodmap

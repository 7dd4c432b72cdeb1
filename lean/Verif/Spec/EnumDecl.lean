import Verif.Model.EnumDecl
/-! What a list of declarations says: which names it declares, and which of them are constants. -/
namespace Verif.EnumDecl
variable {E : Type}

/-- The constants a declaration declares. -/
def Item.constants : Item E → List Nat
  | .const a _ => [a]
  | .enum _ _ fs => fs.map (·.1)
  | .other _ => []

/-- The names a declaration declares. -/
def Item.declares : Item E → List Nat
  | .const a _ => [a]
  | .enum n _ fs => n.toList ++ fs.map (·.1)
  | .other a => [a]

/-- A program that is accepted, whatever memory holds. -/
def Accepted (X : Exprs E) (junk : Cell) (p : List (Item E)) : Prop := (resolve X junk p).bad = false

end Verif.EnumDecl

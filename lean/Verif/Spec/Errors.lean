import Verif.Model.Errors

/-! What exception-handling scopes should do: try/catch. -/
namespace Verif.Errors

/-- `caught` is whether any scope is open.  The result is the error that goes on to the enclosing code, if any, and what each
scope saw. -/
def Host.means : Host → (caught : Bool) → Option (Int × String) × List (Nat × Int × String)
  | .skip, _ => (none, [])
  | .report c m, caught => (if caught then some (c, m) else none, [])
  | .seq a b, caught =>
    match a.means caught with
    | (some e, l) => (some e, l)
    | (none, l) => ((b.means caught).1, l ++ (b.means caught).2)
  | .scope h again body, caught =>
    match body.means true with
    | (none, l) => (none, l)
    | (some (c, m), l) => (if again c m ∧ caught then some (c, m) else none, l ++ [(h, c, m)])
  | .execute h body, _ =>
    match body.means true with
    | (none, l) => (none, l)
    | (some (c, m), l) => (none, l ++ [(h, c, m)])

/-- Errors have non-zero codes and handler objects that exist at the same time have different addresses. -/
def Host.Ok : Host → List Nat → Prop
  | .skip, _ => True
  | .report c _, _ => c ≠ 0
  | .seq a b, live => a.Ok live ∧ b.Ok live
  | .scope h _ body, live => h ∉ live ∧ body.Ok (h :: live)
  | .execute h body, live => h ∉ live ∧ body.Ok (h :: live)

/-- The handlers in `live` are linked from the top in this order. -/
def Linked (next : Nat → Option Nat) : Option Nat → List Nat → Prop
  | t, [] => t = none
  | t, h :: live => t = some h ∧ Linked next (next h) live

end Verif.Errors

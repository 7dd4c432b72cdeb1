import Verif.Model.Reports
/-
What a user expects of the compiler's messages and of its exit code.
-/
namespace Verif.Reports

/-- The messages that a piece of work raises for the user, in order: all of them, except those that
were raised while the compiler was only trying something and that it then gave up. -/
def kept : Work → List Msg
  | .nothing => []
  | .report msg => [msg]
  | .nextStatement => []
  | .onePerStatement _ => []
  | .seq a b => kept a ++ kept b
  | .deferred body released => if released then kept body else []

/-- Numbers below 200 and from 400 on are errors.  The others are warnings. -/
def IsErrorNumber (n : Nat) : Prop := n < 200 ∨ 400 ≤ n

/-- The user has made this message an error, or it is one. -/
def Fatal (o : Opts) (m : Msg) : Prop :=
  IsErrorNumber m.number ∨ (o.warningsAreErrors = true ∧ m.number < 300)

/-- The user should see this message. -/
def Shown (o : Opts) (m : Msg) : Prop :=
  Fatal o m ∨ m.number ∉ o.disabled

/-- A phase that succeeds and raises no error. -/
def Phase.Clean (o : Opts) (p : Phase) : Prop :=
  p.ok = true ∧ ∀ m ∈ kept p.work, ¬ Fatal o m

/-- The phases that look at the program. -/
def Program.checks (p : Program) : List Phase :=
  [p.setup, p.parse, p.enter, p.bind, p.analyze, p.generate]

/-- A phase that says why it fails: when it does not succeed it raises an error. -/
def Phase.Explains (o : Opts) (p : Phase) : Prop :=
  p.ok = false → ∃ m ∈ kept p.work, Fatal o m

/-- Everything that was printed. -/
def Outcome.printed (r : Outcome) : List Report := r.first ++ r.second

end Verif.Reports

import Verif.Model.HeapScope

/-! What a statement may take of the heap. -/
namespace Verif.HeapScope

/-- All that is written in a statement, each expression counted once (however often it is executed), with a cell for every place where the heap can be saved. -/
def Stmt.usage : Stmt → Nat
  | .simple n | .assert n | .ret n => n
  | .brk | .cont | .skip => 0
  | .seq a b | .alt a b => a.usage + b.usage
  | .block a => a.usage + 4
  | .ifThen c a => c.n + (a.usage + 4)
  | .ifElse c a b => c.n + ((a.usage + 4) + (b.usage + 4))
  | .while c body | .doWhile body c => (c.n + 4) + (body.usage + 4)
  | .for init c step body => init.usage + (c.n + ((body.usage + 4) + (step.getD 0 + 4)))
  | .switch n a => n + a.usage

/-- `break` or `continue` leaves the statement. -/
def Stmt.jumps : Stmt → Bool
  | .brk | .cont => true
  | .simple _ | .assert _ | .ret _ | .skip => false
  | .seq a b | .alt a b | .ifElse _ a b => a.jumps || b.jumps
  | .block a | .ifThen _ a | .switch _ a => a.jumps
  -- those in the body of a loop do not leave the loop
  | .while _ _ | .doWhile _ _ => false
  | .for init _ _ _ => init.jumps

/-- A body that is taken to return, and takes from the heap, is not left by `break` or `continue`. -/
def Stmt.fine (s : Stmt) : Prop := s.pend = true → s.flow = .ret → s.jumps = false

/-- This holds of all bodies within the statement, and no condition of a `for` takes from the heap. -/
def Stmt.Ok : Stmt → Prop
  | .simple _ | .assert _ | .ret _ | .brk | .cont | .skip => True
  | .seq a b | .alt a b => a.Ok ∧ b.Ok
  | .block a | .ifThen _ a => a.Ok ∧ a.fine
  | .ifElse _ a b => (a.Ok ∧ a.fine) ∧ (b.Ok ∧ b.fine)
  | .while _ body | .doWhile body _ => body.Ok ∧ body.fine
  | .for init c _ body => init.Ok ∧ c.n = 0 ∧ body.Ok ∧ body.fine
  | .switch _ a => a.Ok

/-- The addresses of the scopes go down. -/
def Sorted : Nat → List Nat → Prop
  | _, [] => True
  | hp, a :: rest => a ≤ hp ∧ Sorted a rest

/-- How many of the scopes `hs` that have been saved are within the loop, around which there are `d` scopes. -/
def act : List Bool → Nat → Nat
  | [], _ => 0
  | b :: hs, d => if hs.length + 1 = d then 0 else (if b then 1 else 0) + act hs d

end Verif.HeapScope

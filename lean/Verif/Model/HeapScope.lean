import Verif.Model.StmtGen

/-!
Heap scopes: where compiled code saves and restores the heap (compiler/semantics.cpp: CheckStmt, CheckBlockStmt, NeedsHeapAlloc, AssignHeapOwnership;
compiler/code-generator.cpp: EmitStmt, EnterHeapScope, LeaveHeapScope, EmitLoopControl; vm/plugin-runtime.cpp: enterHeapScope, leaveHeapScope, heapAlloc).

Simplifications.  Of a statement only the amounts of heap its expressions may take are left (local arrays, temporaries of calls); all tests can go both ways unless they are
constant.  Code is kept as a tree, in which jumps go to the end of the branch or to the `break_to` and `continue_to` of the loop (that the labels
lead there is C39 and C40).
-/
namespace Verif.HeapScope
open Verif.CodeGen (Flow)

/-- A condition: how much heap it may take, and its value if it is constant. -/
structure Cond where
  n : Nat
  const : Option Bool
deriving DecidableEq, Repr

/-- Statements.  `seq` and `skip` are lists of statements, `alt` are the cases of a switch (`skip` stands for a missing default). -/
inductive Stmt
  /-- an expression or a declaration that may take `n` bytes -/
  | simple (n : Nat)
  /-- an assertion, or any other expression that may stop the program -/
  | assert (n : Nat)
  | ret (n : Nat)
  | brk
  | cont
  | skip
  | seq (a b : Stmt)
  | alt (a b : Stmt)
  | block (a : Stmt)
  | ifThen (c : Cond) (a : Stmt)
  | ifElse (c : Cond) (a b : Stmt)
  | while (c : Cond) (body : Stmt)
  | doWhile (body : Stmt) (c : Cond)
  | for (init : Stmt) (c : Cond) (step : Option Nat) (body : Stmt)
  | switch (n : Nat) (cases : Stmt)
deriving DecidableEq, Repr

/-- compiler/semantics.cpp:2358 and what the loops do with `loop_has_break()`. -/
def Stmt.hasBrk : Stmt → Bool
  | .brk => true
  | .seq a b | .alt a b | .ifElse _ a b => a.hasBrk || b.hasBrk
  | .block a | .ifThen _ a | .switch _ a => a.hasBrk
  | .for init _ _ _ => init.hasBrk
  | _ => false

/-- Does a `continue` leave the statement? -/
def Stmt.hasCont : Stmt → Bool
  | .cont => true
  | .seq a b | .alt a b | .ifElse _ a b => a.hasCont || b.hasCont
  | .block a | .ifThen _ a | .switch _ a => a.hasCont
  | .for init _ _ _ => init.hasCont
  | _ => false

/-- compiler/semantics.cpp:2363, 2629: `loop_has_continue()`, which `while` and `do` do not reset. -/
def Stmt.leak : Stmt → Bool
  | .cont => true
  | .seq a b | .alt a b | .ifElse _ a b => a.leak || b.leak
  | .block a | .ifThen _ a | .switch _ a | .while _ a | .doWhile a _ => a.leak
  | .for init _ _ _ => init.leak
  | _ => false

/-- compiler/semantics.cpp:2368: `loop_has_return()`. -/
def Stmt.hasRet : Stmt → Bool
  | .ret _ => true
  | .seq a b | .alt a b | .ifElse _ a b => a.hasRet || b.hasRet
  | .block a | .ifThen _ a | .switch _ a => a.hasRet
  | .for init _ _ _ => init.hasRet
  | _ => false

/-- compiler/semantics.cpp:2584-2594, 2649-2657 -/
def loopFlow (always : Bool) (body : Stmt) : Flow := if always && !body.hasBrk && body.hasRet then .ret else .none

/-- compiler/semantics.cpp: `flow_type()` -/
def Stmt.flow : Stmt → Flow
  | .simple _ | .assert _ | .skip | .ifThen .. => .none
  | .ret _ => .ret
  | .brk => .brk
  | .cont => .cont
  | .seq a b => a.flow.seq b.flow
  | .alt a b | .ifElse _ a b => a.flow.join b.flow
  | .block a | .switch _ a => a.flow
  | .while c body => if c.const = some false then .none else loopFlow (c.const = some true) body
  | .doWhile body c => loopFlow (c.const = some true) body
  | .for _ c _ body => if c.const = some false then .none else loopFlow (c.const = some true) body

/-- Does a statement leave `pending_heap_allocation_` set, for the statement around it that owns the heap (compiler/semantics.cpp:92-100, 185, 2331, 2353, 2557-2562, 2605, 2613,
2890-2900)?  The condition of `for` does; that of `while` and `do` does not. -/
def Stmt.pend : Stmt → Bool
  | .simple n | .assert n | .ret n => n != 0
  | .brk | .cont | .skip | .block _ | .while .. | .doWhile .. => false
  | .seq a b | .alt a b => a.pend || b.pend
  | .ifThen c _ | .ifElse c _ _ => c.n != 0
  | .for init c _ _ => init.pend || c.n != 0
  | .switch n a => n != 0 || a.pend

/-- Code, as far as it matters for the heap. -/
inductive Code
  | skip
  /-- HEAP_SAVE -/
  | save
  /-- HEAP_RESTORE -/
  | restore
  /-- HEAP and GENARRAY, of at most `n` bytes in all -/
  | alloc (n : Nat)
  /-- JUMP break_to, JUMP continue_to, RETN (or HALT) -/
  | brk
  | cont
  | ret
  /-- a conditional jump to break_to -/
  | exitIf
  | seq (a b : Code)
  /-- a conditional jump over one of the two -/
  | choice (a b : Code)
  /-- `body` with the label continue_to at its end -/
  | catchCont (body : Code)
  /-- `body` and a jump to its start; the label break_to is at the end -/
  | loop (body : Code)

infixr:60 " ⊳ " => Code.seq

/-- compiler/code-generator.cpp:1794-1799, in EmitLoopControl.  `hs` are the scopes (`needs_restore`), innermost first; the `scope_id` of a scope is the number of scopes around
it (2143-2149), and `d - 1` is the `heap_scope_id` of the loop. -/
def unwind : List Bool → Nat → Code
  | [], _ => .skip
  | b :: hs, d => if hs.length + 1 = d then .skip else (if b then .restore else .skip) ⊳ unwind hs d

/-- compiler/code-generator.cpp:149-150, 243-244 with EnterHeapScope and LeaveHeapScope (2194-2207). -/
def wrap (flag : Bool) (flow : Flow) (k : List Bool → Code) (hs : List Bool) : Code :=
  if flag then
    if flow = .ret then k (false :: hs) else .save ⊳ k (true :: hs) ⊳ .restore
  else k hs

/-- Expressions. -/
def expr (n : Nat) : Code := if n = 0 then .skip else .alloc n

/-- The jump after the condition of a loop. -/
def exit : Option Bool → Code
  | some true => .skip
  | some false => .brk
  | none => .exitIf

/-- compiler/code-generator.cpp:1744-1757, 1764-1780: the condition of `while` and `do` in a scope of its own.  The value is kept on the stack meanwhile. -/
def inScope (n : Nat) : Code := if n = 0 then expr n else .save ⊳ expr n ⊳ .restore

/-- The cases of a switch and the parts of an `if`: a jump over the rest follows if the flow is none. -/
def branch (a : Stmt) (x y : Code) : Code := .choice (if a.flow = .none then x else x ⊳ y) y

/-- compiler/code-generator.cpp:139-250 EmitStmt; `d` is the number of scopes around the loop. -/
def code : Stmt → List Bool → Nat → Code
  | .simple n, _, _ => expr n
  | .assert n, _, _ => expr n ⊳ .choice .skip .ret
  | .ret n, _, _ => expr n ⊳ .ret
  | .brk, hs, d => unwind hs d ⊳ .brk
  | .cont, hs, d => unwind hs d ⊳ .cont
  | .skip, _, _ => .skip
  | .seq a b, hs, d => code a hs d ⊳ code b hs d
  | .alt a b, hs, d => branch a (code a hs d) (code b hs d)
  | .block a, hs, d => wrap a.pend a.flow (fun hs => code a hs d) hs
  | .ifThen c a, hs, d => expr c.n ⊳ .choice (wrap a.pend a.flow (fun hs => code a hs d) hs) .skip
  | .ifElse c a b, hs, d => expr c.n ⊳ branch a (wrap a.pend a.flow (fun hs => code a hs d) hs) (wrap b.pend b.flow (fun hs => code b hs d) hs)
  | .while c body, hs, _ =>
    .loop (inScope c.n ⊳ exit c.const ⊳
      .catchCont (wrap body.pend body.flow (fun h => code body h hs.length) hs ⊳ if body.flow = .none then .skip else .brk))
  | .doWhile body c, hs, _ =>
    .loop (.catchCont (wrap body.pend body.flow (fun h => code body h hs.length) hs) ⊳
      if !body.flow.terminal || body.hasCont then inScope c.n ⊳ exit c.const else .brk)
  | .for init c step body, hs, d =>
    let always := decide (c.const = some true)
    let hasContinue := body.leak || !body.flow.terminal || !always
    let exits := body.flow.terminal && !hasContinue
    let test := if always then Code.skip else expr c.n ⊳ .exitIf
    let x := wrap body.pend body.flow (fun h => code body h hs.length) hs
    let back := if exits then Code.brk else .skip
    code init hs d ⊳
      if c.const = some false then .skip
      else match step with
        | some n => .loop (test ⊳ .catchCont x ⊳ (if hasContinue then inScope n else .skip) ⊳ back)
        | none => .loop (test ⊳ .catchCont (x ⊳ back))
  | .switch n a, hs, d => expr n ⊳ code a hs d

/-- The body of a function, or of a loop or branch: it owns what it takes (STMT_OWNS_HEAP). -/
def own (s : Stmt) (hs : List Bool) (d : Nat) : Code := wrap s.pend s.flow (fun hs => code s hs d) hs

/-! ### The machine -/

/-- `hp_`, the chain of `hp_scope_`, and the highest and the lowest `hp_` so far (the latter after releasing). -/
structure St where
  hp : Nat
  scopes : List Nat
  hi : Nat
  lo : Nat
deriving DecidableEq, Repr

/-- How code is left.  `stop`: it is not yet. `crash`: HEAP_RESTORE without a scope. -/
inductive Out | normal | brk | cont | ret | stop | crash
deriving DecidableEq, Repr

def Out.lift : Out → Out
  | .brk => .normal
  | o => o

def Out.caught : Out → Out
  | .cont => .normal
  | o => o

/-- vm/plugin-runtime.cpp:840-853 enterHeapScope: a cell with the previous scope is taken. -/
def St.save (s : St) : St := { s with hp := s.hp + 4, scopes := s.hp :: s.scopes, hi := max s.hi (s.hp + 4) }

/-- heapAlloc -/
def St.alloc (s : St) (m : Nat) : St := { s with hp := s.hp + m, hi := max s.hi (s.hp + m) }

/-- vm/plugin-runtime.cpp:855-868 leaveHeapScope -/
def St.restore (s : St) (a : Nat) (rest : List Nat) : St := { s with hp := a, scopes := rest, lo := min s.lo a }

/-- Execution, up to any point. -/
inductive Exec : Code → St → Out → St → Prop
  | pause (c : Code) (s : St) : Exec c s .stop s
  | skip (s : St) : Exec .skip s .normal s
  | save (s : St) : Exec .save s .normal s.save
  | restore (s : St) {a : Nat} {rest : List Nat} : s.scopes = a :: rest → Exec .restore s .normal (s.restore a rest)
  | crash (s : St) : s.scopes = [] → Exec .restore s .crash s
  | alloc (s : St) {n m : Nat} : m ≤ n → Exec (.alloc n) s .normal (s.alloc m)
  | brk (s : St) : Exec .brk s .brk s
  | cont (s : St) : Exec .cont s .cont s
  | ret (s : St) : Exec .ret s .ret s
  | stay (s : St) : Exec .exitIf s .normal s
  | leave (s : St) : Exec .exitIf s .brk s
  | seq {a b : Code} {s s1 s2 : St} {o : Out} : Exec a s .normal s1 → Exec b s1 o s2 → Exec (a ⊳ b) s o s2
  | seqOut {a b : Code} {s s1 : St} {o : Out} : Exec a s o s1 → o ≠ .normal → Exec (a ⊳ b) s o s1
  | left {a b : Code} {s s1 : St} {o : Out} : Exec a s o s1 → Exec (.choice a b) s o s1
  | right {a b : Code} {s s1 : St} {o : Out} : Exec b s o s1 → Exec (.choice a b) s o s1
  | catchCont {a : Code} {s s1 : St} {o : Out} : Exec a s o s1 → Exec (.catchCont a) s o.caught s1
  | again {a : Code} {s s1 s2 : St} {o : Out} : Exec a s .normal s1 → Exec (.loop a) s1 o s2 → Exec (.loop a) s o s2
  | loopOut {a : Code} {s s1 : St} {o : Out} : Exec a s o s1 → o ≠ .normal → Exec (.loop a) s o.lift s1

end Verif.HeapScope

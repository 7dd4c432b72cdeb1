import Verif.Model.CodeGen

/-!
The part of the compiler that turns statements and functions into code: flow analysis (compiler/semantics.cpp) and emission
(compiler/code-generator.cpp).

Simplifications, besides those of `Verif.Model.CodeGen`.  Expressions do not allocate on the heap, so there are no heap scopes; the
local slot of each variable is given (`AddLocalSlot` numbers the declarations of a function one after the other); debug information and
warnings are left out.
-/
namespace Verif.CodeGen
open Verif.VM (Cell Insn Reg)
open Verif.Lang (Expr Stmt Stmts Cases Func)

/-- compiler/parse-node.h:100-105 FlowType. -/
inductive Flow where | none | cont | brk | ret
deriving DecidableEq, Repr

/-- compiler/parse-node.h:107-109 IsTerminalFlow. -/
def Flow.terminal : Flow → Bool
  | .ret | .brk => true
  | _ => false

/-- compiler/semantics.cpp:2348-2351, 2243-2248: flow of a sequence, and of two alternatives. -/
def Flow.seq (a b : Flow) : Flow := if a = .none then b else a

@[inherit_doc Flow.seq] def Flow.join (a b : Flow) : Flow := if a = b then a else .none

/-- What the code generator knows about a statement.  Every statement is emitted right behind a BREAK instruction. -/
structure SNode where
  /-- rejected -/
  bad : Bool
  /-- `flow_type()` -/
  flow : Flow
  /-- sets `loop_has_break()` of the loop around it -/
  brk : Bool
  /-- its code jumps to `continue_to` of the loop around it -/
  cont : Bool
  /-- sets `loop_has_continue()` -/
  leak : Bool
  /-- sets `loop_has_return()` -/
  ret : Bool
  /-- no code follows its last BREAK instruction: `last_break_op_` is the current position -/
  after : Bool
  /-- code, given `break_to` and `continue_to` of the loop around it -/
  code : Nat → Nat → Code

/-- The same for a sequence of statements, given whether it starts right behind a BREAK instruction. -/
structure SNodes where
  bad : Bool
  flow : Flow
  brk : Bool
  cont : Bool
  leak : Bool
  ret : Bool
  after : Bool → Bool
  code : Bool → Nat → Nat → Code

/-- The same for the cases of a switch; the further target is the end of the switch. -/
structure CNode where
  bad : Bool
  flow : Flow
  brk : Bool
  cont : Bool
  leak : Bool
  ret : Bool
  keys : List Cell
  code : Bool → Nat → Nat → Nat → Code
  /-- values with the positions of their cases, if the code is emitted at this position -/
  table : Bool → Nat → List (Cell × Nat)
  /-- position of the default -/
  dflt : Bool → Nat → Option Nat

/-- compiler/code-generator.cpp:2004-2011 EmitBreak: not twice at the same position. -/
def emitBreak (after : Bool) : Code := emitIf (!after) (ins .brk)

/-- compiler/code-generator.cpp:139-250 EmitStmt. -/
def emitStmt (after : Bool) (s : SNode) (b c : Nat) : Code := emitBreak after ⨟ s.code b c

/-- A statement without control flow. -/
def simpleStmt (bad after : Bool) (code : Code) : SNode :=
  { bad, flow := .none, brk := false, cont := false, leak := false, ret := false, after, code := fun _ _ => code }

/-- compiler/code-generator.cpp:159-162 and compiler/semantics.cpp:2251-2259, an expression whose value is not used. -/
def exprStmt (e : Node) : SNode := simpleStmt e.bad ((e.bare true 0).isEmpty) (e.bare true)

/-- compiler/code-generator.cpp:337-372 EmitLocalVar for an integer. -/
def localVar (L : Layout) (slot : Nat) (init : Option Node) : SNode :=
  simpleStmt ((init.elim false (·.bad)) || !L.hasSlot slot) false
    (match init with
    | none => ins (.zeroS slot)
    | some e => e.const.elim (e.expr ⨟ ins (.storS slot .pri)) fun v => ins (.storSC slot v))

/-- compiler/code-generator.cpp:172-180 and compiler/semantics.cpp:2331-2355. -/
def blockStmt (ss : SNodes) : SNode :=
  { bad := ss.bad, flow := ss.flow, brk := ss.brk, cont := ss.cont, leak := ss.leak, ret := ss.ret, after := ss.after true, code := ss.code true }

/-- compiler/code-generator.cpp:1446-1464 EmitIfStmt and compiler/semantics.cpp:2230-2249, without else. -/
def ifThen (c : Node) (a : SNode) : SNode :=
  { bad := c.bad || a.bad, flow := .none, brk := a.brk, cont := a.cont, leak := a.leak, ret := a.ret, after := a.after
    code := fun b k => endLabel fun flab1 => c.test false flab1 ⨟ emitStmt false a b k }

/-- compiler/code-generator.cpp:1446-1464 EmitIfStmt and compiler/semantics.cpp:2230-2249, with else. -/
def ifElse (c : Node) (x y : SNode) : SNode :=
  { bad := c.bad || x.bad || y.bad, flow := x.flow.join y.flow, brk := x.brk || y.brk, cont := x.cont || y.cont, leak := x.leak || y.leak,
    ret := x.ret || y.ret, after := y.after
    code := fun b k => endLabel fun flab2 =>
      (endLabel fun flab1 => c.test false flab1 ⨟ emitStmt false x b k ⨟ emitIf (x.flow = .none) (ins (.jump (off flab2)))) ⨟
      emitStmt (if x.flow = .none then false else x.after) y b k }

/-- compiler/semantics.cpp:2562-2593: is the condition constantly true or false? -/
def alwaysTaken (c : Option Node) : Bool := c.elim true fun e => e.const.elim false (· ≠ 0)

@[inherit_doc alwaysTaken] def neverTaken (c : Option Node) : Bool := c.elim false fun e => e.const.elim false (· = 0)

/-- compiler/semantics.cpp:2582-2591 and 2643-2651: a loop is left only by returning. -/
def loopFlow (taken : Bool) (body : SNode) : Flow := if taken && !body.brk && body.ret then .ret else .none

/-- compiler/code-generator.cpp:1758-1783 EmitDoWhileStmt for `while` and compiler/semantics.cpp:2555-2598.  `loop_has_continue()` is
not reset for these loops. -/
def whileStmt (c : Node) (body : SNode) : SNode :=
  { bad := c.bad || body.bad, flow := if neverTaken (some c) then .none else loopFlow (alwaysTaken (some c)) body
    brk := false, cont := false, leak := body.leak, ret := false, after := if body.flow = .none then false else body.after
    code := fun _ _ => topLabel fun top => endLabel fun exit =>
      c.test false exit ⨟ emitStmt false body exit top ⨟ emitIf (body.flow = .none) (ins (.jump (off top))) }

/-- compiler/code-generator.cpp:1732-1757 EmitDoWhileStmt for `do` and compiler/semantics.cpp:2555-2598. -/
def doStmt (body : SNode) (c : Node) : SNode :=
  let tested := !body.flow.terminal || body.cont
  { bad := c.bad || body.bad, flow := loopFlow (alwaysTaken (some c)) body
    brk := false, cont := false, leak := body.leak, ret := false, after := if tested then false else body.after
    code := fun _ _ => topLabel fun start => endLabel fun exit =>
      (endLabel fun next => emitStmt true body exit next) ⨟ emitIf tested (c.test true start) }

/-- compiler/code-generator.cpp:1807-1882 EmitForStmt and compiler/semantics.cpp:2600-2661.  `advance->discard()` reads the flag
instead of setting it, so the value of the third expression is computed. -/
def forStmt (init : SNodes) (c step : Option Node) (body : SNode) : SNode :=
  let always := alwaysTaken c
  let never := neverTaken c
  let hasContinue := body.leak || !body.flow.terminal || !always
  let exits := body.flow.terminal && !hasContinue
  let tested := !always
  let test : Nat → Code := fun exit => c.elim skip fun e => emitIf tested (e.test false exit)
  let first := if tested then false else init.after true
  { bad := init.bad || (c.elim false (·.bad)) || (step.elim false (·.bad)) || body.bad
    flow := if never then .none else loopFlow always body
    brk := init.brk, cont := init.cont, leak := init.leak, ret := init.ret
    after := if never then init.after true else if exits then body.after else false
    code := fun b k => init.code true b k ⨟
      if never then skip
      else match step with
        | some e => topLabel fun top => endLabel fun exit =>
            test exit ⨟ (endLabel fun next => emitStmt first body exit next) ⨟ emitIf hasContinue (e.bare false) ⨟
            emitIf (!exits) (ins (.jump (off top)))
        | none => topLabel fun next => endLabel fun exit =>
            test exit ⨟ emitStmt first body exit next ⨟ emitIf (!exits) (ins (.jump (off next))) }

/-- compiler/code-generator.cpp:1893 `std::map<cell, Label>` and 1905 `emplace`, which keeps the entry that is there. -/
def emplace (k : Cell) (a : Nat) : List (Cell × Nat) → List (Cell × Nat)
  | [] => [(k, a)]
  | (k', a') :: rest => if k = k' then (k', a') :: rest else if k.toInt < k'.toInt then (k, a) :: (k', a') :: rest else (k', a') :: emplace k a rest

/-- The entries in the order in which the map holds them. -/
def caseMap (l : List (Cell × Nat)) : List (Cell × Nat) := l.foldl (fun m e => emplace e.1 e.2 m) []

/-- compiler/smx-assembly-buffer.h:166-174 casetbl and casetbl_entry. -/
def casetbl (dflt : Nat) (l : List (Cell × Nat)) : Code := fun _ =>
  130 :: BitVec.ofNat 32 l.length :: BitVec.ofInt 32 (off dflt) :: l.flatMap fun e => [e.1, BitVec.ofInt 32 (off e.2)]

/-- compiler/code-generator.cpp:1884-1932 EmitSwitchStmt and compiler/semantics.cpp:2663-2723.  A SWITCH instruction takes two cells. -/
def switchStmt (e : Node) (cs : CNode) : SNode :=
  { bad := e.bad || cs.bad || !decide cs.keys.Nodup, flow := cs.flow, brk := cs.brk, cont := cs.cont, leak := cs.leak, ret := cs.ret, after := false
    code := fun b k => endLabel fun exit => e.expr ⨟ topLabel fun p =>
      (endLabel fun tbl => ins (.switch (off tbl)) ⨟ cs.code false exit b k) ⨟
      casetbl ((cs.dflt false (p + 2)).getD exit) (caseMap (cs.table false (p + 2))) }

/-- compiler/code-generator.cpp:1788-1805 EmitLoopControl: break. -/
def breakStmt : SNode :=
  { bad := false, flow := .brk, brk := true, cont := false, leak := false, ret := false, after := false, code := fun b _ => ins (.jump (off b)) }

/-- compiler/code-generator.cpp:1788-1805 EmitLoopControl: continue. -/
def continueStmt : SNode :=
  { bad := false, flow := .cont, brk := false, cont := true, leak := true, ret := false, after := false, code := fun _ c => ins (.jump (off c)) }

/-- compiler/code-generator.cpp:1516-1537 EmitReturnStmt. -/
def returnStmt (e : Option Node) : SNode :=
  { bad := e.elim false (·.bad), flow := .ret, brk := false, cont := false, leak := false, ret := true, after := false
    code := fun _ _ => e.elim (constPri 0) (·.expr) ⨟ ins .retn }

/-- compiler/code-generator.cpp:182-189. -/
def assertStmt (c : Node) : SNode :=
  simpleStmt c.bad false (endLabel fun flab1 => c.test true flab1 ⨟ ins (.halt 2))

/-- compiler/code-generator.cpp:163-171. -/
def exitStmt (e : Option Node) : SNode :=
  simpleStmt (e.elim false (·.bad)) false (e.elim (constPri 0) (·.expr) ⨟ ins (.halt 1))

/-- One case: compiler/code-generator.cpp:1907-1909. -/
def emitCase (after : Bool) (s : SNode) (exit b c : Nat) : Code :=
  emitStmt after s b c ⨟ emitIf (s.flow = .none) (ins (.jump (off exit)))

mutual
/-- Nodes of statements. -/
def genS (L : Layout) : Stmt → SNode
  | .expr e => exprStmt (gen L e)
  | .decl slot init => localVar L slot (init.map (gen L))
  | .block ss => blockStmt (genSs L ss)
  | .ifThen c a => ifThen (gen L c) (genS L a)
  | .ifElse c a b => ifElse (gen L c) (genS L a) (genS L b)
  | .while c body => whileStmt (gen L c) (genS L body)
  | .doWhile body c => doStmt (genS L body) (gen L c)
  | .for init c step body => forStmt (genSs L init) (c.map (gen L)) (step.map (gen L)) (genS L body)
  | .switch e cases => switchStmt (gen L e) (genCs L cases)
  | .brk => breakStmt
  | .cont => continueStmt
  | .ret e => returnStmt (e.map (gen L))
  | .assert c => assertStmt (gen L c)
  | .exit e => exitStmt (e.map (gen L))

/-- compiler/code-generator.cpp:132-137 EmitStmtList. -/
def genSs (L : Layout) : Stmts → SNodes
  | .nil => { bad := false, flow := .none, brk := false, cont := false, leak := false, ret := false, after := id, code := fun _ _ _ => skip }
  | .cons s rest =>
    let x := genS L s
    let r := genSs L rest
    { bad := x.bad || r.bad, flow := x.flow.seq r.flow, brk := x.brk || r.brk, cont := x.cont || r.cont, leak := x.leak || r.leak, ret := x.ret || r.ret
      after := fun _ => r.after x.after
      code := fun after b c => emitStmt after x b c ⨟ r.code x.after b c }

/-- Nodes of cases. -/
def genCs (L : Layout) : Cases → CNode
  | .nil => { bad := false, flow := .none, brk := false, cont := false, leak := false, ret := false, keys := []
              code := fun _ _ _ _ => skip, table := fun _ _ => [], dflt := fun _ _ => none }
  | .dflt s =>
    let x := genS L s
    { bad := x.bad, flow := x.flow, brk := x.brk, cont := x.cont, leak := x.leak, ret := x.ret, keys := []
      code := fun after exit b c => emitCase after x exit b c, table := fun _ _ => [], dflt := fun _ p => some p }
  | .case labels s rest =>
    let x := genS L s
    let r := genCs L rest
    let after' := if x.flow = .none then false else x.after
    { bad := x.bad || r.bad, flow := x.flow.join r.flow, brk := x.brk || r.brk, cont := x.cont || r.cont, leak := x.leak || r.leak, ret := x.ret || r.ret
      keys := labels ++ r.keys
      code := fun after exit b c => emitCase after x exit b c ⨟ r.code after' exit b c
      table := fun after p => labels.map (·, p) ++ r.table after' (p + (emitCase after x 0 0 0 p).length)
      dflt := fun after p => r.dflt after' (p + (emitCase after x 0 0 0 p).length) }
end

/-- compiler/code-generator.cpp:1952-1990 EmitFunctionDecl: PROC, BREAK, the body, a return unless the body returns, ENDPROC. -/
def genFn (L : Layout) (F : Func) : SNode := genS { L with params := F.params, slots := F.slots } F.body

@[inherit_doc genFn] def emitFn (L : Layout) (F : Func) : Code :=
  let s := genFn L F
  ins .proc ⨟ emitBreak false ⨟ emitStmt true s 0 0 ⨟ emitIf (s.flow ≠ .ret) (ins (.zero .pri) ⨟ ins .retn) ⨟ ins .endproc

/-- The function is accepted: `break` and `continue` are inside loops (the parser reports them otherwise). -/
def badFn (L : Layout) (F : Func) : Bool := (genFn L F).bad || (genFn L F).brk || (genFn L F).cont

end Verif.CodeGen

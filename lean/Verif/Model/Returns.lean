import Verif.Model.StmtGen

/-!
What the compiler reports about return values (compiler/semantics.cpp: CheckReturnStmt, CheckFunctionReturnUsage).  The flow of a
body is that of `Verif.Model.StmtGen`.
-/
namespace Verif.Returns
open Verif.Lang (Expr Stmt Stmts Cases Func)
open Verif.CodeGen (Layout genFn)

/-- Return types, as far as they matter here (compiler/semantics.cpp:2724-2747). -/
inductive RetType
  | void | int
  /-- an enum, `bool` or `float` -/
  | enumLike
  | other
deriving DecidableEq, Repr

/-- How a function is declared. -/
structure Head where
  ret : RetType
  /-- compiler/parser.cpp: `is_new`, the return type is written in front of the name, as in `int f()`. -/
  isNew : Bool
  /-- there is a forward -/
  hasForward : Bool
  /-- it is a method -/
  member : Bool
deriving DecidableEq, Repr

/-- compiler/name-resolution.cpp:774-778 and compiler/parse-node.cpp:134-140 prototype.  An implementation whose prototype is a
forward does not set it. -/
def Head.explicit (h : Head) : Bool := !h.hasForward && h.isNew

/-- compiler/parse-node.cpp:159-161 MustReturnValue.  `retvalue_used_` is never set: set_retvalue_used has no callers. -/
def Head.must (h : Head) : Bool := h.explicit && h.ret != .void

/-- compiler/semantics.cpp:2724-2747 ReportFunctionReturnError. -/
def Head.lack (h : Head) : Nat :=
  if h.member then 400
  else if h.ret = .int then 209
  else 242

/-- compiler/semantics.h:70-112, the part of SemaContext that is about returns, and the reports. -/
structure RetState where
  voidReturn : Bool
  returnsValue : Bool
  warnedMixed : Bool
  reports : List Nat
deriving DecidableEq, Repr

/-- compiler/semantics.cpp:2368-2422 CheckReturnStmt.  The value is taken to have the right type. -/
def checkReturn (h : Head) (s : RetState) : Option Expr → RetState
  | none =>
    let s := if h.must then { s with reports := s.reports ++ [h.lack] } else s
    { s with voidReturn := true }
  | some _ =>
    let s := if s.voidReturn && !s.warnedMixed then { s with reports := s.reports ++ [78, 78], warnedMixed := true } else s
    if h.ret = .void then { s with reports := s.reports ++ [88] }
    else { s with returnsValue := true }

mutual
/-- compiler/semantics.cpp: CheckStmt, what it does about returns.  After the error 88 the code skips a part of the statements
around it; here it goes on. -/
def checkS (h : Head) (s : RetState) : Stmt → RetState
  | .expr _ | .decl .. | .brk | .cont | .assert _ | .exit _ => s
  | .block ss => checkSs h s ss
  | .ifThen _ a => checkS h s a
  | .ifElse _ a b => checkS h (checkS h s a) b
  | .while _ body | .doWhile body _ => checkS h s body
  | .for init _ _ body => checkS h (checkSs h s init) body
  | .switch _ cases => checkCs h s cases
  | .ret e => checkReturn h s e
def checkSs (h : Head) (s : RetState) : Stmts → RetState
  | .nil => s
  | .cons a rest => checkSs h (checkS h s a) rest
def checkCs (h : Head) (s : RetState) : Cases → RetState
  | .nil => s
  | .dflt a => checkS h s a
  | .case _ a rest => checkCs h (checkS h s a) rest
end

/-- compiler/semantics.cpp:2773-2848 CheckFunctionDeclImpl and 2850-2856 CheckFunctionReturnUsage: all that is reported about the
return values of a function. -/
def reports (L : Layout) (h : Head) (F : Func) : List Nat :=
  let s := checkS h ⟨false, false, false, []⟩ F.body
  if s.returnsValue && (genFn L F).flow = .ret then s.reports
  else if h.must then s.reports ++ [h.lack]
  else s.reports

end Verif.Returns

import Verif.Model.ExprParser
/-!
The statement parser (compiler/parser.cpp: parse_stmt, parse_compound, parse_if, parse_for, parse_switch, parse_case,
parse_local_decl with parse_new_decl, reparse_new_decl and parse_var).

Tokens and expressions are those of `Model/ExprParser`; the keywords are tokens `other`.  Statements end with semicolons
(`#pragma semicolon 1`): the token `term` is `;` (newlines that end statements are in `Model/Lines`).  Reporting an error is
`reject`.  Not modelled, and rejected here although the code takes them: the forms without parentheses after `for`, `switch` and
`do … while` (warning 243), declarations in the old style (`new x`, `decl x`, `x[5]` after `for (`), `const`, `static`, `enum`,
`static_assert`, `#pragma unused`, initialisers in braces, and the keyword forms of declarations that need them.
-/
namespace Verif.Parse

/-- The keywords and braces of statements. -/
inductive Kw where
  | kIf | kElse | kWhile | kDo | kFor | kSwitch | kCase | kDefault | kReturn | kBreak | kContinue | kAssert | kDelete | kExit
  | lbrace | rbrace | int | char | void | object
deriving DecidableEq

/-- All of them, in the order of their numbers. -/
def Kw.all : List Kw :=
  [.kIf, .kElse, .kWhile, .kDo, .kFor, .kSwitch, .kCase, .kDefault, .kReturn, .kBreak, .kContinue, .kAssert, .kDelete, .kExit,
   .lbrace, .rbrace, .int, .char, .void, .object]

/-- The number of a keyword. -/
def Kw.code (k : Kw) : Nat := Kw.all.idxOf k

/-- The token of a keyword. -/
def Kw.tok (k : Kw) : Tok := .other k.code

/-- The keyword of a number. -/
def Kw.of (n : Nat) : Option Kw := Kw.all[n]?

/-- Type keywords; compiler/parser.cpp:1324-1327. -/
def Kw.isType : Kw → Bool
  | .int | .char | .void | .object => true
  | _ => false

/-- One variable of a declaration: `VarDecl`.  A size that is left out is `none`. -/
structure Dcl where
  name : Nat
  dims : List (Option Ex)
  init : Option Ex

/-- A declaration: the token of the type, the number of `[]` after it, and the variables (`StmtList` of `VarDecl`). -/
structure DeclS where
  ty : Tok
  pre : Nat
  vars : List Dcl

/-- The first part of a `for`. -/
inductive Init where
  | none
  | decl (d : DeclS)
  | expr (e : Ex)

/-- The nodes of compiler/parse-node.h the statement parser builds. -/
inductive St where
  | expr (e : Ex)
  | decl (d : DeclS)
  | ifs (c : Ex) (t : St)
  | ifElse (c : Ex) (t e : St)
  | whiles (c : Ex) (b : St)
  | doWhile (b : St) (c : Ex)
  | fors (i : Init) (c a : Option Ex) (b : St)
  | switch (e : Ex) (cs : List (List Ex × St)) (d : Option St)
  | block (ss : List St)
  | ret (e : Option Ex)
  | brk
  | cont
  | assert (e : Ex)
  | delete (e : Ex)
  | exit (e : Option Ex)

/-- compiler/parser.cpp:1523-1550 parse_expr(false). -/
def expr (ts : List Tok) : Out Ex := parseExpr true true ts

/-- compiler/parser.cpp:1523-1550 parse_expr(true). -/
def parenExpr (ts : List Tok) : Out Ex :=
  (need .lpar () ts).bind fun _ r => (expr r).bind fun e r => need .rpar e r

/-- hier14 on its own. -/
def asgExpr (ts : List Tok) : Out Ex := hier14 true (20 * ts.length + 20) true ts

/-- The loop of parse_case, compiler/parser.cpp:1693-1702: expressions separated by commas, without tags. -/
def caseExprs (ts : List Tok) : Out (List Ex) := exprs true (20 * ts.length + 20) false ts

/-! ### Declarations -/

/-- compiler/parser.cpp:1293-1305 and 1324-1327, and the same for `for`, 1566-1590: does a declaration start here? -/
def declStart : List Tok → Bool
  | .other n :: _ => match Kw.of n with
    | some k => k.isType
    | none => false
  | .sym _ false :: .lbr :: .rbr :: _ => true
  | .sym _ false :: .sym _ false :: _ => true
  | _ => false

/-- compiler/parser.cpp:2500-2513: the `[]` after the type. -/
def preDims : List Tok → Out Nat
  | .lbr :: .rbr :: r => (preDims r).bind fun n r => .ok (n + 1) r
  | .lbr :: _ => .reject
  | ts => .ok 0 ts

/-- compiler/parser.cpp:1267-1281 parse_post_dims. -/
def postDims : Nat → List Tok → Out (List (Option Ex))
  | 0, _ => .fuel
  | f+1, ts =>
    match ts with
    | .lbr :: r =>
      match r with
      | .rbr :: r => (postDims f r).bind fun ds r => .ok (none :: ds) r
      | _ => (asgExpr r).bind fun e r => (need .rbr e r).bind fun e r => (postDims f r).bind fun ds r => .ok (some e :: ds) r
    | _ => .ok [] ts

/-- compiler/parser.cpp:2350-2357 and 2418-2447: the sizes after the name; error 121 if the type has some. -/
def dclDims (pre : Nat) (ts : List Tok) : Out (List (Option Ex)) :=
  match ts with
  | .lbr :: _ => if pre = 0 then postDims (ts.length + 1) ts else .reject
  | _ => .ok [] ts

/-- compiler/parser.cpp:331-332, and 1252 of var_init. -/
def dclInit (ts : List Tok) : Out (Option Ex) :=
  match ts with
  | .asg .plain :: r => (asgExpr r).bind fun e r => .ok (some e) r
  | _ => .ok none ts

/-- compiler/parser.cpp:2415-2416: the name of a further variable.  If there is none, the name of the one before stays and
nothing is reported. -/
def nextName (name : Nat) (ts : List Tok) : Nat × List Tok :=
  match ts with
  | .sym s false :: r => (s, r)
  | _ => (name, ts)

/-- The loop of parse_var, compiler/parser.cpp:327-352, with reparse_new_decl, 2412-2452. -/
def dcls : Nat → Nat → Nat → List Tok → Out (List Dcl)
  | 0, _, _, _ => .fuel
  | f+1, pre, name, ts =>
    (dclDims pre ts).bind fun ds r => (dclInit r).bind fun i r =>
      match r with
      | .comma :: r => (dcls f pre (nextName name r).1 (nextName name r).2).bind fun vs r => .ok (⟨name, ds, i⟩ :: vs) r
      | _ => .ok [⟨name, ds, i⟩] r

/-- compiler/parser.cpp:2335-2360 parse_new_decl and 322-358 parse_var. -/
def newDecl (ts : List Tok) : Out DeclS :=
  match ts with
  | [] => .reject
  | t :: r => (preDims r).bind fun pre r => (needSymbol true r).bind fun name r =>
    (dcls (r.length + 1) pre name r).bind fun vs r => .ok ⟨t, pre, vs⟩ r

/-! ### The parts of a `for` -/

/-- compiler/parser.cpp:1561-1600 -/
def forInit (ts : List Tok) : Out Init :=
  match ts with
  | .term :: r => .ok .none r
  | _ =>
    if declStart ts then (newDecl ts).bind fun d r => need .term (.decl d) r
    else (expr ts).bind fun e r => need .term (.expr e) r

/-- compiler/parser.cpp:1602-1612: the condition (up to `;`) and the step (up to `)`). -/
def optExpr (close : Tok) (ts : List Tok) : Out (Option Ex) :=
  match ts with
  | [] => .reject
  | t :: r => if t = close then .ok none r else (expr ts).bind fun e r => need close (some e) r

/-! ### Statements -/

mutual

/-- compiler/parser.cpp:1283-1466 parse_stmt, with parse_if, 1504-1521, parse_for, 1552-1628, and parse_switch, 1630-1645.
`allow` is `allow_decl`, `inl` is `in_loop_`. -/
def stmt : Nat → Bool → Bool → List Tok → Out St
  | 0, _, _, _ => .fuel
  | f+1, allow, inl, ts =>
    if declStart ts then
      if allow then (newDecl ts).bind fun d r => need .term (.decl d) r else .reject
    else match ts with
    | .other n :: r =>
      match Kw.of n with
      | some .kIf => (parenExpr r).bind fun c r => (stmt f false inl r).bind fun t r =>
        if r.head? = some Kw.kElse.tok then (stmt f false inl r.tail).bind fun e r => .ok (.ifElse c t e) r
        else .ok (.ifs c t) r
      | some .kWhile => (parenExpr r).bind fun c r => (stmt f false true r).bind fun b r => .ok (.whiles c b) r
      | some .kDo => (stmt f false true r).bind fun b r => (need Kw.kWhile.tok b r).bind fun b r =>
        (parenExpr r).bind fun c r => need .term (.doWhile b c) r
      | some .kFor => (need .lpar () r).bind fun _ r => (forInit r).bind fun i r => (optExpr .term r).bind fun c r =>
        (optExpr .rpar r).bind fun a r => (stmt f false true r).bind fun b r => .ok (.fors i c a b) r
      | some .kSwitch => (parenExpr r).bind fun e r => (need Kw.lbrace.tok e r).bind fun e r =>
        (cases f inl r).bind fun cd r => .ok (.switch e cd.1 cd.2) r
      | some .lbrace => (block f inl r).bind fun ss r => .ok (.block ss) r
      | some .kReturn => (optExpr .term r).bind fun e r => .ok (.ret e) r
      | some .kBreak => (need .term () r).bind fun _ r => if inl then .ok .brk r else .reject
      | some .kContinue => (need .term () r).bind fun _ r => if inl then .ok .cont r else .reject
      | some .kAssert => (parenExpr r).bind fun e r => need .term (.assert e) r
      | some .kDelete => (expr r).bind fun e r => need .term (.delete e) r
      -- 1406-1414: the test is the wrong way round
      | some .kExit =>
        if r.head? = some .term then (expr r.tail).bind fun e r => need .term (.exit (some e)) r
        else .ok (.exit none) r
      | _ => .reject
    | _ => (expr ts).bind fun e r => need .term (.expr e) r

/-- compiler/parser.cpp:1468-1482 parse_compound, after the opening brace. -/
def block : Nat → Bool → List Tok → Out (List St)
  | 0, _, _ => .fuel
  | f+1, inl, ts =>
    if ts.head? = some Kw.rbrace.tok then .ok [] ts.tail
    else (stmt f true inl ts).bind fun s r => (block f inl r).bind fun ss r => .ok (s :: ss) r

/-- compiler/parser.cpp:1645-1683, the loop of parse_switch, and 1690-1711 parse_case.  After a default case only the closing
brace is taken (errors 15 and 16). -/
def cases : Nat → Bool → List Tok → Out (List (List Ex × St) × Option St)
  | 0, _, _ => .fuel
  | f+1, inl, ts =>
    if ts.head? = some Kw.rbrace.tok then .ok ([], none) ts.tail
    else if ts.head? = some Kw.kCase.tok then (caseExprs ts.tail).bind fun es r => (need .colon es r).bind fun es r =>
      (stmt f false inl r).bind fun s r => (cases f inl r).bind fun cd r => .ok ((es, s) :: cd.1, cd.2) r
    else if ts.head? = some Kw.kDefault.tok then (need .colon () ts.tail).bind fun _ r =>
      (stmt f false inl r).bind fun s r => need Kw.rbrace.tok ([], some s) r
    else .reject

end

/-- Reading one statement. -/
def parseStmt (allow inl : Bool) (ts : List Tok) : Out St := stmt (2 * ts.length + 2) allow inl ts

/-- Reading the body of a function, after its opening brace. -/
def parseBody (ts : List Tok) : Out (List St) := block (2 * ts.length + 2) false ts

end Verif.Parse

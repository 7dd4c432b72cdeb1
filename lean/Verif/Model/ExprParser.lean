/-!
The expression parser (compiler/parser.cpp: parse_expr, hier14 … hier1, plnge, plnge_rel, primary, constant, parse_call,
parse_view_as).

The input is the list of tokens the lexer delivers.  What a token is depends on the parser in one respect, and that is
modelled: a name directly followed by a colon is a tag where tags are allowed (compiler/lexer.cpp:2066-2071, 1636-1644).
Reporting an error is `reject`; the parser's recovery after an error is not modelled.  The recursion is given fuel; `parseExpr`
gives enough.  Not modelled: `sizeof`, `new`, array literals, the positions kept in the tree, the warnings, and the types
after `view_as` (`view_as < type >` is one token).
-/
namespace Verif.Parse

/-- The binary operators of list3 to list12. -/
inductive BinOp where
  | mul | div | mod | add | sub | shl | shr | shru | and | xor | or | le | ge | lt | gt | eq | ne | land | lor
deriving DecidableEq

/-- The assignment operators. -/
inductive AsgOp where
  | plain | or | xor | and | add | sub | mul | div | mod | shru | shr | shl
deriving DecidableEq

/-- The prefix operators. -/
inductive UnOp where
  | inv | neg | not
deriving DecidableEq

/-- Tokens.  `lit` is any token that is an expression by itself (numbers, strings, `true`, `this`, …), `other` any token that
no expression contains. -/
inductive Tok where
  | lit (n : Nat)
  /-- a name, and whether a colon follows it directly -/
  | sym (s : Nat) (colon : Bool)
  /-- a binary operator; `-` is also a prefix operator -/
  | op (o : BinOp)
  | asg (o : AsgOp)
  | tilde
  | bang
  /-- `++` or `--`, and whether it is the first token of its line -/
  | inc (dec nl : Bool)
  | lpar | rpar | lbr | rbr | comma | quest | colon
  /-- `.` or `::` -/
  | dot (dbl : Bool)
  /-- `_` -/
  | under
  /-- `view_as < type >` -/
  | viewAs (t : Nat)
  | term
  | other (n : Nat)
deriving DecidableEq

mutual
/-- The nodes of compiler/parse-node.h the expression parser builds. -/
inductive Ex where
  | lit (n : Nat)
  | sym (s : Nat)
  | un (o : UnOp) (e : Ex)
  | pre (dec : Bool) (e : Ex)
  | post (dec : Bool) (e : Ex)
  /-- `tag:e` -/
  | tag (s : Nat) (e : Ex)
  | cast (t : Nat) (e : Ex)
  | bin (o : BinOp) (a b : Ex)
  /-- `a < b <= c …` -/
  | chain (a : Ex) (cs : List (BinOp × Ex))
  | tern (c a b : Ex)
  | asg (o : AsgOp) (a b : Ex)
  | comma (es : List Ex)
  | field (dbl : Bool) (b : Ex) (s : Nat)
  | index (b i : Ex)
  | call (f : Ex) (as : List Arg)

/-- Arguments of calls. -/
inductive Arg where
  | pos (e : Ex)
  | named (s : Nat) (e : Ex)
  | dflt
end

/-- Outcome of a parsing function: the result and the tokens left. -/
inductive Out (α : Type) where
  | ok (a : α) (rest : List Tok)
  | reject
  | fuel

/-- Sequencing. -/
def Out.bind {α β : Type} (x : Out α) (f : α → List Tok → Out β) : Out β :=
  match x with
  | .ok a r => f a r
  | .reject => .reject
  | .fuel => .fuel

/-- compiler/parser.cpp:704-713 list3 … list12 -/
def opList : Nat → List BinOp
  | 3 => [.mul, .div, .mod]
  | 4 => [.add, .sub]
  | 5 => [.shl, .shr, .shru]
  | 6 => [.and]
  | 7 => [.xor]
  | 8 => [.or]
  | 9 => [.le, .ge, .lt, .gt]
  | 10 => [.eq, .ne]
  | 11 => [.land]
  | 12 => [.lor]
  | _ => []

/-- compiler/parser.cpp:2604-2619 nextop -/
def nextop (k : Nat) : List Tok → Option (BinOp × List Tok)
  | .op o :: r => if (opList k).contains o then some (o, r) else none
  | _ => none

/-- compiler/parser.cpp:749-750, 762-767: the node of a comparison. -/
def mkRel (a : Ex) : List (BinOp × Ex) → Ex
  | [] => a
  | [(o, b)] => .bin o a b
  | cs => .chain a cs

/-- compiler/parser.cpp:1015-1017, 1547-1549 -/
def mkComma : List Ex → Ex
  | [e] => e
  | es => .comma es

/-- compiler/lexer.cpp:2498-2507 needsymbol; a name that is lexed as a tag is none. -/
def needSymbol (tg : Bool) : List Tok → Out Nat
  | .sym s c :: r => if tg ∧ c then .reject else .ok s r
  | _ => .reject

/-- `need(t)`, compiler/lexer.cpp:2180-2187. -/
def need {α : Type} (t : Tok) (a : α) : List Tok → Out α
  | t' :: r => if t' = t then .ok a r else .reject
  | [] => .reject

section
-- `semi` is `NeedSemicolon()`
variable (semi : Bool)

mutual

/-- compiler/parser.cpp:661-697 -/
def hier14 : Nat → Bool → List Tok → Out Ex
  | 0, _, _ => .fuel
  | f+1, tg, ts => (hier13 f tg ts).bind fun a r =>
    match r with
    | .asg o :: r => (hier14 f tg r).bind fun b r => .ok (.asg o a b) r
    | _ => .ok a r

/-- compiler/parser.cpp:770-787 -/
def hier13 : Nat → Bool → List Tok → Out Ex
  | 0, _, _ => .fuel
  | f+1, tg, ts => (plnge f 12 tg ts).bind fun c r =>
    match r with
    | .quest :: r => (hier13 f false r).bind fun a r => (need .colon a r).bind fun a r =>
      (hier13 f tg r).bind fun b r => .ok (.tern c a b) r
    | _ => .ok c r

/-- compiler/parser.cpp:789-847 hier3 … hier12 and the first parts of plnge, 715-741, and plnge_rel, 743-768. -/
def plnge : Nat → Nat → Bool → List Tok → Out Ex
  | 0, _, _, _ => .fuel
  | f+1, k, tg, ts =>
    if k ≤ 2 then hier2 f tg ts
    else if k = 9 then (plnge f 8 tg ts).bind fun a r => (plngeRel f tg r).bind fun cs r => .ok (mkRel a cs) r
    else (plnge f (k - 1) tg ts).bind fun a r => plngeLoop f k tg a r

/-- The loop of plnge, compiler/parser.cpp:724-738. -/
def plngeLoop : Nat → Nat → Bool → Ex → List Tok → Out Ex
  | 0, _, _, _, _ => .fuel
  | f+1, k, tg, a, ts =>
    match nextop k ts with
    | some (o, r) => (plnge f (k - 1) tg r).bind fun b r => plngeLoop f k tg (.bin o a b) r
    | none => .ok a ts

/-- The loop of plnge_rel, compiler/parser.cpp:755-760. -/
def plngeRel : Nat → Bool → List Tok → Out (List (BinOp × Ex))
  | 0, _, _ => .fuel
  | f+1, tg, ts =>
    match nextop 9 ts with
    | some (o, r) => (plnge f 8 tg r).bind fun b r => (plngeRel f tg r).bind fun cs r => .ok ((o, b) :: cs) r
    | none => .ok [] ts

/-- compiler/parser.cpp:849-958 -/
def hier2 : Nat → Bool → List Tok → Out Ex
  | 0, _, _ => .fuel
  | f+1, tg, ts =>
    match ts with
    | .inc d _ :: r => (hier2 f tg r).bind fun e r => .ok (.pre d e) r
    | .tilde :: r => (hier2 f tg r).bind fun e r => .ok (.un .inv e) r
    | .op .sub :: r => (hier2 f tg r).bind fun e r => .ok (.un .neg e) r
    | .bang :: r => (hier2 f tg r).bind fun e r => .ok (.un .not e) r
    | _ =>
      match tg, ts with
      | true, .sym s true :: .colon :: r => (hier2 f tg r).bind fun e r => .ok (.tag s e) r
      | _, _ => (hier1 f tg ts).bind fun e r =>
        match r with
        -- 940-947: at the end of a line that ends the statement no postfix operator is looked for
        | .inc d nl :: r' => if nl ∧ ¬ semi then .ok e r else .ok (.post d e) r'
        | _ => .ok e r

/-- compiler/parser.cpp:960-994, with parse_view_as, 1123-1144 -/
def hier1 : Nat → Bool → List Tok → Out Ex
  | 0, _, _ => .fuel
  | f+1, tg, ts =>
    match ts with
    | .viewAs t :: r => (need .lpar () r).bind fun _ r => (hier14 f tg r).bind fun e r =>
      (need .rpar e r).bind fun e r => suffixes f tg (.cast t e) r
    | _ => (primary f tg ts).bind fun e r => suffixes f tg e r

/-- The loop of hier1, compiler/parser.cpp:970-992. -/
def suffixes : Nat → Bool → Ex → List Tok → Out Ex
  | 0, _, _, _ => .fuel
  | f+1, tg, b, ts =>
    match ts with
    | .dot d :: r => (needSymbol tg r).bind fun s r => suffixes f tg (.field d b s) r
    | .lbr :: r => (hier14 f tg r).bind fun i r => (need .rbr i r).bind fun i r => suffixes f tg (.index b i) r
    | .lpar :: r => (call f tg r).bind fun as r => suffixes f tg (.call b as) r
    | _ => .ok b ts

/-- compiler/parser.cpp:996-1029 primary, and 1031-1056 constant -/
def primary : Nat → Bool → List Tok → Out Ex
  | 0, _, _ => .fuel
  | f+1, tg, ts =>
    match ts with
    | .lpar :: r => (exprs f true r).bind fun es r => need .rpar (mkComma es) r
    | .sym s c :: r => if tg ∧ c then .reject else .ok (.sym s) r
    | .lit n :: r => .ok (.lit n) r
    | _ => .reject

/-- compiler/parser.cpp:1008-1011 and 1532-1541: expressions separated by commas. -/
def exprs : Nat → Bool → List Tok → Out (List Ex)
  | 0, _, _ => .fuel
  | f+1, tg, ts => (hier14 f tg ts).bind fun e r =>
    match r with
    | .comma :: r => (exprs f tg r).bind fun es r => .ok (e :: es) r
    | _ => .ok [e] r

/-- compiler/parser.cpp:1080-1082 parse_call, after the opening parenthesis -/
def call : Nat → Bool → List Tok → Out (List Arg)
  | 0, _, _ => .fuel
  | f+1, tg, ts =>
    match ts with
    | .rpar :: r => .ok [] r
    | _ => args f tg false ts

/-- The loop of parse_call, compiler/parser.cpp:1086-1118.  `named` is `named_params`. -/
def args : Nat → Bool → Bool → List Tok → Out (List Arg)
  | 0, _, _, _ => .fuel
  | f+1, tg, named, ts =>
    match ts with
    | .dot false :: r => (needSymbol tg r).bind fun s r => (need (.asg .plain) s r).bind fun s r => value f tg true (some s) r
    | _ => if named then .reject else value f tg false none ts

/-- compiler/parser.cpp:1103-1116: the value of an argument and what follows. -/
def value : Nat → Bool → Bool → Option Nat → List Tok → Out (List Arg)
  | 0, _, _, _, _ => .fuel
  | f+1, tg, named, name, ts =>
    match ts with
    | .under :: r => moreArgs f tg named .dflt r
    | _ => (hier14 f tg ts).bind fun e r =>
      moreArgs f tg named (match name with | some s => .named s e | none => .pos e) r

/-- compiler/parser.cpp:1114-1118 -/
def moreArgs : Nat → Bool → Bool → Arg → List Tok → Out (List Arg)
  | 0, _, _, _, _ => .fuel
  | f+1, tg, named, a, ts =>
    match ts with
    | .rpar :: r => .ok [a] r
    | .comma :: r => (args f tg named r).bind fun as r => .ok (a :: as) r
    | _ => .reject

end

/-- compiler/parser.cpp:1523-1550 parse_expr(false). -/
def parseExpr (tg : Bool) (ts : List Tok) : Out Ex :=
  (exprs semi (20 * ts.length + 20) tg ts).bind fun es r => .ok (mkComma es) r

end
end Verif.Parse

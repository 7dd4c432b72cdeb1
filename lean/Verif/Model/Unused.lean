/-!
Warnings about variables that are not used: 203 "symbol is never used" and 204 "symbol is assigned a value that is never used"
(compiler/name-resolution.cpp: Bind; compiler/semantics.cpp: CheckStmt, TestSymbols; compiler/symbols.cpp: markusage).

Names are numbers.  Statements are reduced to the names in them, and to which of them open a scope; names of functions and of other things than variables
and constants are left out.  Programs that have other errors than unknown names, and names that are declared twice in a scope, are not here.
-/
namespace Verif.Unused

abbrev Name := Nat

/-- Expressions. -/
inductive Expr
  /-- something without names of variables in it -/
  | leaf
  | name (x : Name)
  /-- any operator, call, or index: the operands are bound one after the other (compiler/name-resolution.cpp:540-640; the left side of an assignment is
  bound as any expression if it is not a name, compiler/parse-node.h:76-78) -/
  | two (a b : Expr)
  /-- `x = e`, or `x op= e` -/
  | assign (x : Name) (e : Expr)
deriving DecidableEq

/-- ConstDecl, VarDecl and ArgDecl -/
inductive Kind
  | const | var | arg
deriving DecidableEq

/-- A declaration; `pos` is where it is, `scalar` is false for arrays and enum structs. -/
structure Var where
  name : Name
  pos : Nat
  kind : Kind
  scalar : Bool
deriving DecidableEq

/-- Statements. -/
inductive Stm
  | expr (e : Expr)
  | decl (v : Var) (init : Option Expr)
  /-- BlockStmt, and ForStmt with a declaration -/
  | block (ss : List Stm)
  /-- other statements with expressions and statements in them, and lists of declarations -/
  | seq (ss : List Stm)
  /-- `#pragma unused` -/
  | unused (xs : List Name)

/-- A function: its arguments (and whether they are references), and its body. -/
structure Fn where
  args : List (Var × Bool)
  isPublic : Bool
  /-- whether it is used as a callback somewhere -/
  isCallback : Bool
  body : List Stm

/-- A global variable: its declaration, whether it has a value, whether it is public, and whether it is `stock` in an included file. -/
structure Global where
  var : Var
  init : Bool
  isPublic : Bool
  stock : Bool

/-! ### Bound trees: names have been replaced by declarations, which are numbered -/

abbrev Entry := Var × Nat

inductive BExpr
  | leaf
  | name (d : Nat)
  | two (a b : BExpr)
  | assign (d : Nat) (e : BExpr)

inductive BStm
  | expr (e : BExpr)
  | decl (d : Entry) (init : Option BExpr)
  | block (scope : List Entry) (ss : List BStm)
  | seq (ss : List BStm)
  | unused (ds : List Entry)

/-- The state of binding: the number of declarations, the scopes (innermost first), and the declarations that `set_is_read` has been called for. -/
structure St where
  next : Nat
  scopes : List (List Entry)
  reads : List Nat

/-- FindSymbol: the innermost scope that has the name (names are unique in a scope). -/
def find (scopes : List (List Entry)) (x : Name) : Option Entry := scopes.flatten.find? (fun e => e.1.name == x)

/-- Bind of expressions; the second part is what is marked as read (compiler/name-resolution.cpp:489-524, 597-606). -/
def bindE (scopes : List (List Entry)) : Expr → Option (BExpr × List Nat)
  | .leaf => some (.leaf, [])
  | .name x => (find scopes x).map fun e => (.name e.2, [e.2])
  | .two a b => (bindE scopes a).bind fun l => (bindE scopes b).map fun r => (.two l.1 r.1, l.2 ++ r.2)
  | .assign x e => (find scopes x).bind fun d => (bindE scopes e).map fun r => (.assign d.2 r.1, r.2)

/-- An initialiser, if there is one. -/
def bindI (scopes : List (List Entry)) : Option Expr → Option (Option BExpr × List Nat)
  | none => some (none, [])
  | some e => (bindE scopes e).map fun r => (some r.1, r.2)

/-- CheckNameRedefinition and DefineSymbol. -/
def St.define (st : St) (v : Var) : Option St :=
  match st.scopes with
  | [] => none
  | sc :: r => if sc.any (fun e => e.1.name == v.name) then none else some { st with next := st.next + 1, scopes := ((v, st.next) :: sc) :: r }

mutual
/-- Bind of statements: compiler/name-resolution.cpp:131-151 (StmtList and BlockStmt; an empty block has no scope), 392-427 (ConstDecl: the value is bound
after the name is entered), 427-472 (VarDeclBase: before), 675-693 (ForStmt), 920-936 (PragmaUnusedStmt). -/
def bindS (st : St) : Stm → Option (BStm × St)
  | .expr e => (bindE st.scopes e).map fun r => (.expr r.1, { st with reads := st.reads ++ r.2 })
  | .decl v init =>
    if v.kind = .const then
      (st.define v).bind fun st' => (bindI st'.scopes init).map fun r => (.decl (v, st.next) r.1, { st' with reads := st'.reads ++ r.2 })
    else
      (bindI st.scopes init).bind fun r => (({ st with reads := st.reads ++ r.2 } : St).define v).map fun st' => (.decl (v, st.next) r.1, st')
  | .block ss =>
    if ss.isEmpty then some (.block [] [], st)
    else (bindL { st with scopes := [] :: st.scopes } ss).map fun r => (.block (r.2.scopes.headD []) r.1, { r.2 with scopes := r.2.scopes.tail })
  | .seq ss => (bindL st ss).map fun r => (.seq r.1, r.2)
  | .unused xs => (xs.mapM (find st.scopes)).map fun ds => (.unused ds, st)
def bindL (st : St) : List Stm → Option (List BStm × St)
  | [] => some ([], st)
  | s :: ss => (bindS st s).bind fun r => (bindL r.2 ss).map fun q => (r.1 :: q.1, q.2)
end

/-! ### Checking -/

/-- What has been marked, and the warnings: position and number. -/
structure Flags where
  reads : List Nat
  writes : List Nat
  warns : List (Nat × Nat)

/-- CheckExpr: what is marked as written, compiler/semantics.cpp:667-693.  (For arguments that are references this marks them as read, too, which they are
already.) -/
def writesE : BExpr → List Nat
  | .leaf | .name _ => []
  | .two a b => writesE a ++ writesE b
  | .assign d e => writesE e ++ [d]

/-- compiler/semantics.cpp:2302-2318 TestSymbol, for variables and constants that are not public, and not `stock` and included; `testconst` is true for
all scopes but the global one. -/
def test (testconst : Bool) (f : Flags) (e : Entry) : Option (Nat × Nat) :=
  match e.1.kind with
  | .const => if testconst && !f.reads.contains e.2 then some (e.1.pos, 203) else none
  | _ =>
    if !(f.reads.contains e.2 || f.writes.contains e.2) then some (e.1.pos, 203)
    else if !f.reads.contains e.2 then some (e.1.pos, 204)
    else none

/-- compiler/semantics.cpp:2858-2868 CheckPragmaUnusedStmt: the loop ends after the first VarDecl (or ConstDecl). -/
def markUnused (f : Flags) : List Entry → Flags
  | [] => f
  | e :: es =>
    let f := { f with reads := f.reads ++ [e.2] }
    if e.1.kind = .arg then markUnused f es else { f with writes := f.writes ++ [e.2] }

mutual
/-- compiler/semantics.cpp:85-160 CheckStmt, 162-209 CheckVarDecl (constants are checked when they are bound), 2327-2356 CheckBlockStmt, 2659-2660. -/
def checkS (f : Flags) : BStm → Flags
  | .expr e => { f with writes := f.writes ++ writesE e }
  | .decl d init =>
    match init with
    | none => f
    | some e => { f with writes := f.writes ++ writesE e ++ (if d.1.scalar && d.1.kind != .const then [d.2] else []) }
  | .block scope ss =>
    let f := checkL f ss
    { f with warns := f.warns ++ scope.filterMap (test true f) }
  | .seq ss => checkL f ss
  | .unused ds => markUnused f ds
def checkL (f : Flags) : List BStm → Flags
  | [] => f
  | s :: ss => checkL (checkS f s) ss
end

/-! ### Programs -/

/-- A bound function. -/
structure BFn where
  fn : Fn
  args : List Entry
  body : BStm

/-- The arguments, numbered. -/
def number (next : Nat) : List Var → List Entry
  | [] => []
  | v :: vs => (v, next) :: number (next + 1) vs

/-- compiler/name-resolution.cpp:821-832 and 873-880: arguments that are marked as read. -/
def argReads (f : Fn) (args : List Entry) : List Nat :=
  ((args.zip f.args).filter fun p => p.2.2 || f.isPublic || f.isCallback).map fun p => p.1.2

/-- compiler/name-resolution.cpp:768-838 FunctionDecl::Bind, for a function with a body. -/
def bindF (st : St) (f : Fn) : Option (BFn × St) :=
  let args := number st.next (f.args.map (·.1))
  if (f.args.map (·.1.name)).Nodup then
    (bindS ⟨st.next + args.length, args :: st.scopes, st.reads ++ argReads f args⟩ (.block f.body)).map fun r =>
      (⟨f, args, r.1⟩, { r.2 with scopes := st.scopes })
  else none

def bindFs (st : St) : List Fn → Option (List BFn × St)
  | [] => some ([], st)
  | f :: fs => (bindF st f).bind fun r => (bindFs r.2 fs).map fun q => (r.1 :: q.1, q.2)

/-- Semantics::Analyze: the functions are checked. -/
def checkFs (f : Flags) : List BFn → Flags
  | [] => f
  | b :: bs => checkFs (checkS f b.body) bs

/-- compiler/semantics.cpp:60-65 and 2298-2301: at the end the global variables and the arguments of functions are tested. -/
def testFs (f : Flags) : List BFn → List (Nat × Nat)
  | [] => []
  | b :: bs => (if b.fn.isCallback then [] else b.args.filterMap (test true f)) ++ testFs f bs

/-- The numbers of global variables that are public (compiler/name-resolution.cpp:462-463) or have a value. -/
def globalReads (gs : List Global) (es : List Entry) : List Nat := ((es.zip gs).filter fun p => p.2.isPublic).map fun p => p.1.2
def globalWrites (gs : List Global) (es : List Entry) : List Nat :=
  ((es.zip gs).filter fun p => p.2.init && p.2.var.scalar && p.2.var.kind != .const).map fun p => p.1.2
/-- compiler/semantics.cpp:2308-2310 -/
def globalTested (gs : List Global) (es : List Entry) : List Entry := ((es.zip gs).filter fun p => !(p.2.isPublic || p.2.stock)).map (·.1)

/-- compiler/semantics.cpp:38-82 Semantics::Analyze after the names have been bound: all warnings.  Values of global variables have no names of variables in
them. -/
def warnings (gs : List Global) (fs : List Fn) : Option (List (Nat × Nat)) :=
  let es := number 0 (gs.map (·.var))
  if (gs.map (·.var.name)).Nodup then
    (bindFs ⟨es.length, [es], globalReads gs es⟩ fs).map fun r =>
      let f := checkFs ⟨r.2.reads, globalWrites gs es, []⟩ r.1
      f.warns ++ (globalTested gs es).filterMap (test false f) ++ testFs f r.1
  else none

end Verif.Unused

/-!
Name resolution in the compiler: scopes (compiler/scopes.h, scopes.cpp), the lookup and definition of symbols
(compiler/symbols.cpp) and the Bind and EnterNames methods (compiler/name-resolution.cpp).

Types, methodmaps, enum structs and `#pragma unused` are left out, and every type in a declaration is taken to be known.
Reports and bindings are kept in a log.
-/
namespace Verif.Names

/-- A name; names are interned (compiler/stl: Atom), so that equal names are equal pointers. -/
abbrev Atom := Nat

/-- compiler/symbols.h:45-52 ScopeKind: the storage class of a declaration, and the kind of a scope. -/
inductive Kind
  | global | local | static | argument | fileStatic
deriving DecidableEq, Repr

/-- A declaration (compiler/parse-node.h Decl): which one it is, and if it is a FunctionDecl. -/
structure Decl where
  id : Nat
  isFun : Bool
deriving DecidableEq, Repr

/-- Expressions, as far as names go: a name; a call; nothing (a literal); two parts, bound one after the other. -/
inductive NExpr
  | sym (a : Atom)
  | call (target args : NExpr)
  | lit
  | pair (l r : NExpr)
deriving DecidableEq, Repr

/-- Does an expression mention a name? -/
def NExpr.mentions (a : Atom) : NExpr → Bool
  | .sym b => b == a
  | .call t u => t.mentions a || u.mentions a
  | .lit => false
  | .pair l r => l.mentions a || r.mentions a

/-- Statements in functions.  `expr` is any statement that only has expressions; `seq` is a list of statements, an `if`
or a `switch` without its expressions; `var` and `const` declare one name.  A body that is missing is `skip`. -/
inductive NStmt
  | skip
  | seq (s t : NStmt)
  | expr (e : NExpr)
  | var (d : Nat) (a : Atom) (init : Option NExpr)
  | const (d : Nat) (a : Atom) (e : NExpr)
  | enum (name : Option (Nat × Atom)) (fields : List (Nat × Atom × Option NExpr))
  | block (s : NStmt)
  | for_ (init : NStmt) (cond advance : NExpr) (body : NStmt)
deriving Repr

/-- What happens: a name is looked up (compiler/name-resolution.cpp:504-522 SymbolExpr::DoBind; no declaration: error 17),
a name is already defined (error 21), a name hides another one (warning 219), a function is declared again (what then
happens is in Verif/Model/FunDecl.lean). -/
inductive Event
  | use (a : Atom) (d : Option Decl)
  | dup (a : Atom)
  | shadow (a : Atom)
  | again (a : Atom) (d : Decl)
deriving DecidableEq, Repr

/-- compiler/scopes.h:29-81 SymbolScope.  The map from names to chains of declarations is a list, the newest first. -/
structure Scope where
  parent : Option Nat
  kind : Kind
  symbols : List (Atom × Decl)
deriving DecidableEq, Repr

/-- compiler/semantics.h:267-284 AutoCreateScope: a block that may get a scope of its own. -/
structure Creator where
  kind : Kind
  prev : Nat
  pending : List Nat

/-- The scopes, and what is used of SemaContext (compiler/semantics.h:36-120).  A pointer to a scope is an index. -/
structure Sema where
  heap : List Scope
  scope : Nat
  creators : List Creator
  native : Bool
  log : List Event

/-- compiler/scopes.h:39-46 SymbolScope::Find. -/
def Scope.find (s : Scope) (a : Atom) : Option Decl := s.symbols.lookup a

/-- compiler/symbols.cpp:153-162 FindSymbol.  The bound on the number of steps is never reached. -/
def findFrom (heap : List Scope) (a : Atom) : Nat → Nat → Option (Decl × Nat)
  | 0, _ => none
  | fuel + 1, i =>
    match heap[i]? with
    | none => none
    | some s =>
      match s.find a with
      | some d => some (d, i)
      | none =>
        match s.parent with
        | none => none
        | some p => findFrom heap a fuel p

def findSymbol (heap : List Scope) (i : Nat) (a : Atom) : Option (Decl × Nat) := findFrom heap a heap.length i

def Sema.say (s : Sema) (e : Event) : Sema := { s with log := s.log ++ [e] }

/-- compiler/name-resolution.cpp:1263-1277 ScopeForAdd. -/
def scopeForAdd (s : Sema) : Sema × Nat :=
  match s.creators with
  | [] => (s, s.scope)
  | c :: _ =>
    if s.scope = c.prev then
      ({ s with heap := s.heap ++ [⟨some s.scope, c.kind, []⟩], scope := s.heap.length }, s.heap.length)
    else (s, s.scope)

/-- compiler/symbols.cpp:109-113 NewNameStatus. -/
inductive Status
  | ok | shadowed | duplicated
deriving DecidableEq, Repr

def kindOf (heap : List Scope) (i : Nat) : Kind := (heap[i]?.map (·.kind)).getD .global

/-- compiler/scopes.h:64-66 IsGlobalOrFileStatic. -/
def isTop (k : Kind) : Bool := k == .global || k == .fileStatic

/-- compiler/symbols.cpp:115-138 GetNewNameStatus. -/
def newNameStatus (s : Sema) (a : Atom) (vclass : Kind) : Sema × Status :=
  let found :=
    if s.native then
      match s.heap[s.scope]? with
      | some sc => (sc.find a).map fun d => (d, s.scope)
      | none => none
    else findSymbol s.heap s.scope a
  match found with
  | none => (s, .ok)
  | some (d, i) =>
    let (s, current) := scopeForAdd s
    if kindOf s.heap i = .global ∧ isTop (kindOf s.heap current) then
      (s, if vclass = .static then .shadowed else .duplicated)
    else if i = current then (s, .duplicated)
    else if kindOf s.heap current = .argument ∧ d.isFun then (s, .ok)
    else (s, .shadowed)

/-- compiler/symbols.cpp:140-151 CheckNameRedefinition. -/
def checkName (s : Sema) (a : Atom) (vclass : Kind) : Sema × Bool :=
  match newNameStatus s a vclass with
  | (s, .duplicated) => (s.say (.dup a), false)
  | (s, .shadowed) => (s.say (.shadow a), true)
  | (s, .ok) => (s, true)

/-- compiler/scopes.cpp:27-35 Add.  With assertions the name is known to be new; without, emplace keeps the old one. -/
def Scope.add (s : Scope) (a : Atom) (d : Decl) : Scope :=
  match s.find a with
  | some _ => s
  | none => { s with symbols := (a, d) :: s.symbols }

/-- compiler/scopes.cpp:37-50 AddChain: the newest declaration is found first. -/
def Scope.addChain (s : Scope) (a : Atom) (d : Decl) : Scope := { s with symbols := (a, d) :: s.symbols }

/-- Replace a scope. -/
def updScope (heap : List Scope) (i : Nat) (f : Scope → Scope) : List Scope :=
  match heap[i]? with
  | some s => heap.set i (f s)
  | none => heap

/-- compiler/symbols.cpp:168-182 DefineSymbol. -/
def define (s : Sema) (d : Decl) (a : Atom) (vclass : Kind) : Sema :=
  let (s, i) := scopeForAdd s
  let i := if kindOf s.heap i = .fileStatic ∧ vclass ≠ .static then ((s.heap[i]?.bind (·.parent)).getD i) else i
  { s with heap := updScope s.heap i fun sc => if isTop sc.kind then sc.addChain a d else sc.add a d }

/-- compiler/name-resolution.cpp: Bind of expressions (504-522 SymbolExpr, 537-549 CallExpr, and the others that bind
their parts in order).  The result says if all names were found. -/
def bindExpr (s : Sema) : NExpr → Sema × Bool
  | .sym a =>
    let d := (findSymbol s.heap s.scope a).map (·.1)
    (s.say (.use a d), d.isSome)
  | .call t args =>
    let (s, ok) := bindExpr s t
    if ok then bindExpr s args else (s, false)
  | .lit => (s, true)
  | .pair l r =>
    let (s, ok) := bindExpr s l
    let (s, ok') := bindExpr s r
    (s, ok && ok')

def bindOpt (s : Sema) : Option NExpr → Sema
  | some e => (bindExpr s e).1
  | none => s

/-- compiler/name-resolution.cpp:426-472 VarDeclBase::Bind. -/
def bindVar (s : Sema) (d : Nat) (a : Atom) (vclass : Kind) (init : Option NExpr) : Sema :=
  let s := bindOpt s init
  let (s, ok) := checkName s a vclass
  let s := if ok then define s ⟨d, false⟩ a vclass else s
  match init with
  | some _ => s.say (.use a ((findSymbol s.heap s.scope a).map (·.1)))
  | none => s

/-- compiler/name-resolution.cpp:381-424 ConstDecl: EnterNames, and then Bind.  The result says if both succeed; that the
expression is a constant is not modelled. -/
def bindConst (s : Sema) (d : Nat) (a : Atom) (vclass : Kind) (e : NExpr) : Sema × Bool :=
  let (s, ok) := checkName s a vclass
  if ok then bindExpr (define s ⟨d, false⟩ a vclass) e else (s, false)

/-- compiler/name-resolution.cpp:203-226: the names of an enum. -/
def bindFields (s : Sema) (vclass : Kind) : List (Nat × Atom × Option NExpr) → Sema
  | [] => s
  | (d, a, e) :: fs =>
    let s := bindOpt s e
    let (s, ok) := checkName s a vclass
    bindFields (if ok then define s ⟨d, false⟩ a vclass else s) vclass fs

/-- compiler/name-resolution.cpp:153-231 EnumDecl::EnterNames. -/
def bindEnum (s : Sema) (vclass : Kind) (name : Option (Nat × Atom)) (fields : List (Nat × Atom × Option NExpr)) : Sema :=
  let s := match name with
    | some (d, a) =>
      let (s, ok) := checkName s a vclass
      if ok then define s ⟨d, false⟩ a vclass else s
    | none => s
  bindFields s vclass fields

/-- compiler/name-resolution.cpp:1279-1287, the constructor of AutoCreateScope. -/
def enter (s : Sema) (kind : Kind) : Sema := { s with creators := ⟨kind, s.scope, []⟩ :: s.creators }

/-- compiler/scopes.h:73 set_parent, for each of a list. -/
def reparent (heap : List Scope) (p : Nat) : List Nat → List Scope
  | [] => heap
  | x :: xs => reparent (updScope heap x fun sc => { sc with parent := some p }) p xs

/-- compiler/name-resolution.cpp:1289-1313, the destructor of AutoCreateScope. -/
def leave (s : Sema) : Sema :=
  match s.creators with
  | [] => s
  | c :: cs =>
    if s.scope = c.prev then
      match cs with
      | p :: ps => { s with scope := c.prev, creators := { p with pending := p.pending ++ c.pending } :: ps }
      | [] => { s with heap := reparent s.heap s.scope c.pending, scope := c.prev, creators := [] }
    else
      match cs with
      | p :: ps =>
        { s with heap := reparent s.heap s.scope c.pending, scope := c.prev,
                 creators := { p with pending := p.pending ++ [s.scope] } :: ps }
      | [] => { s with heap := reparent (reparent s.heap c.prev [s.scope]) s.scope c.pending, scope := c.prev, creators := [] }

/-- compiler/name-resolution.cpp:680-681: `for` makes a scope unless the first part is an expression or missing. -/
def NStmt.declares : NStmt → Bool
  | .expr _ | .skip => false
  | _ => true

/-- compiler/name-resolution.cpp: Bind of statements (123-151 lists and blocks, 637-707 if, do, for, switch). -/
def bindStmt (s : Sema) : NStmt → Sema
  | .skip => s
  | .seq a b => bindStmt (bindStmt s a) b
  | .expr e => (bindExpr s e).1
  | .var d a init => bindVar s d a .local init
  | .const d a e => (bindConst s d a .local e).1
  | .enum name fields => bindEnum s .local name fields
  | .block b => leave (bindStmt (enter s .local) b)
  | .for_ init cond advance body =>
    let s1 := if init.declares then enter s .local else s
    let s2 := bindStmt s1 init
    let s3 := (bindExpr s2 cond).1
    let s4 := (bindExpr s3 advance).1
    let s5 := bindStmt s4 body
    if init.declares then leave s5 else s5

/-- What is at the top of a file. -/
inductive TopDecl
  /-- compiler/parser.cpp:208-217 ChangeStaticScope: what follows is in file `n` -/
  | file (n : Nat)
  | var (d : Nat) (a : Atom) (static : Bool) (init : Option NExpr)
  | const (d : Nat) (a : Atom) (e : NExpr)
  | enum (name : Option (Nat × Atom)) (fields : List (Nat × Atom × Option NExpr))
  | fn (d : Nat) (a : Atom) (static native : Bool) (args : List (Nat × Atom × Option NExpr)) (body : NStmt)

/-- compiler/parser.cpp:208-217: the scope of file `n`.  Scope 0 is that of the globals. -/
def fileScope (n : Nat) : Nat := n + 1

/-- compiler/symbols.h: vclass of a declaration at the top. -/
def topClass (static : Bool) : Kind := if static then .static else .global

/-- compiler/name-resolution.cpp:121-129 and the EnterNames methods (706-726 for functions): the first pass.  `done` are
the constants that have been bound. -/
def enterNames (s : Sema) (done : List Nat) : TopDecl → Sema × List Nat
  | .file n => ({ s with scope := fileScope n }, done)
  | .var d a static init => (bindVar s d a (topClass static) init, done)
  | .const d a e =>
    match bindConst s d a .global e with
    | (s, true) => (s, d :: done)
    | (s, false) => (s, done)
  | .enum name fields => (bindEnum s .global name fields, done)
  | .fn d a static _ _ _ =>
    match findSymbol s.heap s.scope a with
    | some (other, _) => (s.say (.again a other), done)
    | none => (define s ⟨d, true⟩ a (topClass static), done)

def bindArgs (s : Sema) : List (Nat × Atom × Option NExpr) → Sema
  | [] => s
  | (d, a, e) :: args => bindArgs (bindVar s d a .argument e) args

/-- compiler/name-resolution.cpp:47-57 AutoEnterScope, without the destructor. -/
def enterScope (s : Sema) (kind : Kind) : Sema :=
  { s with heap := s.heap ++ [⟨some s.scope, kind, []⟩], scope := s.heap.length }

/-- compiler/name-resolution.cpp:767-843 FunctionDecl::Bind.  The body is a block (compiler/parse-node.cpp:88-95). -/
def bindFn (s : Sema) (native : Bool) (args : List (Nat × Atom × Option NExpr)) (body : NStmt) : Sema :=
  let s1 : Sema := { s with creators := [], native := native }
  let s2 := match args with
    | [] => s1
    | args => bindArgs (enterScope s1 .argument) args
  let s3 := bindStmt s2 (.block body)
  { s3 with scope := s.scope, creators := s.creators, native := s.native }

/-- compiler/name-resolution.cpp:131-142 and the Bind methods: the second pass. -/
def bindTop (done : List Nat) (s : Sema) : TopDecl → Sema
  | .file n => { s with scope := fileScope n }
  | .var .. => s
  | .const d _ e => if d ∈ done then s else (bindExpr s e).1
  | .enum .. => s
  | .fn _ _ _ native args body => bindFn s native args body

def enterAll (s : Sema) (done : List Nat) : List TopDecl → Sema × List Nat
  | [] => (s, done)
  | d :: ds => let (s, done) := enterNames s done d; enterAll s done ds

def bindAll (done : List Nat) (s : Sema) : List TopDecl → Sema
  | [] => s
  | d :: ds => bindAll done (bindTop done s d) ds

/-- The scopes before the first pass: the globals and `files` files. -/
def start (files : Nat) : Sema :=
  { heap := ⟨none, .global, []⟩ :: List.replicate files ⟨some 0, .fileStatic, []⟩, scope := 0, creators := [], native := false, log := [] }

/-- compiler/name-resolution.cpp:112-119 ParseTree::ResolveNames: the log of both passes. -/
def resolveNames (files : Nat) (p : List TopDecl) : List Event × List Event :=
  let (s, done) := enterAll (start files) [] p
  (s.log, (bindAll done { s with log := [] } p).log)

end Verif.Names

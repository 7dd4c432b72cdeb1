import Verif.Model.Lookup
/-!
Debug information about variables: the tables .dbg.globals, .dbg.locals and .dbg.methods (compiler/code-generator.cpp,
compiler/rtti-builder.cpp), and what the loader checks of them (vm/smx-image.cpp).

Statements are reduced to what matters here: how many bytes of code they give, where variables are declared, and which statements open
a scope.  Names are the strings themselves (the table of names is in C33); types are left out.
-/
namespace Verif.DebugVars
open Verif.Image (Bytes)

/-- `Decl::vclass()` -/
inductive VClass
  | sLOCAL | sGLOBAL | sSTATIC | sARGUMENT
deriving DecidableEq

/-- include/smx/smx-typeinfo.h:317-320 -/
inductive Class
  | global | loc | static | arg
deriving DecidableEq

/-- A variable: its address, or its value for a constant; `listed` is `is_public() || is_used()`. -/
structure Var where
  name : Bytes
  vclass : VClass
  addr : Int
  listed : Bool
deriving DecidableEq

/-- smx_rtti_debug_var, include/smx/smx-typeinfo.h:296-314 -/
structure Row where
  name : Bytes
  vclass : Class
  addr : Int
  start : Nat
  stop : Nat
deriving DecidableEq

/-- A statement in a function. -/
inductive Stm
  /-- code without declarations -/
  | code (n : Nat)
  /-- compiler/code-generator.cpp:280-301 EmitVarDecl: a local or (`static`) static variable, with its code -/
  | decl (static : Bool) (name : Bytes) (addr : Int) (used : Bool) (n : Nat)
  /-- BlockStmt, 175-183, and ForStmt with a scope, 1807-1872 -/
  | block (ss : List Stm)
  /-- any other statement with statements in it -/
  | seq (ss : List Stm)

/-- A function with a body: its arguments; the code in front of the body (PROC, BREAK) and after it. -/
structure Fn where
  args : List (Bytes × Int)
  head : Nat
  body : Stm
  tail : Nat

/-- What is at the top of a program. -/
inductive Item
  | fn (f : Fn)
  /-- a global or (`static`) static variable -/
  | var (static : Bool) (name : Bytes) (addr : Int) (listed : Bool)
  /-- ChangeScopeNode -/
  | file (scope : Nat)

/-- The code generator.  Vectors that are used as stacks have their back at the head of the list. -/
structure Gen where
  pc : Nat
  /-- `local_syms_` -/
  locals : List (List (Var × Nat))
  /-- `global_syms_` -/
  globals : List (Var × Nat)
  /-- `static_syms_`, and `static_scopes_` (the scopes in it) -/
  statics : List (Nat × List (Var × Nat))
  /-- .dbg.locals -/
  localRows : List Row
  /-- .dbg.globals -/
  globalRows : List Row
  /-- rtti.methods: start and end -/
  methods : List (Nat × Nat)
  /-- .dbg.methods: method_index and first_local -/
  dbgMethods : List (Nat × Nat)

/-- compiler/rtti-builder.cpp:159-175 -/
def classOf (v : Var) : Class :=
  match v.vclass with
  | .sLOCAL => if v.addr ≥ 0 then .loc else .arg
  | .sGLOBAL => .global
  | .sSTATIC => .static
  | .sARGUMENT => .arg

/-- compiler/rtti-builder.cpp:138-180 AddDebugVar: the row. -/
def rowOf (v : Var) (start stop : Nat) : Row := ⟨v.name, classOf v, v.addr, start, stop⟩

/-- compiler/code-generator.cpp:121-123 AddDebugSymbol; `inFun`: `fun_` is not null. -/
def Gen.add (inFun : Bool) (g : Gen) (e : Var × Nat) : Gen :=
  if inFun then { g with localRows := g.localRows ++ [rowOf e.1 e.2 g.pc] }
  else { g with globalRows := g.globalRows ++ [rowOf e.1 e.2 g.pc] }

/-- compiler/code-generator.cpp:125-130 AddDebugSymbols: from the back. -/
def Gen.addAll (inFun : Bool) (g : Gen) : List (Var × Nat) → Gen
  | [] => g
  | e :: es => (g.add inFun e).addAll inFun es

/-- compiler/code-generator.cpp:2224-2240 EnqueueDebugSymbol.  `back()` of an empty vector is not modelled: nothing happens. -/
def Gen.enqueue (inFun : Bool) (g : Gen) (v : Var) : Gen :=
  if v.vclass = .sGLOBAL then { g with globals := (v, g.pc) :: g.globals }
  else if v.vclass = .sSTATIC ∧ inFun = false then
    match g.statics with
    | (s, es) :: r => { g with statics := (s, (v, g.pc) :: es) :: r }
    | [] => g
  else
    match g.locals with
    | es :: r => { g with locals := ((v, g.pc) :: es) :: r }
    | [] => g

/-- compiler/code-generator.cpp:2242-2247 AutoEnterScope -/
def Gen.enter (g : Gen) : Gen := { g with locals := [] :: g.locals }

/-- compiler/code-generator.cpp:2249-2252 ~AutoEnterScope -/
def Gen.leave (g : Gen) : Gen :=
  match g.locals with
  | es :: r => ({ g with locals := r } : Gen).addAll true es
  | [] => g

/-- Writing code. -/
def Gen.emitCode (g : Gen) (n : Nat) : Gen := { g with pc := g.pc + n }

mutual
/-- compiler/code-generator.cpp:138-250 EmitStmt -/
def emit (g : Gen) : Stm → Gen
  | .code n => g.emitCode n
  | .decl static name addr used n =>
    if used then (g.emitCode n).enqueue true ⟨name, if static then .sSTATIC else .sLOCAL, addr, used⟩ else g.emitCode n
  | .block ss => (emits g.enter ss).leave
  | .seq ss => emits g ss
/-- compiler/code-generator.cpp:132-137 EmitStmtList -/
def emits (g : Gen) : List Stm → Gen
  | [] => g
  | s :: ss => emits (emit g s) ss
end

/-- compiler/code-generator.cpp:1971-1975: the arguments. -/
def Gen.enqueueArgs (g : Gen) : List (Bytes × Int) → Gen
  | [] => g
  | a :: as => (g.enqueue true ⟨a.1, .sARGUMENT, a.2, true⟩).enqueueArgs as

/-- compiler/rtti-builder.cpp:182-223 add_method and finish_method, around compiler/code-generator.cpp:1953-1990 EmitFunctionDecl. -/
def emitFn (g : Gen) (f : Fn) : Gen :=
  let g1 := emit ((g.emitCode f.head).enter.enqueueArgs f.args) f.body
  let g2 := g1.leave.emitCode f.tail
  { g2 with
    methods := g2.methods ++ [(g.pc, g2.pc)]
    dbgMethods := if g.localRows.length ≠ g2.localRows.length then g2.dbgMethods ++ [(g.methods.length, g.localRows.length)]
      else g2.dbgMethods }

/-- compiler/code-generator.cpp:258-271: leave the files above. -/
def popFiles (g : Gen) (scope : Nat) : List (Nat × List (Var × Nat)) → Gen
  | [] => { g with statics := [] }
  | (s, es) :: r => if s = scope then { g with statics := (s, es) :: r } else popFiles (g.addAll false es) scope r

/-- compiler/code-generator.cpp:252-278 EmitChangeScopeNode -/
def changeFile (g : Gen) (scope : Nat) : Gen :=
  if g.statics.any (·.1 == scope) then popFiles g scope g.statics
  else { g with statics := (scope, []) :: g.statics }

/-- The statements at the top of a program. -/
def emitItem (g : Gen) : Item → Gen
  | .fn f => emitFn g f
  | .var static name addr listed =>
    if listed then g.enqueue false ⟨name, if static then .sSTATIC else .sGLOBAL, addr, listed⟩ else g
  | .file s => changeFile g s

/-- All of them. -/
def emitItems (g : Gen) : List Item → Gen
  | [] => g
  | i :: is => emitItems (emitItem g i) is

/-- compiler/code-generator.cpp:69-73 -/
def Gen.addStatics (g : Gen) : List (Nat × List (Var × Nat)) → Gen
  | [] => { g with statics := [] }
  | (_, es) :: r => (g.addAll false es).addStatics r

/-- compiler/code-generator.cpp:45-64: HALT 0. -/
def Gen.init : Gen := ⟨8, [], [], [], [], [], [], []⟩

/-- compiler/code-generator.cpp:61-82 Generate -/
def generate (p : List Item) : Gen :=
  let g := emitItems .init p
  let g := g.addStatics g.statics
  g.addAll false g.globals

/-! ### The loader -/

/-- The code section: the header and the code; include/smx/smx-headers.h:171-185 sp_file_code_t. -/
def sectionSize (g : Gen) : Nat := 20 + g.pc

/-- vm/smx-image.cpp:699-724 validateSymbolAddress, for compiled files of this version. -/
def addressOk (heapSize : Int) (r : Row) : Bool :=
  match r.vclass with
  | .global | .static => decide (0 ≤ r.addr ∧ r.addr < heapSize)
  | .loc => decide (r.addr ≥ 0)
  | .arg => decide (r.addr ≤ 0)

/-- vm/smx-image.cpp:672-697 validateDebugVariables, without the checks of names and types. -/
def rowOk (size : Nat) (heapSize : Int) (r : Row) : Bool :=
  decide (r.start ≤ r.stop) && decide (r.start < size) && decide (r.stop ≤ size) && addressOk heapSize r

/-- vm/smx-image.cpp:726-738 validateDebugMethods -/
def methodsOk (g : Gen) : Bool :=
  g.dbgMethods.all fun m => decide (m.1 < g.methods.length) && decide (m.2 < g.localRows.length)

/-- include/smx/smx-typeinfo.h:284-294: the rows of the locals table that a method owns. -/
def localsOf (rows : List Row) (i : Nat) : List (Nat × Nat) → List Row
  | [] => []
  | (m, first) :: rest =>
    if m = i then
      match rest with
      | [] => rows.drop first
      | (_, next) :: _ => (rows.take next).drop first
    else localsOf rows i rest

end Verif.DebugVars

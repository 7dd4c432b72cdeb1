/-
How the compiler collects its messages and decides whether a program has compiled:
`compiler/errors.cpp`, `compiler/errors.h` and `RunCompiler` in `compiler/main.cpp`.

Not modelled: the text of messages, their columns, and the summary lines printed at the end.  The
work of the compiler's phases is not modelled here either.  A phase is any sequence of what it can do
to the report manager, together with whether it says it succeeded.
-/
namespace Verif.Reports

/-- `ErrorType`, `compiler/errors.h`:36-40. -/
inductive Kind where
  | suppressed
  | warning
  | error
deriving Repr, DecidableEq, Inhabited

/-- A message as the compiler raises it: its number and where it is.
`MessageBuilder`, `compiler/errors.cpp`:120-150.  The arguments are left out. -/
structure Msg where
  number : Nat
  file : Nat
  line : Nat
deriving Repr, DecidableEq, Inhabited

/-- `ErrorReport`, `compiler/errors.h`:42-51.  The text is left out. -/
structure Report where
  msg : Msg
  kind : Kind
deriving Repr, DecidableEq, Inhabited

/-- What `-w` asks for one warning.  `compiler/driver.cpp`:178-187. -/
inductive Enable where
  | disable
  | enable
  | toggle
deriving Repr, DecidableEq, Inhabited

/-- `ReportManager::EnableWarning`, `compiler/errors.cpp`:332-352.  The list is `warn_disable_`. -/
def enableWarning (off : List Nat) (number : Nat) : Enable → List Nat
  | .disable => if off.contains number then off else number :: off
  | .enable => off.filter (· != number)
  | .toggle => if off.contains number then off.filter (· != number) else number :: off

/-- All `-w` options of a command line in turn.  `compiler/driver.cpp`:178-187. -/
def disabledBy (ws : List (Nat × Enable)) : List Nat :=
  ws.foldl (fun off w => enableWarning off w.1 w.2) []

/-- The command line options that matter here. -/
structure Opts where
  warningsAreErrors : Bool
  disabled : List Nat
  syntaxOnly : Bool
deriving Repr, DecidableEq, Inhabited

/-- `DeduceErrorType`, `compiler/errors.cpp`:74-84. -/
def kindOf (o : Opts) (number : Nat) : Kind :=
  if number < 200 ∨ (number < 300 ∧ o.warningsAreErrors = true) ∨ number ≥ 400 then .error
  else if o.disabled.contains number then .suppressed
  else .warning

/-- `ReportManager`, `compiler/errors.h`:138-183, and the two flags of the compile context that it
uses.  `total` is `unsigned` in the code: that it may wrap after 2^32 counts is left out.  `lastFile`
is `short` in the code and a number here.  The innermost deferral is the first of `defers`. -/
structure Mgr where
  flag : Bool := false
  single : Bool := false
  onLine : Nat := 0
  listed : List Report := []
  lastLine : Nat := 0
  lastFile : Nat := 0
  total : Nat := 0
  reported : Nat := 0
  abort : Bool := false
  defers : List (List Report) := []
deriving Repr, DecidableEq, Inhabited

/-- The limits that make the compiler give up: `compiler/errors.cpp`:239-255. -/
def limits (m : Mgr) (r : Report) : Mgr :=
  let m := if m.reported > 25 then { m with abort := true } else m
  let m := if m.lastLine ≠ r.msg.line ∨ r.msg.file ≠ m.lastFile then { m with onLine := 0 } else m
  let m := { m with lastLine := r.msg.line, lastFile := r.msg.file }
  let m := if r.kind ≠ .warning then { m with onLine := m.onLine + 1 } else m
  if m.onLine ≥ 3 then { m with abort := true } else m

/-- `ReportManager::ReportError`, `compiler/errors.cpp`:202-256. -/
def reportError (m : Mgr) (r : Report) : Mgr :=
  match m.defers with
  | d :: ds => { m with defers := (d ++ [r]) :: ds }
  | [] =>
    let m := if r.kind = .error then { m with total := m.total + 1 } else m
    if m.flag = true ∧ m.single = true then m
    else
      let m := { m with listed := m.listed ++ [r] }
      match r.kind with
      | .suppressed => m
      | .warning => limits m r
      | .error => limits { m with total := m.total + 1, reported := m.reported + 1, flag := m.flag || m.single } r

/-- What a phase can do to the report manager.  Deferrals are objects on the C++ stack
(`AutoDeferReports`, `compiler/errors.h`:185-207), so they nest: what happens while one is in force is
its body.  It ends either with `Report()` or with its destructor. -/
inductive Work where
  | nothing
  | report (msg : Msg)
  /-- `ResetErrorFlag`, `compiler/errors.h`:146. -/
  | nextStatement
  /-- `set_one_error_per_stmt`, `compiler/parser.cpp`:56-59. -/
  | onePerStatement (on : Bool)
  | seq (a b : Work)
  /-- `released` is whether `Report()` is called. -/
  | deferred (body : Work) (released : Bool)
deriving Repr, DecidableEq, Inhabited

/-- Doing that work.  `MessageBuilder::~MessageBuilder`, `compiler/errors.cpp`:153-199;
`AutoDeferReports`, 430-451. -/
def perform (o : Opts) : Work → Mgr → Mgr
  | .nothing, m => m
  | .report msg, m => reportError m ⟨msg, kindOf o msg.number⟩
  | .nextStatement, m => { m with flag := false }
  | .onePerStatement on, m => { m with single := on }
  | .seq a b, m => perform o b (perform o a m)
  | .deferred body released, m =>
    let m := perform o body { m with defers := [] :: m.defers }
    match m.defers with
    | [] => m
    | d :: ds =>
      let m := { m with defers := ds }
      if released then d.foldl reportError m else m

/-- `NumErrorMessages`, `compiler/errors.cpp`:384-391. -/
def numErrors (m : Mgr) : Nat :=
  (m.listed.filter (·.kind == .error)).length

/-- The order of `DumpErrorReport`, `compiler/errors.cpp`:303-308. -/
def before (a b : Report) : Bool :=
  if a.msg.file = b.msg.file then a.msg.line ≤ b.msg.line else a.msg.file > b.msg.file

/-- Puts a report before the first one that it does not come after. -/
def insertReport (r : Report) : List Report → List Report
  | [] => [r]
  | x :: xs => if before r x then r :: x :: xs else x :: insertReport r xs

/-- The sorted list, `compiler/errors.cpp`:303-308. -/
def sortReports : List Report → List Report
  | [] => []
  | r :: rs => insertReport r (sortReports rs)

/-- What `DumpErrorReport` prints, `compiler/errors.cpp`:293-318.  The code sorts with `std::sort`,
which does not fix the order of messages on the same line; here they keep theirs. -/
def dump (m : Mgr) : List Report :=
  (sortReports m.listed).filter (·.kind != .suppressed)

/-- A phase of the compiler: what it does, and whether it says that it succeeded. -/
structure Phase where
  work : Work
  ok : Bool
deriving Repr, DecidableEq, Inhabited

/-- One run of the compiler: opening the source file (`compiler/main.cpp`:140-172, which fails by
jumping to `cleanup`), `Parse`, `EnterNames`, `Bind`, `Analyze`, `Generate` and `assemble`.  For `Generate`,
`ok` is the result of `ComputeStackUsage`. -/
structure Program where
  setup : Phase
  parse : Phase
  enter : Phase
  bind : Phase
  analyze : Phase
  generate : Phase
  write : Phase
deriving Repr, DecidableEq, Inhabited

/-- The phases between the construction of `AutoCountErrors` and `ok = true`, each of which is
followed by the same test.  `compiler/main.cpp`:174-211.  The first component is `ok`. -/
def phases (o : Opts) : List Phase → Mgr → Bool × Mgr
  | [], m => (true, m)
  | p :: ps, m =>
    let m' := perform o p.work m
    if p.ok = false ∨ m'.total ≠ m.total then (false, m') else phases o ps m'

/-- Everything before `cleanup`.  `compiler/main.cpp`:140-211. -/
def frontEnd (o : Opts) (p : Program) (m : Mgr) : Bool × Mgr :=
  let m := perform o p.setup.work m
  if p.setup.ok = false then (false, m) else phases o [p.parse, p.enter, p.bind, p.analyze] m

/-- What the user sees of a run. -/
structure Outcome where
  /-- Whether the output file was written in full. -/
  written : Bool
  exit : Nat
  /-- The messages printed by the first and by the second `DumpErrorReport`. -/
  first : List Report
  second : List Report
deriving Repr, DecidableEq, Inhabited

/-- `CodeGenerator::Generate`, `compiler/code-generator.cpp`:61-82, as far as its result goes.  The
error count is taken when the generator is constructed, just before. -/
def generate (o : Opts) (p : Phase) (m : Mgr) : Bool × Mgr :=
  let m' := perform o p.work m
  (p.ok && m'.total == m.total, m')

/-- `RunCompiler`, `compiler/main.cpp`:118-290: everything up to the exit code.  The summary lines
are left out, and so is the option that verifies the binary before it is written, which ends the
process when it fails. -/
def compile (o : Opts) (p : Program) : Outcome :=
  let (ok, m) := frontEnd o p {}
  let m := if ok = false ∧ numErrors m = 0 then perform o (.report ⟨423, 0, 0⟩) m else m
  let compileOk := numErrors m == 0
  let first := dump m
  let m := { m with listed := [] }
  let (compileOk, m) := if compileOk then generate o p.generate m else (false, m)
  let (written, compileOk, m) :=
    if o.syntaxOnly = false ∧ compileOk = true then (p.write.ok, p.write.ok, perform o p.write.work m)
    else (false, compileOk, m)
  { written := written, exit := if compileOk then 0 else 1, first := first, second := dump m }

end Verif.Reports

import Verif.Model.Interp

/-!
The code for 64-bit integers (compiler/code-generator.cpp: EmitExpr, EmitBinary, EmitUnary, EmitIncDec, EmitStore, EmitRvalue, AcquireTempSlot,
EmitLocalVar, EmitStmt).  A value of type `int64` is an address in PRI.  The results of operators are in temporary slots of the frame, which are
taken for the rest of the statement.

Not here: calls, elements and fields, `? :`, `&&` and `||`, chained comparisons, control flow, and operators on `int`, which
Verif/Model/CodeGen.lean has.  BREAK instructions do nothing and are left out.
-/
namespace Verif.Long
open Verif.VM

/-- The types of slots that are used here. -/
inductive Kind
  | int | int64
deriving DecidableEq, Repr

/-- vm/method-verifier.cpp:1126-1150, the sizes of slots. -/
def Kind.bytes : Kind → Int
  | .int => 4
  | .int64 => 8

/-- vm/method-info.cpp:57-66 BuildLocalOffsetTable -/
def offsets : Int → List Kind → List Int
  | _, [] => []
  | off, k :: ks => (off - k.bytes) :: offsets (off - k.bytes) ks

/-- `int64` variables: locals (by number), parameters, reference parameters (both by their position) and globals (by address). -/
inductive Var
  | loc (n : Nat)
  | par (k : Nat)
  | ref (k : Nat)
  | glob (a : Cell)
deriving DecidableEq, Repr

/-- `*`, `/`, `%`, `+`, `-`, `<<`, `>>`, `>>>`, `&`, `^`, `|` -/
inductive Op
  | mul | div | mod | add | sub | shl | sshr | shr | and | xor | or
deriving DecidableEq, Repr

/-- `==`, `!=`, `>`, `>=`, `<`, `<=` -/
inductive Rel
  | eq | ne | gt | ge | lt | le
deriving DecidableEq, Repr

mutual
/-- Expressions of type `int64`. -/
inductive E64
  /-- a literal, or a constant of type `int` that has been converted (compiler/semantics.cpp:3076-3082) -/
  | num (v : BitVec 64)
  | var (x : Var)
  | inv (e : E64)
  | neg (e : E64)
  | bin (op : Op) (a b : E64)
  | set (x : Var) (e : E64)
  | opset (op : Op) (x : Var) (e : E64)
  /-- `++` or `--`; `pre` if it is in front, or the value is not used (the code is the same) -/
  | inc (up pre : Bool) (x : Var)
  /-- a conversion from `int` -/
  | ofInt (e : E32)
  | comma (a b : E64)
/-- Expressions of type `int` or `bool`. -/
inductive E32
  | num (v : Cell)
  /-- a local variable -/
  | var (n : Nat)
  | set (n : Nat) (e : E32)
  /-- `view_as<int>(e)` -/
  | trunc (e : E64)
  | rel (op : Rel) (a b : E64)
  | not (e : E64)
  /-- `e` as a condition -/
  | truth (e : E64)
end

/-- The part of the CodeGenerator that decides about slots, and the slots of the variables that have been declared.  `kinds` is
`locals_.types`; a slot is on one of the lists or has a variable. -/
structure Slots where
  kinds : List Kind
  free : List (Nat × Kind)
  used : List (Nat × Kind)
  v64 : Nat → Option Nat
  v32 : Nat → Option Nat

/-- compiler/rtti-builder.cpp:519-522 AddLocalSlot -/
def Slots.add (s : Slots) (k : Kind) : Nat × Slots := (s.kinds.length, { s with kinds := s.kinds ++ [k] })

/-- compiler/code-generator.cpp:2309-2316: the first free slot of the type, and the others. -/
def takeFree (k : Kind) : List (Nat × Kind) → Option (Nat × List (Nat × Kind))
  | [] => none
  | x :: xs => if x.2 = k then some (x.1, xs) else (takeFree k xs).map fun r => (r.1, x :: r.2)

/-- compiler/code-generator.cpp:2308-2322 AcquireTempSlot -/
def Slots.acquire (s : Slots) (k : Kind) : Nat × Slots :=
  match takeFree k s.free with
  | some (i, rest) => (i, { s with free := rest, used := s.used ++ [(i, k)] })
  | none => (s.kinds.length, { s with kinds := s.kinds ++ [k], used := s.used ++ [(s.kinds.length, k)] })

/-- The slot of a variable that has been declared (otherwise there is an error before code generation). -/
def Slots.slot64 (s : Slots) (n : Nat) : Int := ((s.v64 n).getD 0 : Nat)
def Slots.slot32 (s : Slots) (n : Nat) : Int := ((s.v32 n).getD 0 : Nat)

/-- compiler/smx-assembly-buffer.h:123-151 `address` for PRI, which EmitRvalue (compiler/code-generator.cpp:1606-1635) uses.  A parameter is
passed as the address of a copy. -/
def addressPri (s : Slots) : Var → List Insn
  | .loc n => [.addr .pri (s.slot64 n)]
  | .par k | .ref k => [.loadS .pri (-((k : Int) + 1))]
  | .glob a => [.const .pri a]

/-- compiler/code-generator.cpp:1638-1686 EmitStore for variables.  (That the address of a global may be missing is in
Verif/Model/DataSection.lean.) -/
def store (s : Slots) : Var → List Insn
  | .loc n => [.addr .alt (s.slot64 n), .moveI64]
  | .par k => [.addr .alt (-((k : Int) + 1)), .moveI64]
  | .ref k => [.loadS .alt (-((k : Int) + 1)), .moveI64]
  | .glob a => [.const .alt a, .moveI64]

/-- compiler/code-generator.cpp:876-898 GetInt64BinaryOp -/
def Op.insn : Op → Op64
  | .mul => .smul | .div => .sdivAlt | .mod => .smodAlt | .add => .add | .sub => .subAlt
  | .shl => .shl | .sshr => .sshr | .shr => .shr | .and => .and | .xor => .xor | .or => .or

def Rel.insn : Rel → Cmp
  | .eq => .eq | .ne => .neq | .gt => .sgrtr | .ge => .sgeq | .lt => .sless | .le => .sleq

/-- compiler/code-generator.cpp:916-926 -/
def Op.exchanged : Op → Bool
  | .shl | .sshr | .shr => true
  | _ => false

def Rel.exchanged : Rel → Bool
  | .eq | .ne => false
  | _ => true

/-- compiler/code-generator.cpp:2095-2101 EmitNumber64Expr -/
def emitNum (s : Slots) (v : BitVec 64) : List Insn × Slots :=
  let (i, s) := s.acquire .int64
  ([.storSCI64 i (v.extractLsb' 0 32) (v.extractLsb' 32 32), .addr .pri i], s)

/-- compiler/code-generator.cpp:916-943 EmitBinaryOp, operators. -/
def emitOp (s : Slots) (op : Op) : List Insn × Slots :=
  let (i, s) := s.acquire .int64
  ((if op.exchanged then [.xchg] else []) ++ [.bin64 op.insn i], s)

/-- EmitBinaryOp, comparisons. -/
def emitRel (op : Rel) : List Insn := (if op.exchanged then [.xchg] else []) ++ [.cmp64 op.insn]

/-- compiler/code-generator.cpp:656-723 EmitIncDec, for variables. -/
def emitInc (s : Slots) (up pre : Bool) (x : Var) : List Insn × Slots :=
  let d : BitVec 64 := if up then 1 else -1
  let (i, s) := s.acquire .int64
  let first := [Insn.storSCI64 i (d.extractLsb' 0 32) (d.extractLsb' 32 32)] ++ addressPri s x
  if pre then (first ++ [.addr .alt i, .bin64 .add i] ++ store s x, s)
  else
    let (j, s) := s.acquire .int64
    (first ++ [.addr .alt j, .moveI64, .push .alt, .addr .alt i, .bin64 .add i] ++ store s x ++ [.pop .pri], s)

mutual
/-- compiler/code-generator.cpp:472-570 EmitExpr, with EmitUnary (605-641), EmitBinary (725-782), EmitBinaryInner (784-832), EmitSimpleCastExpr
(2104-2124) and EmitCastExpr (2126-2136), for expressions of type `int64`.  No such expression is `iCONSTEXPR`. -/
def gen64 (s : Slots) : E64 → List Insn × Slots
  | .num v => emitNum s v
  | .var x => (addressPri s x, s)
  | .inv e =>
    let (c, s) := gen64 s e
    let (i, s) := s.acquire .int64
    (c ++ [.invertI64 i], s)
  | .neg e =>
    let (c, s) := gen64 s e
    let (i, s) := s.acquire .int64
    (c ++ [.negI64 i], s)
  | .bin op a b =>
    let (c, s) := gen64 s a
    let (d, s) := gen64 s b
    let (o, s) := emitOp s op
    (c ++ [.push .pri] ++ d ++ [.pop .alt] ++ o, s)
  | .set x e =>
    let (c, s) := gen64 s e
    (c ++ store s x, s)
  | .opset op x e =>
    let l := addressPri s x
    let (d, s) := gen64 s e
    let (o, s) := emitOp s op
    (l ++ [.push .pri] ++ d ++ [.pop .alt] ++ o ++ store s x, s)
  | .inc up pre x => emitInc s up pre x
  | .ofInt e =>
    let (c, s) := gen32 s e
    let (i, s) := s.acquire .int64
    (c ++ [.cvtI64 i], s)
  | .comma a b =>
    let (c, s) := gen64 s a
    let (d, s) := gen64 s b
    (c ++ d, s)
/-- For expressions of type `int` and `bool`. -/
def gen32 (s : Slots) : E32 → List Insn × Slots
  | .num v => ([if v = 0 then .zero .pri else .const .pri v], s)
  | .var n => ([.loadS .pri (s.slot32 n)], s)
  | .set n e =>
    let (c, s) := gen32 s e
    (c ++ [.storS (s.slot32 n) .pri], s)
  | .trunc e =>
    let (c, s) := gen64 s e
    (c ++ [.truncI64], s)
  | .rel op a b =>
    let (c, s) := gen64 s a
    let (d, s) := gen64 s b
    (c ++ [.push .pri] ++ d ++ [.pop .alt] ++ emitRel op, s)
  | .not e =>
    let (c, s) := gen64 s e
    (c ++ [.testI64, .not], s)
  | .truth e =>
    let (c, s) := gen64 s e
    (c ++ [.testI64], s)
end

mutual
/-- Statements; each declaration has its own number. -/
inductive Stmt
  | expr64 (e : E64)
  | expr32 (e : E32)
  | decl64 (n : Nat) (init : Option E64)
  | decl32 (n : Nat) (init : Option E32)
  | block (l : Stmts)
inductive Stmts
  | nil
  | cons (a : Stmt) (l : Stmts)
end

/-- `decl->BindAddress(slot)` -/
def bindVar (f : Nat → Option Nat) (n i : Nat) : Nat → Option Nat := fun k => if k = n then some i else f k

/-- compiler/code-generator.cpp:337-371 EmitLocalVar for `int64`. -/
def emitDecl64 (s : Slots) (n : Nat) (init : Option E64) : List Insn × Slots :=
  let (i, s) := s.add .int64
  let s := { s with v64 := bindVar s.v64 n i }
  match init with
  | none => ([.zeroSI64 i], s)
  | some e =>
    let (c, s) := gen64 s e
    (c ++ [.storSPriI64 i], s)

/-- The same for `int`. -/
def emitDecl32 (s : Slots) (n : Nat) (init : Option E32) : List Insn × Slots :=
  let (i, s) := s.add .int
  let s := { s with v32 := bindVar s.v32 n i }
  match init with
  | none => ([.zeroS i], s)
  | some (.num v) => ([.storSC i v], s)
  | some e =>
    let (c, s) := gen32 s e
    (c ++ [.storS i .pri], s)

/-- compiler/code-generator.cpp:140-146 -/
def Slots.enter (s : Slots) : Slots := { s with used := [] }

/-- compiler/code-generator.cpp:246-249 -/
def Slots.leave (s : Slots) (prev : List (Nat × Kind)) : Slots := { s with free := s.free ++ s.used, used := prev }

mutual
/-- compiler/code-generator.cpp:139-250 EmitStmt -/
def genStmt (s : Slots) : Stmt → List Insn × Slots
  | .expr64 e =>
    let (c, t) := gen64 s.enter e
    (c, t.leave s.used)
  | .expr32 e =>
    let (c, t) := gen32 s.enter e
    (c, t.leave s.used)
  | .decl64 n init =>
    let (c, t) := emitDecl64 s.enter n init
    (c, t.leave s.used)
  | .decl32 n init =>
    let (c, t) := emitDecl32 s.enter n init
    (c, t.leave s.used)
  | .block l =>
    let (c, t) := genStmts s.enter l
    (c, t.leave s.used)
/-- compiler/code-generator.cpp:132-137 EmitStmtList -/
def genStmts (s : Slots) : Stmts → List Insn × Slots
  | .nil => ([], s)
  | .cons a l =>
    let (c, s) := genStmt s a
    let (d, s) := genStmts s l
    (c ++ d, s)
end

/-- compiler/code-generator.cpp:1960-1962 -/
def noSlots : Slots := ⟨[], [], [], fun _ => none, fun _ => none⟩

/-- A run of instructions without jumps. -/
def run (E : Env) (m : Nat) (here : Int) : List Insn → IM Unit
  | [] => fun s => .ok s ()
  | i :: rest => fun s =>
    match visit E m here i s with
    | .ok s' _ => run E m here rest s'
    | .fail s' e => .fail s' e
    | .ub => .ub

end Verif.Long

import Verif.Model.FunTable
import Verif.Props.C29
/-! What the output of the compiler says about functions. -/
namespace Verif.FunTable
open Verif.Labels (Cell Asm)
open Verif.Image (Bytes cstr lookups findCached)

/-- Function `f` has code in the output. -/
def Emitted (fns : List Fn) (f : Nat) (fn : Fn) (ps : List Piece) : Prop := fns[f]? = some fn ∧ fn.live = true ∧ fn.kind = .body ps

/-- Native `f` is called by code in the output. -/
def Called (fns : List Fn) (f : Nat) (fn : Fn) : Prop := fns[f]? = some fn ∧ fn.kind = .native ∧
  ∃ g gn ps nargs, Emitted fns g gn ps ∧ .call f nargs ∈ ps

/-- What the earlier phases see to: what is called or used as a value has code or is a native (compiler/semantics.cpp:1330, 1693 and C73), names have no
NUL, and names of public functions are identifiers and different from each other (C70, C71). -/
structure Proper (fns : List Fn) : Prop where
  calls : ∀ g gn ps f nargs, Emitted fns g gn ps → .call f nargs ∈ ps → (∃ fn, fns[f]? = some fn ∧ fn.kind = .native) ∨ ∃ fn qs, Emitted fns f fn qs
  values : ∀ g gn ps f, Emitted fns g gn ps → .value f ∈ ps → ∃ fn qs, Emitted fns f fn qs
  names : ∀ fn ∈ fns, 0 ∉ fn.name
  dots : ∀ fn ∈ fns, fn.pub = true → fn.name.head? ≠ some 46
  distinct : ∀ f fn ps f' fn' ps', Emitted fns f fn ps → Emitted fns f' fn' ps' → fn.pub = true → fn'.pub = true → fn.name = fn'.name → f = f'

/-- Where things are: the address of a function, its place in the table of functions, and the place of a native in its table. -/
structure Places where
  address : Nat → Nat
  entry : Nat → Nat
  native : Nat → Nat

/-- The cells of a part of a body: calls have the address of the function, or the place of the native; a function as a value is
its place in the table, twice, plus one. -/
def pieceCells (fns : List Fn) (w : Places) : Piece → List Cell
  | .cell c => [c]
  | .call f nargs => match fns[f]? with
    | some ⟨_, _, _, .native⟩ => [135, BitVec.ofNat 32 (w.native f), nargs]
    | _ => [39, nargs, 49, BitVec.ofNat 32 (w.address f)]
  | .value f => [11, BitVec.ofNat 32 (2 * w.entry f + 1)]
  | .name _ => []

/-- The cells of a function. -/
def fnCells (fns : List Fn) (w : Places) (ps : List Piece) : List Cell := 46 :: (ps.flatMap (pieceCells fns w) ++ [166])

/-- The output says the truth about functions. -/
structure Right (fns : List Fn) (g : Gen) (A : Asm) (w : Places) : Prop where
  /-- The code of a function is at its address. -/
  code : ∀ f fn ps, Emitted fns f fn ps → ∃ k, w.address f = 4 * k ∧ fnCells fns w ps <+: A.buf.drop k
  /-- Functions follow each other. -/
  apart : ∀ f fn ps f' fn' ps', Emitted fns f fn ps → Emitted fns f' fn' ps' → f < f' →
    w.address f + 4 * (fnCells fns w ps).length ≤ w.address f'
  /-- Every function is in the table, with its address. -/
  entry : ∀ f fn ps, Emitted fns f fn ps → ∃ off, g.publics[w.entry f]? = some (w.address f, off)
  /-- A host that looks for a public function finds it, whatever was looked for before. -/
  found : ∀ f fn ps, Emitted fns f fn ps → fn.pub = true → ∀ h, ∃ c c', lookups g.names.write (g.publics.map (·.2)) [] h = some c ∧
    findCached g.names.write (g.publics.map (·.2)) c fn.name = some (c', some (w.entry f))
  /-- It finds nothing else by a name that does not start with a dot. -/
  onlyPublic : ∀ h c c' name i, lookups g.names.write (g.publics.map (·.2)) [] h = some c →
    findCached g.names.write (g.publics.map (·.2)) c name = some (c', some i) →
    name.head? = some 46 ∨ ∃ f fn ps, Emitted fns f fn ps ∧ fn.pub = true ∧ fn.name = name
  /-- A native that is called is in the table of natives, under its name. -/
  native : ∀ f fn, Called fns f fn → ∃ off, g.natives[w.native f]? = some off ∧ cstr g.names.write off = some fn.name
  /-- Nothing else is in that table, and each native once. -/
  onlyCalled : ∀ j, j < g.natives.length → ∃ f fn, Called fns f fn ∧ w.native f = j
  /-- An address in the code of a function gives the name of the function. -/
  method : ∀ f fn ps pc, Emitted fns f fn ps → w.address f ≤ pc → pc < w.address f + 4 * (fnCells fns w ps).length →
    ∃ m, methodAt g.methods pc = some m ∧ cstr g.names.write m.name = some fn.name ∧ m.start = w.address f
  /-- Other addresses give none. -/
  noMethod : ∀ pc m, methodAt g.methods pc = some m → ∃ f fn ps, Emitted fns f fn ps ∧ w.address f ≤ pc ∧
    pc < w.address f + 4 * (fnCells fns w ps).length

end Verif.FunTable

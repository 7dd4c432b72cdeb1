/-!
Which functions get code, and which are reported as unused (compiler/semantics.cpp: DeduceLiveness, DeduceMaybeUsed, TestSymbol;
compiler/symbols.cpp: markusage).
-/
namespace Verif.Liveness

/-- A function, as the result of `canonical()` (Verif/Model/FunDecl.lean), by its number.  `uses` are the functions that its body
mentions, in the order in which they are found. -/
structure Fn where
  isPublic : Bool
  isStock : Bool
  isMember : Bool
  isNative : Bool
  /-- `impl()` is not null -/
  hasBody : Bool
  uses : List Nat
deriving DecidableEq, Repr

abbrev Prog := List Fn

/-- compiler/parse-node.cpp:163-173 AddReferenceTo. -/
def addRef (refs : List Nat) (f : Nat) : List Nat := if f ∈ refs then refs else f :: refs

/-- compiler/symbols.cpp:36-66 markusage, for all uses in a body: `refers_to()`. -/
def Fn.refersTo (f : Fn) : List Nat := f.uses.foldl addRef []

/-- The two sets of functions and the stack of compiler/semantics.cpp:2993-3022.  `marked` are those with `is_live()` or
`maybe_used()`. -/
structure Walk where
  marked : List Nat
  seen : List Nat
  work : List Nat
deriving DecidableEq, Repr

/-- compiler/semantics.cpp:3014-3020, for one function that is referred to. -/
def visit (w : Walk) (f : Nat) : Walk :=
  let w := { w with marked := f :: w.marked }
  if f ∈ w.seen then w else { w with seen := f :: w.seen, work := f :: w.work }

/-- compiler/semantics.cpp:3009-3021 and 3035-3047, the loop; the back of the vector is the head of the list.  `none`: not
finished within so many rounds. -/
def walk (p : Prog) : Nat → Walk → Option Walk
  | 0, w => if w.work = [] then some w else none
  | fuel + 1, w =>
    match w.work with
    | [] => some w
    | f :: rest => walk p fuel (((p[f]?.map Fn.refersTo).getD []).foldl visit { w with work := rest })

/-- compiler/semantics.cpp:2997-3006 and 3028-3033: the roots are marked. -/
def rooted (roots : List Nat) : Walk := ⟨roots, roots, roots⟩

def traverse (p : Prog) (roots : List Nat) : Option (List Nat) := (walk p (roots.length + p.length) (rooted roots)).map (·.marked)

/-- The numbers of the functions with a property. -/
def numbers (p : Prog) (q : Fn → Bool) : List Nat := (List.range p.length).filter fun i => (p[i]?.map q).getD false

/-- compiler/semantics.cpp:2845-2846: the public functions with a body.  Compiler/name-resolution.cpp:816-817 makes `main` public. -/
def publics (p : Prog) : List Nat := numbers p fun f => f.isPublic && f.hasBody

/-- compiler/semantics.cpp:2800-2806.  (A stock method is twice in the vector.) -/
def maybeRoots (p : Prog) : List Nat := numbers p (fun f => f.isMember && f.hasBody) ++ numbers p (fun f => f.isStock && f.hasBody)

/-- compiler/semantics.cpp:2993-3022 DeduceLiveness. -/
def live (p : Prog) : Option (List Nat) := traverse p (publics p)

/-- compiler/semantics.cpp:3024-3048 DeduceMaybeUsed. -/
def maybeUsed (p : Prog) : Option (List Nat) := traverse p (maybeRoots p)

/-- compiler/code-generator.cpp:1940-1947: code is emitted for live functions with a body. -/
def emitted (p : Prog) (f : Nat) : Bool :=
  match live p, p[f]? with
  | some l, some fn => decide (f ∈ l) && fn.hasBody
  | _, _ => false

/-- compiler/semantics.cpp:2280-2291 TestSymbol: a function that is reported as unused (203). -/
def reportedUnused (p : Prog) (f : Nat) : Bool :=
  match live p, maybeUsed p, p[f]? with
  | some l, some m, some fn => !(decide (f ∈ m) || decide (f ∈ l)) && !(fn.isNative || fn.isStock || fn.isPublic) && fn.hasBody
  | _, _, _ => false

end Verif.Liveness

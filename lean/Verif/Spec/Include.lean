/-!
# What `#include` reads

A file system says which file a path names.  An `#include` looks at paths in a fixed order, takes the first that names a file, and reads
that file unless it was read before.
-/
namespace Verif.Include

abbrev Path := List Char

structure FileSys where
  /-- the file a path names; `none` for nothing, a directory, or a file that cannot be read -/
  file : Path → Option Nat
  /-- whether a file has no bytes -/
  empty : Nat → Bool

/-- The file system without its empty files. -/
def FileSys.hideEmpty (fs : FileSys) : FileSys :=
  { fs with file := fun p => (fs.file p).filter fun f => !fs.empty f }

/-- `Dir p d`: `p` names something in the directory `d`. -/
inductive Dir : Path → Path → Prop where
  | sub {d b : Path} {c : Char} {k : Nat} : c ≠ '/' → '/' ∉ b → Dir ((d ++ [c]) ++ (List.replicate (k + 1) '/' ++ b)) (d ++ [c])
  | root {b : Path} {k : Nat} : '/' ∉ b → Dir (List.replicate (k + 1) '/' ++ b) ['/']

/-- The directory of `p`, if `p` has one. -/
def HasDir (p : Path) : Option Path → Prop
  | some d => Dir p d
  | none => '/' ∉ p

def absolute (p : Path) : Prop := ∃ q, p = '/' :: q

instance (p : Path) : Decidable (absolute p) :=
  match p with
  | [] => .isFalse (by simp [absolute])
  | c :: cs => if h : c = '/' then .isTrue ⟨cs, by rw [h]⟩ else .isFalse (by simp [absolute, h])

/-- `name`, seen from the directory `d`. -/
def under (d name : Path) : Path :=
  if absolute name then name
  else if d = [] ∨ d.getLast? = some '/' then d ++ name
  else d ++ "/".toList ++ name

/-- The endings that are tried. -/
def endings : List Path := ["".toList, ".inc".toList, ".p".toList, ".pawn".toList]

structure Directive where
  /-- `"name"`, not `<name>` -/
  quoted : Bool
  /-- `#tryinclude` -/
  opt : Bool
  name : Path
deriving DecidableEq

/-- What the compiler meets: an `#include`, or the end of the file it is reading. -/
inductive Event where
  | incl (d : Directive)
  | eof

/-- The places an `#include` looks at, before endings: for a quoted name the name itself and then the name in the directory `dir` of the
file with the `#include`, and for a name that is not absolute the include paths in order. -/
def places (incs : List Path) (dir : Option Path) (d : Directive) : List Path :=
  (if d.quoted then d.name :: dir.toList.map (under · d.name) else []) ++
  (if absolute d.name then [] else incs.map (under · d.name))

def candidates (incs : List Path) (dir : Option Path) (d : Directive) : List Path :=
  (places incs dir d).flatMap fun p => endings.map (p ++ ·)

structure Reading where
  /-- the files read so far, in the order of their first bytes, by the paths that found them -/
  reads : List Path
  /-- the file being read, the one that includes it, and so on to the main file -/
  stack : List Path
  /-- the name that could not be found; then the compiler stops -/
  missing : Option Path := none
deriving DecidableEq

/-- One event. -/
inductive Step (fs : FileSys) (incs : List Path) : Reading → Event → Reading → Prop where
  /-- nothing more is read after an error or the end of the main file -/
  | stopped {r : Reading} {e : Event} : r.missing ≠ none ∨ r.stack = [] → Step fs incs r e r
  /-- after a file, the one that includes it goes on -/
  | eof {reads stack : List Path} {cur : Path} : Step fs incs ⟨reads, cur :: stack, none⟩ .eof ⟨reads, stack, none⟩
  /-- a file that was not read before -/
  | enter {reads stack : List Path} {cur p : Path} {dir : Option Path} {d : Directive} :
    HasDir cur dir →
    (candidates incs dir d).find? (fun q => (fs.file q).isSome) = some p →
    (∀ q ∈ reads, fs.file q ≠ fs.file p) →
    Step fs incs ⟨reads, cur :: stack, none⟩ (.incl d) ⟨reads ++ [p], p :: cur :: stack, none⟩
  /-- a file that was read before, perhaps by another path -/
  | again {reads stack : List Path} {cur p : Path} {dir : Option Path} {d : Directive} :
    HasDir cur dir →
    (candidates incs dir d).find? (fun q => (fs.file q).isSome) = some p →
    (∃ q ∈ reads, fs.file q = fs.file p) →
    Step fs incs ⟨reads, cur :: stack, none⟩ (.incl d) ⟨reads, cur :: stack, none⟩
  /-- no file -/
  | none {reads stack : List Path} {cur : Path} {dir : Option Path} {d : Directive} :
    HasDir cur dir →
    (∀ q ∈ candidates incs dir d, fs.file q = none) →
    Step fs incs ⟨reads, cur :: stack, none⟩ (.incl d) ⟨reads, cur :: stack, if d.opt then none else some d.name⟩

inductive Steps (fs : FileSys) (incs : List Path) : Reading → List Event → Reading → Prop where
  | nil {r : Reading} : Steps fs incs r [] r
  | cons {r r' r'' : Reading} {e : Event} {es : List Event} :
    Step fs incs r e r' → Steps fs incs r' es r'' → Steps fs incs r (e :: es) r''

end Verif.Include

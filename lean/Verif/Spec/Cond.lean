/-!
What conditional compilation means, apart from how the lexer does it.

A source file is a block: text, `#include`, `#endinput`, and sections `#if c … #elseif c … #else … #endif`.  Text is abstract: a line of
text may change what later conditions say (a `#define`, say), and a condition has a truth value where it stands.
-/
namespace Verif.Cond

/-- One line of a source file.  `Fin n` numbers the files. -/
inductive Line (T C : Type) (n : Nat) where
  | text (t : T)
  | dif (c : C)
  | delseif (c : C)
  | delse
  | dendif
  | incl (f : Fin n)
  | endinput
deriving DecidableEq, Repr

mutual
/-- The lines between two directives of the same section, or of a whole file. -/
inductive Block (T C : Type) (n : Nat) where
  | nil
  | text (t : T) (next : Block T C n)
  | incl (f : Fin n) (next : Block T C n)
  | endinput (next : Block T C n)
  /-- `#if c`, `body`, the rest of the section, and what follows its `#endif`. -/
  | cond (c : C) (body : Block T C n) (chain : Chain T C n) (next : Block T C n)

/-- What follows the first part of a section, up to its `#endif`. -/
inductive Chain (T C : Type) (n : Nat) where
  | endif
  | els (body : Block T C n) (rest : Chain T C n)
  | elif (c : C) (body : Block T C n) (rest : Chain T C n)
end

variable {T C σ : Type} {n : Nat}

mutual
/-- The text of a block. -/
def Block.lines : Block T C n → List (Line T C n)
  | .nil => []
  | .text t b => .text t :: b.lines
  | .incl f b => .incl f :: b.lines
  | .endinput b => .endinput :: b.lines
  | .cond c body ch b => .dif c :: (body.lines ++ (ch.lines ++ b.lines))

def Chain.lines : Chain T C n → List (Line T C n)
  | .endif => [.dendif]
  | .els body ch => .delse :: (body.lines ++ ch.lines)
  | .elif c body ch => .delseif c :: (body.lines ++ ch.lines)
end

mutual
/-- An `#else` is the last part of its section, here and in every section inside. -/
def Block.strict : Block T C n → Prop
  | .nil => True
  | .text _ b => b.strict
  | .incl _ b => b.strict
  | .endinput b => b.strict
  | .cond _ body ch b => body.strict ∧ ch.strict ∧ b.strict

def Chain.strict : Chain T C n → Prop
  | .endif => True
  | .els body ch => body.strict ∧ ch = .endif
  | .elif _ body ch => body.strict ∧ ch.strict
end

/-- What text and conditions mean. -/
structure Lang (T C σ : Type) where
  /-- the truth of a condition where it stands -/
  eval : σ → C → Bool
  /-- what a line of text changes -/
  step : σ → T → σ

/-- What has been read: what conditions depend on, the files read so far, and the text kept, oldest first. -/
structure Kept (T σ : Type) (n : Nat) where
  env : σ
  seen : List (Fin n)
  out : List T

mutual
/-- What reading a block keeps; `true` when an `#endinput` ended it.  `file f` is what reading file `f` keeps.  A file is read once. -/
def Block.keep (L : Lang T C σ) (file : Fin n → Kept T σ n → Kept T σ n) : Block T C n → Kept T σ n → Kept T σ n × Bool
  | .nil, k => (k, false)
  | .text t b, k => b.keep L file { k with env := L.step k.env t, out := k.out ++ [t] }
  | .incl f b, k => b.keep L file (if f ∈ k.seen then k else file f { k with seen := f :: k.seen })
  | .endinput _, k => (k, true)
  | .cond c body ch b, k =>
    match (if L.eval k.env c then body.keep L file k else ch.keep L file k) with
    | (k', true) => (k', true)
    | (k', false) => b.keep L file k'

/-- The first part whose condition holds is kept, or the `#else` part. -/
def Chain.keep (L : Lang T C σ) (file : Fin n → Kept T σ n → Kept T σ n) : Chain T C n → Kept T σ n → Kept T σ n × Bool
  | .endif, k => (k, false)
  | .els body _, k => body.keep L file k
  | .elif c body ch, k => if L.eval k.env c then body.keep L file k else ch.keep L file k
end

/-- What reading a file keeps, includes nested at most `d` deep; deeper ones are left out. -/
def keepFile (L : Lang T C σ) (files : Fin n → Block T C n) : Nat → Fin n → Kept T σ n → Kept T σ n
  | 0, _, k => k
  | d + 1, f, k => ((files f).keep L (keepFile L files d) k).1

/-- What reading the file `main` keeps.  No more than `n` files can be nested, as each is read once. -/
def keepMain (L : Lang T C σ) (files : Fin n → Block T C n) (main : Fin n) (env : σ) : Kept T σ n :=
  keepFile L files n main { env := env, seen := [main], out := [] }

end Verif.Cond

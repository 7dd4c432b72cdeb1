import Verif.Model.Macro

/-!
What macros mean.  The text of a definition is a list of pieces; a use of a macro stands for the pieces, with the arguments in place of the
parameters; and what stands there is read again, except that a macro is not replaced within its own text.
-/
namespace Verif.Macro

/-- The text of a definition: characters, string and character literals, parameters (`%0`) and parameters as strings (`#%0`). -/
inductive Piece
  | lit (c : Char)
  | quoted (q : Char) (s : List Char)
  | arg (n : Fin 10)
  | str (n : Fin 10)
deriving DecidableEq, Repr

def digit (n : Fin 10) : Char := Char.ofNat (48 + n.val)

/-- How a piece is written. -/
def Piece.text : Piece → List Char
  | .lit c => [c]
  | .quoted q s => q :: s ++ [q]
  | .arg n => ['%', digit n]
  | .str n => ['#', '%', digit n]

/-- How the pieces are written. -/
def written (ps : List Piece) : List Char := ps.flatMap Piece.text

/-- What a piece stands for. -/
def Piece.value (args : List (Nat × List Char)) : Piece → List Char
  | .lit c => [c]
  | .quoted q s => q :: s ++ [q]
  | .arg n => (args.lookup n.val).getD ['%', digit n]
  | .str n => ((args.lookup n.val).map fun a => '"' :: a ++ ['"']).getD ['%', digit n]

def value (ps : List Piece) (args : List (Nat × List Char)) : List Char := ps.flatMap (Piece.value args)

/-- The pieces are written so that they can be told apart: there are no comments, no backslashes, and only complete literals. -/
def Line : List Piece → Prop
  | [] => True
  | .lit c :: ps => c ≠ '"' ∧ c ≠ '\'' ∧ c ≠ '\\' ∧ isNewline c = false ∧
      (c = '/' → (written ps).head? ≠ some '/' ∧ (written ps).head? ≠ some '*') ∧
      (c = '%' → ((written ps).head?.map isDigit).getD false = false) ∧
      (c = '#' → ∀ n, ps.head? ≠ some (.arg n)) ∧ Line ps
  | .quoted q s :: ps => (q = '"' ∨ q = '\'') ∧ (∀ c ∈ s, c ≠ q ∧ c ≠ '\\' ∧ isNewline c = false) ∧ Line ps
  | .arg _ :: ps | .str _ :: ps => Line ps

/-- White space. -/
def white (c : Char) : Bool := c == ' ' || c == '\t' || c == '\n' || c == '\x0b' || c == '\x0c' || c == '\r'

/-- No white space at the start or at the end. -/
def Tight (s : List Char) : Prop := (∀ c, s.head? = some c → white c = false) ∧ (∀ c, s.getLast? = some c → white c = false)

/-- `Whole k s`: `s` closes `k` parentheses and all that it opens; there is no comma outside of them, except in strings; and there are no
comments, no line ends and no backslashes. -/
inductive Whole : Nat → List Char → Prop
  | nil : Whole 0 []
  | char {k c s} : c ∉ ['(', ')', ',', '"', '/', '\\', '\r', '\n'] → Whole k s → Whole k (c :: s)
  | comma {k s} : Whole (k + 1) s → Whole (k + 1) (',' :: s)
  | opening {k s} : Whole (k + 1) s → Whole k ('(' :: s)
  | closing {k s} : Whole k s → Whole (k + 1) (')' :: s)
  | string {k q s} : '"' ∉ q → Whole k s → Whole k ('"' :: q ++ '"' :: s)

/-- An argument without the white space at its start. -/
def trimStart (s : List Char) : List Char := s.dropWhile white

/-- A definition. -/
structure Def where
  name : List Char
  params : Option (List Nat)
  pieces : List Piece

def Def.Valid (d : Def) : Prop := Line d.pieces ∧ Tight (written d.pieces)

/-- The macros that the definitions make. -/
def table (ds : List Def) : List Macro := ds.map fun d => define d.name d.params (written d.pieces)

/-- The first definition of a name counts. -/
def lookup (ds : List Def) (w : List Char) : Option Def := ds.find? (·.name == w)

/-- A name starts with a letter, an underscore or an at sign. -/
def nameStart (c : Char) : Bool := (('a' ≤ c && c ≤ 'z') || ('A' ≤ c && c ≤ 'Z')) || c == '_' || c == '@'

/-- It goes on with letters, digits and underscores. -/
def nameChar (c : Char) : Bool := (('a' ≤ c && c ≤ 'z') || ('A' ≤ c && c ≤ 'Z')) || ('0' ≤ c && c ≤ '9') || c == '_'

/-- The text starts with the name `w`, and `r` comes after it. -/
def Word (L : Lexis) (s w r : List Char) : Prop :=
  ∃ c cs, L.rest s = c :: cs ∧ nameStart c = true ∧ w = c :: cs.takeWhile nameChar ∧ r = cs.dropWhile nameChar

/-- The text starts with `t`, which is not a name, and `r` comes after it. -/
def Other (L : Lexis) (s t r : List Char) : Prop :=
  ∃ c cs, L.rest s = c :: cs ∧ nameStart c = false ∧ t = (c :: cs).take (L.len (c :: cs)) ∧ r = (c :: cs).drop (L.len (c :: cs))

/-- The definition that replaces `w` when the macros in `u` are in use. -/
def active (ds : List Def) (u : List (List Char)) (w : List Char) : Option Def :=
  if (w == "defined".toList || w == "__LINE__".toList) = true ∨ w ∈ u then none else lookup ds w

/-- Arguments after an opening parenthesis, and the text after the closing one. -/
def Arguments (L : Lexis) (s : List Char) (as : List (List Char)) (r : List Char) : Prop :=
  match as with
  | [] => L.rest s = ')' :: r
  | a :: as => (∀ x ∈ a :: as, Whole 0 x) ∧ s = [','].intercalate (a :: as) ++ ')' :: r

/-- `Expand L ds u s out`: where the macros in `u` are in use, the text `s` stands for the tokens `out`.

A macro with parameters that is not followed by `(` is an ordinary name; this case is here only if what follows it, in the same text, is a token
that is not itself replaced. -/
inductive Expand (L : Lexis) (ds : List Def) : List (List Char) → List Char → List Tok → Prop
  | done {u s} : L.rest s = [] → Expand L ds u s []
  | other {u s t r out} : Other L s t r → Expand L ds u r out → Expand L ds u s (.other t :: out)
  | word {u s w r out} : Word L s w r → active ds u w = none → Expand L ds u r out → Expand L ds u s (.word w :: out)
  | object {u s w r d a b} : Word L s w r → active ds u w = some d → d.params = none → Expand L ds (w :: u) (written d.pieces) a →
      Expand L ds u r b → Expand L ds u s (a ++ b)
  | call {u s w r d ns t as r' a b} : Word L s w r → active ds u w = some d → d.params = some ns → Other L r ['('] t →
      Arguments L t as r' → as.length = ns.length → Expand L ds (w :: u) (value d.pieces (ns.zip (as.map trimStart))) a →
      Expand L ds u r' b → Expand L ds u s (a ++ b)
  | bare {u s w r d ns out} : Word L s w r → active ds u w = some d → d.params = some ns →
      ((∃ t r', Other L r t r' ∧ t ≠ ['(']) ∨ ∃ w' r', Word L r w' r' ∧ active ds u w' = none) →
      Expand L ds u r out → Expand L ds u s (.word w :: out)

end Verif.Macro

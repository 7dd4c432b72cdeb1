import Verif.Model.Tokens
import Verif.Props.C42
/-
How a program's text is made of tokens.
-/
namespace Verif.Tokens
open Verif.Text (Byte isSpace isNewline isDigit NumTok Body prefixOf tokenOf Follows)

/-- The operators of the language that are written with these signs. -/
def operators : List (List Byte) := ["*", "*=", "/", "/=", "%", "%=", "+", "+=", "++", "-", "-=", "--", "<", "<=",
  "<<", "<<=", ">", ">=", ">>", ">>=", ">>>", ">>>=", "&", "&=", "&&", "^", "^=", "|", "|=", "||", "=", "==",
  "!", "!=", ".", "..", "...", ":", "::"].map str

/-- The words with a meaning of their own. -/
def reservedWords : List (List Byte) := ["INVALID_FUNCTION", "__nullable__", "assert", "break", "builtin", "case",
  "char", "const", "continue", "decl", "default", "delete", "do", "else", "enum", "exit", "false", "for",
  "forward", "funcenum", "functag", "function", "goto", "if", "int", "methodmap", "native", "new", "null",
  "object", "operator", "public", "return", "sizeof", "static", "static_assert", "stock", "struct", "switch",
  "this", "true", "typedef", "typeset", "using", "view_as", "void", "while"].map str

/-- The words that are kept for later versions of the language, or for the preprocessor. -/
def forbiddenWords : List (List Byte) := ["__LINE__", "acquire", "as", "cast_to", "catch", "defined", "double",
  "explicit", "finally", "foreach", "implicit", "import", "in", "interface", "intn", "let", "namespace",
  "package", "private", "protected", "readonly", "sealed", "throw", "try", "typeof", "uintn", "union", "var",
  "variant", "virtual", "volatile", "with"].map str

/-- An ASCII letter. -/
def Letter (b : Byte) : Prop := ∃ c : Char, b = ch c ∧ (('a' ≤ c ∧ c ≤ 'z') ∨ ('A' ≤ c ∧ c ≤ 'Z'))

/-- What a name starts with. -/
def StartsName (b : Byte) : Prop := Letter b ∨ b = ch '_' ∨ b = ch '@'

/-- What a name goes on with. -/
def InName (b : Byte) : Prop := Letter b ∨ (∃ c : Char, b = ch c ∧ '0' ≤ c ∧ c ≤ '9') ∨ b = ch '_'

/-- A name: a letter, an underscore or an at sign, and then letters, digits and underscores. -/
structure IsName (w : List Byte) : Prop where
  head : ∃ c r, w = c :: r ∧ StartsName c ∧ ∀ b ∈ r, InName b
  notAlone : w ≠ str "_" ∧ w ≠ str "@"
  free : w ∉ reservedWords ∧ w ∉ forbiddenWords

/-- A sign that is a token of its own, such as a parenthesis. -/
def IsSign (b : Byte) : Prop :=
  b ∈ str "$(),;?[]`{}~"

/-- The text of a token, and what may come directly after it. -/
inductive Written : Tok → List Byte → List Byte → Prop where
  /-- A number may not be followed by a letter or a digit, or by a fraction. -/
  | number (base : Nat) (body rest : List Byte) (hbase : base = 2 ∨ base = 8 ∨ base = 10 ∨ base = 16)
      (hb : Body base body) (hd : base = 10 → ∃ d r, body = d :: r ∧ isDigit d = true)
      (hv : Body.value base body < 18446744073709551616) (hf : Follows base rest) :
      Written (.number (tokenOf base (Body.value base body))) (prefixOf base ++ body) rest
  /-- A word may not be followed by a letter, digit or underscore, or by a colon. -/
  | keyword (w rest : List Byte) (hw : w ∈ reservedWords)
      (hf : ∀ b, rest.head? = some b → ¬ InName b ∧ b ≠ ch ':') :
      Written (.keyword w) w rest
  /-- After a name two colons are fine. -/
  | symbol (w rest : List Byte) (hw : IsName w)
      (hf : ∀ b, rest.head? = some b → ¬ InName b)
      (hc : ∀ r, rest = ch ':' :: r → r.head? = some (ch ':')) :
      Written (.symbol w) w rest
  /-- An operator may not be followed by what makes it longer, and a slash not by what makes it a
  comment. -/
  | operator (t rest : List Byte) (ht : t ∈ operators)
      (hf : ∀ u ∈ operators, u <+: t ++ rest → u.length ≤ t.length)
      (hc : t = str "/" → ∀ b, rest.head? = some b → b ≠ ch '/' ∧ b ≠ ch '*') :
      Written (.punct t) t rest
  | sign (b : Byte) (rest : List Byte) (hb : IsSign b) : Written (.punct [b]) [b] rest

/-- What may stand between tokens: white space, comments, and lines that are continued. -/
inductive Gap : List Byte → Prop where
  | nil : Gap []
  | space (b : Byte) (g : List Byte) (hb : isSpace b = true) (hg : Gap g) : Gap (b :: g)
  /-- A comment up to the end of the line, which may not end with a backslash. -/
  | line (body g : List Byte) (hb : ∀ b ∈ body, b ≠ 0 ∧ isNewline b = false)
      (hl : (body.filter fun b => !isSpace b).getLast? ≠ some (ch '\\'))
      (hn : ∃ b r, g = b :: r ∧ isNewline b = true) (hg : Gap g) : Gap (str "//" ++ body ++ g)
  | block (body g : List Byte) (hb : 0 ∉ body) (hc : ¬ str "*/" <:+: body) (hg : Gap g) :
      Gap (str "/*" ++ body ++ str "*/" ++ g)
  /-- A backslash at the end of a line. -/
  | continued (bs : List Byte) (b : Byte) (g : List Byte) (hbs : ∀ x ∈ bs, isSpace x = true ∧ isNewline x = false)
      (hb : isNewline b = true) (hg : Gap g) : Gap (ch '\\' :: bs ++ b :: g)

/-- The text of a sequence of tokens. -/
inductive Source : List Tok → List Byte → Prop where
  | nil (g : List Byte) (hg : Gap g) : Source [] g
  | cons (g x rest : List Byte) (t : Tok) (ts : List Tok) (hg : Gap g) (hx : Written t x rest) (hr : Source ts rest) :
      Source (t :: ts) (g ++ x ++ rest)

/-- Tokens between which every opening brace has its closing brace. -/
inductive Balanced : List Tok → Prop where
  | nil : Balanced []
  | other (t : Tok) (ts : List Tok) (ht : t ≠ .punct (str "{") ∧ t ≠ .punct (str "}")) (h : Balanced ts) :
      Balanced (t :: ts)
  | block (a b : List Tok) (ha : Balanced a) (hb : Balanced b) :
      Balanced (.punct (str "{") :: a ++ .punct (str "}") :: b)

end Verif.Tokens

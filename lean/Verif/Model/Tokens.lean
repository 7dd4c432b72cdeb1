import Verif.Model.Lexer
/-
How the compiler splits the text of a file into tokens, and how it keeps the tokens of a function
body for later: `compiler/lexer.cpp`.

Not modelled here: macros (`Model/Macro`), directives (`Model/Cond`), string and character literals
and the values of numbers (`Model/Lexer`, which is used for numbers), and floating point literals.
Text that contains one of these, or that the lexer reports as an error, has no tokens here: the
functions return `none`.  Warnings are left out.
-/
namespace Verif.Tokens
open Verif.Text (Byte isSpace isNewline isDigit NumTok lexNumber)

/-- The byte of an ASCII character. -/
def ch (c : Char) : Byte := BitVec.ofNat 8 c.toNat

/-- The bytes of an ASCII string. -/
def str (s : String) : List Byte := s.toList.map ch

/-- `isalpha` in the C locale. -/
def isLetter (b : Byte) : Bool := decide ((65 ≤ b.toNat ∧ b.toNat ≤ 90) ∨ (97 ≤ b.toNat ∧ b.toNat ≤ 122))

/-- `alpha`, `compiler/lexer.cpp`:2450-2454. -/
def isAlpha (b : Byte) : Bool := isLetter b || b == ch '_' || b == ch '@'

/-- The bytes inside a word, `compiler/lexer.cpp`:2007-2018. -/
def isWord (b : Byte) : Bool := isLetter b || isDigit b || b == ch '_'

/-- White space inside a line, `compiler/lexer.cpp`:768-778. -/
def isBlank (b : Byte) : Bool := isSpace b && !isNewline b

/-- `match_char`, `compiler/lexer.h`:262-268. -/
def mc (b : Byte) : List Byte → Option (List Byte)
  | [] => none
  | c :: r => if c = b then some r else none

/-- What follows a newline, `HandleNewline`, `compiler/lexer.cpp`:917-929. -/
def afterNewline (c : Byte) (r : List Byte) : List Byte :=
  if c = ch '\r' then (mc (ch '\n') r).getD r else r

/-- `HandleSingleLineComment` after the two slashes, `compiler/lexer.cpp`:938-950: the rest, from the
end of the line on.  A backslash at the end of the comment is an error. -/
def lineComment : Byte → List Byte → Option (List Byte)
  | prev, [] => if prev = ch '\\' then none else some []
  | prev, c :: r =>
    if c = 0 ∨ isNewline c = true then (if prev = ch '\\' then none else some (c :: r))
    else lineComment (if isSpace c then prev else c) r

/-- `HandleMultiLineComment` after its start, `compiler/lexer.cpp`:961-985.  A newline is nothing
special here, since lines are not counted. -/
def blockComment : List Byte → Option (List Byte)
  | [] => none
  | c :: r =>
    if c = 0 then none
    else if c = ch '*' then
      match mc (ch '/') r with
      | some r' => some r'
      | none => blockComment r
    else blockComment r

/-- `MaybeHandleLineContinuation` after the backslash, `compiler/lexer.cpp`:844-861. -/
def continuation (r : List Byte) : Option (List Byte) :=
  match r.dropWhile isBlank with
  | [] => none
  | c :: r' => if isNewline c then some (afterNewline c r') else none

/-- What `FindNextToken` finds. -/
inductive Found where
  /-- a token starts with this byte -/
  | token (c : Byte) (r : List Byte)
  | eof
  /-- not modelled, or an error -/
  | other
deriving Repr, DecidableEq, Inhabited

/-- `FindNextToken`, `compiler/lexer.cpp`:757-842.  The number bounds the steps; `bol` is whether the
position is the start of a line.  Bytes are signed in the code, so that those from 128 on are below a
space. -/
def findNext : Nat → Bool → List Byte → Found
  | 0, _, _ => .other
  | n + 1, bol, s =>
    match s.dropWhile isBlank with
    | [] => .eof
    | c :: r =>
      if isNewline c then findNext n true (afterNewline c r)
      else if c = ch '/' then
        match mc (ch '/') r, mc (ch '*') r with
        | some r', _ =>
          match lineComment (ch '/') r' with
          | some r'' => findNext n false r''
          | none => .other
        | none, some r' =>
          match blockComment r' with
          | some r'' => findNext n false r''
          | none => .other
        | none, none => .token c r
      else if c = ch '#' then .other
      else if c = ch '\\' then
        match continuation r with
        | some r' => findNext n true r'
        | none => .token c r
      else if c = 0 then .other
      else if bol = true ∧ (c.toNat < 32 ∨ c.toNat ≥ 128) then findNext n false r
      else .token c r

/-- The second byte of an operator: `=`, or nothing. -/
def orEq (c : Byte) (r : List Byte) : List Byte × List Byte :=
  match mc (ch '=') r with
  | some r' => ([c, ch '='], r')
  | none => ([c], r)

/-- The second byte of an operator: `=`, or the first byte again, or nothing. -/
def orEqTwice (c : Byte) (r : List Byte) : List Byte × List Byte :=
  match mc (ch '=') r with
  | some r' => ([c, ch '='], r')
  | none =>
    match mc c r with
    | some r' => ([c, c], r')
    | none => ([c], r)

/-- The operators of `LexIntoToken`, `compiler/lexer.cpp`:1674-1819: the text of the token that starts
with `c`, and the rest. -/
def lexOp (c : Byte) (r : List Byte) : Option (List Byte × List Byte) :=
  if c = ch '*' then some (orEq c r)
  else if c = ch '/' then some (orEq c r)
  else if c = ch '%' then some (orEq c r)
  else if c = ch '+' then some (orEqTwice c r)
  else if c = ch '-' then some (orEqTwice c r)
  else if c = ch '<' then
    match mc (ch '<') r with
    | some r1 =>
      match mc (ch '=') r1 with
      | some r2 => some (str "<<=", r2)
      | none => some (str "<<", r1)
    | none => some (orEq c r)
  else if c = ch '>' then
    match mc (ch '>') r with
    | some r1 =>
      match mc (ch '>') r1 with
      | some r2 =>
        match mc (ch '=') r2 with
        | some r3 => some (str ">>>=", r3)
        | none => some (str ">>>", r2)
      | none =>
        match mc (ch '=') r1 with
        | some r2 => some (str ">>=", r2)
        | none => some (str ">>", r1)
    | none => some (orEq c r)
  else if c = ch '&' then some (orEqTwice c r)
  else if c = ch '^' then some (orEq c r)
  else if c = ch '|' then some (orEqTwice c r)
  else if c = ch '=' then some (orEq c r)
  else if c = ch '!' then some (orEq c r)
  else if c = ch '.' then
    match mc (ch '.') r with
    | some r1 =>
      match mc (ch '.') r1 with
      | some r2 => some (str "...", r2)
      | none => some (str "..", r1)
    | none => some (str ".", r)
  else if c = ch ':' then
    match mc (ch ':') r with
    | some r1 => some (str "::", r1)
    | none => some (str ":", r)
  else none

/-- A token.  `maybeLabel` occurs only in the cache. -/
inductive Tok where
  | number (n : NumTok)
  | symbol (w : List Byte)
  | keyword (w : List Byte)
  | label (w : List Byte)
  | maybeLabel (w : List Byte)
  /-- an operator, or any other single byte -/
  | punct (t : List Byte)
deriving DecidableEq, Inhabited

/-- The words of `sc_tokens`, `compiler/lexer.cpp`:1278-1410, that have no digits (a word with a digit
is not looked up, 2013) and that are not in `IsUnimplementedKeyword` (1478-1524). -/
def keywords : List (List Byte) := [str "assert", str "break", str "builtin", str "case", str "char", str "const",
  str "continue", str "decl", str "default", str "delete", str "do", str "else", str "enum", str "exit",
  str "false", str "for", str "forward", str "funcenum", str "functag", str "function", str "goto", str "if",
  str "int", str "INVALID_FUNCTION", str "methodmap", str "native", str "new", str "null", str "__nullable__",
  str "object", str "operator", str "public", str "return", str "sizeof", str "static", str "static_assert",
  str "stock", str "struct", str "switch", str "this", str "true", str "typedef", str "typeset", str "using",
  str "view_as", str "void", str "while"]

/-- `IsUnimplementedKeyword`, `compiler/lexer.cpp`:1478-1524, without the words that have digits: to use
one is an error. -/
def unimplemented : List (List Byte) := [str "acquire", str "as", str "catch", str "cast_to", str "double",
  str "explicit", str "finally", str "foreach", str "implicit", str "import", str "in", str "interface",
  str "intn", str "let", str "namespace", str "package", str "private", str "protected", str "readonly",
  str "sealed", str "throw", str "try", str "typeof", str "uintn", str "union", str "var", str "variant",
  str "virtual", str "volatile", str "with"]

/-- How the lexer treats a name followed by a colon. -/
inductive Mode where
  /-- `caching_tokens_` -/
  | caching
  /-- `allow_tags_` -/
  | reading (tags : Bool)
deriving Repr, DecidableEq, Inhabited

/-- Whether the next byte is a colon that is not the first of two.  `compiler/lexer.cpp`:2066. -/
def colonNext (r : List Byte) : Option (List Byte) :=
  match mc (ch ':') r with
  | some r' => if (mc (ch ':') r').isSome then none else some r'
  | none => none

/-- `LexSymbol`, `compiler/lexer.cpp`:2062-2082. -/
def lexSymbol (m : Mode) (w r : List Byte) : Tok × List Byte :=
  match colonNext r with
  | some r' =>
    match m with
    | .caching => (.maybeLabel w, r)
    | .reading true => (.label w, r')
    | .reading false => (.symbol w, r)
  | none => if w = [ch '_'] then (.punct w, r) else (.symbol w, r)

/-- `LexSymbolOrKeyword`, `compiler/lexer.cpp`:2001-2060, and `LexKeyword`, 1971-1999.  `defined` and
`__LINE__` are not modelled. -/
def lexWord (m : Mode) (c : Byte) (r0 : List Byte) : Option (Tok × List Byte) :=
  let w := c :: r0.takeWhile isWord
  let r := r0.dropWhile isWord
  let maybe := c ≠ ch '@' ∧ (r0.takeWhile isWord).all (fun b => !isDigit b) = true
  if w = [ch '@'] then some (.punct w, r)
  else if w = str "defined" ∨ w = str "__LINE__" then none
  else if maybe ∧ w ∈ unimplemented then none
  else if maybe ∧ w ∈ keywords then
    if w = str "int" ∨ w = str "void" then
      match mc (ch ':') r with
      | some r' => some (.label w, r')
      | none => some (.keyword w, r)
    else some (.keyword w, r)
  else some (lexSymbol m w r)

/-- `LexIntoToken`, `compiler/lexer.cpp`:1657-1854. -/
def lexInto (m : Mode) (c : Byte) (r : List Byte) : Option (Tok × List Byte) :=
  if isDigit c then
    match lexNumber (c :: r) with
    | ⟨some (.number v), [], rest⟩ => some (.number (.number v), rest)
    | ⟨some (.number64 v), [], rest⟩ => some (.number (.number64 v), rest)
    | _ => none
  else
    match lexOp c r with
    | some (t, rest) => some (.punct t, rest)
    | none =>
      if c = ch '"' ∨ c = ch '\'' then none
      else if isAlpha c then lexWord m c r
      else some (.punct [c], r)

/-- What `LexNewToken` gives, `compiler/lexer.cpp`:1587-1630. -/
inductive Next where
  | token (t : Tok) (rest : List Byte)
  | eof
  | other
deriving DecidableEq, Inhabited

/-- `LexNewToken`.  `bol` as in `findNext`; after a token the position is not the start of a line. -/
def next (m : Mode) (bol : Bool) (s : List Byte) : Next :=
  match findNext (s.length + 1) bol s with
  | .eof => .eof
  | .other => .other
  | .token c r =>
    match lexInto m c r with
    | some (t, rest) => .token t rest
    | none => .other

/-- All tokens of a text, with at most so many steps. -/
def lexAll (m : Mode) : Nat → Bool → List Byte → Option (List Tok)
  | 0, _, _ => none
  | n + 1, bol, s =>
    match next m bol s with
    | .eof => some []
    | .other => none
    | .token t rest => (lexAll m n false rest).map (t :: ·)

/-- All tokens of a file. -/
def tokens (tags : Bool) (s : List Byte) : Option (List Tok) := lexAll (.reading tags) (s.length + 1) true s

/-- `LexFunctionBody`, `compiler/lexer.cpp`:2850-2883, after the opening brace, with at most so many
tokens: the tokens up to the brace that closes the body, and the text after it.  `depth` is
`brace_balance`. -/
def cacheBody : Nat → Nat → List Byte → Option (List Tok × List Byte)
  | 0, _, _ => none
  | n + 1, depth, s =>
    match next .caching false s with
    | .eof => some ([], [])
    | .other => none
    | .token t rest =>
      let depth' := if t = .punct (str "{") then depth + 1 else if t = .punct (str "}") then depth - 1 else depth
      if depth' = 0 then some ([t], rest)
      else (cacheBody n depth' rest).map fun p => (t :: p.1, p.2)

/-- `LexInjectedToken`, `compiler/lexer.cpp`:1632-1646: the next token of the cache when tags are
allowed or not.  `none` stands for the assertion that a label is followed by a colon. -/
def injected (tags : Bool) : List Tok → Option (Tok × List Tok)
  | [] => none
  | .maybeLabel w :: ts =>
    if tags then
      match ts with
      | .punct t :: ts' => if t = str ":" then some (.label w, ts') else none
      | _ => none
    else some (.symbol w, ts)
  | t :: ts => some (t, ts)

/-- Reading tokens one at a time from the cache; the parser decides for each whether tags are
allowed. -/
def readCache : List Bool → List Tok → Option (List Tok × List Tok)
  | [], c => some ([], c)
  | f :: fs, c =>
    match injected f c with
    | none => none
    | some (t, c') => (readCache fs c').map fun p => (t :: p.1, p.2)

/-- Reading tokens one at a time from the text. -/
def readText : List Bool → List Byte → Option (List Tok × List Byte)
  | [], s => some ([], s)
  | f :: fs, s =>
    match next (.reading f) false s with
    | .token t rest => (readText fs rest).map fun p => (t :: p.1, p.2)
    | _ => none

end Verif.Tokens

/-!
Macros: `#define` and the replacement of names in the text (compiler/lexer.cpp: SkimUntilEndOfLine, LexNewToken, LexSymbolOrKeyword,
EnterMacro, SkimMacroArgument, PerformMacroSubstitution, HandleEof).

Not here: directives within the text (the table of macros is fixed), the operator `defined`, string continuations (`"a" ... "b"`) and included
files.  A character is a code point; `ctrlchar` is the backslash.
-/
namespace Verif.Macro

/-- compiler/sci18n.h:28-31 IsSpace -/
def isSpace (c : Char) : Bool := c == ' ' || c == '\t' || c == '\n' || c == '\x0b' || c == '\x0c' || c == '\r'

/-- compiler/sci18n.h:33-35 IsNewline -/
def isNewline (c : Char) : Bool := c == '\r' || c == '\n'

/-- compiler/sci18n.h:37-39 IsDigit -/
def isDigit (c : Char) : Bool := '0' ≤ c && c ≤ '9'

def isLetter (c : Char) : Bool := ('a' ≤ c && c ≤ 'z') || ('A' ≤ c && c ≤ 'Z')

/-- compiler/lexer.cpp:2450-2454 alpha -/
def wordStart (c : Char) : Bool := isLetter c || c == '_' || c == '@'

/-- The characters that continue a name, compiler/lexer.cpp:2007-2020. -/
def wordChar (c : Char) : Bool := isLetter c || isDigit c || c == '_'

/-- compiler/lexer.cpp:917-929 HandleNewline, if there is a newline. -/
def newline? : List Char → Option (List Char)
  | '\r' :: '\n' :: s => some s
  | '\r' :: s => some s
  | '\n' :: s => some s
  | _ => none

/-- compiler/lexer.cpp:842-860 MaybeHandleLineContinuation: the text after the line end, if only white space is before it.  The first character
is not looked at. -/
def continuation? : List Char → Option (List Char)
  | [] => none
  | _ :: s => newline? (s.dropWhile fun c => isSpace c && !isNewline c)

/-- compiler/lexer.cpp:931-951 HandleSingleLineComment, after `//`. -/
def lineComment (s : List Char) : List Char := s.dropWhile fun c => !isNewline c

/-- compiler/lexer.cpp:953-984 HandleMultiLineComment, after `/*`. -/
def blockComment : List Char → List Char
  | [] => []
  | '*' :: '/' :: s => s
  | _ :: s => blockComment s

/-- compiler/lexer.cpp:674-683 AddText.  `start` is what has been read since the start of the run. -/
def addText (text : List Char) (start : Option (List Char)) (extra : Option Char) : List Char :=
  match start with
  | none => text
  | some run =>
    let t := text ++ run
    match extra with
    | none => t
    | some e => if !t.isEmpty && t.getLast? != some e then t ++ [e] else t

/-! ### Definitions -/

/-- compiler/lexer.h MacroEntry -/
structure Macro where
  name : List Char
  params : Option (List Nat)
  substitute : List Char
  positions : List Nat
deriving DecidableEq, Repr

/-- The rest of a string or character literal, compiler/lexer.cpp:713-738: what it adds to the text, and what is after it. -/
def skimQuoted (term : Char) : Nat → List Char → List Char × List Char
  | 0, s => ([], s)
  | _, [] => ([], [])
  | n + 1, c :: s =>
    if c = '\\' ∧ s.head? = some term then
      let (q, r) := skimQuoted term n (s.drop 1)
      (c :: term :: q, r)
    else if c = '\\' then
      match continuation? s with
      | some r => skimQuoted term n r
      | none =>
        let (q, r) := skimQuoted term n s
        (c :: q, r)
    else if c = term || isNewline c then ([c], s)
    else
      let (q, r) := skimQuoted term n s
      (c :: q, r)

/-- The loop of compiler/lexer.cpp:689-745. -/
def skimLoop (args : Bool) : Nat → List Char → Option (List Char) → List Nat → List Char → List Char × List Nat
  | 0, text, start, pos, _ => (addText text start none, pos)
  | _, text, start, pos, [] => (addText text start none, pos)
  | n + 1, text, start, pos, c :: s =>
    if isNewline c then (addText text start none, pos)
    else if c = '/' ∧ s.head? = some '/' then (addText text start none, pos)
    else if c = '/' ∧ s.head? = some '*' then
      skimLoop args n (addText text start (some ' ')) none pos (blockComment (s.drop 1))
    else match (if c = '\\' then continuation? (c :: s) else none) with
      | some r => skimLoop args n (addText text start (some ' ')) none pos r
      | none =>
        let start' : Option (List Char) := match start with
          | some run => some (run ++ [c])
          | none => if isSpace c then none else some [c]
        if c = '"' ∨ c = '\'' then
          let (q, r) := skimQuoted c s.length s
          skimLoop args n text (start'.map (· ++ q)) pos r
        else match s with
          | d :: s' =>
            if c = '%' ∧ args = true ∧ isDigit d = true then
              let t := addText text (start'.map (· ++ [d])) none
              skimLoop args n t (some []) (pos ++ [t.length - 2]) s'
            else skimLoop args n text start' pos (d :: s')
          | [] => skimLoop args n text start' pos []

/-- compiler/lexer.cpp:749-750: `text` without the white space at its end. -/
def trimEnd (s : List Char) : List Char := (s.reverse.dropWhile isSpace).reverse

/-- compiler/lexer.cpp:685-753 SkimUntilEndOfLine -/
def skimLine (args : Bool) (line : List Char) : List Char × List Nat :=
  let (t, p) := skimLoop args line.length [] none [] line
  (trimEnd t, p)

/-- `#define`, compiler/lexer.cpp:469-545, with the rest of the line after the name and the parameters. -/
def define (name : List Char) (params : Option (List Nat)) (line : List Char) : Macro :=
  let (t, p) := skimLine params.isSome line
  { name := name, params := params, substitute := t, positions := p }

/-- compiler/lexer.cpp:2518-2524 FindMacro.  (A second definition of a name is not entered, 523-526.) -/
def find (ms : List Macro) (name : List Char) : Option Macro := ms.find? (·.name == name)

/-! ### Arguments -/

/-- compiler/lexer.cpp:2730-2784 SkimMacroArgument: the argument and the text that follows. -/
def skimArg : Nat → Nat → Bool → List Char → Option (List Char) → List Char → List Char × List Char
  | 0, _, _, text, start, s => (addText text start none, s)
  | _, _, _, text, start, [] => (addText text start none, [])
  | n + 1, parens, closer, text, start, c :: s =>
    if closer then skimArg n parens (c != '"') text (start.map (· ++ [c])) s
    else if c = '/' ∧ s.head? = some '/' then
      skimArg n parens false (addText text start (some ' ')) none (lineComment (s.drop 1))
    else if c = '/' ∧ s.head? = some '*' then
      skimArg n parens false (addText text start (some ' ')) none (blockComment (s.drop 1))
    else match newline? (c :: s) with
      | some r =>
        skimArg n parens false (addText text (start.map (· ++ (c :: s).take ((c :: s).length - r.length))) (some ' ')) none r
      | none =>
        match (if c = '\\' then continuation? (c :: s) else none) with
        | some r => skimArg n parens false (addText text start (some ' ')) none r
        | none =>
          if (c = ')' ∨ c = ',') ∧ parens = 0 then (addText text start none, c :: s)
          else
            let start' : Option (List Char) := match start with
              | some run => some (run ++ [c])
              | none => if isSpace c then none else some [c]
            skimArg n (if c = '(' then parens + 1 else if c = ')' then parens - 1 else parens) (c == '"') text start' s

/-- The loop of compiler/lexer.cpp:2677-2685 and `need(')')`, from after the opening parenthesis: the arguments by their numbers, and the
text that follows.  `none`: an error (1 or 429) is reported. -/
def skimArgs : List Nat → List Char → Option (List (Nat × List Char) × List Char)
  | [], _ => none
  | [n], s =>
    let (a, r) := skimArg s.length 0 false [] none s
    match r with
    | ')' :: r => some ([(n, a)], r)
    | _ => none
  | n :: ns, s =>
    let (a, r) := skimArg s.length 0 false [] none s
    match r with
    | ',' :: r => (skimArgs ns r).map fun (as, r) => ((n, a) :: as, r)
    | _ => none

/-- compiler/lexer.cpp:2786-2828 PerformMacroSubstitution -/
def perform (sub : List Char) (args : List (Nat × List Char)) : Nat → List Nat → List Char
  | last, [] => sub.drop last
  | last, p :: ps =>
    let stringize := decide (0 < p) && sub[p - 1]? == some '#'
    let lastEnd := if stringize then p - 1 else p
    let d := (sub[p + 1]?).getD '0'
    (sub.drop last).take (lastEnd - last) ++
      (match args.lookup (d.toNat - '0'.toNat) with
        | none => [(sub[p]?).getD '%', d]
        | some a => if stringize then '"' :: a ++ ['"'] else a) ++
      perform sub args (p + 2) ps

/-! ### Tokens -/

/-- How the text is split into tokens, apart from names and parentheses: how many characters of white space and comments come first
(compiler/lexer.cpp:757-840 FindNextToken), and how long a token is that is not a name (compiler/lexer.cpp:1650-1845). -/
structure Lexis where
  space : List Char → Nat
  other : List Char → Nat

/-- The text from the next token. -/
def Lexis.rest (L : Lexis) (s : List Char) : List Char := s.drop (L.space s)

/-- The length of a token that is not a name. -/
def Lexis.len (L : Lexis) (s : List Char) : Nat := if s.head? = some '(' then 1 else max 1 (L.other s)

inductive Tok
  | word (w : List Char)
  | other (s : List Char)
  /-- the token that means the end of the file -/
  | zero
deriving DecidableEq, Repr

/-- A macro's text, or the file, compiler/lexer.h LexerState. -/
structure Frame where
  text : List Char
  owner : Option (List Char)
deriving DecidableEq, Repr

/-- The texts being read, the innermost first; the macros in use (`macros_in_use_`, a set); and the tokens pushed back (compiler/lexer.h
token_buffer_t).  No frame: `freading_` is false. -/
structure St where
  frames : List Frame
  used : List (List Char)
  pushed : List Tok
deriving DecidableEq, Repr

/-- compiler/lexer.cpp:2031-2038: names that are never replaced. -/
def reserved (w : List Char) : Bool := w == "defined".toList || w == "__LINE__".toList

/-- compiler/lexer.cpp:880-888 HandleEof, for a macro; at the end of the file `freading_` becomes false. -/
def St.leave (st : St) (f : Frame) (fs : List Frame) : St :=
  { st with frames := fs, used := (f.owner.map st.used.erase).getD st.used }

/-- compiler/lexer.cpp:2693-2724: the macro's text is read next. -/
def St.enter (st : St) (name text : List Char) : St :=
  { st with frames := { text := text, owner := some name } :: st.frames, used := if name ∈ st.used then st.used else name :: st.used }

inductive Res
  | tok (t : Tok) (s : St)
  | zero (s : St)
  /-- an error has been reported -/
  | bad
  /-- see `lexNew` -/
  | again

/-- The arguments of a macro with the parameters `ps`, from after the opening parenthesis, compiler/lexer.cpp:2677-2691.  Without parameters
the text between the parentheses has to be white space. -/
def arguments (L : Lexis) (ps : List Nat) (s : List Char) : Option (List (Nat × List Char) × List Char) :=
  if ps = [] then
    match L.rest s with
    | ')' :: r => some ([], r)
    | _ => none
  else skimArgs ps s

/-- compiler/lexer.cpp:1587-1630 LexNewToken with 757-840 FindNextToken, 863-918 HandleEof, 2002-2060 LexSymbolOrKeyword and 2659-2728
EnterMacro.  The number bounds the steps.  `eof` is `allow_end_of_file_`.

`match('(')` (2670) lexes a token and pushes it back if it is another; but the token 0 is not pushed back (2099), and is then the current
token, so that LexNewToken returns it (1616) instead of the name.

The code is `strict = false`.  If `strict` is true, then reading stops with `again` where the code enters a macro that is in use: it looks whether
the macro is in use (2666) only before it looks for the parenthesis (2670), which may enter that macro. -/
def lexNew (strict : Bool) (L : Lexis) (ms : List Macro) : Nat → Bool → St → Option Res
  | 0, _, _ => none
  | n + 1, eof, st =>
    match st.frames with
    | [] => some (.zero st)
    | f :: fs =>
      match L.rest f.text with
      | [] => if eof then lexNew strict L ms n eof (st.leave f fs) else some (.zero { st with frames := { f with text := [] } :: fs })
      | c :: cs =>
        if wordStart c then
          let w := c :: cs.takeWhile wordChar
          let st1 : St := { st with frames := { f with text := cs.dropWhile wordChar } :: fs }
          match (if reserved w ∨ w ∈ st.used then none else find ms w) with
          | none => some (.tok (.word w) st1)
          | some m =>
            match m.params with
            | none => lexNew strict L ms n eof (st1.enter w m.substitute)
            | some ps =>
              match lexNew strict L ms n false st1 with
              | none => none
              | some .bad => some .bad
              | some .again => some .again
              | some (.zero s) => some (.zero s)
              | some (.tok t s) =>
                if t = .other ['('] then
                  match s.frames with
                  | [] => some .bad
                  | g :: gs =>
                    match arguments L ps g.text with
                    | none => some .bad
                    | some (as, r) =>
                      if strict = true ∧ w ∈ s.used then some .again
                      else lexNew strict L ms n eof
                        (({ s with frames := { g with text := r } :: gs } : St).enter w (perform m.substitute as 0 m.positions))
                else some (.tok (.word w) { s with pushed := t :: s.pushed })
        else
          some (.tok (.other ((c :: cs).take (L.len (c :: cs)))) { st with frames := { f with text := (c :: cs).drop (L.len (c :: cs)) } :: fs })

/-- compiler/lexer.cpp:1566-1580 lex -/
def lex (strict : Bool) (L : Lexis) (ms : List Macro) (n : Nat) (st : St) : Option Res :=
  match st.pushed with
  | t :: p => some (.tok t { st with pushed := p })
  | [] => lexNew strict L ms n true st

/-- What comes of a text: its tokens, as the parser gets them; or an error is reported; or, with `strict`, see `lexNew`. -/
inductive Out
  | tokens (ts : List Tok)
  | error
  | again
deriving DecidableEq, Repr

def Out.cons (t : Tok) : Out → Out
  | .tokens ts => .tokens (t :: ts)
  | o => o

/-- All tokens of a text. -/
def run (strict : Bool) (L : Lexis) (ms : List Macro) : Nat → St → Option Out
  | 0, _ => none
  | n + 1, st =>
    match lex strict L ms n st with
    | none => none
    | some .bad => some .error
    | some .again => some .again
    | some (.tok t s) => (run strict L ms n s).map (Out.cons t)
    | some (.zero s) => if s.frames = [] then some (.tokens []) else (run strict L ms n s).map (Out.cons .zero)

/-- The state at the start of a file. -/
def start (text : List Char) : St := { frames := [{ text := text, owner := none }], used := [], pushed := [] }

end Verif.Macro

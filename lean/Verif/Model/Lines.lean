/-
The buffer of tokens that the parser has looked at and given back, and the newline that ends a
statement: `compiler/lexer.cpp` `lex`, `lexpush`, `lexpop`, `match`, `peek_same_line`.

Simplifications.  A token is its number, its file and its line; tokens that span several lines (strings)
are left out.  Macros, which have a buffer of their own pushed and popped, and synthesised tokens are left
out.  Labels in the cache are treated in `Model/Tokens`.
-/
namespace Verif.Lines

/-- What the lexer meets in the files of a program.  `newline true` is one after a backslash. -/
inductive Event where
  | token (id : Nat)
  | newline (continued : Bool)
  | enter (file : Nat)
  | leave
deriving Repr, DecidableEq, Inhabited

/-- `full_token_t`, `compiler/lexer.h`:42-54, with the file and line of its position. -/
structure Tok where
  id : Nat := 0
  file : Nat := 0
  line : Nat := 0
deriving Repr, DecidableEq, Inhabited

/-- The parts of `LexerState` that count lines, `compiler/lexer.h`:348-366. -/
structure Ctr where
  file : Nat
  fline : Nat := 1
  tokline : Nat := 1
deriving Repr, DecidableEq, Inhabited

/-- `state_` and `prev_state_`. -/
structure Place where
  cur : Ctr
  stack : List Ctr := []
deriving Repr, DecidableEq, Inhabited

/-- `HandleNewline`, `EnterFile` and `HandleEof`, `compiler/lexer.cpp`:917-929, 2542-2556 and 863-903. -/
def Place.step (p : Place) : Event → Place
  | .token _ => p
  | .newline continued =>
    { p with cur := { p.cur with fline := p.cur.fline + 1, tokline := if continued then p.cur.tokline else p.cur.tokline + 1 } }
  | .enter file => { cur := { file := file }, stack := p.cur :: p.stack }
  | .leave =>
    match p.stack with
    | [] => p
    | c :: cs => { cur := c, stack := cs }

/-- The tokens of a program with their positions (`FillTokenPos`, `compiler/lexer.cpp`:1648-1655), each
with `state_.fline` when it is lexed. -/
def stream (p : Place) : List Event → List (Tok × Nat)
  | [] => []
  | .token id :: es => (⟨id, p.cur.file, p.cur.tokline⟩, p.cur.fline) :: stream p es
  | e :: es => stream (p.step e) es

/-- `state_.fline` when all is lexed. -/
def lastLine (p : Place) (es : List Event) : Nat := (es.foldl Place.step p).cur.fline

/-- `MAX_TOKEN_DEPTH`, `compiler/lexer.h`:56. -/
def maxDepth : Nat := 4

/-- `token_buffer_t`, `compiler/lexer.h`:58-70, and the parts of `Lexer` that are read with it: the tokens
not lexed yet, each with `state_.fline` after it; `state_.fline`; `freading_`; and
`using_injected_tokens_`. -/
structure Reader where
  slots : List Tok := List.replicate maxDepth {}
  cursor : Nat := 0
  depth : Nat := 0
  ahead : List (Tok × Nat)
  fline : Nat := 1
  reading : Bool := true
  injected : Bool := false
deriving Repr, DecidableEq, Inhabited

/-- `tEOL`, `tTERM` and `tENDEXPR`.  The numbers are not those of `compiler/lexer.h`; they are above those of
characters. -/
def tEOL : Nat := 300
def tTERM : Nat := 301
def tENDEXPR : Nat := 302

/-- `current_token`, `compiler/lexer.h`:190-192. -/
def Reader.current (r : Reader) : Tok := r.slots.getD r.cursor {}

/-- The increment of a cursor, `compiler/lexer.cpp`:1531-1533, 1561-1563. -/
def after (cursor : Nat) : Nat := if cursor + 1 = maxDepth then 0 else cursor + 1

/-- `next_token`, `compiler/lexer.cpp`:1268-1276. -/
def Reader.next (r : Reader) : Tok := r.slots.getD (after r.cursor) {}

/-- `advance_token_ptr`, `compiler/lexer.cpp`:1526-1536, and storing a token there. -/
def Reader.store (r : Reader) (t : Tok) : Reader :=
  { r with cursor := after r.cursor, slots := r.slots.set (after r.cursor) t }

/-- `lexpop`, `compiler/lexer.cpp`:1555-1564. -/
def Reader.pop (r : Reader) : Reader := { r with depth := r.depth - 1, cursor := after r.cursor }

/-- `lex`, `compiler/lexer.cpp`:1566-1579, with `LexNewToken` (1587-1630), which at the end of the files
stores a token with number 0, and `LexInjectedToken` (1632-1646). -/
def Reader.lex (r : Reader) : Nat × Reader :=
  if 0 < r.depth then (r.pop.current.id, r.pop)
  else
    match r.ahead with
    | (t, f) :: as => (t.id, { r.store t with ahead := as, fline := if r.injected then r.fline else f })
    | [] => if r.injected then (0, r) else (0, { r.store {} with reading := false })

/-- `lexpush`, `compiler/lexer.cpp`:2096-2108. -/
def Reader.push (r : Reader) : Reader :=
  if r.current.id = 0 ∨ r.current.id = tEOL then r
  else { r with depth := r.depth + 1, cursor := if r.cursor = 0 then maxDepth - 1 else r.cursor - 1 }

/-- `peek_same_line`, `compiler/lexer.cpp`:2206-2236. -/
def Reader.peekSameLine (r : Reader) : Nat × Reader :=
  if 0 < r.depth ∧ r.current.line = r.fline ∧ r.current.file = r.next.file then
    (if r.next.id = 0 then tEOL else r.next.id, r)
  else
    let r1 := r.lex.2
    let t := r1.current
    if t.id = 0 ∨ t.id = tEOL then (tEOL, r1)
    else
      let r2 := r1.push
      if t.line = r2.current.line ∧ r2.current.file = r2.next.file then (t.id, r2) else (tEOL, r2)

/-- `match`, `compiler/lexer.cpp`:2146-2170. -/
def Reader.match (needSemicolon : Bool) (token : Nat) (r : Reader) : Bool × Reader :=
  let tok := r.lex.1
  let r1 := r.lex.2
  if token = tok then (true, r1)
  else if token = tTERM then
    if tok = 59 ∨ tok = tENDEXPR then (true, r1)
    else
      let r2 := r1.push
      if needSemicolon then (false, r2)
      else if r2.reading = false then (true, r2)
      else (decide (r2.peekSameLine.1 = tEOL), r2.peekSameLine.2)
  else (false, r1.push)

/-- The lexer at the start of the main file, `compiler/lexer.cpp`:1440-1455. -/
def start (es : List Event) : Reader := { ahead := stream { cur := { file := 0 } } es }

/-- The lexer when a function body is parsed after all files are lexed: `InjectCachedTokens`,
`compiler/lexer.cpp`:2885-2894, called at `compiler/parser.cpp`:191.  The buffer is as it was. -/
def Reader.inject (r : Reader) (body : List Tok) : Reader :=
  { r with ahead := body.map (fun t => (t, 0)), reading := true, injected := true }

end Verif.Lines

import Verif.Spec.Text

/-!
Literals in the lexer (compiler/lexer.cpp, lexer-inl.h, data-queue.cpp).

The text still to be read is a list of bytes; reading at its end gives the NUL the buffer ends with.  Reports are listed by number,
oldest first.  Macros, skipped text and strings that start with three quotes are not modelled.
-/
namespace Verif.Text

/-- compiler/lexer.h:273-276 peek. -/
def peek : List Byte → Byte
  | [] => 0
  | b :: _ => b

/-- compiler/sci18n.h:37-39 IsDigit. -/
def isDigit (b : Byte) : Bool := decide (48 ≤ b.toNat ∧ b.toNat ≤ 57)

/-- compiler/lexer.cpp:2450-2464 alpha and alphanum, in the C locale. -/
def alphanum (b : Byte) : Bool :=
  decide ((65 ≤ b.toNat ∧ b.toNat ≤ 90) ∨ (97 ≤ b.toNat ∧ b.toNat ≤ 122) ∨ b.toNat = 95 ∨ b.toNat = 64) || isDigit b

/-- compiler/lexer.cpp:1879-1885, and 2391-2396: the value of a digit. -/
def digitOf (b : Byte) : Option Nat :=
  if 48 ≤ b.toNat ∧ b.toNat ≤ 57 then some (b.toNat - 48)
  else if 65 ≤ b.toNat ∧ b.toNat ≤ 70 then some (b.toNat - 65 + 10)
  else if 97 ≤ b.toNat ∧ b.toNat ≤ 102 then some (b.toNat - 97 + 10)
  else none

/-- What the loop of `lex_number` leaves. -/
structure Digits where
  value : Nat
  ndigits : Nat
  reports : List Nat
  rest : List Byte
deriving DecidableEq

/-- compiler/lexer.cpp:1873-1914: the loop over the digits; `value` is a `uint64_t`. -/
def lexDigits (base : Nat) : List Byte → Nat → Nat → List Nat → Digits
  | [], value, n, reports => ⟨value, n, reports, []⟩
  | c :: rest, value, n, reports =>
    if c = 95 then lexDigits base rest value n reports
    else
      match digitOf c with
      | none => ⟨value, n, reports, c :: rest⟩
      | some d =>
        if d ≥ base then lexDigits base rest value n (if reports = [] then reports ++ [86] else reports)
        else if value * base > 18446744073709551615 then ⟨value, n, reports ++ [135], rest⟩
        else if value * base + d > 18446744073709551615 then ⟨value * base, n, reports ++ [135], rest⟩
        else lexDigits base rest (value * base + d) (n + 1) reports

/-- The token a number becomes. -/
inductive NumTok where
  | number (v : BitVec 32)
  | number64 (v : Nat)
  /-- `lex_float` is entered with the whole part. -/
  | float (whole : Nat)
deriving DecidableEq

/-- What `lex_number` leaves; `tok = none` is a false return. -/
structure Num where
  tok : Option NumTok
  reports : List Nat
  rest : List Byte
deriving DecidableEq

/-- compiler/lexer.cpp:1858-1868: the prefix. -/
def lexPrefix (l : List Byte) : Nat × Nat × List Byte :=
  match l with
  | 48 :: 98 :: r => (2, 0, r)
  | 48 :: 111 :: r => (8, 0, r)
  | 48 :: 120 :: r => (16, 0, r)
  | 48 :: r => (10, 1, r)
  | _ => (10, 0, l)

/-- compiler/lexer.cpp:1934-1945: the token for a value. -/
def numTok (base value : Nat) : NumTok :=
  if value > 4294967295 ∨ (base = 10 ∧ ((value : Int).bmod 18446744073709551616 < -2147483648 ∨ (value : Int).bmod 18446744073709551616 > 2147483647)) then
    .number64 value
  else .number (.ofNat 32 value)

/-- compiler/lexer.cpp:1856-1947 lex_number. -/
def lexNumber (l : List Byte) : Num :=
  let (base, n0, l) := lexPrefix l
  let d := lexDigits base l 0 n0 []
  if base = 10 ∧ d.ndigits = 0 then ⟨none, d.reports, d.rest⟩
  else
    let reports := if alphanum (peek d.rest) then d.reports ++ [53] else if d.ndigits = 0 then d.reports ++ [424] else d.reports
    match d.rest with
    | 46 :: r =>
      if base = 10 ∧ isDigit (peek r) then ⟨some (.float d.value), reports, r⟩ else ⟨some (numTok base d.value), reports, d.rest⟩
    | _ => ⟨some (numTok base d.value), reports, d.rest⟩

/-! ### Characters -/

/-- compiler/lexer.cpp:2588-2599: the bytes after the first. -/
def utf8More : Nat → Nat → List Byte → Option Nat × List Byte
  | 0, result, l => (some result, l)
  | k+1, result, l =>
    if (peek l).toNat &&& 0xC0 ≠ 0x80 then (none, l)
    else utf8More k ((result <<< 6) ||| ((peek l).toNat &&& 0x3F)) l.tail

/-- compiler/lexer.cpp:2568-2602 get_utf8_char on text that is not at its end; `none` is -1. -/
def getUtf8 (ch : Byte) (rest : List Byte) : Option Nat × List Byte :=
  if ch.toNat ≤ 0x7F then (some ch.toNat, rest)
  else
    let inverted := (~~~ch).toNat
    if inverted = 0 then (none, rest)
    else
      let indicator := Nat.log2 inverted
      if indicator = 0 ∨ indicator > 5 then (none, rest)
      else utf8More (6 - indicator) (ch.toNat &&& ((1 <<< indicator) - 1)) rest

/-- What `litchar` leaves.  `ub` is a signed overflow, or reading past the end of the buffer. -/
inductive Lit where
  | char (c : Int) (codepoint : Bool) (reports : List Nat) (rest : List Byte)
  | ub
deriving DecidableEq

/-- compiler/lexer.cpp:2372-2386: up to `k` digits of a `\x` escape. -/
def hexEscape : Nat → Nat → List Byte → Nat × List Byte
  | 0, c, l => (c, l)
  | k+1, c, l =>
    match digitOf (peek l) with
    | none => (c, l)
    | some d => hexEscape k (c * 16 + d) l.tail

/-- compiler/lexer.cpp:2388-2404: the digits of a `\u` or `\U` escape; the value is a `cell`. -/
def uniEscape : Nat → BitVec 32 → List Byte → BitVec 32 × List Nat × List Byte
  | 0, c, l => (c, [], l)
  | k+1, c, l =>
    match digitOf (peek l) with
    | none => (c <<< 4, [27], l)
    | some d => uniEscape k ((c <<< 4) ||| .ofNat 32 d) l.tail

/-- compiler/lexer.cpp:2420-2427: the digits of a `\ddd` escape; `none` is an overflow. -/
def decEscape : List Byte → Nat → Nat → Option (Nat × Nat × List Byte)
  | [], c, n => some (c, n, [])
  | b :: r, c, n =>
    if isDigit b then
      if c * 10 + (b.toNat - 48) > 2147483647 then none else decEscape r (c * 10 + (b.toNat - 48)) (n + 1)
    else some (c, n, b :: r)

/-- `match_char(';')` -/
def skipSemi : List Byte → List Byte
  | 59 :: r => r
  | l => l

/-- compiler/lexer.cpp:2345-2441: after the control character.  The character after it is read even at the end of the text, where it is
the NUL, and put back. -/
def escape (l : List Byte) : Lit :=
  match l with
  | 97 :: r => .char 7 false [] r
  | 98 :: r => .char 8 false [] r
  | 101 :: r => .char 27 false [] r
  | 102 :: r => .char 12 false [] r
  | 110 :: r => .char 10 false [] r
  | 114 :: r => .char 13 false [] r
  | 116 :: r => .char 9 false [] r
  | 118 :: r => .char 11 false [] r
  | 120 :: r => let (c, r) := hexEscape 2 0 r; .char c false [] (skipSemi r)
  | 117 :: r => let (c, e, r) := uniEscape 4 0 r; .char c.toInt true e r
  | 85 :: r => let (c, e, r) := uniEscape 8 0 r; .char c.toInt true e r
  | 39 :: r => .char 39 false [] r
  | 34 :: r => .char 34 false [] r
  | 37 :: r => .char 37 false [] r
  | _ =>
    if isDigit (peek l) then
      match decEscape l 0 0 with
      | none => .ub
      | some (c, n, r) =>
        let e := if n > 3 then [27] else []
        if c > 255 then .char 0 false (e ++ [27]) (skipSemi r) else .char c false e (skipSemi r)
    else .char 0 false [27] l

/-- compiler/lexer.cpp:2312-2445 litchar(kLitcharUtf8), with `ctrlchar_`. -/
def litchar (ctrl : Byte) (l : List Byte) : Lit :=
  match l with
  | [] => .ub
  | ch :: rest =>
    if ch ≠ ctrl then
      if ch.toNat > 0x7F then
        match getUtf8 ch rest with
        | (some c, r) => .char c true [] r
        | (none, _) => .char ch.toNat false [248] rest
      else .char ch.toNat false [] rest
    else
      match rest with
      | [] => escape []
      | b :: r => if b = ctrl then .char ctrl.toInt false [] r else escape rest

/-- What appending a character to a string leads to.  `throws` is the `std::range_error` of `std::wstring_convert`. -/
inductive Put where
  | ok (data : List Byte) (reports : List Nat) (rest : List Byte)
  | throws
  | ub
deriving DecidableEq

/-- compiler/lexer.cpp:1221-1230 packedstring_char; compiler/sci18n.cpp:58-68 UnicodeCodepointToUtf8, that is, the standard library's
`codecvt_utf8<char32_t>`, which encodes scalar values and fails for other numbers. -/
def packedChar (ctrl : Byte) (l : List Byte) : Put :=
  match litchar ctrl l with
  | .ub => .ub
  | .char c cp e r =>
    if c < 0 then .ok [] e r
    else if cp then
      if Scalar c.toNat then .ok (utf8 c.toNat) e r else .throws
    else .ok [.ofInt 8 c] e r

/-- The text the lexer has yet to read after a string, with the string. -/
inductive Str where
  | ok (data : List Byte) (reports : List Nat) (rest : List Byte)
  /-- three quotes: `multilinestring`, not modelled -/
  | multiline
  | throws
  | ub
  | fuel
deriving DecidableEq

/-- compiler/sci18n.h:28-31 IsSpace. -/
def isSpace (b : Byte) : Bool := decide (b.toNat = 32 ∨ (9 ≤ b.toNat ∧ b.toNat ≤ 13))

/-- compiler/sci18n.h:33-35 IsNewline. -/
def isNewline (b : Byte) : Bool := decide (b.toNat = 13 ∨ b.toNat = 10)

/-- compiler/lexer.cpp:844-861 MaybeHandleLineContinuation: a backslash and a newline, with white space between them (665-672), and
1207-1213, the white space after them.  The newline is CR, LF or CR LF (917-929). -/
def lineContinuation : List Byte → Option (List Byte)
  | 92 :: r =>
    match r.dropWhile fun b => isSpace b && !isNewline b with
    | 13 :: 10 :: r => some (r.dropWhile isSpace)
    | 13 :: r => some (r.dropWhile isSpace)
    | 10 :: r => some (r.dropWhile isSpace)
    | _ => none
  | _ => none

/-- compiler/lexer.cpp:1184-1219 packedstring, the loop once something other than a quote has been seen. -/
def packedLoop (ctrl term : Byte) : Nat → List Byte → List Byte → List Nat → Str
  | 0, _, _, _ => .fuel
  | fuel+1, l, data, reports =>
    let c := peek l
    if c = term ∨ c = 0 then .ok data reports l
    else
      match lineContinuation l with
      | some r => packedLoop ctrl term fuel r data reports
      | none =>
        if isNewline c then .ok data reports l
        else
          match packedChar ctrl l with
          | .ok d e r => packedLoop ctrl term fuel r (data ++ d) (reports ++ e)
          | .throws => .throws
          | .ub => .ub

/-- compiler/lexer.cpp:1184-1219 packedstring, and 1948-1957 LexStringLiteral for a double quote, from the text after the opening quote. -/
def lexString (ctrl : Byte) (l : List Byte) : Str :=
  match l with
  | 34 :: 34 :: _ => .multiline
  | _ =>
    match packedLoop ctrl 34 (l.length + 1) l [] [] with
    | .ok data e (34 :: r) => .ok data e r
    | .ok data e r => .ok data (e ++ [37]) r
    | s => s

/-! ### Cells -/

/-- compiler/lexer-inl.h:28-52 StringToCells (used by litadd_str, compiler/lexer.cpp:2295-2301, and DataQueue::Add, data-queue.cpp:58-63):
`byte` counts the bytes in `val`. -/
def toCells : List Byte → BitVec 32 → Nat → List (BitVec 32)
  | [], val, byte => if byte ≠ 0 then [val] else [0]
  | b :: l, val, byte =>
    let val := val ||| (b.setWidth 32 <<< (8 * byte))
    if byte = 3 then val :: toCells l 0 0 else toCells l val (byte + 1)

/-- A string as cells. -/
def stringToCells (s : List Byte) : List (BitVec 32) := toCells s 0 0

end Verif.Text

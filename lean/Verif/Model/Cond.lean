import Verif.Spec.Cond
import Verif.Model.Lexer

/-!
Conditional compilation in the lexer (compiler/lexer.cpp, lexer.h): the stack of open `#if`s, skipped sections, `#include`, `#endinput`
and the end of a file.

The model works on lines: what `LexNewToken` makes of a line that starts with `#` is given, and so is the value of a condition
(`preproc_expr`, 0 on an error).  The parser asks for tokens until there are none, and enters an included file when it sees its name
(compiler/parser.cpp:137-149), so the lines of a file are read in order.  The errors for text after a directive, a file that cannot be
opened and an `#include` inside a function are left out, and so are the generated files read before the main one.
-/
namespace Verif.Cond

variable {T C σ : Type} {n : Nat}

/-- compiler/lexer.h:127-129: the three bits of an entry of `ifstack_`. -/
structure Flags where
  /-- SKIPMODE -/
  skip : Bool := false
  /-- PARSEMODE -/
  parse : Bool := false
  /-- HANDLED_ELSE -/
  handled : Bool := false
deriving DecidableEq, Repr

/-- What the lexer keeps. -/
structure St (T C σ : Type) (n : Nat) where
  /-- the lines from `state_.pos` to `state_.end` -/
  cur : List (Line T C n)
  /-- whether the loop of `HandleSkippedSection` is running -/
  skipping : Bool := false
  /-- `prev_state_`, last first: the lines left, and `entry_preproc_if_stack_size` -/
  saved : List (List (Line T C n) × Nat) := []
  /-- `ifstack_`, last first -/
  stack : List Flags := []
  /-- `skiplevel_` -/
  level : Nat := 0
  /-- the files with `included_` set -/
  seen : List (Fin n)
  env : σ
  /-- the text the parser was given, oldest first -/
  out : List T := []
  /-- the reports, oldest first -/
  errs : List Nat := []

inductive Next (T C σ : Type) (n : Nat) where
  | more (s : St T C σ n)
  | done (s : St T C σ n)
  /-- an assertion fails, or a read outside `ifstack_` -/
  | crash

/-- compiler/lexer.h:257-259 IsSkipping; `none` when `ifstack_` has no such entry. -/
def isSkipping (stack : List Flags) (level : Nat) : Option Bool :=
  if level = 0 then some false
  else if level ≤ stack.length then (stack[stack.length - level]?).map (·.skip)
  else none

/-- compiler/lexer.cpp:864-914 HandleEof, with no file waiting in `file_queue_` and outside macros. `asserts` says whether assertions
are compiled in. -/
def handleEof (asserts : Bool) (s : St T C σ n) : Next T C σ n :=
  match s.saved with
  | [] => .done { s with errs := if s.stack.isEmpty then s.errs else s.errs ++ [1] }
  | (rest, entry) :: saved =>
    -- while (skiplevel_ < ifstack_.size()) ifstack_.pop_back();
    let stack := s.stack.drop (s.stack.length - entry)
    if asserts && (entry != stack.length || isSkipping stack entry != some false) then .crash
    else .more { s with cur := rest, saved := saved, stack := stack, level := entry }

/-- compiler/lexer.cpp:317-384, 464-468 HandleDirectives, for the line at the start of `cur`, and for text the token loop around it. -/
def parseLine (asserts : Bool) (L : Lang T C σ) (files : Fin n → List (Line T C n)) (s : St T C σ n) (l : Line T C n)
    (rest : List (Line T C n)) : Next T C σ n :=
  let s := { s with cur := rest }
  match l with
  | .text t => .more { s with env := L.step s.env t, out := s.out ++ [t] }
  | .dif c => -- 327-339
    let level := s.stack.length + 1
    let val := L.eval s.env c
    let stack := { skip := !val, parse := val : Flags } :: s.stack
    match isSkipping stack level with
    | none => .crash
    | some b => .more { s with stack := stack, level := level, skipping := b }
  | .delse => -- 344-354
    match s.stack with
    | [] => .more { s with errs := s.errs ++ [26] }
    | f :: fs =>
      .more { s with errs := if f.handled then s.errs ++ [60] else s.errs
                     stack := { f with skip := true, handled := true } :: fs
                     skipping := true }
  | .delseif _ => -- 356-366
    match s.stack with
    | [] => .more { s with errs := s.errs ++ [26] }
    | f :: fs =>
      .more { s with errs := if f.handled then s.errs ++ [61] else s.errs
                     stack := { f with skip := true } :: fs
                     skipping := true }
  | .dendif => -- 368-377
    match s.stack with
    | [] => .more { s with errs := s.errs ++ [26] }
    | _ :: fs => .more { s with stack := fs, level := if fs.length < s.level then fs.length else s.level }
  | .incl f => -- 75-101 PlungeQualifiedFile, PlungeFile; 2543-2562 EnterFile
    if f ∈ s.seen then .more s
    else if asserts && (isSkipping s.stack s.level != some false || s.level != s.stack.length) then .crash
    else .more { s with saved := (rest, s.stack.length) :: s.saved, cur := files f, seen := f :: s.seen }
  | .endinput => .more { s with cur := [] } -- 464-468

/-- compiler/lexer.cpp:578-663 HandleSkippedSection, for the line at the start of `cur`. -/
def skipLine (L : Lang T C σ) (s : St T C σ n) (l : Line T C n) (rest : List (Line T C n)) : Next T C σ n :=
  let s := { s with cur := rest }
  match l with
  | .dif _ => .more { s with stack := {} :: s.stack } -- 598-600
  | .delse => -- 602-618
    match s.stack with
    | [] => .crash
    | f :: fs =>
      if f.handled then .more { s with errs := s.errs ++ [60] }
      else if !f.parse then
        let stack := { f with skip := false, handled := true } :: fs
        match isSkipping stack s.level with
        | none => .crash
        | some b => .more { s with stack := stack, skipping := b }
      else .more s
  | .delseif c => -- 620-641
    match s.stack with
    | [] => .crash
    | f :: fs =>
      if f.handled then .more { s with errs := s.errs ++ [61] }
      else if !f.parse then
        if s.level ≠ s.stack.length then .more s
        else
          let val := L.eval s.env c
          let stack := { f with skip := !val, parse := val || f.parse } :: fs
          match isSkipping stack s.level with
          | none => .crash
          | some b => .more { s with stack := stack, skipping := b }
      else .more s
  | .dendif => -- 643-652
    match s.stack with
    | [] => .crash
    | _ :: fs =>
      let level := if fs.length < s.level then fs.length else s.level
      match isSkipping fs level with
      | none => .crash
      | some b => .more { s with stack := fs, level := level, skipping := b }
  | .text _ => .more s
  | .incl _ => .more s
  | .endinput => .more s

/-- One line, or the end of a file. -/
def step (asserts : Bool) (L : Lang T C σ) (files : Fin n → List (Line T C n)) (s : St T C σ n) : Next T C σ n :=
  match s.cur with
  | [] => if s.skipping then .more { s with skipping := false } else handleEof asserts s
  | l :: rest => if s.skipping then skipLine L s l rest else parseLine asserts L files s l rest

/-- Reading lines until the input ends; `none` when `fuel` runs out first. -/
def run (asserts : Bool) (L : Lang T C σ) (files : Fin n → List (Line T C n)) : Nat → St T C σ n → Option (Next T C σ n)
  | 0, _ => none
  | fuel + 1, s =>
    match step asserts L files s with
    | .more s' => run asserts L files fuel s'
    | r => some r

/-- compiler/lexer.cpp:1447-1454 Init: the main file is entered. -/
def start (files : Fin n → List (Line T C n)) (main : Fin n) (env : σ) : St T C σ n :=
  { cur := files main, seen := [main], env := env }

/-! ### The text of a skipped section -/

open Text (Byte isSpace isNewline)

/-- compiler/lexer.cpp:931-951 HandleSingleLineComment, after the two slashes. -/
def lineComment (l : List Byte) : List Byte := l.dropWhile fun c => !(c.toNat == 0 || isNewline c)

/-- compiler/lexer.cpp:953-987 HandleMultiLineComment, after its start; a warning for a nested start is left out, and so is the error for
an end of file inside. -/
def blockComment : List Byte → List Byte
  | [] => []
  | c :: l =>
    if c.toNat = 42 then
      match l with
      | [] => []
      | d :: r => if d.toNat = 47 then r else blockComment (d :: r)
    else if c.toNat = 0 then c :: l
    else blockComment l

theorem blockComment_length : ∀ l : List Byte, (blockComment l).length ≤ l.length
  | [] => Nat.le_refl _
  | c :: l => by
    unfold blockComment
    split
    · cases l with
      | nil => exact Nat.zero_le _
      | cons d r =>
        dsimp only
        split
        · simp only [List.length_cons]; omega
        · have := blockComment_length (d :: r)
          simp only [List.length_cons] at this ⊢; omega
    · split
      · exact Nat.le_refl _
      · have := blockComment_length l
        simp only [List.length_cons]; omega

/-- compiler/lexer.cpp:578-595, 659-661: the loop of `HandleSkippedSection` up to the next `#` that no token stands before on its line;
`tokens` is `tokens_on_line_`.  The answer is the text from that `#`.  A carriage return and the line feed after it are two newlines. -/
def skipText (tokens : Nat) : List Byte → Option (List Byte)
  | [] => none
  | c :: l =>
    if isNewline c then skipText 0 l
    else if c.toNat = 47 ∧ (Text.peek l).toNat = 47 then skipText tokens (lineComment l.tail)
    else if c.toNat = 47 ∧ (Text.peek l).toNat = 42 then skipText tokens (blockComment l.tail)
    else if c.toNat = 35 ∧ tokens = 0 then some (c :: l)
    else skipText (if isSpace c then tokens else tokens + 1) l
termination_by l => l.length
decreasing_by
  · simp
  · have h1 := (List.dropWhile_sublist (fun c => !(c.toNat == 0 || isNewline c)) (l := l.tail)).length_le
    have h2 : l.tail.length ≤ l.length := by simp
    simp only [lineComment, List.length_cons]; omega
  · have h1 := blockComment_length l.tail
    have h2 : l.tail.length ≤ l.length := by simp
    simp only [List.length_cons]; omega
  · simp

end Verif.Cond

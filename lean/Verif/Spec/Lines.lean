import Verif.Model.Lines
/-
Where a line ends, and what it is to read and give back tokens.
-/
namespace Verif.Lines

/-- The files of a program make sense: a file is entered only at the start of a line, and only entered
files are left.  `bol` is whether the line has no tokens yet. -/
def wellFormed : Bool → Nat → List Event → Bool
  | _, _, [] => true
  | _, n, .token _ :: es => wellFormed false n es
  | bol, n, .newline c :: es => wellFormed (!c || bol) n es
  | bol, n, .enter _ :: es => bol && wellFormed true (n + 1) es
  | _, n, .leave :: es => decide (0 < n) && wellFormed false (n - 1) es

/-- The files that are entered. -/
def entered : List Event → List Nat
  | [] => []
  | .enter f :: es => f :: entered es
  | _ :: es => entered es

/-- The tokens. -/
def ids : List Event → List Nat
  | [] => []
  | .token i :: es => i :: ids es
  | _ :: es => ids es

structure Program (es : List Event) : Prop where
  wf : wellFormed true 0 es = true
  /-- no file is included twice, and the main file (number 0) is not included -/
  once : (0 :: entered es).Nodup
  /-- no token has the number of the end -/
  proper : ∀ i ∈ ids es, i ≠ 0 ∧ i ≠ tEOL ∧ i ≠ tTERM

/-- Two tokens with this between them are on the same line: there are only continued lines. -/
def SameLine (between : List Event) : Prop := ∀ e ∈ between, e = .newline true

/-- Reading a token and giving it back. -/
inductive Op where
  | lex
  | push
deriving Repr, DecidableEq

/-- How many tokens have been read (first) and how many have been looked at (second) after some
operations on a text of so many tokens; none if more than three were given back, or too many read. -/
def track (len : Nat) : List Op → Nat × Nat → Option (Nat × Nat)
  | [], p => some p
  | .lex :: os, (i, j) =>
    if i < j then track len os (i + 1, j)
    else if j < len then track len os (j + 1, j + 1)
    else none
  | .push :: os, (i, j) =>
    if 0 < i ∧ j < i + 3 then track len os (i - 1, j) else none

def Reader.run (r : Reader) : List Op → Reader
  | [] => r
  | .lex :: os => r.lex.2.run os
  | .push :: os => r.push.run os

end Verif.Lines

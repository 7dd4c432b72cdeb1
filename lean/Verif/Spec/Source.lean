/-! Specification of source positions: lines and columns of a text, and where a position of an expanded text comes from. -/
namespace Verif.Source

abbrev Byte := BitVec 8

/-- The byte at `i` is the last of a line break: a line feed, or a carriage return without a line feed after it. -/
def EndsLine (d : List Byte) (i : Nat) : Prop := d[i]? = some 10 ∨ (d[i]? = some 13 ∧ d[i+1]? ≠ some 10)

instance (d : List Byte) (i : Nat) : Decidable (EndsLine d i) := by unfold EndsLine; infer_instance

/-- One more than the number of line breaks that end before `off`. -/
def lineOf (d : List Byte) (off : Nat) : Nat := 1 + ((List.range off).filter (fun i => decide (EndsLine d i))).length

/-- `s` is where the line of `off` starts: the start of the text or the end of a line break, and no line break ends between `s` and `off`. -/
structure LineStart (d : List Byte) (off s : Nat) : Prop where
  le : s ≤ off
  start : s = 0 ∨ ∃ i, s = i + 1 ∧ EndsLine d i
  last : ∀ i, s ≤ i → i < off → ¬ EndsLine d i

/-- What a text that was entered is: a file, or the text of a macro expanded at position `off` of the text entered as number `k`. -/
inductive Origin
  | file (f : Nat)
  | macro (text : List Byte) (k off : Nat)

/-- Its length. -/
def Origin.length (files : List (List Byte)) : Origin → Nat
  | .file f => (files.getD f []).length
  | .macro text _ _ => text.length

/-- Position `off` of text `k` was written at position `o` of file `f`: at the same place for a file, and where the macro was expanded
for the text of a macro. -/
inductive Comes (texts : List Origin) : Nat → Nat → Nat → Nat → Prop
  | file {k f : Nat} (off : Nat) : texts[k]? = some (.file f) → Comes texts k off f off
  | macro {k k' off' f o : Nat} {text : List Byte} (off : Nat) : texts[k]? = some (.macro text k' off') → Comes texts k' off' f o →
      Comes texts k off f o

end Verif.Source

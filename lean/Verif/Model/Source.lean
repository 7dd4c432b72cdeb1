import Verif.Spec.Source

/-! Source files and the source manager (compiler/source-file.cpp, compiler/source-manager.{h,cpp}, compiler/source-location.h). -/
namespace Verif.Source

/-! ## Files -/

/-- compiler/source-file.cpp:96-104: the loop of ComputeLineExtents from offset `i` on. -/
def extentsFrom : Nat → List Byte → List Nat
  | _, [] => []
  | i, 13 :: 10 :: r => (i + 2) :: extentsFrom (i + 2) r
  | i, b :: r => if b = 13 ∨ b = 10 then (i + 1) :: extentsFrom (i + 1) r else extentsFrom (i + 1) r

/-- compiler/source-file.cpp:90-110 ComputeLineExtents. -/
def lineExtents (d : List Byte) : List Nat := 0 :: extentsFrom 0 d

/-- compiler/source-file.cpp:126-153: the search of OffsetToLineAndCol.  `fuel` bounds the iterations (the loop halves `upper - lower`). -/
def lineSearch (d : List Byte) (e : List Nat) (off : Nat) : Nat → Nat → Nat → Option (Nat × Nat)
  | 0, _, _ => none
  | fuel+1, lower, upper =>
    if lower < upper then
      let index := (lower + upper) / 2
      let lineStart := e.getD index 0
      if off < lineStart then lineSearch d e off fuel lower index
      else
        let lineEnd := if index < e.length - 1 then e.getD (index + 1) 0 else d.length
        if off ≥ lineEnd then lineSearch d e off fuel (index + 1) upper
        else some (index + 1, off - lineStart + 1)
    else none

/-- compiler/source-file.cpp:113-157 OffsetToLineAndCol: line and column, or failure. -/
def offsetToLineAndCol (d : List Byte) (off : Nat) : Option (Nat × Nat) :=
  if off > d.length then none
  else
    let e := lineExtents d
    if off = d.length then some (e.length, 0)
    else lineSearch d e off (e.length + 1) 0 e.length

/-- `uint32_t` addition. -/
def add32 (a b : Nat) : Nat := (a + b) % 4294967296

/-- compiler/source-file.cpp:163-170: the rest of OffsetOfLine. -/
def offsetOfIndex (d : List Byte) (index : Nat) : Option Nat :=
  if index > (lineExtents d).length then none
  else if index = (lineExtents d).length then some d.length
  else some ((lineExtents d).getD index 0)

/-- compiler/source-file.cpp:159-171 OffsetOfLine; `line - 1` wraps for line 0. -/
def offsetOfLine (d : List Byte) (line : Nat) : Option Nat := offsetOfIndex d (add32 line 4294967295)

/-- compiler/source-file.cpp:173-185 GetLine. -/
def getLine (d : List Byte) (line : Nat) : List Byte :=
  (offsetOfLine d line).elim [] fun off => (d.drop off).take ((offsetOfLine d (add32 line 1)).getD d.length - off)

/-! ## The source manager -/

/-- The union of compiler/source-manager.h:78-81: a file (by its place in `opened_files_`) or the text of a macro.  `none`: not initialised. -/
inductive Content
  | none
  | file (f : Nat)
  | text (t : List Byte)
  deriving DecidableEq

/-- compiler/source-manager.h:60-88 LocationRange.  `parent_` is not modelled: nothing here reads it. -/
structure Range where
  id : Nat
  expansion : Nat
  content : Content
  deriving DecidableEq

/-- compiler/source-manager.h:169-208 and compiler/source-manager.cpp:32-36.  Files are their contents; paths and names are not modelled. -/
structure Sources where
  opened : List (List Byte) := []
  ranges : List Range := [⟨0, 0, .none⟩]
  next : Nat := 1
  last : Nat := 0
  deriving DecidableEq

/-- compiler/source-location.h:74-76 SourceLocation::offset. -/
def locOffset (loc : Nat) : Nat := loc &&& 2147483647

/-- compiler/source-manager.h:109 LocationRange::is_macro. -/
def Range.isMacro (r : Range) : Bool := r.expansion ≠ 0

/-- compiler/source-manager.h:112-118 LocationRange::length; `size_t` becomes `uint32_t`. -/
def Sources.length (s : Sources) (r : Range) : Nat :=
  if r.id = 0 then 0
  else match r.content with
    | .none => 0
    | .file f => (s.opened.getD f []).length % 4294967296
    | .text t => t.length % 4294967296

/-- compiler/source-manager.h:120-126 LocationRange::owns. -/
def Sources.owns (s : Sources) (r : Range) (loc : Nat) : Bool :=
  decide (loc ≠ 0 ∧ locOffset loc ≥ r.id ∧ locOffset loc ≤ (r.id + s.length r) % 4294967296)

/-- compiler/source-manager.h:128-138, compiler/source-location.h:37-47: FilePos and MacroPos. -/
def Range.pos (r : Range) (off : Nat) : Nat :=
  let id := (r.id + off) % 4294967296
  if r.isMacro then id ||| 2147483648 else id

/-- compiler/source-manager.h:140-143 ToOffset; uint32_t. -/
def Range.toOffset (r : Range) (loc : Nat) : Nat := (locOffset loc + 4294967296 - r.id) % 4294967296

/-- compiler/source-manager.cpp:97-116 TrackExtents: the new `next_source_id_`, or failure. -/
def Sources.trackExtents (s : Sources) (length : Nat) : Option Nat :=
  let length := length % 4294967296
  if s.next + length > 4294967295 then none
  else if s.next + length + 2 > 4294967295 then none
  else if s.next + length + 2 > 2147483647 then none
  else some (s.next + length + 2)

/-- compiler/source-manager.cpp:53-69 Open: the file gets the next index. -/
def Sources.open (s : Sources) (d : List Byte) : Option Sources :=
  if s.opened.length ≥ 2147483647 then none else some { s with opened := s.opened ++ [d] }

/-- compiler/source-manager.cpp:71-80 EnterFile. -/
def Sources.enterFile (s : Sources) (f : Nat) : Option Sources :=
  match s.trackExtents (s.opened.getD f []).length with
  | none => none
  | some n => some { s with ranges := s.ranges ++ [⟨s.next, 0, .file f⟩], next := n }

/-- compiler/source-manager.cpp:82-95 EnterMacro. -/
def Sources.enterMacro (s : Sources) (expansion : Nat) (text : List Byte) : Option Sources :=
  match s.trackExtents text.length with
  | none => none
  | some n => some { s with ranges := s.ranges ++ [⟨s.next, expansion, .text text⟩], next := n }

/-- An unused entry of `ranges`. -/
def noRange : Range := ⟨0, 0, .none⟩

/-- compiler/source-manager.cpp:130-146: the search of FindLocRangeSlow; `fuel` bounds the iterations.  0 is the failure (the assertion is
off in release builds). -/
def Sources.rangeSearch (s : Sources) (loc : Nat) : Nat → Nat → Nat → Nat
  | 0, _, _ => 0
  | fuel+1, lower, upper =>
    if lower < upper then
      let mid := (lower + upper) / 2
      let range := s.ranges.getD mid noRange
      if locOffset loc < range.id then s.rangeSearch loc fuel lower mid
      else if locOffset loc > (range.id + s.length range + 1) % 4294967296 then s.rangeSearch loc fuel (mid + 1) upper
      else mid
    else 0

/-- compiler/source-manager.h:182-186 FindLocRange and compiler/source-manager.cpp:122-147 FindLocRangeSlow, with the one-entry cache. -/
def Sources.findLocRange (s : Sources) (loc : Nat) : Nat × Sources :=
  if s.owns (s.ranges.getD s.last noRange) loc then (s.last, s)
  else
    let mid := s.rangeSearch loc (s.ranges.length + 1) 1 s.ranges.length
    (mid, if mid = 0 then s else { s with last := mid })

/-- compiler/source-manager.cpp:157-161: the loop of FindSourceFileRangeIndex: range, location, manager.  `fuel` bounds the iterations. -/
def Sources.expand : Nat → Sources → Nat → Nat → Nat × Nat × Sources
  | 0, s, i, loc => (i, loc, s)
  | fuel+1, s, i, loc =>
    let r := s.ranges.getD i noRange
    if i ≠ 0 ∧ r.isMacro = true then
      let (j, s') := s.findLocRange r.expansion
      Sources.expand fuel s' j r.expansion
    else (i, loc, s)

/-- compiler/source-manager.cpp:149-167 FindSourceFileRangeIndex: range (0: none), expansion location, manager. -/
def Sources.findSourceFileRangeIndex (s : Sources) (loc : Nat) : Nat × Nat × Sources :=
  let (i, s) := s.findLocRange loc
  if i = 0 then (0, 0, s)
  else
    let (i, loc, s) := Sources.expand s.ranges.length s i loc
    match (s.ranges.getD i noRange).content with
    | .file _ => (i, loc, s)
    | _ => (0, loc, s)

/-- compiler/source-manager.cpp:169-174 GetSourceFileIndex. -/
def Sources.getSourceFileIndex (s : Sources) (loc : Nat) : Nat × Sources :=
  let (i, _, s) := s.findSourceFileRangeIndex loc
  if i = 0 then (0, s)
  else match (s.ranges.getD i noRange).content with
    | .file f => (f, s)
    | _ => (0, s)

/-- compiler/source-manager.cpp:188-195: line and column of a location in the range of a file. -/
def Sources.lineIn (s : Sources) (i exp : Nat) : Nat × Nat :=
  match (s.ranges.getD i noRange).content with
  | .file f => (offsetToLineAndCol (s.opened.getD f []) ((s.ranges.getD i noRange).toOffset exp)).getD (0, 0)
  | _ => (0, 0)

/-- compiler/source-manager.cpp:176-196 GetLineAndCol: line, column. -/
def Sources.getLineAndCol (s : Sources) (loc : Nat) : (Nat × Nat) × Sources :=
  if loc = 0 then ((0, 0), s)
  else
    let (i, exp, s) := s.findSourceFileRangeIndex loc
    if i = 0 then ((0, 0), s) else (s.lineIn i exp, s)

/-- The range of text `k`: the one EnterFile or EnterMacro returned for it (compiler/source-manager.cpp:79,94). -/
def Sources.rg (s : Sources) (k : Nat) : Range := s.ranges.getD (k + 1) noRange

/-- The length of text `k` (not in the code). -/
def len (s : Sources) (t : List Origin) (k : Nat) : Nat := (t.getD k (.file 0)).length s.opened

/-- The location recorded at offset `off` of text `k` (compiler/lexer.cpp:1648-1655 FillTokenPos). -/
def Sources.posOf (s : Sources) (k off : Nat) : Nat := (s.rg k).pos off

end Verif.Source

import Verif.Spec.Include

/-!
How an `#include` finds its file (compiler/lexer.cpp, source-manager.cpp, source-file.cpp, parser.cpp).

The file system does not change while the compiler runs, and paths are those of a POSIX system.  Left out: the generated file that is
read before the main one, the limit of 2^31 files and bytes, and what a file says; the events a file gives rise to are given.
-/
namespace Verif.Include

/-- compiler/source-file.h: a `SourceFile`. -/
structure SrcFile where
  /-- `name_` -/
  path : Path
  included : Bool
deriving DecidableEq

/-- What the lexer and the source manager keep. -/
structure St where
  /-- `opened_files_` -/
  opened : List SrcFile
  /-- `state_` and `prev_state_`: the files being read, as indices in `opened`, last first -/
  stack : List Nat
  /-- the files entered, oldest first -/
  entered : List Nat := []
  /-- the name in report 417, which sets `must_abort_` -/
  missing : Option Path := none
deriving DecidableEq

/-- std::filesystem::path::parent_path. -/
def parentPath (p : Path) : Path :=
  let r := p.reverse.dropWhile (· != '/')
  let s := r.dropWhile (· == '/')
  if s.isEmpty then (if r.isEmpty then [] else ['/']) else s.reverse

/-- std::filesystem::path::is_absolute. -/
def isAbsolute (p : Path) : Bool := p.head? == some '/'

/-- std::filesystem::path::operator/. -/
def join (d name : Path) : Path :=
  if isAbsolute name then name
  else match d.reverse with
    | [] => name
    | '/' :: _ => d ++ name
    | _ :: _ => d ++ '/' :: name

/-- compiler/source-file.cpp:46-74 SourceFile::Open. `fread` of no bytes returns 0, so an empty file is not opened (69-70). -/
def fileOpen (fs : FileSys) (p : Path) : Bool :=
  match fs.file p with
  | none => false
  | some f => !fs.empty f

/-- std::filesystem::equivalent. -/
def equivalent (fs : FileSys) (p q : Path) : Bool :=
  match fs.file p, fs.file q with
  | some a, some b => a == b
  | _, _ => false

/-- compiler/source-manager.cpp:38-52 SourceManager::Open: the index of the file, and `opened_files_` after it. -/
def sourcesOpen (fs : FileSys) (opened : List SrcFile) (p : Path) : Option (Nat × List SrcFile) :=
  match opened.findIdx? (fun o => equivalent fs p o.path) with
  | some i => some (i, opened)
  | none => if fileOpen fs p then some (opened.length, opened ++ [⟨p, false⟩]) else none

/-- compiler/lexer.cpp:109: the endings. -/
def extensions : List Path := [".inc".toList, ".p".toList, ".pawn".toList]

/-- compiler/lexer.cpp:110-116: the loop over endings. -/
def openExt (fs : FileSys) (opened : List SrcFile) (name : Path) : List Path → Option (Nat × List SrcFile)
  | [] => none
  | e :: es => (sourcesOpen fs opened (name ++ e)).or (openExt fs opened name es)

/-- compiler/lexer.cpp:103-118 OpenFile. -/
def openFile (fs : FileSys) (opened : List SrcFile) (name : Path) : Option (Nat × List SrcFile) :=
  (sourcesOpen fs opened name).or (openExt fs opened name extensions)

/-- compiler/lexer.cpp:86-101 PlungeFile(fp) and 2543-2562 EnterFile: the state of the file being read is saved, and the new one starts. -/
def enter (s : St) (i : Nat) : St :=
  { s with opened := s.opened.modify i (fun o => { o with included := true }), stack := i :: s.stack, entered := s.entered ++ [i] }

/-- compiler/lexer.cpp:75-84 PlungeQualifiedFile. -/
def plungeQualified (fs : FileSys) (s : St) (name : Path) : Bool × St :=
  match openFile fs s.opened name with
  | none => (false, s)
  | some (i, opened) =>
    let s := { s with opened := opened }
    match opened[i]? with
    | some ⟨_, true⟩ => (true, s)
    | _ => (true, enter s i)

/-- compiler/lexer.cpp:142-146: the loop over include paths. -/
def plungeIncs (fs : FileSys) (s : St) (name : Path) : List Path → Bool × St
  | [] => (false, s)
  | d :: ds =>
    let r := plungeQualified fs s (join d name)
    if r.1 then r else plungeIncs fs r.2 name ds

/-- compiler/lexer.cpp:120-151 PlungeFile(name), with `try_includepaths` set; `cur` is the name of the file being read. -/
def plunge (fs : FileSys) (incs : List Path) (s : St) (cur name : Path) (tryCurrent : Bool) : Bool × St :=
  let r :=
    if tryCurrent then
      let r := plungeQualified fs s name
      if r.1 then r
      else
        let parent := parentPath cur
        if !parent.isEmpty then plungeQualified fs r.2 (join parent name) else r
    else (false, s)
  if r.1 then r
  else if !isAbsolute name then plungeIncs fs r.2 name incs
  else (false, r.2)

/-- compiler/parser.cpp:70, 137-150: an `#include` the parser meets; compiler/lexer.cpp:864-879, 888 HandleEof: the end of a file. -/
def step (fs : FileSys) (incs : List Path) (s : St) (e : Event) : St :=
  match s.missing, s.stack with
  | some _, _ => s
  | none, [] => s
  | none, i :: rest =>
    match e with
    | .eof => { s with stack := rest }
    | .incl d =>
      let cur := (s.opened[i]?.map (·.path)).getD []
      let r := plunge fs incs s cur d.name d.quoted
      if !r.1 && !d.opt then { r.2 with missing := some d.name } else r.2

/-- compiler/main.cpp:145, compiler/lexer.cpp:1447-1454: the main file is opened and entered; `none` if it cannot be opened. -/
def start (fs : FileSys) (main : Path) : Option St :=
  match sourcesOpen fs [] main with
  | none => none
  | some (i, opened) => some (enter { opened := opened, stack := [] } i)

/-- The whole run. -/
def run (fs : FileSys) (incs : List Path) (s : St) : List Event → St
  | [] => s
  | e :: es => run fs incs (step fs incs s e) es

/-- What a run has read: by paths. -/
def St.reading (s : St) : Reading where
  reads := s.entered.filterMap fun i => s.opened[i]?.map (·.path)
  stack := s.stack.filterMap fun i => s.opened[i]?.map (·.path)
  missing := s.missing

/-- compiler/sci18n.h IsSpace, compiler/lexer.cpp IsNewline: white space within a line. -/
def lineSpace (c : Char) : Bool := c == ' ' || c == '\t' || c == '\x0b' || c == '\x0c'

/-- compiler/lexer.cpp:213-224: the characters of the name, and what follows. -/
def takeName (close : Char) : List Char → List Char × List Char
  | [] => ([], [])
  | c :: cs =>
    if c == close || c == '\x00' || c == '\n' || c == '\r' then ([], c :: cs)
    else let r := takeName close cs; (c :: r.1, r.2)

/-- compiler/lexer.cpp:190-236 SynthesizeIncludePathToken, after the word `include`: whether the name is quoted (parser.cpp:143), the name
and the reports.  What follows on the line (`CheckLineEmpty`) is left out. -/
def includePath (line : List Char) : Bool × Path × List Nat :=
  let line := line.dropWhile lineSpace
  let (op, close, rest, errs) :=
    match line with
    | '"' :: cs => ('"', '"', cs, [])
    | '<' :: cs => ('<', '>', cs, [])
    | c :: cs => (c, '\x00', c :: cs, [247])
    | [] => ('\x00', '\x00', [], [247])
  let r := takeName close (rest.dropWhile lineSpace)
  let name := (r.1.reverse.dropWhile (· == ' ')).reverse
  let errs := if close != '\x00' && r.2.head? != some close then errs ++ [37] else errs
  (op != '<', name, errs)

end Verif.Include

import Verif.Proofs.Include

/-!
# C94: an include reads the first file in the search order, and reads each file once

`start` opens the main file, and `run` handles the `#include`s and ends of files it is given.  The statements are about `Steps`, the
specification in `Verif/Spec/Include.lean`.

The full property is `Steps fs`.  It holds if no file is empty (`C94_search`); in general an empty file is taken for a missing one
(`C94_search_partial`, `C94_empty_file_missed`).
-/
namespace Verif.Include

/-- For every file system, include paths and sequence of events, the compiler reads what the specification says, where empty files do not
count as files. -/
theorem C94_search_partial {fs : FileSys} {main : Path} {s : St} (h : start fs main = some s) (incs : List Path) (es : List Event) :
    Steps fs.hideEmpty incs ⟨[main], [main], none⟩ es (run fs incs s es).reading := by
  have h' := start_inv h
  have := run_spec h'.1 incs es
  rwa [h'.2] at this

/-- Without empty files, it reads exactly what the specification says. -/
theorem C94_search {fs : FileSys} (hne : ∀ p f, fs.file p = some f → fs.empty f = false) {main : Path} {s : St}
    (h : start fs main = some s) (incs : List Path) (es : List Event) :
    Steps fs incs ⟨[main], [main], none⟩ es (run fs incs s es).reading := by
  have := C94_search_partial h incs es
  have he : fs.hideEmpty = fs := by
    cases fs with
    | mk file empty =>
      simp only [FileSys.hideEmpty, FileSys.mk.injEq, and_true]
      funext p
      cases hp : file p with
      | none => rfl
      | some f =>
        have := hne p f hp
        simp only at this
        simp [Option.filter, this]
  rwa [he] at this

/-- The specification leaves nothing open: what has been read before and the events determine what is read. -/
theorem C94_determined {fs : FileSys} {incs : List Path} {r r1 r2 : Reading} {es : List Event} (h1 : Steps fs incs r es r1)
    (h2 : Steps fs incs r es r2) : r1 = r2 := by
  induction h1 with
  | nil => cases h2; rfl
  | cons hs _ ih =>
    cases h2 with
    | cons hs' h2 =>
      obtain rfl := step_fun hs hs'
      exact ih h2

/-- The main file is opened exactly if it is a file with something in it. -/
theorem C94_start (fs : FileSys) (main : Path) :
    (start fs main).isSome = true ↔ ∃ f, fs.file main = some f ∧ fs.empty f = false := by
  rw [start_eq]
  constructor
  · intro h
    split at h
    · next hm =>
      obtain ⟨f, hf⟩ := Option.isSome_iff_exists.mp hm
      exact ⟨f, hide_some.mp hf⟩
    · cases h
  · rintro ⟨f, hf⟩
    rw [hide_some.mpr hf]; rfl

/-- No file is read twice, under whatever paths it is included, and everything that is read is a file. -/
theorem C94_once {fs : FileSys} {main : Path} {s : St} (h : start fs main = some s) (incs : List Path) (es : List Event) :
    ((run fs incs s es).reading.reads.map fs.file).Nodup ∧ ∀ p ∈ (run fs incs s es).reading.reads, (fs.file p).isSome = true := by
  have hi := run_inv (start_inv h).1 incs es
  have hf : ∀ o ∈ (run fs incs s es).opened, fs.hideEmpty.file o.path = fs.file o.path := by
    intro o ho
    obtain ⟨f, hf⟩ := Option.isSome_iff_exists.mp (hi.good.file o ho)
    rw [hf, (hide_some.mp hf).1]
  rw [reads_eq hi]
  constructor
  · rw [List.map_map]
    have := hi.good.nodup
    rwa [List.map_congr_left hf] at this
  · intro p hp
    obtain ⟨o, ho, rfl⟩ := List.mem_map.mp hp
    rw [← hf o ho]
    exact hi.good.file o ho

/-- A name in quotes or brackets is read as it is written, without the spaces around it. -/
theorem C94_name {pre mid name post rest : List Char} (q : Bool)
    (hpre : ∀ c ∈ pre, c = ' ' ∨ c = '\t') (hmid : ∀ c ∈ mid, c = ' ' ∨ c = '\t') (hpost : ∀ c ∈ post, c = ' ')
    (hn : ∀ c ∈ name, c ≠ (if q then '"' else '>') ∧ c ≠ '\x00' ∧ c ≠ '\n' ∧ c ≠ '\r')
    (hfirst : ∀ c cs, name = c :: cs → c ≠ ' ' ∧ c ≠ '\t' ∧ c ≠ '\x0b' ∧ c ≠ '\x0c') (hlast : name.getLast? ≠ some ' ') (hne : name ≠ []) :
    includePath (pre ++ (if q then '"' else '<') :: (mid ++ (name ++ (post ++ (if q then '"' else '>') :: rest)))) = (q, name, []) := by
  have hsp : ∀ l : List Char, (∀ c ∈ l, c = ' ' ∨ c = '\t') → ∀ c ∈ l, lineSpace c = true := by
    intro l hl c hc
    rcases hl c hc with rfl | rfl <;> decide
  have hpn : ∀ close : Char, (∀ c ∈ name, c ≠ close ∧ c ≠ '\x00' ∧ c ≠ '\n' ∧ c ≠ '\r') → close ≠ ' ' →
      ∀ c ∈ name ++ post, c ≠ close ∧ c ≠ '\x00' ∧ c ≠ '\n' ∧ c ≠ '\r' := by
    intro close h hc c hm
    rcases List.mem_append.mp hm with hm | hm
    · exact h c hm
    · rw [hpost c hm]; exact ⟨Ne.symm hc, by decide, by decide, by decide⟩
  have hdrop : ∀ r : List Char, (mid ++ (name ++ r)).dropWhile lineSpace = name ++ r := by
    intro r
    rw [List.dropWhile_append_of_pos (hsp mid hmid)]
    cases hnm : name with
    | nil => exact absurd hnm hne
    | cons c cs => 
      have h := hfirst c cs hnm
      have : lineSpace c = false := by simp [lineSpace, h.1, h.2.1, h.2.2.1, h.2.2.2]
      rw [List.cons_append, List.dropWhile_cons, this]; simp
  have htk : ∀ close : Char, (∀ c ∈ name, c ≠ close ∧ c ≠ '\x00' ∧ c ≠ '\n' ∧ c ≠ '\r') → close ≠ ' ' →
      takeName close ((mid ++ (name ++ (post ++ close :: rest))).dropWhile lineSpace) = (name ++ post, close :: rest) := by
    intro close h hc
    rw [hdrop, ← List.append_assoc, takeName_append (hpn close h hc)]
  have htrim : ((name ++ post).reverse.dropWhile (· == ' ')).reverse = name := by
    rw [List.reverse_append, List.dropWhile_append_of_pos (by intro c hc; simp [hpost c (List.mem_reverse.mp hc)])]
    rcases List.eq_nil_or_concat name with rfl | ⟨e, c, rfl⟩
    · rfl
    · have : c ≠ ' ' := by simpa using hlast
      simp [this]
  cases q with
  | true =>
    simp only [if_true] at hn ⊢
    unfold includePath
    rw [List.dropWhile_append_of_pos (hsp pre hpre), List.dropWhile_cons]
    have e : lineSpace '"' = false := by decide
    simp only [e, Bool.false_eq_true, if_false, htk _ hn (by decide), htrim]
    simp
  | false =>
    simp only [Bool.false_eq_true, if_false] at hn ⊢
    unfold includePath
    rw [List.dropWhile_append_of_pos (hsp pre hpre), List.dropWhile_cons]
    have e : lineSpace '<' = false := by decide
    simp only [e, Bool.false_eq_true, if_false, htk _ hn (by decide), htrim]
    simp

/-! ## A project: `src/a.sp` includes `"u"` and `<v>`; `src/u.inc` includes `"../src/a.sp"`, `"../inc/v.inc"` and a missing file -/

def demoFiles : List (String × Nat) :=
  [("src/a.sp", 0), ("src/u.inc", 1), ("inc/v.inc", 2), ("src/../src/a.sp", 0), ("src/../inc/v.inc", 2), ("lib/v", 3), ("e.inc", 4)]

def demo : FileSys where
  file p := (demoFiles.find? fun x => x.1.toList == p).map (·.2)
  empty f := f == 4

def demoEvents : List Event :=
  [.incl ⟨true, false, "u".toList⟩, .incl ⟨true, false, "../src/a.sp".toList⟩, .incl ⟨true, false, "../inc/v.inc".toList⟩, .eof,
   .incl ⟨true, true, "w".toList⟩, .eof, .incl ⟨false, false, "v".toList⟩, .incl ⟨false, false, "u".toList⟩]

def demoStart : St := (start demo "src/a.sp".toList).getD ⟨[], [], [], none⟩

example : start demo "src/a.sp".toList = some demoStart := by decide +kernel

/-- `u` is found beside the main file, the main file is not read again, `<v>` is the file read before, and `<u>` is not found. -/
example : (run demo ["inc".toList, "lib".toList] demoStart demoEvents).reading =
    ⟨["src/a.sp".toList, "src/u.inc".toList, "src/../inc/v.inc".toList], ["src/a.sp".toList], some "u".toList⟩ := by decide +kernel

example : includePath " \"foo/bar \" // x".toList = (true, "foo/bar".toList, []) := by decide +kernel

/-- A file system without empty files, for `C94_search`. -/
example : ∀ p f, ({ demo with empty := fun _ => false } : FileSys).file p = some f →
    ({ demo with empty := fun _ => false } : FileSys).empty f = false := fun _ _ _ => rfl

/-! ## An empty file is not found -/

/-- With `e.inc` empty, `#include "e"` ends in "cannot read from file", although there is a file to read. -/
theorem C94_empty_file_missed :
    ∃ (fs : FileSys) (main : Path) (s : St) (d : Directive), start fs main = some s ∧
      (∃ p ∈ candidates [] (some "src".toList) d, (fs.file p).isSome = true) ∧ HasDir main (some "src".toList) ∧
      (run fs [] s [.incl d]).reading.missing = some d.name :=
  ⟨demo, "src/a.sp".toList, demoStart, ⟨true, false, "e".toList⟩, by decide +kernel,
    ⟨"e.inc".toList, by decide +kernel, by decide +kernel⟩,
    Dir.sub (d := "sr".toList) (c := 'c') (k := 0) (b := "a.sp".toList) (by decide) (by decide), by decide +kernel⟩

/-- And with a file of the same name further down the search order, that file is read instead. -/
theorem C94_empty_file_replaced :
    ∃ (fs : FileSys) (s : St), start fs "a.sp".toList = some s ∧ (fs.file "x.inc".toList).isSome = true ∧
      (run fs ["inc".toList] s [.incl ⟨true, false, "x".toList⟩]).reading.reads = ["a.sp".toList, "inc/x.inc".toList] :=
  ⟨⟨fun p => ([("a.sp", 0), ("x.inc", 1), ("inc/x.inc", 2)].find? fun x => x.1.toList == p).map (·.2), fun f => f == 1⟩,
    ⟨[⟨"a.sp".toList, true⟩], [0], [0], none⟩, by decide +kernel, by decide +kernel, by decide +kernel⟩

end Verif.Include

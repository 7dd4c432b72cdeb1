import Verif.Proofs.Smx
import Verif.Props.C31
import Verif.Props.C34

/-! C32: what an accepted file guarantees.  C55: validating a file stays inside it. -/
namespace Verif.Smx
open Verif.Image (Bytes cstr cstr_some)

/-! ## C32 -/

/-- C32: in an accepted container, every section name starts at or after the string table and is terminated inside the file before
the data. -/
theorem C32_section_names (b : Bytes) (secs : List Sec) (h : readContainer b = .ok secs) :
    ∃ stringtab dataoffs, u32 b 16 = .ok stringtab ∧ u32 b 20 = .ok dataoffs ∧
      ∀ s ∈ secs, stringtab ≤ s.name ∧
        ∃ name rest, b.drop s.name = name ++ 0 :: rest ∧ (0 : BitVec 8) ∉ name ∧ s.name + name.length < dataoffs ∧
          s.name + name.length < b.length := by
  obtain ⟨st, d, h1, h2, h3⟩ := readContainer_ok h
  refine ⟨st, d, h1, h2, fun s hs => ?_⟩
  obtain ⟨h4, name, rest, h5, h6, h7⟩ := h3 s hs
  refine ⟨h4, name, rest, h5, h6, h7, ?_⟩
  have := congrArg List.length h5
  simp only [List.length_drop, List.length_append, List.length_cons] at this
  omega

/-- What every part of an accepted image guarantees about the file's bytes. -/
structure Confined (img : Img) : Prop where
  /-- string sections hold only terminated strings -/
  names : Terminated img.buf img.names
  code : Inside img.buf img.code.blob.offs img.code.blob.length
  data : Inside img.buf img.data.1.offs img.data.1.length
  publics : NamedTable img.buf img.names 8 4 img.publics
  pubvars : NamedTable img.buf img.names 8 4 img.pubvars
  natives : NamedTable img.buf img.names 4 0 img.natives
  tags : NamedTable img.buf img.names 8 4 img.tags
  rtti : ∀ r, img.rtti = some r → RttiOk img.buf img.names img.code r
  debug : ∀ d, img.debug = some d → Terminated img.buf d.names ∧ Inside img.buf d.files.1 (8 * d.files.2) ∧
    Inside img.buf d.lines.1 (8 * d.lines.2)

/-- C32: whatever bytes were loaded, compressed or not, if validation accepts them then the code, the data, the
name and debug sections, and every table the runtime consults lie inside the (decompressed) file; every name offset in
those tables is a string terminated inside the names section; method ranges lie inside the code section; and every
stored type was accepted by the type validator. The sections nobody looks up are not covered. -/
theorem C32_confined_partial (inflate : Inflate) (junk : Nat → BitVec 8) (b : Bytes) (img : Img)
    (h : validate inflate junk b = .ok img) : Confined img := by
  unfold validate at h
  simp only [V.bind_eq_ok] at h
  obtain ⟨_, _, b', _, h⟩ := h
  unfold validateBuffer at h
  simp only [V.bind_eq_ok, V.pure_eq_ok] at h
  obtain ⟨secs, h1, names, h2, code, h3, data, h4, publics, h5, pubvars, h6, natives, h7, rtti, h8, debug, h9, tags, h10,
    rfl⟩ := h
  have hn := validateNames_ok h2
  exact ⟨hn, (validateCode_ok h3).1, validateData_ok h4, validateList_ok hn h5, validateList_ok hn h6,
    validateList_ok hn h7, validateList_ok hn h10, validateRtti_ok hn h8, validateDebugInfo_ok hn h9⟩

/-- A file that has, besides the sections of the sample plugin, one section nobody asks for, whose bytes (at 9999) do not
exist. -/
def strayFile : Bytes :=
  let secs := samplePlugin ++ [⟨ascii "zzz", []⟩]
  let b := write secs
  b.take (24 + 12 * 5 + 4) ++ le32 9999 ++ b.drop (24 + 12 * 5 + 8)

set_option maxRecDepth 50000 in
/-- C32 (limit): the byte range of a section that is never looked up is not checked. -/
theorem C32_unused_section_unchecked : ∃ secs s, readContainer strayFile = .ok secs ∧ s ∈ secs ∧
    ¬ Inside strayFile s.dataoffs 0 ∧ ∃ img, validate (fun _ _ => none) (fun _ => 0) strayFile = .ok img := by
  have h1 : (match readContainer strayFile with
      | .ok secs => secs.any fun s => decide (¬ (s.dataoffs + 0 ≤ strayFile.length)) | _ => false) = true := by decide +kernel
  have h2 : (match validate (fun _ _ => none) (fun _ => 0) strayFile with | .ok _ => true | _ => false) = true := by
    decide +kernel
  split at h1
  · rename_i secs hs
    obtain ⟨s, hm, hb⟩ := List.any_eq_true.1 h1
    refine ⟨secs, s, hs, hm, by unfold Inside; exact of_decide_eq_true hb, ?_⟩
    split at h2
    · exact ⟨_, by assumption⟩
    · cases h2
  · cases h1

/-! ## C55 -/

/-- No undefined behaviour. -/
def Defined {α} (x : V α) : Prop := x ≠ .ub

theorem Defined.bind {α β} {x : V α} {f : α → V β} (hx : Defined x) (hf : ∀ a, x = .ok a → Defined (f a)) :
    Defined (x >>= f) := by
  cases x with
  | ok a => exact hf a rfl
  | err => intro h; cases h
  | ub => exact absurd rfl hx

theorem Defined.ok {α} (a : α) : Defined (V.ok a) := by intro h; cases h
theorem Defined.pure {α} (a : α) : Defined (pure a : V α) := by intro h; cases h
theorem Defined.err {α} : Defined (V.err : V α) := by intro h; cases h
theorem Defined.rejectIf (c : Prop) [Decidable c] : Defined (rejectIf c) := by
  unfold Smx.rejectIf; split
  · exact .err
  · exact .ok _

theorem u8_defined {b : Bytes} {off : Nat} (h : off < b.length) : Defined (u8 b off) := by
  unfold u8
  rw [List.getElem?_eq_getElem h]
  exact .ok _

theorem u32_defined {b : Bytes} {off : Nat} (h : off + 4 ≤ b.length) : Defined (u32 b off) := by
  unfold u32
  exact (u8_defined (by omega)).bind fun _ _ => (u8_defined (by omega)).bind fun _ _ =>
    (u8_defined (by omega)).bind fun _ _ => (u8_defined (by omega)).bind fun _ _ => .pure _

theorem u16_defined {b : Bytes} {off : Nat} (h : off + 2 ≤ b.length) : Defined (u16 b off) := by
  unfold u16
  exact (u8_defined (by omega)).bind fun _ _ => (u8_defined (by omega)).bind fun _ _ => .pure _

theorem readSections_defined {b : Bytes} {st d : Nat} : ∀ (n i last : Nat), 24 + 12 * (i + n) ≤ b.length →
    Defined (readSections b st d n i last)
  | 0, _, _, _ => .pure _
  | n+1, i, last, h => by
    unfold readSections hdrSize secSize
    exact (u32_defined (by omega)).bind fun _ _ => (u32_defined (by omega)).bind fun _ _ =>
      (u32_defined (by omega)).bind fun _ _ => (Defined.rejectIf _).bind fun _ _ =>
      (readSections_defined n (i + 1) _ (by omega)).bind fun _ _ => .pure _

theorem findTerminator_defined {b : Bytes} : ∀ (n i : Nat), i + n ≤ b.length ∨ n = 0 → Defined (findTerminator b n i)
  | 0, _, _ => .pure _
  | n+1, i, h => by
    unfold findTerminator
    refine (u8_defined (by omega)).bind fun x _ => ?_
    split
    · exact .pure _
    · exact findTerminator_defined n (i + 1) (by omega)

theorem readContainer_defined {b : Bytes} (h24 : 24 ≤ b.length) (hd : ∀ d, u32 b 20 = .ok d → d ≤ b.length) :
    Defined (readContainer b) := by
  unfold readContainer
  refine (u32_defined (by omega)).bind fun st _ => (Defined.rejectIf _).bind fun _ _ =>
    (u8_defined (by omega)).bind fun n _ => (Defined.rejectIf _).bind fun _ hn =>
    (u32_defined (by omega)).bind fun d hd' => ?_
  rw [rejectIf_ok] at hn
  unfold hdrSize secSize at hn
  refine (readSections_defined n 0 0 (by omega)).bind fun ⟨secs, last⟩ _ => ?_
  have := hd d hd'
  refine (findTerminator_defined _ _ (by omega)).bind fun found _ => (Defined.rejectIf _).bind fun _ _ => .pure _

theorem findSection_defined {b : Bytes} (name : Bytes) : ∀ (secs : List Sec),
    (∀ s ∈ secs, ∃ n, cstr b s.name = some n) → Defined (findSection b name secs)
  | [], _ => .pure _
  | s :: secs, h => by
    unfold findSection str
    obtain ⟨n, hn⟩ := h s (List.mem_cons_self ..)
    rw [hn]
    show Defined (if n = name then _ else _)
    split
    · exact .pure _
    · exact findSection_defined name secs fun s hs => h s (List.mem_cons_of_mem _ hs)

/-- The smallest size of the fixed part of a section, from the structs of include/smx/smx-v1.h and smx-v1-opcodes. -/
def minHeader (name : String) : Nat :=
  if name = ".code" then 20 else if name = ".data" then 12 else if name = ".dbg.info" then 16 else 0

/-- `sizeof` of a row of an RTTI table, include/smx/smx-typeinfo.h. -/
def minRow (name : String) : Nat :=
  if name = "rtti.methods" then 16
  else if name = "rtti.natives" ∨ name = "rtti.typesets" then 8
  else if name = "rtti.enums" then 16
  else if name = "rtti.enumstructs" ∨ name = "rtti.enumstruct_fields" then 12
  else if name = "rtti.classdefs" then 28
  else if name = "rtti.fields" then 10
  else 0

/-- An integer that the typeset validator accepts and then cannot decode. -/
def Overlong (d : Bytes) : Prop := (Rtti.tryDecodeUint d).2 = true ∧ Rtti.decodeUint d = .ub

/-- The checks validation does not make: sections hold their fixed headers, table rows hold their records, and the counts of
typesets are not overlong. -/
structure Roomy (b : Bytes) (secs : List Sec) : Prop where
  header : ∀ name s, findSection b (ascii name) secs = .ok (some s) → minHeader name ≤ s.size
  rows : ∀ name s t, findSection b (ascii name) secs = .ok (some s) → readTable b s = .ok t → 0 < t.rows →
    minRow name ≤ t.rowSize
  typesets : ∀ d s t i sig, findSection b (ascii "rtti.data") secs = .ok (some d) →
    findSection b (ascii "rtti.typesets") secs = .ok (some s) → readTable b s = .ok t → i < t.rows →
    t.field b i 4 = .ok sig → ¬ Overlong (((b.drop d.dataoffs).take d.size).drop sig)

section
variable {b : Bytes} {secs : List Sec} (R : Roomy b secs) (hs : ∀ s ∈ secs, ∃ n, cstr b s.name = some n)
include hs

theorem need_defined (name : String) : Defined (need b secs name) := by
  unfold need
  refine (findSection_defined _ _ hs).bind fun o _ => ?_
  cases o
  · exact .err
  · exact .pure _

theorem validateNames_defined : Defined (validateNames b secs) := by
  unfold validateNames
  refine (need_defined hs _).bind fun s _ => (Defined.rejectIf _).bind fun _ h => ?_
  have hi := sectionOk_inside (rejectIf_ok.1 h)
  unfold Inside at hi
  split
  · exact (u8_defined (by omega)).bind fun _ _ => (Defined.rejectIf _).bind fun _ _ => .pure _
  · exact .pure _

include R
theorem validateCode_defined : Defined (validateCode b secs) := by
  unfold validateCode
  refine (need_defined hs _).bind fun s hn => (Defined.rejectIf _).bind fun _ h => ?_
  have hi := sectionOk_inside (rejectIf_ok.1 h)
  unfold Inside at hi
  have hm : 20 ≤ s.size := R.header _ s (need_ok hn)
  refine (u32_defined (by omega)).bind fun _ _ => (u8_defined (by omega)).bind fun _ _ =>
    (u8_defined (by omega)).bind fun version _ => (u16_defined (by omega)).bind fun _ _ =>
    (u32_defined (by omega)).bind fun _ _ =>
    (Defined.rejectIf _).bind fun _ _ => (Defined.rejectIf _).bind fun _ _ => (Defined.rejectIf _).bind fun _ _ =>
    (Defined.rejectIf _).bind fun _ _ => (Defined.rejectIf _).bind fun _ _ => (Defined.rejectIf _).bind fun _ _ => ?_
  split
  · exact (u32_defined (by omega)).bind fun _ _ => (Defined.rejectIf _).bind fun _ _ => (Defined.rejectIf _).bind fun _ _ => .pure _
  · exact (Defined.pure _).bind fun _ _ => (Defined.rejectIf _).bind fun _ _ => (Defined.rejectIf _).bind fun _ _ => .pure _

theorem validateData_defined : Defined (validateData b secs) := by
  unfold validateData
  refine (need_defined hs _).bind fun s hn => (Defined.rejectIf _).bind fun _ h => ?_
  have hi := sectionOk_inside (rejectIf_ok.1 h)
  unfold Inside at hi
  have hm : 12 ≤ s.size := R.header _ s (need_ok hn)
  exact (u32_defined (by omega)).bind fun _ _ => (u32_defined (by omega)).bind fun _ _ =>
    (u32_defined (by omega)).bind fun _ _ => (Defined.rejectIf _).bind fun _ _ => (Defined.rejectIf _).bind fun _ _ =>
    .pure _

omit R hs
theorem validateRowNames_defined {names : Sec} {base row nameAt : Nat} (hr : nameAt + 4 ≤ row) : ∀ (n i : Nat),
    base + row * (i + n) ≤ b.length → Defined (validateRowNames b names base row nameAt n i)
  | 0, _, _ => .pure _
  | n+1, i, h => by
    have h1 : row * (i + 1) ≤ row * (i + (n + 1)) := Nat.mul_le_mul_left _ (by omega)
    have h2 : row * (i + 1) = row * i + row := Nat.mul_succ ..
    unfold validateRowNames
    exact (u32_defined (by omega)).bind fun _ _ => (Defined.rejectIf _).bind fun _ _ =>
      validateRowNames_defined hr n (i + 1) (by rw [show i + 1 + n = i + (n + 1) by omega]; exact h)

include hs
theorem validateList_defined {names : Sec} {name : String} {row nameAt : Nat} (hr : nameAt + 4 ≤ row) :
    Defined (validateList b secs names name row nameAt) := by
  unfold validateList
  refine (findSection_defined _ _ hs).bind fun o _ => ?_
  cases o with
  | none => exact .pure _
  | some s =>
    refine (Defined.rejectIf _).bind fun _ h => (Defined.rejectIf _).bind fun _ _ => ?_
    have hi := sectionOk_inside (rejectIf_ok.1 h)
    unfold Inside at hi
    have := Nat.mul_div_le s.size row
    exact (validateRowNames_defined hr _ _ (by rw [Nat.zero_add]; omega)).bind fun _ _ => .pure _

omit hs
theorem readTable_defined {s : Sec} : Defined (readTable b s) := by
  unfold readTable
  refine (Defined.rejectIf _).bind fun _ h => (Defined.rejectIf _).bind fun _ h2 => ?_
  have hi := sectionOk_inside (rejectIf_ok.1 h)
  rw [rejectIf_ok] at h2
  unfold Inside at hi
  exact (u32_defined (by omega)).bind fun _ _ => (u32_defined (by omega)).bind fun _ _ =>
    (u32_defined (by omega)).bind fun _ _ => (Defined.rejectIf _).bind fun _ _ => (Defined.rejectIf _).bind fun _ _ =>
    (Defined.rejectIf _).bind fun _ _ => (Defined.rejectIf _).bind fun _ _ => .pure _

theorem field_defined {t : Table} (hin : Inside b t.base (t.rowSize * t.rows)) {i at_ : Nat} (hi : i < t.rows)
    (ha : at_ + 4 ≤ t.rowSize) : Defined (t.field b i at_) := by
  have h1 : t.rowSize * (i + 1) ≤ t.rowSize * t.rows := Nat.mul_le_mul_left _ (by omega)
  have h2 : t.rowSize * (i + 1) = t.rowSize * i + t.rowSize := Nat.mul_succ ..
  unfold Inside at hin
  exact u32_defined (by omega)

theorem forRows_defined {f : Nat → V Unit} : ∀ (n i : Nat), (∀ k, i ≤ k → k < i + n → Defined (f k)) →
    Defined (forRows f n i)
  | 0, _, _ => .pure _
  | n+1, i, h => by
    unfold forRows
    exact (h i (Nat.le_refl _) (by omega)).bind fun _ _ => forRows_defined n (i + 1) fun k h1 h2 => h k (by omega) (by omega)

theorem accept_defined {r : Rtti.PRes Bool} (h : ∃ rest x, r = .ok rest x) : Defined (accept r) := by
  obtain ⟨rest, x, rfl⟩ := h
  cases x
  · exact .err
  · exact .ok _

theorem validate_ends (blob : Bytes) (d : Bytes) (h : d.length ≤ blob.length ∨ d.length ≤ 4) :
    ∃ rest x, Rtti.validate (fuelFor blob) d = .ok rest x ∧ rest.length ≤ d.length := by
  obtain ⟨rest, x, e, h1, _⟩ := ((Rtti.validator_safe (fuelFor blob)).1 d (by unfold fuelFor; omega)).ok
  exact ⟨rest, x, e, h1⟩

theorem validateFunction_ends (blob : Bytes) (off : Nat) :
    ∃ rest x, Rtti.validateFunction (fuelFor blob) (blob.drop off) = .ok rest x := by
  obtain ⟨rest, x, e, h1, _⟩ := ((Rtti.validator_safe (fuelFor blob)).2.1 (blob.drop off) (by
    unfold fuelFor; simp only [List.length_drop]; omega)).ok
  exact ⟨rest, x, e⟩

theorem validateType_ends (blob : Bytes) (id : Nat) :
    ∃ rest x, Rtti.validateType (fuelFor blob) blob id = .ok rest x := by
  unfold Rtti.validateType
  simp only
  split
  · obtain ⟨rest, x, e, _⟩ := validate_ends blob (Rtti.inlineBytes ((id >>> 4) % 2 ^ 28)) (Or.inr (by simp [Rtti.inlineBytes]))
    exact ⟨rest, x, e⟩
  split
  · split
    · exact ⟨_, _, rfl⟩
    · obtain ⟨rest, x, e, _⟩ := validate_ends blob (blob.drop ((id >>> 4) % 2 ^ 28)) (Or.inl (by simp))
      exact ⟨rest, x, e⟩
  · exact ⟨_, _, rfl⟩

theorem validateSlots_ends (blob : Bytes) : ∀ (n : Nat) (d : Bytes), d.length ≤ blob.length →
    ∃ rest x, validateSlots (fuelFor blob) n d = .ok rest x
  | 0, d, _ => ⟨d, true, rfl⟩
  | n+1, d, h => by
    unfold validateSlots
    obtain ⟨rest, x, e, hl⟩ := validate_ends blob d (Or.inl h)
    rw [e]
    cases x
    · exact ⟨_, _, rfl⟩
    · exact validateSlots_ends blob n rest (by omega)

theorem validateLocalSlots_ends (blob : Bytes) (off : Nat) :
    ∃ rest x, validateLocalSlots blob off = .ok rest x := by
  unfold validateLocalSlots
  split
  · exact ⟨_, _, rfl⟩
  split
  · exact ⟨_, _, rfl⟩
  split
  · rename_i k lo hi rest heq
    split
    · exact ⟨_, _, rfl⟩
    · have := congrArg List.length heq
      simp only [List.length_drop, List.length_cons] at this
      exact validateSlots_ends blob _ rest (by omega)
  · exact ⟨_, _, rfl⟩

theorem decodeUint_length : ∀ (d rest : Bytes) (v s n : Nat), Rtti.decodeUintFrom v s d = .ok rest n → rest.length ≤ d.length
  | [], rest, v, s, n, h => by cases h
  | x :: d, rest, v, s, n, h => by
    unfold Rtti.decodeUintFrom at h
    simp only at h
    split at h
    · cases h
    · split at h
      · cases h; simp
      · have := decodeUint_length d rest _ _ n h
        simp only [List.length_cons]; omega

theorem decodeUint_nofuel : ∀ (d : Bytes) (v s : Nat), Rtti.decodeUintFrom v s d ≠ .fuel
  | [], v, s => by intro h; cases h
  | x :: d, v, s => by
    unfold Rtti.decodeUintFrom
    simp only
    split
    · intro h; cases h
    · split
      · intro h; cases h
      · exact decodeUint_nofuel d _ _

theorem validateSigs_ends (blob : Bytes) : ∀ (n : Nat) (d : Bytes), d.length ≤ blob.length →
    ∃ rest x, Rtti.validateSigs (fuelFor blob) n d = .ok rest x
  | 0, d, _ => ⟨d, true, rfl⟩
  | n+1, d, h => by
    unfold Rtti.validateSigs
    obtain ⟨rest, x, e, hl⟩ := validate_ends blob d (Or.inl h)
    rw [e]
    cases x
    · exact ⟨_, _, rfl⟩
    · exact validateSigs_ends blob n rest (by omega)

theorem validateTypeset_ends (blob : Bytes) (off : Nat) (h : ¬ Overlong (blob.drop off)) :
    ∃ rest x, Rtti.validateTypeset (fuelFor blob) (blob.drop off) = .ok rest x := by
  unfold Rtti.validateTypeset
  simp only
  split
  · rename_i hok
    cases he : Rtti.decodeUint (blob.drop off) with
    | ub => exact absurd ⟨hok, he⟩ h
    | fuel => exact absurd he (decodeUint_nofuel _ _ _)
    | ok rest n =>
      have hl := decodeUint_length _ _ _ _ _ he
      simp only [List.length_drop] at hl
      exact validateSigs_ends blob n rest (by omega)
  · exact ⟨_, _, rfl⟩

theorem needTable_inv {name : String} {t : Table} (h : needTable b secs name = .ok t) :
    ∃ s, findSection b (ascii name) secs = .ok (some s) ∧ readTable b s = .ok t := by
  unfold needTable at h
  simp only [V.bind_eq_ok] at h
  obtain ⟨s, h1, h2⟩ := h
  exact ⟨s, need_ok h1, h2⟩

theorem optTable_inv {name : String} {o : Option Table} (h : optTable b secs name = .ok o) {t : Table} (ho : o = some t) :
    ∃ s, findSection b (ascii name) secs = .ok (some s) ∧ readTable b s = .ok t := by
  unfold optTable at h
  simp only [V.bind_eq_ok] at h
  obtain ⟨r, h1, h⟩ := h
  cases r with
  | none => cases h; cases ho
  | some s =>
    simp only [V.bind_eq_ok, V.pure_eq_ok] at h
    obtain ⟨t', h2, rfl⟩ := h
    cases ho
    exact ⟨s, h1, h2⟩

include hs
theorem needTable_defined (name : String) : Defined (needTable b secs name) := by
  unfold needTable
  exact (need_defined hs _).bind fun _ _ => readTable_defined

theorem optTable_defined (name : String) : Defined (optTable b secs name) := by
  unfold optTable
  refine (findSection_defined _ _ hs).bind fun o _ => ?_
  cases o with
  | none => exact .pure _
  | some s => exact readTable_defined.bind fun _ _ => .pure _
omit hs

theorem validateOwnerRow_defined {names : Sec} {t fs : Table} {nameAt firstAt : Nat} {f : Nat → Nat → V Unit} {i : Nat}
    (hin : Inside b t.base (t.rowSize * t.rows)) (hi : i < t.rows) (h1 : nameAt + 4 ≤ t.rowSize) (h2 : firstAt + 4 ≤ t.rowSize)
    (hf : ∀ j, Defined (f i j)) : Defined (validateOwnerRow b names t fs nameAt firstAt f i) := by
  unfold validateOwnerRow
  refine (field_defined hin hi h1).bind fun _ _ => (Defined.rejectIf _).bind fun _ _ => ?_
  split
  · exact (field_defined hin (by omega) h2).bind fun _ _ => (field_defined hin hi h2).bind fun _ _ =>
      (Defined.rejectIf _).bind fun _ _ => forRows_defined _ _ fun k _ _ => hf k
  · exact (Defined.pure _).bind fun _ _ => (field_defined hin hi h2).bind fun _ _ =>
      (Defined.rejectIf _).bind fun _ _ => forRows_defined _ _ fun k _ _ => hf k

theorem rowAt (R : Roomy b secs) {name : String} {s : Sec} {t : Table} {i : Nat} (m : Nat) (h1 : findSection b (ascii name) secs = .ok (some s))
    (h2 : readTable b s = .ok t) (hi : i < t.rows) (hm : m ≤ minRow name) : m ≤ t.rowSize :=
  Nat.le_trans hm (R.rows name s t h1 h2 (by omega))

include R hs
theorem validateRtti_defined {names : Sec} {code : CodeInfo} : Defined (validateRtti b secs names code) := by
  unfold validateRtti
  refine (findSection_defined _ _ hs).bind fun o hdata => ?_
  cases o with
  | none => exact .pure _
  | some s =>
    refine (Defined.rejectIf _).bind fun _ hsec => ?_
    simp only
    generalize hblob : (b.drop s.dataoffs).take s.size = blob
    refine (needTable_defined hs _).bind fun methods hm => (needTable_defined hs _).bind fun natives hnat => ?_
    obtain ⟨ms, hm1, hm2⟩ := needTable_inv hm
    obtain ⟨ns, hn1, hn2⟩ := needTable_inv hnat
    have him := readTable_ok hm2
    have hin := readTable_ok hn2
    refine Defined.bind (forRows_defined _ _ fun k _ hk => ?_) fun _ _ =>
      Defined.bind (forRows_defined _ _ fun k _ hk => ?_) fun _ _ => ?_
    · have hk' : k < methods.rows := by omega
      have hr := rowAt R 16 hm1 hm2 hk' (by decide)
      unfold validateMethodRow
      refine (field_defined him hk' (by omega)).bind fun _ _ => (Defined.rejectIf _).bind fun _ _ =>
        (field_defined him hk' (by omega)).bind fun sig _ => (accept_defined (validateFunction_ends blob sig)).bind fun _ _ =>
        (field_defined him hk' (by omega)).bind fun _ _ => (field_defined him hk' (by omega)).bind fun _ _ =>
        (Defined.rejectIf _).bind fun _ _ => (Defined.rejectIf _).bind fun _ _ => (Defined.rejectIf _).bind fun _ _ => ?_
      split
      · exact (Defined.rejectIf _).bind fun _ _ => (field_defined him hk' (by omega)).bind fun locals _ =>
          accept_defined (validateLocalSlots_ends blob locals)
      · exact .rejectIf _
    · have hk' : k < natives.rows := by omega
      have hr := rowAt R 8 hn1 hn2 hk' (by decide)
      unfold validateNativeRow
      exact (field_defined hin hk' (by omega)).bind fun _ _ => (Defined.rejectIf _).bind fun _ _ =>
        (field_defined hin hk' (by omega)).bind fun sig _ => accept_defined (validateFunction_ends blob sig)
    · refine (optTable_defined hs _).bind fun classdefs hc => (optTable_defined hs _).bind fun enums he =>
        (optTable_defined hs _).bind fun enumstructs hes => (optTable_defined hs _).bind fun esFields hef =>
        (optTable_defined hs _).bind fun fields hf => (optTable_defined hs _).bind fun _ _ =>
        (optTable_defined hs _).bind fun typesets ht => ?_
      refine Defined.bind ?_ fun _ _ => Defined.bind ?_ fun _ _ => Defined.bind ?_ fun _ _ => Defined.bind ?_ fun _ _ => .pure _
      · cases enums with
        | none => exact .pure _
        | some t =>
          obtain ⟨s', h1, h2⟩ := optTable_inv he rfl
          refine forRows_defined _ _ fun k _ hk => ?_
          have hr := rowAt R 4 h1 h2 (i := k) (by omega) (by decide)
          unfold validateEnumRow
          exact (field_defined (readTable_ok h2) (by omega) (by omega)).bind fun _ _ => .rejectIf _
      · cases enumstructs with
        | none => exact .pure _
        | some t =>
          cases esFields with
          | none => exact .err
          | some fs =>
            obtain ⟨s', h1, h2⟩ := optTable_inv hes rfl
            obtain ⟨s'', h3, h4⟩ := optTable_inv hef rfl
            refine forRows_defined _ _ fun k _ hk => ?_
            have hk' : k < t.rows := by omega
            have hr := rowAt R 12 h1 h2 hk' (by decide)
            refine validateOwnerRow_defined (readTable_ok h2) hk' (by omega) (by omega) fun j => ?_
            refine (field_defined (readTable_ok h2) hk' (by omega)).bind fun size _ => ?_
            unfold validateEsField
            refine (Defined.rejectIf _).bind fun _ hj => ?_
            have hj' : j < fs.rows := by have := rejectIf_ok.1 hj; omega
            have hr' := rowAt R 12 h3 h4 hj' (by decide)
            exact (field_defined (readTable_ok h4) hj' (by omega)).bind fun _ _ => (Defined.rejectIf _).bind fun _ _ =>
              (field_defined (readTable_ok h4) hj' (by omega)).bind fun _ _ => (Defined.rejectIf _).bind fun _ _ =>
              (field_defined (readTable_ok h4) hj' (by omega)).bind fun id _ => accept_defined (validateType_ends blob id)
      · cases classdefs with
        | none => exact .pure _
        | some t =>
          cases fields with
          | none => exact .err
          | some fs =>
            obtain ⟨s', h1, h2⟩ := optTable_inv hc rfl
            obtain ⟨s'', h3, h4⟩ := optTable_inv hf rfl
            refine forRows_defined _ _ fun k _ hk => ?_
            have hk' : k < t.rows := by omega
            have hr := rowAt R 28 h1 h2 hk' (by decide)
            refine validateOwnerRow_defined (readTable_ok h2) hk' (by omega) (by omega) fun j => ?_
            unfold validateField
            refine (Defined.rejectIf _).bind fun _ hj => ?_
            have hj' : j < fs.rows := by have := rejectIf_ok.1 hj; omega
            have hr' := rowAt R 10 h3 h4 hj' (by decide)
            exact (field_defined (readTable_ok h4) hj' (by omega)).bind fun _ _ => (Defined.rejectIf _).bind fun _ _ =>
              (field_defined (readTable_ok h4) hj' (by omega)).bind fun id _ => accept_defined (validateType_ends blob id)
      · cases typesets with
        | none => exact .pure _
        | some t =>
          obtain ⟨s', h1, h2⟩ := optTable_inv ht rfl
          refine forRows_defined _ _ fun k _ hk => ?_
          have hk' : k < t.rows := by omega
          have hr := rowAt R 8 h1 h2 hk' (by decide)
          unfold validateTypesetRow
          exact (field_defined (readTable_ok h2) hk' (by omega)).bind fun _ _ => (Defined.rejectIf _).bind fun _ _ =>
            (field_defined (readTable_ok h2) hk' (by omega)).bind fun sig hsig =>
              accept_defined (validateTypeset_ends blob sig (by
                rw [← hblob]; exact R.typesets s s' t k sig hdata h1 h2 hk' hsig))

theorem validateDebugInfo_defined {names : Sec} : Defined (validateDebugInfo b secs names) := by
  unfold validateDebugInfo
  refine (findSection_defined _ _ hs).bind fun o hinfo => ?_
  cases o with
  | none => exact .pure _
  | some info =>
    refine (Defined.rejectIf _).bind fun _ hsec => ?_
    have hi := sectionOk_inside (rejectIf_ok.1 hsec)
    have hm : 16 ≤ info.size := R.header _ info hinfo
    unfold Inside at hi
    refine Defined.bind ?_ fun dn _ => ?_
    · refine (findSection_defined _ _ hs).bind fun o _ => ?_
      cases o with
      | none => exact .pure _
      | some s =>
        refine (Defined.rejectIf _).bind fun _ h => ?_
        have hi := sectionOk_inside (rejectIf_ok.1 h)
        unfold Inside at hi
        split
        · exact (u8_defined (by omega)).bind fun _ _ => (Defined.rejectIf _).bind fun _ _ => .pure _
        · exact .pure _
    · refine (need_defined hs _).bind fun _ _ => (Defined.rejectIf _).bind fun _ _ => (u32_defined (by omega)).bind fun _ _ =>
        (Defined.rejectIf _).bind fun _ _ => (need_defined hs _).bind fun _ _ => (Defined.rejectIf _).bind fun _ _ =>
        (u32_defined (by omega)).bind fun _ _ => (Defined.rejectIf _).bind fun _ _ =>
        (findSection_defined _ _ hs).bind fun o _ => ?_
      cases o with
      | none =>
        exact (optTable_defined hs _).bind fun _ _ => (optTable_defined hs _).bind fun _ _ =>
          (optTable_defined hs _).bind fun _ _ => .pure _
      | some s => exact (Defined.rejectIf _).bind fun _ _ => .pure _
end

/-- C55: if the data offset of an uncompressed file lies inside the file, its sections hold their fixed headers and its
table rows their records, and no typeset count is overlong, then validation never reads outside the file: it accepts or it
rejects. (The full claim has no such conditions; the theorems below show each fails.) -/
theorem C55_partial (inflate : Inflate) (junk : Nat → BitVec 8) (b : Bytes)
    (hplain : u8 b 6 = .ok 0) (hd : ∀ d, u32 b 20 = .ok d → d ≤ b.length)
    (hr : ∀ secs, readContainer b = .ok secs → Roomy b secs) :
    validate inflate junk b = .err ∨ ∃ img, validate inflate junk b = .ok img := by
  have key : Defined (validate inflate junk b) := by
    unfold validate
    refine Defined.bind ?_ fun _ hh => ?_
    · unfold validateHeader
      refine (Defined.rejectIf _).bind fun _ h => ?_
      have h24 := rejectIf_ok.1 h
      unfold hdrSize at h24
      exact (u32_defined (by omega)).bind fun _ _ => (Defined.rejectIf _).bind fun _ _ =>
        (u16_defined (by omega)).bind fun _ _ => .rejectIf _
    · have h24 : 24 ≤ b.length := by
        unfold validateHeader at hh
        simp only [V.bind_eq_ok, rejectIf_ok] at hh
        obtain ⟨_, h, _⟩ := hh
        unfold hdrSize at h
        omega
      have hdec : decompress inflate junk b = .ok b := by unfold decompress; rw [hplain]; rfl
      rw [hdec]
      refine (Defined.ok b).bind fun b' hb' => ?_
      cases hb'
      unfold validateBuffer
      refine (readContainer_defined h24 hd).bind fun secs hsecs => ?_
      have R := hr secs hsecs
      have hs : ∀ s ∈ secs, ∃ n, cstr b s.name = some n := by
        obtain ⟨st, d, _, _, h3⟩ := readContainer_ok hsecs
        intro s hm
        obtain ⟨_, name, rest, h5, h6, _⟩ := h3 s hm
        exact ⟨name, cstr_some.2 ⟨rest, h5, h6⟩⟩
      exact (validateNames_defined hs).bind fun names _ => (validateCode_defined R hs).bind fun code _ =>
        (validateData_defined R hs).bind fun _ _ => (validateList_defined hs (by omega)).bind fun _ _ =>
        (validateList_defined hs (by omega)).bind fun _ _ => (validateList_defined hs (by omega)).bind fun _ _ =>
        (validateRtti_defined R hs).bind fun _ _ => (validateDebugInfo_defined R hs).bind fun _ _ =>
        (validateList_defined hs (by omega)).bind fun _ _ => .pure _
  cases h : validate inflate junk b with
  | ok img => exact Or.inr ⟨img, rfl⟩
  | err => exact Or.inl rfl
  | ub => exact absurd h key

set_option maxRecDepth 50000 in
/-- The sample plugin meets the hypotheses of `C55_partial`. -/
example : u8 (write samplePlugin) 6 = .ok 0 ∧ (∀ d, u32 (write samplePlugin) 20 = .ok d → d ≤ (write samplePlugin).length) ∧
    ∀ secs, readContainer (write samplePlugin) = .ok secs → Roomy (write samplePlugin) secs := by
  refine ⟨rfl, fun d hd => ?_, fun secs hsecs => ?_⟩
  · have h : (match u32 (write samplePlugin) 20 with | .ok d => decide (d ≤ (write samplePlugin).length) | _ => false) = true := by
      decide +kernel
    rw [hd] at h
    exact of_decide_eq_true h
  · have find : ∀ name, (match readContainer (write samplePlugin) with
        | .ok secs => (match findSection (write samplePlugin) (ascii name) secs with
          | .ok none => true
          | .ok (some s) => decide (minHeader name ≤ s.size ∧ minRow name = 0)
          | _ => true)
        | _ => true) = true → ∀ s, findSection (write samplePlugin) (ascii name) secs = .ok (some s) →
          minHeader name ≤ s.size ∧ minRow name = 0 := by
      intro name h s hs
      rw [hsecs] at h
      simp only [hs] at h
      exact of_decide_eq_true h
    have all : ∀ name s, findSection (write samplePlugin) (ascii name) secs = .ok (some s) →
        minHeader name ≤ s.size ∧ minRow name = 0 := by
      intro name s hs
      by_cases h1 : minHeader name = 0 ∧ minRow name = 0
      · omega
      · apply find name ?_ s hs
        unfold minHeader minRow at h1
        have : name = ".code" ∨ name = ".data" ∨ name = ".dbg.info" ∨ name = "rtti.methods" ∨ name = "rtti.natives" ∨
            name = "rtti.typesets" ∨ name = "rtti.enums" ∨ name = "rtti.enumstructs" ∨ name = "rtti.enumstruct_fields" ∨
            name = "rtti.classdefs" ∨ name = "rtti.fields" := by
          apply Decidable.byContradiction
          intro hc
          simp only [not_or] at hc
          simp [hc] at h1
        rcases this with rfl | rfl | rfl | rfl | rfl | rfl | rfl | rfl | rfl | rfl | rfl <;> decide +kernel
    refine ⟨fun name s hs => (all name s hs).1, fun name s t hs _ _ => by have := (all name s hs).2; omega, ?_⟩
    intro d s t i sig hd
    intro hs
    exact absurd (all "rtti.typesets" s hs).2 (by decide)

/-- C55: a compressed file whose size on disk is not smaller than its data offset is decompressed without reading outside
it. -/
theorem C55_decompress_partial (inflate : Inflate) (junk : Nat → BitVec 8) (b : Bytes) (h24 : 24 ≤ b.length)
    (hsz : ∀ disk d, u32 b 7 = .ok disk → u32 b 20 = .ok d → d ≤ disk) (hb : b.length < 4294967296) :
    decompress inflate junk b ≠ .ub := by
  show Defined _
  unfold decompress
  refine (u8_defined (by omega)).bind fun c _ => ?_
  split
  · exact .pure _
  split
  · refine (u32_defined (by omega)).bind fun disk h1 => (u32_defined (by omega)).bind fun img _ =>
      (u32_defined (by omega)).bind fun d h2 => (Defined.rejectIf _).bind fun _ h3 => (Defined.rejectIf _).bind fun _ h4 =>
      (Defined.rejectIf _).bind fun _ _ => (Defined.rejectIf _).bind fun _ _ => ?_
    have := hsz disk d h1 h2
    rw [rejectIf_ok] at h3 h4
    simp only
    rw [if_neg (by omega)]
    split
    · exact .err
    · exact .pure _
  · exact .err

/-- C55 (limit): a container with a data offset beyond the end of the file makes the terminator search read past the end. -/
theorem C55_data_offset_unchecked :
    validate (fun _ _ => none) (fun _ => 0)
      (le32 0x53504646 ++ le16 0x0102 ++ [0] ++ le32 0 ++ le32 0 ++ [0] ++ le32 24 ++ le32 1000 ++ [1]) = .ub := rfl

/-- C55 (limit): a compressed file whose size on disk is smaller than its data offset makes the decompressor read past the
end (the length wraps round). -/
theorem C55_compressed_size_wraps :
    validate (fun _ _ => none) (fun _ => 0)
      (le32 0x53504646 ++ le16 0x0102 ++ [1] ++ le32 23 ++ le32 24 ++ [0] ++ le32 24 ++ le32 24) = .ub := rfl

set_option maxRecDepth 50000 in
/-- C55 (limit): a code section shorter than its header at the end of the file is read past the end. -/
theorem C55_short_code_section :
    (match validate (fun _ _ => none) (fun _ => 0) (write [⟨ascii ".names", [0]⟩, ⟨ascii ".code", [1]⟩]) with
      | .ub => true | _ => false) = true := by decide +kernel

set_option maxRecDepth 50000 in
/-- C55 (limit): a method table with rows of one byte at the end of the file is read past the end. -/
theorem C55_short_rows :
    (match validate (fun _ _ => none) (fun _ => 0) (write (samplePlugin ++ [⟨ascii "rtti.data", [0]⟩,
        ⟨ascii "rtti.natives", le32 12 ++ le32 8 ++ le32 0⟩,
        ⟨ascii "rtti.methods", le32 12 ++ le32 1 ++ le32 1 ++ [0]⟩])) with
      | .ub => true | _ => false) = true := by decide +kernel

end Verif.Smx

import Verif.Model.Lookup
import Verif.Model.Rtti

/-!
The SMX container: writing it (libsmx/smx-builder.cpp), interning names and type data (libsmx/smx-builder.h,
libsmx/data-pool.cpp) and validating a loaded file (vm/smx-image.cpp).

Bytes are a list; a read outside the buffer is `ub`.  All multi-byte fields are little endian and byte packed
(`#pragma pack(1)`).
-/
namespace Verif.Smx
open Verif.Image (Bytes cstr)

/-! ## Writing -/

/-- A little-endian uint32_t (truncating). -/
def le32 (n : Nat) : Bytes :=
  [BitVec.ofNat 8 n, BitVec.ofNat 8 (n / 256), BitVec.ofNat 8 (n / 65536), BitVec.ofNat 8 (n / 16777216)]

/-- A little-endian uint16_t (truncating). -/
def le16 (n : Nat) : Bytes := [BitVec.ofNat 8 n, BitVec.ofNat 8 (n / 256)]

/-- A named section and the bytes its `write` produces (its `length()` is their number): libsmx/smx-builder.h:39-63. -/
structure OutSection where
  name : Bytes
  content : Bytes
deriving DecidableEq

/-- `sizeof(sp_file_hdr_t)`, include/smx/smx-headers.h:98-158. -/
def hdrSize : Nat := 24

/-- `sizeof(sp_file_section_t)`, include/smx/smx-headers.h:160-165. -/
def secSize : Nat := 12

/-- libsmx/smx-builder.cpp:45-50: the size of the string table. -/
def stringsLen (secs : List OutSection) : Nat := (secs.map fun s => s.name.length + 1).sum

/-- The header fields written by libsmx/smx-builder.cpp:31-61. -/
def writeHeader (secs : List OutSection) : Bytes :=
  let tab := hdrSize + secSize * secs.length
  let disksize := tab + (secs.map fun s => s.content.length).sum + stringsLen secs
  le32 0x53504646 ++ le16 0x0102 ++ [0] ++ le32 disksize ++ le32 disksize ++
    [BitVec.ofNat 8 secs.length] ++ le32 tab ++ le32 (tab + stringsLen secs)

/-- The section table, libsmx/smx-builder.cpp:66-80. -/
def writeTable : List OutSection → Nat → Nat → Bytes
  | [], _, _ => []
  | s :: secs, nameOff, dataOff =>
    le32 nameOff ++ le32 dataOff ++ le32 s.content.length ++
      writeTable secs (nameOff + (s.name.length + 1)) (dataOff + s.content.length)

/-- libsmx/smx-builder.cpp:28-105 SmxBuilder::write into an empty buffer that does not run out of memory. -/
def write (secs : List OutSection) : Bytes :=
  writeHeader secs ++ writeTable secs 0 (hdrSize + secSize * secs.length + stringsLen secs) ++
    (secs.map fun s => s.name ++ [0]).flatten ++ (secs.map fun s => s.content).flatten

/-! ## Interning -/

/-- libsmx/smx-builder.h:185-242 SmxNameTable. Atoms are unique per string (utils/string-pool.h:68-74), so an atom is its
string. -/
structure NameTable where
  table : List (Bytes × Nat)
  names : List Bytes
  size : Nat
deriving DecidableEq

/-- The empty table. -/
def NameTable.empty : NameTable := ⟨[], [], 0⟩

/-- libsmx/smx-builder.h:203-219 SmxNameTable::add; `none` is the abort on overflow. -/
def NameTable.add (T : NameTable) (s : Bytes) : Option (Nat × NameTable) :=
  match T.table.find? (·.1 = s) with
  | some e => some (e.2, T)
  | none =>
    if T.size + (s.length + 1) ≥ 4294967296 then none
    else some (T.size, ⟨(s, T.size) :: T.table, T.names ++ [s], T.size + (s.length + 1)⟩)

/-- libsmx/smx-builder.cpp:130-139 SmxNameTable::write. -/
def NameTable.write (T : NameTable) : Bytes := (T.names.map fun s => s ++ [0]).flatten

/-- libsmx/data-pool.h:45-97 DataPool. -/
structure Pool where
  map : List (Bytes × Nat)
  buffer : Bytes

/-- libsmx/data-pool.cpp:24-28: the buffer starts with one zero byte. -/
def Pool.empty : Pool := ⟨[], [0]⟩

/-- libsmx/data-pool.cpp:30-53 DataPool::add; `writeBytes` fails (result 0, nothing recorded) when the buffer would
exceed INT_MAX bytes (utils/byte-buffer.h:118-121). The growth policy is modelled separately. -/
def Pool.add (P : Pool) (run : Bytes) : Nat × Pool :=
  match P.map.find? (·.1 = run) with
  | some e => (e.2, P)
  | none =>
    if P.buffer.length + run.length > 2147483647 then (0, P)
    else (P.buffer.length, ⟨(run, P.buffer.length) :: P.map, P.buffer ++ run⟩)

/-! ## Validation -/

/-- Result of a validation step. -/
inductive V (α : Type) where
  | ok (a : α)
  | err
  | ub

/-- Sequencing. -/
def V.bind {α β : Type} (x : V α) (f : α → V β) : V β :=
  match x with
  | .ok a => f a
  | .err => .err
  | .ub => .ub

instance : Monad V where
  pure := .ok
  bind := V.bind

/-- `if (c) return error(..);` -/
def rejectIf (c : Prop) [Decidable c] : V Unit := if c then .err else .ok ()

/-- Read a byte. -/
def u8 (b : Bytes) (off : Nat) : V Nat :=
  match b[off]? with
  | some x => .ok x.toNat
  | none => .ub

/-- Read a uint16_t. -/
def u16 (b : Bytes) (off : Nat) : V Nat := do
  let x ← u8 b off; let y ← u8 b (off + 1)
  pure (x + 256 * y)

/-- Read a uint32_t. -/
def u32 (b : Bytes) (off : Nat) : V Nat := do
  let x ← u8 b off; let y ← u8 b (off + 1); let z ← u8 b (off + 2); let w ← u8 b (off + 3)
  pure (x + 256 * y + 65536 * z + 16777216 * w)

/-- The C string at an offset of the buffer. -/
def str (b : Bytes) (off : Nat) : V Bytes :=
  match cstr b off with
  | some s => .ok s
  | none => .ub

/-- vm/smx-image.h:93-97 Section; `name` is the offset of the name in the buffer. -/
structure Sec where
  name : Nat
  dataoffs : Nat
  size : Nat
deriving DecidableEq

/-- zlib's `uncompress`: source bytes and destination capacity to the bytes produced. -/
abbrev Inflate := Bytes → Nat → Option Bytes

/-- vm/smx-image.cpp:53-102: replace the compressed region.  `junk` is the content of freshly allocated memory, which
shows through where the stream decodes to fewer bytes than announced. -/
def decompress (inflate : Inflate) (junk : Nat → BitVec 8) (b : Bytes) : V Bytes := do
  let compression ← u8 b 6
  if compression = 0 then pure b
  else if compression = 1 then
    let disksize ← u32 b 7
    let imagesize ← u32 b 11
    let dataoffs ← u32 b 20
    rejectIf (disksize > b.length)
    rejectIf (dataoffs > b.length)
    rejectIf (dataoffs < hdrSize)
    rejectIf (imagesize < dataoffs)
    -- uint32_t subtraction
    let compressedSize := (disksize + 4294967296 - dataoffs) % 4294967296
    if dataoffs + compressedSize > b.length then .ub
    else
      match inflate ((b.drop dataoffs).take compressedSize) (imagesize - dataoffs) with
      | none => .err
      | some out =>
        let out := out.take (imagesize - dataoffs)
        pure (b.take dataoffs ++ out ++
          (List.range (imagesize - dataoffs - out.length)).map fun i => junk (dataoffs + out.length + i))
  else .err

/-- vm/smx-image.cpp:36-51: size, magic and version. -/
def validateHeader (b : Bytes) : V Unit := do
  rejectIf (b.length < hdrSize)
  let magic ← u32 b 0
  rejectIf (magic ≠ 0x53504646)
  let version ← u16 b 4
  rejectIf (¬ (version = 0x0101 ∨ version = 0x0102 ∨ version = 0x0107 ∨ version = 0x0113))

/-- The section loop vm/smx-image.cpp:116-128, `i` counting up with `n` left; returns the sections and
`last_header_string`. -/
def readSections (b : Bytes) (stringtab dataoffs : Nat) : Nat → Nat → Nat → V (List Sec × Nat)
  | 0, _, last => pure ([], last)
  | n+1, i, last => do
    let nameoffs ← u32 b (hdrSize + secSize * i)
    let offs ← u32 b (hdrSize + secSize * i + 4)
    let size ← u32 b (hdrSize + secSize * i + 8)
    -- uint32_t subtraction
    rejectIf (nameoffs ≥ (dataoffs + 4294967296 - stringtab) % 4294967296)
    let last := if nameoffs > last then nameoffs else last
    let (secs, last) ← readSections b stringtab dataoffs n (i + 1) last
    pure (⟨stringtab + nameoffs, offs, size⟩ :: secs, last)

/-- The terminator search vm/smx-image.cpp:131-140 from `i`, `n` bytes to go. -/
def findTerminator (b : Bytes) : Nat → Nat → V Bool
  | 0, _ => pure false
  | n+1, i => do
    let x ← u8 b i
    if x = 0 then pure true else findTerminator b n (i + 1)

/-- vm/smx-image.cpp:104-142: the section table. -/
def readContainer (b : Bytes) : V (List Sec) := do
  let stringtab ← u32 b 16
  rejectIf (stringtab ≥ b.length)
  let n ← u8 b 15
  rejectIf (hdrSize + n * secSize > b.length)
  let dataoffs ← u32 b 20
  let (secs, last) ← readSections b stringtab dataoffs n 0 0
  let found ← findTerminator b (dataoffs - (stringtab + last)) (stringtab + last)
  rejectIf (found = false)
  pure secs

/-- vm/smx-image.cpp:174-181 findSection. -/
def findSection (b : Bytes) (name : Bytes) : List Sec → V (Option Sec)
  | [] => pure none
  | s :: secs => do
    let n ← str b s.name
    if n = name then pure (some s) else findSection b name secs

/-- vm/smx-image.cpp:183-190 validateSection. -/
def sectionOk (b : Bytes) (s : Sec) : Bool := s.dataoffs < b.length ∧ s.size ≤ b.length - s.dataoffs

/-- ASCII bytes of a section name. -/
def ascii (s : String) : Bytes := s.toList.map fun c => BitVec.ofNat 8 c.toNat

/-- A section that must exist. -/
def need (b : Bytes) (secs : List Sec) (name : String) : V Sec := do
  match ← findSection b (ascii name) secs with
  | none => .err
  | some s => pure s

/-- vm/smx-image.cpp:144-154: the names section. -/
def validateNames (b : Bytes) (secs : List Sec) : V Sec := do
  let s ← need b secs ".names"
  rejectIf (sectionOk b s = false)
  if s.size ≠ 0 then do
    let x ← u8 b (s.dataoffs + s.size - 1)
    rejectIf (x ≠ 0)
    pure s
  else pure s

/-- An offset and a length in the buffer. -/
structure Blob where
  offs : Nat
  length : Nat
deriving DecidableEq

/-- What `validateCode` records: the blob, the code version and the feature mask, and the section size. -/
structure CodeInfo where
  blob : Blob
  version : Nat
  features : Nat
  sectionSize : Nat

/-- vm/smx-image.cpp:238-284 validateCode. -/
def validateCode (b : Bytes) (secs : List Sec) : V CodeInfo := do
  let s ← need b secs ".code"
  rejectIf (sectionOk b s = false)
  let codesize ← u32 b s.dataoffs
  let cellsize ← u8 b (s.dataoffs + 4)
  let version ← u8 b (s.dataoffs + 5)
  let flags ← u16 b (s.dataoffs + 6)
  let code ← u32 b (s.dataoffs + 12)
  rejectIf (version < 9)
  rejectIf (version > 14)
  rejectIf (cellsize ≠ 4)
  rejectIf (flags > 1)
  rejectIf (code > s.size)
  rejectIf (codesize > s.size - code)
  let features ← if version ≥ 13 then u32 b (s.dataoffs + 16) else pure 0
  rejectIf (version ≥ 14 ∧ features &&& 30 ≠ 30)
  rejectIf (features &&& 30 ≠ features)
  pure ⟨⟨s.dataoffs + code, codesize⟩, version, features, s.size⟩

/-- vm/smx-image.cpp:216-235 validateData: the blob and `memsize`. -/
def validateData (b : Bytes) (secs : List Sec) : V (Blob × Nat) := do
  let s ← need b secs ".data"
  rejectIf (sectionOk b s = false)
  let datasize ← u32 b s.dataoffs
  let memsize ← u32 b (s.dataoffs + 4)
  let data ← u32 b (s.dataoffs + 8)
  rejectIf (data > s.size)
  rejectIf (datasize > s.size - data)
  pure (⟨s.dataoffs + data, datasize⟩, memsize)

/-- The name loops of vm/smx-image.cpp:296-299, 320-323, 344-347, 773-776: rows of `row` bytes with the name at
`nameAt`. -/
def validateRowNames (b : Bytes) (names : Sec) (base row nameAt : Nat) : Nat → Nat → V Unit
  | 0, _ => pure ()
  | n+1, i => do
    let name ← u32 b (base + row * i + nameAt)
    rejectIf (name ≥ names.size)
    validateRowNames b names base row nameAt n (i + 1)

/-- vm/smx-image.cpp:286-353, 760-780: validatePublics, validatePubvars, validateNatives and validateTags, which differ in
the section's name, the row size and the position of the name: the offset of the table and its number of rows. -/
def validateList (b : Bytes) (secs : List Sec) (names : Sec) (name : String) (row nameAt : Nat) : V (Nat × Nat) := do
  match ← findSection b (ascii name) secs with
  | none => pure (0, 0)
  | some s =>
    rejectIf (sectionOk b s = false)
    rejectIf (s.size % row ≠ 0)
    validateRowNames b names s.dataoffs row nameAt (s.size / row) 0
    pure (s.dataoffs, s.size / row)

/-- An RTTI table: where its rows start, the row size and the number of rows. -/
structure Table where
  base : Nat
  rowSize : Nat
  rows : Nat
deriving DecidableEq

/-- vm/smx-image.cpp:192-213 validateRttiHeader and vm/smx-image.h:243-260: the table of a valid section. -/
def readTable (b : Bytes) (s : Sec) : V Table := do
  rejectIf (sectionOk b s = false)
  rejectIf (s.size < 12)
  let header ← u32 b s.dataoffs
  let row ← u32 b (s.dataoffs + 4)
  let rows ← u32 b (s.dataoffs + 8)
  rejectIf (s.size < header)
  rejectIf (row * rows ≥ 4294967296)
  rejectIf (row * rows + header ≥ 4294967296)
  rejectIf (s.size ≠ header + row * rows)
  pure ⟨s.dataoffs + header, row, rows⟩

/-- vm/smx-image.h:255-260 getRttiRow, then a uint32_t field of the row. -/
def Table.field (b : Bytes) (t : Table) (i at_ : Nat) : V Nat := u32 b (t.base + t.rowSize * i + at_)

/-- Loop over the rows `i, i+1, …` of a table. -/
def forRows (f : Nat → V Unit) : Nat → Nat → V Unit
  | 0, _ => pure ()
  | n+1, i => do f i; forRows f n (i + 1)

/-- A validator's answer as a step: rejects unless it accepts.  The validators are run with enough fuel for
the blob, see `Verif.Rtti.C36_validator_safe`. -/
def accept (r : Rtti.PRes Bool) : V Unit :=
  match r with
  | .ok _ true => .ok ()
  | .ok _ false => .err
  | _ => .ub

/-- Fuel for the type validators: each step consumes a byte or is one of at most two silent steps per byte. -/
def fuelFor (blob : Bytes) : Nat := 3 * blob.length + 20

/-- The validation loop of validateLocalSlots, vm/rtti.cpp:233-237. -/
def validateSlots (fuel : Nat) : Nat → Bytes → Rtti.PRes Bool
  | 0, bs => .ok bs true
  | n+1, bs => (Rtti.validate fuel bs).andTry fun bs => validateSlots fuel n bs

/-- vm/rtti.cpp:220-239 validateLocalSlots. -/
def validateLocalSlots (blob : Bytes) (offset : Nat) : Rtti.PRes Bool :=
  if offset = 0 then .ok [] true
  else if offset ≥ blob.length ∨ blob.length - offset < 3 then .ok [] false
  else
    match blob.drop offset with
    | k :: lo :: hi :: rest =>
      if k ≠ Rtti.kLocalSlots then .ok [] false
      else validateSlots (fuelFor blob) (lo.toNat + 256 * hi.toNat) rest
    | _ => .ok [] false

/-- vm/smx-image.cpp:519-545 validateRttiMethods, one row. -/
def validateMethodRow (b : Bytes) (names : Sec) (code : CodeInfo) (blob : Bytes) (t : Table) (i : Nat) : V Unit := do
  let name ← t.field b i 0
  rejectIf (name ≥ names.size)
  let sig ← t.field b i 12
  accept (Rtti.validateFunction (fuelFor blob) (blob.drop sig))
  let start ← t.field b i 4
  let stop ← t.field b i 8
  rejectIf (start > stop)
  rejectIf (start ≥ code.sectionSize)
  rejectIf (stop > code.sectionSize)
  if t.rowSize ≥ 20 then do
    rejectIf (code.version < 14)
    let locals ← t.field b i 16
    accept (validateLocalSlots blob locals)
  else rejectIf (code.version ≥ 14)

/-- vm/smx-image.cpp:547-557 validateRttiNatives, one row. -/
def validateNativeRow (b : Bytes) (names : Sec) (blob : Bytes) (t : Table) (i : Nat) : V Unit := do
  let name ← t.field b i 0
  rejectIf (name ≥ names.size)
  let sig ← t.field b i 4
  accept (Rtti.validateFunction (fuelFor blob) (blob.drop sig))

/-- vm/smx-image.cpp:559-569 validateRttiTypesets, one row. -/
def validateTypesetRow (b : Bytes) (names : Sec) (blob : Bytes) (t : Table) (i : Nat) : V Unit := do
  let name ← t.field b i 0
  rejectIf (name ≥ names.size)
  let sig ← t.field b i 4
  accept (Rtti.validateTypeset (fuelFor blob) (blob.drop sig))

/-- vm/smx-image.cpp:427-434 validateRttiEnums, one row. -/
def validateEnumRow (b : Bytes) (names : Sec) (t : Table) (i : Nat) : V Unit := do
  let name ← t.field b i 0
  rejectIf (name ≥ names.size)

/-- vm/smx-image.cpp:465-478 validateRttiEnumStructField. -/
def validateEsField (b : Bytes) (names : Sec) (blob : Bytes) (fields : Table) (size : Nat) (j : Nat) : V Unit := do
  rejectIf (j ≥ fields.rows)
  let name ← fields.field b j 0
  rejectIf (name ≥ names.size)
  let offset ← fields.field b j 8
  rejectIf (offset ≥ size * 4 % 4294967296)
  let type ← fields.field b j 4
  accept (Rtti.validateType (fuelFor blob) blob type)

/-- vm/smx-image.cpp:505-517 validateRttiField; the row starts with a uint16_t. -/
def validateField (b : Bytes) (names : Sec) (blob : Bytes) (fields : Table) (j : Nat) : V Unit := do
  rejectIf (j ≥ fields.rows)
  let name ← fields.field b j 2
  rejectIf (name ≥ names.size)
  let type ← fields.field b j 6
  accept (Rtti.validateType (fuelFor blob) blob type)

/-- The owner loops vm/smx-image.cpp:441-461 (validateRttiEnumStructs) and 484-502 (validateRttiClassdefs), one row: name
at `nameAt`, first field at `firstAt`; `f` validates one field. -/
def validateOwnerRow (b : Bytes) (names : Sec) (t fields : Table) (nameAt firstAt : Nat) (f : Nat → Nat → V Unit)
    (i : Nat) : V Unit := do
  let name ← t.field b i nameAt
  rejectIf (name ≥ names.size)
  let stopat ← if i ≠ t.rows - 1 then t.field b (i + 1) firstAt else pure fields.rows
  let first ← t.field b i firstAt
  rejectIf (first ≥ stopat)
  forRows (f i) (stopat - first) first

/-- A table that may be absent. -/
def optTable (b : Bytes) (secs : List Sec) (name : String) : V (Option Table) := do
  match ← findSection b (ascii name) secs with
  | none => pure none
  | some s => do let t ← readTable b s; pure (some t)

/-- A table that must be present. -/
def needTable (b : Bytes) (secs : List Sec) (name : String) : V Table := do
  let s ← need b secs name
  readTable b s

/-- The tables found by `validateRtti`. -/
structure RttiTables where
  blob : Blob
  methods : Table
  natives : Table
  enums : Option Table
  enumstructs : Option Table
  esFields : Option Table
  classdefs : Option Table
  fields : Option Table
  typesets : Option Table

/-- vm/smx-image.cpp:405-407, 427-434. -/
def enumRows (b : Bytes) (names : Sec) : Option Table → V Unit
  | some t => forRows (validateEnumRow b names t) t.rows 0
  | none => pure ()

/-- vm/smx-image.cpp:409-412, 436-463. -/
def enumStructRows (b : Bytes) (names : Sec) (blob : Bytes) : Option Table → Option Table → V Unit
  | none, _ => pure ()
  | some _, none => .err
  | some t, some fs => forRows (validateOwnerRow b names t fs 0 4 (fun i j => do
      let size ← t.field b i 8
      validateEsField b names blob fs size j)) t.rows 0

/-- vm/smx-image.cpp:414-417, 480-503. -/
def classdefRows (b : Bytes) (names : Sec) (blob : Bytes) : Option Table → Option Table → V Unit
  | none, _ => pure ()
  | some _, none => .err
  | some t, some fs => forRows (validateOwnerRow b names t fs 4 8 (fun _ j => validateField b names blob fs j)) t.rows 0

/-- vm/smx-image.cpp:419-421, 559-569. -/
def typesetRows (b : Bytes) (names : Sec) (blob : Bytes) : Option Table → V Unit
  | some t => forRows (validateTypesetRow b names blob t) t.rows 0
  | none => pure ()

/-- vm/smx-image.cpp:359-425 validateRtti.  The mandatory headers are checked before any row, the optional ones
together before the rows of the optional tables, as in the code. -/
def validateRtti (b : Bytes) (secs : List Sec) (names : Sec) (code : CodeInfo) : V (Option RttiTables) := do
  match ← findSection b (ascii "rtti.data") secs with
  | none => pure none
  | some s =>
    rejectIf (sectionOk b s = false)
    let blob := (b.drop s.dataoffs).take s.size
    let methods ← needTable b secs "rtti.methods"
    let natives ← needTable b secs "rtti.natives"
    forRows (validateMethodRow b names code blob methods) methods.rows 0
    forRows (validateNativeRow b names blob natives) natives.rows 0
    let classdefs ← optTable b secs "rtti.classdefs"
    let enums ← optTable b secs "rtti.enums"
    let enumstructs ← optTable b secs "rtti.enumstructs"
    let esFields ← optTable b secs "rtti.enumstruct_fields"
    let fields ← optTable b secs "rtti.fields"
    let _ ← optTable b secs "rtti.typedefs"
    let typesets ← optTable b secs "rtti.typesets"
    enumRows b names enums
    enumStructRows b names blob enumstructs esFields
    classdefRows b names blob classdefs fields
    typesetRows b names blob typesets
    pure (some ⟨⟨s.dataoffs, s.size⟩, methods, natives, enums, enumstructs, esFields, classdefs, fields, typesets⟩)

/-- What `validateDebugInfo` records: the section with the debug names, the file and line tables (offset, number of
rows). -/
structure DebugInfo where
  names : Sec
  files : Nat × Nat
  lines : Nat × Nat

/-- vm/smx-image.cpp:571-667 validateDebugInfo with the debug-break feature disabled (so validateDebugVariables and
validateDebugMethods are not run).  The pointers to symbol tables are not recorded. -/
def validateDebugInfo (b : Bytes) (secs : List Sec) (names : Sec) : V (Option DebugInfo) := do
  match ← findSection b (ascii ".dbg.info") secs with
  | none => pure none
  | some info =>
    rejectIf (sectionOk b info = false)
    let dbgNames ← (do
      match ← findSection b (ascii ".dbg.strings") secs with
      | none => pure names
      | some s =>
        rejectIf (sectionOk b s = false)
        if s.size ≠ 0 then do
          let x ← u8 b (s.dataoffs + s.size - 1)
          rejectIf (x ≠ 0)
          pure s
        else pure s)
    let files ← need b secs ".dbg.files"
    rejectIf (sectionOk b files = false)
    let numFiles ← u32 b info.dataoffs
    rejectIf (files.size < 8 * numFiles)
    let lines ← need b secs ".dbg.lines"
    rejectIf (sectionOk b lines = false)
    let numLines ← u32 b (info.dataoffs + 4)
    rejectIf (lines.size < 8 * numLines)
    match ← findSection b (ascii ".dbg.symbols") secs with
    | some s => rejectIf (sectionOk b s = false)
    | none =>
      let _ ← optTable b secs ".dbg.globals"
      let _ ← optTable b secs ".dbg.locals"
      let _ ← optTable b secs ".dbg.methods"
      pure ()
    pure (some ⟨dbgNames, (files.dataoffs, numFiles), (lines.dataoffs, numLines)⟩)

/-- A validated image. -/
structure Img where
  buf : Bytes
  secs : List Sec
  names : Sec
  code : CodeInfo
  data : Blob × Nat
  publics : Nat × Nat
  pubvars : Nat × Nat
  natives : Nat × Nat
  rtti : Option RttiTables
  debug : Option DebugInfo
  tags : Nat × Nat

/-- vm/smx-image.cpp:103-171: everything after decompression. -/
def validateBuffer (b : Bytes) : V Img := do
  let secs ← readContainer b
  let names ← validateNames b secs
  let code ← validateCode b secs
  let data ← validateData b secs
  let publics ← validateList b secs names ".publics" 8 4
  let pubvars ← validateList b secs names ".pubvars" 8 4
  let natives ← validateList b secs names ".natives" 4 0
  let rtti ← validateRtti b secs names code
  let debug ← validateDebugInfo b secs names
  let tags ← validateList b secs names ".tags" 8 4
  pure ⟨b, secs, names, code, data, publics, pubvars, natives, rtti, debug, tags⟩

/-- vm/smx-image.cpp:34-172 validate. -/
def validate (inflate : Inflate) (junk : Nat → BitVec 8) (b : Bytes) : V Img := do
  validateHeader b
  let b ← decompress inflate junk b
  validateBuffer b

end Verif.Smx

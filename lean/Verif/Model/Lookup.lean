/-!
Table lookups of a loaded plugin image (vm/smx-image.cpp) and the compiler side that fills the debug tables
(compiler/rtti-builder.cpp).
-/
namespace Verif.Image

/-- A run of bytes. -/
abbrev Bytes := List (BitVec 8)

/-! ## Debug tables -/

/-- The loop of vm/smx-image.cpp:881-890 and 968-977.  `none` is a read outside the table.  C's division
truncates towards zero; `low + high` is not negative whenever it is divided, so this is the same number.  `int`
overflow of `low + high` needs more than 2^30 entries (8 GiB) and is not modelled. -/
def search (addrs : List Nat) (addr : Nat) (low high : Int) : Option Int :=
  if high - low > 1 then
    let mid := (low + high) / 2
    if mid < 0 then none
    else
      match addrs[mid.toNat]? with
      | none => none
      | some a => if a ≤ addr then search addrs addr mid high else search addrs addr low mid
  else some low
termination_by (high - low).toNat
decreasing_by all_goals omega

/-- An entry of `.dbg.lines` (sp_fdbg_line_t) or `.dbg.files` (sp_fdbg_file_t): a code address and a line number or
name offset. -/
structure DbgEntry where
  addr : Nat
  val : Nat
deriving DecidableEq

/-- Outcome of a lookup. -/
inductive Found where
  | found (v : Nat)
  | missing
  | ub
deriving DecidableEq

/-- vm/smx-image.cpp:966-985 LookupLine. -/
def lookupLine (t : List DbgEntry) (addr : Nat) : Found :=
  match search (t.map (·.addr)) addr (-1) t.length with
  | none => .ub
  | some low =>
    if low = -1 then .missing
    else
      match t[low.toNat]? with
      | none => .ub
      | some e => .found ((e.val + 1) % 4294967296)

/-- vm/smx-image.cpp:879-898 LookupFile: the offset of the name, which must lie inside a names section of
`namesSize` bytes. -/
def lookupFile (namesSize : Nat) (t : List DbgEntry) (addr : Nat) : Found :=
  match search (t.map (·.addr)) addr (-1) t.length with
  | none => .ub
  | some low =>
    if low = -1 then .missing
    else
      match t[low.toNat]? with
      | none => .ub
      | some e => if e.val ≥ namesSize then .missing else .found e.val

/-- compiler/rtti-builder.cpp:120-136 AddDebugLine. `line` is a `cell`. -/
def addDebugLine (t : List DbgEntry) (addr : Nat) (line : Int) : List DbgEntry :=
  let v := ((if line > 0 then line - 1 else line) % 4294967296).toNat
  match t.getLast? with
  | some last => if last.addr = addr then t.dropLast ++ [⟨addr, v⟩] else t ++ [⟨addr, v⟩]
  | none => t ++ [⟨addr, v⟩]

/-- compiler/rtti-builder.h:111-112 and the file table: the file entries written so far and the pending one. -/
structure FileTable where
  entries : List DbgEntry
  lastAddr : Nat
  lastName : Bytes

/-- compiler/rtti-builder.h:111-112. -/
def FileTable.init : FileTable := ⟨[], 0, []⟩

/-- compiler/rtti-builder.cpp:81-86, 109-114: write the pending entry, `nameOff` being `names_->add`. -/
def FileTable.flush (nameOff : Bytes → Nat) (F : FileTable) : List DbgEntry :=
  if F.lastName ≠ [] then F.entries ++ [⟨F.lastAddr, nameOff F.lastName⟩] else F.entries

/-- compiler/rtti-builder.cpp:106-118 AddDebugFile. -/
def addDebugFile (nameOff : Bytes → Nat) (F : FileTable) (addr : Nat) (name : Bytes) : FileTable :=
  if addr ≠ F.lastAddr then ⟨F.flush nameOff, addr, name⟩ else { F with lastName := name }

/-! ## Names -/

/-- The C string starting at offset `off` of a region; `none` when it runs past the end. -/
def cstr (blob : Bytes) (off : Nat) : Option Bytes :=
  if 0 ∈ blob.drop off then some ((blob.drop off).takeWhile (· ≠ 0)) else none

/-- vm/smx-image.cpp:792-804 FindNative; `offs` are the name offsets of the table, `i` the loop counter.  The outer
`none` is a read outside the names section. -/
def findNativeFrom (names : Bytes) (name : Bytes) : List Nat → Nat → Option (Option Nat)
  | [], _ => some none
  | off :: offs, i =>
    match cstr names off with
    | none => none
    | some c => if c = name then some (some i) else findNativeFrom names name offs (i + 1)

/-- vm/smx-image.cpp:792-804 FindNative. -/
def findNative (names : Bytes) (offs : List Nat) (name : Bytes) : Option (Option Nat) :=
  findNativeFrom names name offs 0

/-- `publics_cache_` / `pubvars_cache_` (std::unordered_map keyed by string view): an association list; assigning
replaces. -/
abbrev Cache := List (Bytes × Nat)

/-- `cache[key] = i`. -/
def Cache.assign (c : Cache) (key : Bytes) (i : Nat) : Cache := (key, i) :: c.filter (·.1 ≠ key)

/-- The filling loop vm/smx-image.cpp:822-825, 854-857. -/
def fillFrom (names : Bytes) : List Nat → Nat → Cache → Option Cache
  | [], _, c => some c
  | off :: offs, i, c =>
    match cstr names off with
    | none => none
    | some key => fillFrom names offs (i + 1) (c.assign key i)

/-- vm/smx-image.cpp:819-836 FindPublic and 851-868 FindPubvar: the cache afterwards and the index found. -/
def findCached (names : Bytes) (offs : List Nat) (cache : Cache) (name : Bytes) : Option (Cache × Option Nat) :=
  match (if cache.isEmpty then fillFrom names offs 0 cache else some cache) with
  | none => none
  | some c => some (c, (c.find? (·.1 = name)).map (·.2))

/-- vm/smx-image.cpp:152-154 and 354-357: what `validate` checks about the names section and every name offset in the
public, pubvar and native tables. -/
def namesValidated (names : Bytes) (offs : List Nat) : Prop :=
  (names ≠ [] → names.getLast? = some 0) ∧ ∀ off ∈ offs, off < names.length

end Verif.Image

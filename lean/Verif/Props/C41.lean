import Verif.Proofs.ArrayRank

/-! C41: the initial contents of arrays and enum structs. -/
namespace Verif.ArrayInit

/-- The parts of the image. -/
theorem build_ok {b : Base} {dims : List Nat} {init : Option Init} (hv : Accepted b dims init) (hs : Supported b dims init) (base : Cell) :
    ∃ iv : List Cell, (buildArray b dims init base).cells = iv.map (fun v => adjust iv.length v + base) ++ (rows b dims init).flatten ∧
      iv.length = vectorCells dims ∧
      (iv.length < 536870912 → ∀ idx, Path dims idx →
        followRaw iv (emitRank b dims init ⟨[], [], 0⟩).2 idx = some (leafPtr ((rows b dims init).take (linear dims idx)).flatten.length)) := by
  obtain ⟨blk, h1, h2, h3, h4⟩ := emitRank_ok b dims init hv hs ⟨[], [], 0⟩
  refine ⟨blk, ?_, h2, ?_⟩
  · have h1' : (emitRank b dims init ⟨[], [], 0⟩).1.iv = blk := h1
    have h3' : content (emitRank b dims init ⟨[], [], 0⟩).1 = (rows b dims init).flatten := h3
    unfold buildArray Em.cells
    simp only [h1']
    rw [List.append_assoc]
    unfold content at h3'
    rw [h3']
  · intro hl idx hp
    have := h4 blk hl (fun j _ => by rw [List.length_nil, Nat.zero_add]) idx hp
    rw [this]
    show some (leafPtr (0 + _)) = _
    rw [Nat.zero_add]

/-- **C41, sizes.** For every array type with sizes for all dimensions and every accepted initialiser (of the supported forms, see
`Supported` and the counterexamples below), the emitted row vectors, data and zeros take exactly the cells of the type, and the compiler's
own figure for it is that number modulo 2^32. -/
theorem C41_size_partial {b : Base} {dims : List Nat} {init : Option Init} (hv : Accepted b dims init) (hs : Supported b dims init)
    (hn : dims.getLastD 0 ≠ 0) (base : Cell) :
    (buildArray b dims init base).cells.length = storage b dims ∧ calcArraySize b dims = BitVec.ofNat 32 (storage b dims) := by
  obtain ⟨iv, h1, h2, _⟩ := build_ok hv hs base
  constructor
  · rw [h1, List.length_append, List.length_map, h2, flatten_const (rows_lengths dims init hv hs hn), rows_length]
    rfl
  · cases dims with
    | nil => exact hs.elim
    | cons n ds =>
      unfold calcArraySize
      rw [calcLoop_eq]
      simp

/-- **C41, rows.** Under the same conditions (the last dimension can be open), indexing from the address of the array through the row
vectors with any indices within bounds leads to the row for them: the cells there are those its part of the initialiser means, and with a
declared last dimension its position is row-major. -/
theorem C41_row_partial {b : Base} {dims : List Nat} {init : Option Init} (hv : Accepted b dims init) (hs : Supported b dims init)
    (base : Cell) (hl : (buildArray b dims init base).cells.length < 536870912) {idx : List Nat} (hp : Path dims idx) :
    ∃ pos, follow (buildArray b dims init base).cells base base idx = some (base + BitVec.ofNat 32 (4 * pos)) ∧
      ((buildArray b dims init base).cells.drop pos).take (row b (dims.getLastD 0) (idx.foldl part init)).length =
        row b (dims.getLastD 0) (idx.foldl part init) ∧
      (dims.getLastD 0 ≠ 0 → pos = vectorCells dims + linear dims idx * rowSize b (dims.getLastD 0)) := by
  obtain ⟨iv, h1, h2, h3⟩ := build_ok hv hs base
  have hfl : ((rows b dims init).take (linear dims idx)).flatten.length ≤ (rows b dims init).flatten.length := by
    have : (rows b dims init).flatten = ((rows b dims init).take (linear dims idx)).flatten ++
        ((rows b dims init).drop (linear dims idx)).flatten := by
      rw [← List.flatten_append, List.take_append_drop]
    rw [this, List.length_append]
    omega
  rw [h1, List.length_append, List.length_map] at hl
  have h3 := h3 (by omega) idx hp
  refine ⟨iv.length + ((rows b dims init).take (linear dims idx)).flatten.length, ?_, ?_, ?_⟩
  · rw [h1]
    have hf := follow_raw (R := iv) (img := iv.map (fun v => adjust iv.length v + base) ++ (rows b dims init).flatten) (base := base)
      (fun i v h => by
        obtain ⟨hi, _⟩ := List.getElem?_eq_some_iff.mp h
        rw [List.getElem?_append_left (by rw [List.length_map]; exact hi), List.getElem?_map, h]
        rfl) idx _ _ h3
    rw [adjust_leaf (by omega)] at hf
    match dims, idx, hp with
    | [n], [], _ =>
      have hi0 : iv.length = 0 := h2
      rw [hi0]
      show some base = some (base + BitVec.ofNat 32 (4 * (0 + 0)))
      simp
    | n :: d :: ds, i :: idx, hp =>
      have ha : adjust iv.length (emitRank b (n :: d :: ds) init ⟨[], [], 0⟩).2 = 0 := by
        show adjust iv.length (BitVec.ofNat 32 (4 * 0)) = 0
        rw [adjust_vector (by decide)]
        rfl
      have e0 : (0 : Cell) + base = base := BitVec.zero_add base
      rw [ha, e0] at hf
      rw [hf, BitVec.add_comm]
  · rw [h1, List.drop_append, List.length_map, List.drop_of_length_le (by rw [List.length_map]; omega), List.nil_append,
      Nat.add_sub_cancel_left]
    exact flatten_at (rows_get b dims init idx hp)
  · intro hn
    rw [h2, flatten_const (fun r hr => rows_lengths dims init hv hs hn r (List.mem_of_mem_take hr)), List.length_take, rows_length,
      Nat.min_eq_left (Nat.le_of_lt (linear_lt _ _ hp))]

theorem supported_cells : ∀ (dims : List Nat) (init : Option Init), dims ≠ [] → Supported (.elem .cell) dims init
  | [], _, h => absurd rfl h
  | [_], _, _ => rfl
  | _ :: d :: ds, init, _ => fun i _ => supported_cells (d :: ds) (part init i) (by simp)

/-- **C41 for arrays of cells.** Whatever the initialiser: element `j` of the row at `idx` is at its row-major position after the row
vectors, where indexing finds it, and it is the `j`-th value in the braces for that row, or continues their progression if they end in an
ellipsis, or else is zero. -/
theorem C41_element {dims : List Nat} {init : Option Init} (hv : Accepted (.elem .cell) dims init) (hn : dims.getLastD 0 ≠ 0)
    (base : Cell) (hl : storage (.elem .cell) dims < 536870912) {idx : List Nat} (hp : Path dims idx) {j : Nat} (hj : j < dims.getLastD 0) :
    let img := (buildArray (.elem .cell) dims init base).cells
    let pos := vectorCells dims + linear dims idx * dims.getLastD 0
    img.length = storage (.elem .cell) dims ∧
    follow img base base idx = some (base + BitVec.ofNat 32 (4 * pos)) ∧
    img[pos + j]? = some (match idx.foldl part init with
      | some (.arr items ellipses) => element (items.map valueOf) ellipses j
      | _ => 0) := by
  have hs : Supported (.elem .cell) dims init := supported_cells dims init (by cases dims with | nil => exact absurd rfl hn | cons a l => simp)
  obtain ⟨hsz, _⟩ := C41_size_partial hv hs hn base
  obtain ⟨pos, h1, h2, h3⟩ := C41_row_partial hv hs base (by omega) hp
  have h3 := h3 hn
  have h3' : pos = vectorCells dims + linear dims idx * dims.getLastD 0 := h3
  refine ⟨hsz, by rw [← h3']; exact h1, ?_⟩
  have hmem : row (.elem .cell) (dims.getLastD 0) (idx.foldl part init) ∈ rows (.elem .cell) dims init :=
    List.mem_of_getElem? (rows_get _ dims init idx hp)
  have hlen : (row (.elem .cell) (dims.getLastD 0) (idx.foldl part init)).length = dims.getLastD 0 := rows_lengths dims init hv hs hn _ hmem
  have hget : (buildArray (.elem .cell) dims init base).cells[pos + j]? = (row (.elem .cell) (dims.getLastD 0) (idx.foldl part init))[j]? := by
    rw [← h2, List.getElem?_take, if_pos (by rw [hlen]; exact hj), List.getElem?_drop]
  rw [← h3', hget]
  have hacc : ∀ (dims : List Nat) (init : Option Init) (idx : List Nat), Accepted (.elem .cell) dims init → Path dims idx →
      Accepted (.elem .cell) [dims.getLastD 0] (idx.foldl part init) := by
    intro dims
    induction dims with
    | nil => intro init idx _ hp; cases idx <;> exact hp.elim
    | cons n ds ih =>
      intro init idx hv hp
      match ds, idx, hp, ih with
      | [], [], _, _ => exact hv
      | d :: ds, i :: idx, hp, ih =>
        have := ih (part init i) idx (accepted_part hv i) hp.2
        have e : (n :: d :: ds).getLastD 0 = (d :: ds).getLastD 0 := by simp [List.getLastD]
        rw [e]
        exact this
  have hacc := hacc dims init idx hv hp
  have hrep (n : Nat) (h : j < n) : (List.replicate n (0 : Cell))[j]? = some 0 := by
    rw [List.getElem?_replicate, if_pos h]
  generalize idx.foldl part init = x at hlen hacc ⊢
  cases x with
  | none => exact hrep _ hj
  | some x =>
    cases x with
    | num v => exact hrep _ hj
    | num64 v => exact hrep _ hj
    | str s => have := hacc _ rfl; simp [validRank, validRow] at this
    | arr items ell =>
      show (cellRow (items.map valueOf) ell (dims.getLastD 0))[j]? = some (element (items.map valueOf) ell j)
      have hlen : (cellRow (items.map valueOf) ell (dims.getLastD 0)).length = dims.getLastD 0 := hlen
      rw [cellRow_len] at hlen
      unfold cellRow
      rw [List.getElem?_map, hlen, List.getElem?_range hj]
      rfl

/-- **C41, enum structs.** A variable of enum struct type gets its fields one after the other, each from its own initialiser or zeros, and
takes the cells of the type. -/
theorem C41_struct_partial {fields : List FieldTy} {items : List Init} (hv : validStruct fields (.arr items false) = true)
    (ho : okFields fields items = true) :
    (buildStruct fields (some (.arr items false))).cells = structRow fields items ∧ (structRow fields items).length = esSize fields := by
  simp only [validStruct, Bool.and_eq_true] at hv
  obtain ⟨h1, h2, h3⟩ := addStruct_ok hv.1 ho ⟨[], [], 0⟩
  refine ⟨?_, h3⟩
  have h1' : content (addStruct fields items ⟨[], [], 0⟩) = structRow fields items := h1
  have h2' : (addStruct fields items ⟨[], [], 0⟩).iv = [] := h2
  have hp := pad_zeroes (n := padRank (.es fields) 1) (emitted := (addStruct fields items ⟨[], [], 0⟩).size) none none
    (addStruct fields items ⟨[], [], 0⟩)
  have hsz : (addStruct fields items ⟨[], [], 0⟩).size = esSize fields := by rw [size_content, h1', h3]
  show (pad _ (addStruct fields items ⟨[], [], 0⟩).size false none none (addStruct fields items ⟨[], [], 0⟩)).cells = _
  have hc (e : Em) : e.cells = e.iv ++ content e := by unfold Em.cells content; rw [List.append_assoc]
  rw [hc, hp.1, hp.2, h1', h2', hsz]
  have : padRank (.es fields) 1 - esSize fields = 0 := by
    show 1 * esSize fields - esSize fields = 0
    omega
  rw [this]
  simp

/-! ### Cases -/

/-- `int x[2][3] = {{1, 2, ...}, {7}}` at address 100: two row addresses, then 1 2 3 and 7 0 0. -/
example : (buildArray (.elem .cell) [2, 3] (some (.arr [.arr [.num 1, .num 2] true, .arr [.num 7] false] false)) 100).cells =
    [108, 120, 1, 2, 3, 7, 0, 0] := by decide

/-- It meets the conditions of `C41_element`. -/
example : Accepted (.elem .cell) [2, 3] (some (.arr [.arr [.num 1, .num 2] true, .arr [.num 7] false] false)) ∧
    Path [2, 3] [1] ∧ storage (.elem .cell) [2, 3] = 8 := by
  refine ⟨fun i hi => ?_, ⟨by decide, trivial⟩, by decide⟩
  cases hi
  simp [validRank, validRow]

/-- Three dimensions of strings: `char x[1][2][6] = {{"abcde", "f"}}`. -/
example : (buildArray (.elem .char) [1, 2, 6] (some (.arr [.arr [.str [97, 98, 99, 100, 101], .str [102]] false] false)) 0).cells =
    [4, 12, 20, 0x64636261, 0x65, 0x66, 0] := by decide

/-- They are supported. -/
example : Supported (.elem .char) [1, 2, 6] (some (.arr [.arr [.str [97, 98, 99, 100, 101], .str [102]] false] false)) ∧
    Accepted (.elem .char) [1, 2, 6] (some (.arr [.arr [.str [97, 98, 99, 100, 101], .str [102]] false] false)) := by
  refine ⟨fun i hi j hj => ?_, fun i hi => ?_⟩
  · have : i = 0 := by omega
    subst this
    match j, hj with
    | 0, _ => rfl
    | 1, _ => rfl
  · cases hi
    simp [validRank, validRow]

/-- Structs `{int a; char s[8]; int v[3];}`: `{{5, "hi", {1, ...}}}` in an array of two. -/
example : (buildArray (.es [.scalar .cell, .array .char 8, .array .cell 3]) [2]
    (some (.arr [.arr [.num 5, .str [104, 105], .arr [.num 1] true] false] false)) 0).cells =
    [5, 0x6968, 0, 1, 1, 1, 0, 0, 0, 0, 0, 0] := by decide

/-- They are accepted and supported. -/
example : validStruct [.scalar .cell, .array .char 8, .array .cell 3] (.arr [.num 5, .str [104, 105], .arr [.num 1] true] false) = true ∧
    okFields [.scalar .cell, .array .char 8, .array .cell 3] [.num 5, .str [104, 105], .arr [.num 1] true] = true := by decide

/-! ### Where the code does not keep it -/

/-- `int64 x[4];` takes eight cells, and four are emitted. -/
theorem C41_int64_short : Accepted (.elem .int64) [4] none ∧ storage (.elem .int64) [4] = 8 ∧
    (buildArray (.elem .int64) [4] none 0).cells.length = 4 :=
  ⟨fun _ h => (by cases h), by decide, by decide⟩

/-- `int64 x[4] = {1, ...}`: after the first element, two single cells that make up one element, instead of three elements. -/
theorem C41_int64_ellipsis : Accepted (.elem .int64) [4] (some (.arr [.num 1] true)) ∧
    (buildArray (.elem .int64) [4] (some (.arr [.num 1] true)) 0).cells = [1, 0, 1, 1] :=
  ⟨fun _ h => (by cases h; simp [validRank, validRow]), by decide⟩

/-- `char x[8] = {'a', 'b'}` is accepted, and stores "a", not "ab". -/
theorem C41_char_braces : Accepted (.elem .char) [8] (some (.arr [.num 97, .num 98] false)) ∧
    (buildArray (.elem .char) [8] (some (.arr [.num 97, .num 98] false)) 0).cells = [97, 98] :=
  ⟨fun _ h => (by cases h; simp [validRank, validRow, charCells]), by decide⟩

/-- `Foo x[1] = {{1}, {2}}` is accepted for an enum struct of one cell, and takes two cells. -/
theorem C41_struct_too_many : Accepted (.es [.scalar .cell]) [1] (some (.arr [.arr [.num 1] false, .arr [.num 2] false] false)) ∧
    storage (.es [.scalar .cell]) [1] = 1 ∧
    (buildArray (.es [.scalar .cell]) [1] (some (.arr [.arr [.num 1] false, .arr [.num 2] false] false)) 0).cells = [1, 2] :=
  ⟨fun _ h => (by cases h; simp [validRank, validStruct, validFields, validField]), by decide, by decide⟩

/-- An enum struct `{char s[8]; int a;}` with `{{'x', 'y'}, 7}`: the character array is filled up to eight cells, so that the field after it
is not where it should be and the struct is too long. -/
theorem C41_field_char_braces : validStruct [.array .char 8, .scalar .cell] (.arr [.arr [.num 120, .num 121] false, .num 7] false) = true ∧
    esSize [.array .char 8, .scalar .cell] = 3 ∧
    (buildStruct [.array .char 8, .scalar .cell] (some (.arr [.arr [.num 120, .num 121] false, .num 7] false))).cells =
      [120, 121, 0, 0, 0, 0, 0, 0, 7] := by decide

/-- The compiler's figure for the size of an array of structs can be 0. -/
theorem C41_size_wraps : calcArraySize (.es [.array .cell 65536]) [65536] = 0 ∧ storage (.es [.array .cell 65536]) [65536] = 4294967296 := by
  decide +kernel

end Verif.ArrayInit

import Verif.Model.Mem

/-!
Creation and initialisation of arrays in plugin memory (vm/plugin-runtime.cpp:870-1069, 1273-1375).
Memory is updated with pure functions; whether the touched range lies inside the memory block is
decided once, by the caller, with outcome `ub` when it does not.
-/
namespace Verif.VM

/-- amtl `IsUint32MultiplySafe`: the product fits 32 bits. -/
def mulSafe (a b : Int) : Bool := decide (a * b ≤ 4294967295)

/-- amtl `IsUint32AddSafe`: the sum fits 32 bits. -/
def addSafe (a b : Int) : Bool := decide (a + b ≤ 4294967295)

/-- vm/plugin-runtime.cpp:984-998, the loop over the outer dimensions: running cell count (uint32)
and running size of the indirection vectors (cell_t). -/
def sizeLoop : List Int → Int → Int → Option (Int × Int)
  | [], cells, iv => some (cells, iv)
  | d :: ds, cells, iv =>
    if d ≤ 0 then none
    else if !mulSafe cells d then none
    else if !addSafe (cells * d) d then none
    else sizeLoop ds (cells * d + d) (wrap32 (wrap32 (iv * d) + d * 4))

/-- vm/plugin-runtime.cpp:969-1003: total cells and indirection vector bytes; `none` is
SP_ERROR_ARRAY_TOO_BIG. `argv` lists the dimensions innermost first. -/
def arraySizes : List Int → Option (Int × Int)
  | [] => none
  | d0 :: ds =>
    if d0 ≤ 0 then none
    else match sizeLoop ds d0 0 with
      | none => none
      | some (cells, iv) => if mulSafe cells 4 then some (cells, iv) else none

/-- `for (i = 0; i < n; i++) st = f(i, st)`. -/
def forUpTo {σ : Type} : Nat → (Int → σ → σ) → σ → σ
  | 0, _, st => st
  | n+1, f, st => f n (forUpTo n f st)

/-- Cursors of the absolute indirection vector generator (struct abs_iv_data_t,
vm/plugin-runtime.cpp:938-945) together with the memory it writes. -/
structure IvState where
  mem : Int → BitVec 8
  iv : Int
  data : Int

/-- vm/plugin-runtime.cpp:947-965 GenerateAbsoluteIndirectionVectors.  `dims` is listed outermost
first: `dim` counts down to the last element of this list. The cursors stay below the byte size
that has been checked by the caller, so no 32-bit wrap-around can occur. -/
def genAbs (addr : Int) : List Int → IvState → IvState × Int
  | [], st => (st, st.data)
  | [d0], st => ({ st with data := st.data + d0 * 4 }, st.data)
  | d :: d' :: ds, st =>
    let base := st.iv
    let st := { st with iv := st.iv + d * 4 }
    (forUpTo d.toNat (fun i st =>
        let (st', off) := genAbs addr (d' :: ds) st
        { st' with mem := wr32 st'.mem (addr + (base + i * 4)) (BitVec.ofInt 32 (addr + off)) }) st,
     base)

/-- Cursors of the relative indirection vector generator (struct array_creation_t,
vm/plugin-runtime.cpp:870-875): `cur` is `cur_offs`, `data` is `*data_offs`, both in cells. -/
structure RelState where
  mem : Int → BitVec 8
  cur : Int
  data : Int

/-- vm/plugin-runtime.cpp:877-908 GenerateInnerArrayIndirectionVectors; `base` is the byte address
of the array, `dims` the dimensions from the current one on, outermost first.  `cur` enters with the
offset of this vector and leaves with the next free offset. -/
def genRel (base : Int) : List Int → RelState → RelState
  | [], st => st
  | [_], st => st
  | [d, d0], st =>
    let w := st.cur
    let st := { st with cur := st.cur + d }
    forUpTo d.toNat (fun i st =>
      { st with mem := wr32 st.mem (base + (w + i) * 4) (BitVec.ofInt 32 ((st.data - (w + i)) * 4)),
                data := st.data + d0 }) st
  | d :: d' :: d'' :: ds, st =>
    let w := st.cur
    let st := { st with cur := st.cur + d }
    forUpTo d.toNat (fun i st =>
      genRel base (d' :: d'' :: ds)
        { st with mem := wr32 st.mem (base + (w + i) * 4) (BitVec.ofInt 32 ((st.cur - (w + i)) * 4)) })
      st

/-- vm/plugin-runtime.cpp:910-916 calc_indirection, dimensions outermost first. -/
def calcIndirection : List Int → Int
  | [] => 0
  | [_] => 0
  | [d, _] => d
  | d :: d' :: d'' :: ds => d + d * calcIndirection (d' :: d'' :: ds)

/-- `memset(memory_ + a, 0, n)`. -/
def zeroFill (m : Int → BitVec 8) (a n : Int) : Int → BitVec 8 :=
  fun x => if a ≤ x ∧ x < a + n then 0 else m x

/-- vm/plugin-runtime.cpp:967-1036 generateFullArray; `argv` innermost first.  Returns the base
address that the code stores in `argv[argc - 1]`.  The comparison `new_hp >= sp_ - STACK_MARGIN` is
unsigned.  Touching the block `[hp, new_hp)` outside the memory is undefined behaviour. -/
def generateFullArray (argv : List Int) (autozero : Bool) : VMM Int := fun s =>
  match arraySizes argv with
  | none => .fail s .arrayTooBig
  | some (cells, iv) =>
    let bytes := cells * 4
    if !addSafe (s.hp % 4294967296) bytes then .fail s .arrayTooBig
    else
      let newHp := s.hp % 4294967296 + bytes
      if newHp ≥ (s.sp - stackMargin) % 4294967296 then .fail s .heapLow
      else if ¬ s.inMem s.hp bytes then .ub
      else
        let m0 := if autozero then zeroFill s.mem (s.hp + iv) (bytes - iv) else s.mem
        let m1 := if s.directArrays then
            (genAbs s.hp argv.reverse { mem := m0, iv := 0, data := iv }).1.mem
          else
            (genRel s.hp argv.reverse
              { mem := m0, cur := 0, data := calcIndirection argv.reverse }).mem
        let s1 := { s with mem := m1, hp := wrap32 newHp }
        if s.usesHeapScopes then .ok s1 s.hp
        else match pushTracker bytes s1 with
          | .ok s2 _ => .ok s2 s.hp
          | .fail s2 e => .fail s2 e
          | .ub => .ub

/-- vm/plugin-runtime.cpp:1038-1063 generateArray for one dimension: `stk` is the address of the cell
that holds the size and receives the address. -/
def generateArray1 (stk : Int) (autozero : Bool) : VMM Unit := fun s =>
  match loadRaw stk s with
  | .ok s sizeCell =>
    let size : Int := sizeCell.toNat
    if size = 0 then .fail s .invalidArraySize
    else if !mulSafe size 4 then .fail s .arrayTooBig
    else
      let s1 := { s with mem := wr32 s.mem stk (BitVec.ofInt 32 s.hp) }
      let bytes := size * 4
      if s.hp + bytes ≥ stk then .fail s1 .heapLow
      else
        let s2 := { s1 with hp := wrap32 (s.hp + bytes) }
        let finish (s3 : State) : Res State Unit :=
          if autozero then
            if s3.inMem s.hp bytes then .ok { s3 with mem := zeroFill s3.mem s.hp bytes } () else .ub
          else .ok s3 ()
        if s.usesHeapScopes then finish s2
        else match pushTracker bytes s2 with
          | .ok s3 _ => finish s3
          | .fail s3 e => .fail s3 e
          | .ub => .ub
  | .fail s e => .fail s e
  | .ub => .ub

/-- Cells `a, a+4, ...` (n of them), read as signed integers. -/
def readCells (m : Int → BitVec 8) (a : Int) (n : Nat) : List Int :=
  (List.range n).map fun (i : Nat) => (rd32 m (a + (i : Int) * 4)).toInt

/-- `for (i = 0; i < n; i++) popStack(&ignore)`, vm/interpreter.cpp:993-997. -/
def popN : Nat → VMM Unit
  | 0 => pure ()
  | n+1 => do let _ ← popStack; popN n

/-- vm/interpreter.cpp:978-999 visitGENARRAY (with generateArray, vm/plugin-runtime.cpp:1038-1069). -/
def genArray (dims : Nat) (autozero : Bool) : VMM Unit := fun s =>
  match acquireAddrRange s.sp (wrap32 (dims * 4)) s with
  | .ok s p =>
    if dims = 1 then generateArray1 p autozero s
    else
      match generateFullArray (readCells s.mem p dims) autozero s with
      | .ok s base =>
        (do storeRaw (p + (dims - 1) * 4) (BitVec.ofInt 32 base)
            popN (dims - 1) : VMM Unit) s
      | .fail s e => .fail s e
      | .ub => .ub
  | .fail s e => .fail s e
  | .ub => .ub

/-- `while (fill_pos < fill_end) *fill_pos++ = v` over `n` cells. -/
def fillCells (m : Int → BitVec 8) (a : Int) (v : Cell) : Nat → (Int → BitVec 8)
  | 0 => m
  | n+1 => wr32 (fillCells m a v n) (a + n * 4) v

/-- `n` cells copied one after the other from `src` to `dst`, adding `rel` to each. -/
def copyCells (m : Int → BitVec 8) (dst src : Int) (rel : Cell) : Nat → (Int → BitVec 8)
  | 0 => m
  | n+1 =>
    let m' := copyCells m dst src rel n
    wr32 m' (dst + n * 4) (rd32 m' (src + n * 4) + rel)

/-- vm/plugin-runtime.cpp:1273-1332 initArray.  Sizes are in cells.  Pointer comparisons are made on
plugin addresses.  A negative size, a `memcpy` between overlapping ranges and an access outside the
memory block are undefined behaviour. -/
def initArray (arr dat ivSize copySize fillSize : Int) (fill : Cell) : VMM Unit := fun s =>
  match localToPhysAddr arr s with
  | .fail s e => .fail s e
  | .ub => .ub
  | .ok s _ =>
    if ivSize < 0 ∨ copySize < 0 ∨ fillSize < 0 then .ub
    else
      let data := arr + ivSize * 4
      if data + (copySize + fillSize - 1) * 4 ≥ s.memSize then .fail s .invalidAddress
      else
        let body : Res State Unit :=
          if ivSize = 0 ∧ copySize = 0 then .ok s ()
          else
            match localToPhysAddr dat s with
            | .fail s e => .fail s e
            | .ub => .ub
            | .ok s _ =>
              let tplData := dat + ivSize * 4
              if tplData + (copySize - 1) * 4 ≥ s.dataSize then .fail s .invalidAddress
              else if ¬ s.inMem arr ((ivSize + copySize) * 4) ∨
                  ¬ s.inMem dat ((ivSize + copySize) * 4) ∨
                  (copySize ≠ 0 ∧ ¬ (data + copySize * 4 ≤ tplData ∨ tplData + copySize * 4 ≤ data))
                then .ub
              else
                let m1 := copyCells s.mem arr dat (BitVec.ofInt 32 arr) ivSize.toNat
                let m2 := copyCells m1 data tplData 0 copySize.toNat
                .ok { s with mem := m2 } ()
        match body with
        | .ok s _ =>
          if fillSize = 0 then .ok s ()
          else if ¬ s.inMem (data + copySize * 4) (fillSize * 4) then .ub
          else .ok { s with mem := fillCells s.mem (data + copySize * 4) fill fillSize.toNat } ()
        | .fail s e => .fail s e
        | .ub => .ub

end Verif.VM

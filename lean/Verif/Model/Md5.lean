import Verif.Spec.Md5

/-!
The MD5 class (vm/md5/md5.cpp).  `none` is a read outside the input.  `uint4` is `BitVec 32`; positions in the input are natural numbers,
their sums reduced where the code computes them in `uint4`.  `update(FILE *)`, the constructor from a file and the hexadecimal digest are
not modelled.
-/
namespace Verif.Md5

/-- vm/md5/md5.cpp:431-445: which of F, G, H, I is used. -/
inductive Fn where
  | ff | gg | hh | ii
deriving DecidableEq

/-- The variables a, b, c, d of `transform`. -/
inductive Var where
  | a | b | c | d
deriving DecidableEq

/-- A call of FF, GG, HH or II: its four variables, the index into x, the shift and the constant. -/
structure Op where
  fn : Fn
  v0 : Var
  v1 : Var
  v2 : Var
  v3 : Var
  x : Nat
  shift : Nat
  ac : Nat

/-- vm/md5/md5.cpp:283-352: the calls `transform` makes, in order (with the S constants, 253-268, replaced by their values). -/
def ops : List Op := [
  ⟨.ff, .a, .b, .c, .d, 0, 7, 0xd76aa478⟩, ⟨.ff, .d, .a, .b, .c, 1, 12, 0xe8c7b756⟩, ⟨.ff, .c, .d, .a, .b, 2, 17, 0x242070db⟩, ⟨.ff, .b, .c, .d, .a, 3, 22, 0xc1bdceee⟩,
  ⟨.ff, .a, .b, .c, .d, 4, 7, 0xf57c0faf⟩, ⟨.ff, .d, .a, .b, .c, 5, 12, 0x4787c62a⟩, ⟨.ff, .c, .d, .a, .b, 6, 17, 0xa8304613⟩, ⟨.ff, .b, .c, .d, .a, 7, 22, 0xfd469501⟩,
  ⟨.ff, .a, .b, .c, .d, 8, 7, 0x698098d8⟩, ⟨.ff, .d, .a, .b, .c, 9, 12, 0x8b44f7af⟩, ⟨.ff, .c, .d, .a, .b, 10, 17, 0xffff5bb1⟩, ⟨.ff, .b, .c, .d, .a, 11, 22, 0x895cd7be⟩,
  ⟨.ff, .a, .b, .c, .d, 12, 7, 0x6b901122⟩, ⟨.ff, .d, .a, .b, .c, 13, 12, 0xfd987193⟩, ⟨.ff, .c, .d, .a, .b, 14, 17, 0xa679438e⟩, ⟨.ff, .b, .c, .d, .a, 15, 22, 0x49b40821⟩,
  ⟨.gg, .a, .b, .c, .d, 1, 5, 0xf61e2562⟩, ⟨.gg, .d, .a, .b, .c, 6, 9, 0xc040b340⟩, ⟨.gg, .c, .d, .a, .b, 11, 14, 0x265e5a51⟩, ⟨.gg, .b, .c, .d, .a, 0, 20, 0xe9b6c7aa⟩,
  ⟨.gg, .a, .b, .c, .d, 5, 5, 0xd62f105d⟩, ⟨.gg, .d, .a, .b, .c, 10, 9, 0x2441453⟩, ⟨.gg, .c, .d, .a, .b, 15, 14, 0xd8a1e681⟩, ⟨.gg, .b, .c, .d, .a, 4, 20, 0xe7d3fbc8⟩,
  ⟨.gg, .a, .b, .c, .d, 9, 5, 0x21e1cde6⟩, ⟨.gg, .d, .a, .b, .c, 14, 9, 0xc33707d6⟩, ⟨.gg, .c, .d, .a, .b, 3, 14, 0xf4d50d87⟩, ⟨.gg, .b, .c, .d, .a, 8, 20, 0x455a14ed⟩,
  ⟨.gg, .a, .b, .c, .d, 13, 5, 0xa9e3e905⟩, ⟨.gg, .d, .a, .b, .c, 2, 9, 0xfcefa3f8⟩, ⟨.gg, .c, .d, .a, .b, 7, 14, 0x676f02d9⟩, ⟨.gg, .b, .c, .d, .a, 12, 20, 0x8d2a4c8a⟩,
  ⟨.hh, .a, .b, .c, .d, 5, 4, 0xfffa3942⟩, ⟨.hh, .d, .a, .b, .c, 8, 11, 0x8771f681⟩, ⟨.hh, .c, .d, .a, .b, 11, 16, 0x6d9d6122⟩, ⟨.hh, .b, .c, .d, .a, 14, 23, 0xfde5380c⟩,
  ⟨.hh, .a, .b, .c, .d, 1, 4, 0xa4beea44⟩, ⟨.hh, .d, .a, .b, .c, 4, 11, 0x4bdecfa9⟩, ⟨.hh, .c, .d, .a, .b, 7, 16, 0xf6bb4b60⟩, ⟨.hh, .b, .c, .d, .a, 10, 23, 0xbebfbc70⟩,
  ⟨.hh, .a, .b, .c, .d, 13, 4, 0x289b7ec6⟩, ⟨.hh, .d, .a, .b, .c, 0, 11, 0xeaa127fa⟩, ⟨.hh, .c, .d, .a, .b, 3, 16, 0xd4ef3085⟩, ⟨.hh, .b, .c, .d, .a, 6, 23, 0x4881d05⟩,
  ⟨.hh, .a, .b, .c, .d, 9, 4, 0xd9d4d039⟩, ⟨.hh, .d, .a, .b, .c, 12, 11, 0xe6db99e5⟩, ⟨.hh, .c, .d, .a, .b, 15, 16, 0x1fa27cf8⟩, ⟨.hh, .b, .c, .d, .a, 2, 23, 0xc4ac5665⟩,
  ⟨.ii, .a, .b, .c, .d, 0, 6, 0xf4292244⟩, ⟨.ii, .d, .a, .b, .c, 7, 10, 0x432aff97⟩, ⟨.ii, .c, .d, .a, .b, 14, 15, 0xab9423a7⟩, ⟨.ii, .b, .c, .d, .a, 5, 21, 0xfc93a039⟩,
  ⟨.ii, .a, .b, .c, .d, 12, 6, 0x655b59c3⟩, ⟨.ii, .d, .a, .b, .c, 3, 10, 0x8f0ccc92⟩, ⟨.ii, .c, .d, .a, .b, 10, 15, 0xffeff47d⟩, ⟨.ii, .b, .c, .d, .a, 1, 21, 0x85845dd1⟩,
  ⟨.ii, .a, .b, .c, .d, 8, 6, 0x6fa87e4f⟩, ⟨.ii, .d, .a, .b, .c, 15, 10, 0xfe2ce6e0⟩, ⟨.ii, .c, .d, .a, .b, 6, 15, 0xa3014314⟩, ⟨.ii, .b, .c, .d, .a, 13, 21, 0x4e0811a1⟩,
  ⟨.ii, .a, .b, .c, .d, 4, 6, 0xf7537e82⟩, ⟨.ii, .d, .a, .b, .c, 11, 10, 0xbd3af235⟩, ⟨.ii, .c, .d, .a, .b, 2, 15, 0x2ad7d2bb⟩, ⟨.ii, .b, .c, .d, .a, 9, 21, 0xeb86d391⟩]

def Regs.get (r : Regs) : Var → Word
  | .a => r.a
  | .b => r.b
  | .c => r.c
  | .d => r.d

def Regs.set (r : Regs) (v : Var) (w : Word) : Regs :=
  match v with
  | .a => { r with a := w }
  | .b => { r with b := w }
  | .c => { r with c := w }
  | .d => { r with d := w }

/-- vm/md5/md5.cpp:422-424 rotate_left. -/
def rotl (x : Word) (n : Nat) : Word := (x <<< n) ||| (x >>> (32 - n))

/-- vm/md5/md5.cpp:431-445 F, G, H, I. -/
def Fn.eval : Fn → Word → Word → Word → Word
  | .ff, x, y, z => (x &&& y) ||| (~~~x &&& z)
  | .gg, x, y, z => (x &&& z) ||| (y &&& ~~~z)
  | .hh, x, y, z => x ^^^ y ^^^ z
  | .ii, x, y, z => y ^^^ (x ||| ~~~z)

/-- vm/md5/md5.cpp:453-476 FF, GG, HH, II. -/
def Op.run (x : List Word) (r : Regs) (o : Op) : Regs :=
  let a := r.get o.v0 + (o.fn.eval (r.get o.v1) (r.get o.v2) (r.get o.v3) + x.getD o.x 0 + BitVec.ofNat 32 o.ac)
  r.set o.v0 (rotl a o.shift + r.get o.v1)

/-- vm/md5/md5.cpp:385-392 decode: one word. -/
def decodeWord (b0 b1 b2 b3 : Byte) : Word :=
  b0.setWidth 32 ||| (b1.setWidth 32 <<< 8) ||| (b2.setWidth 32 <<< 16) ||| (b3.setWidth 32 <<< 24)

/-- vm/md5/md5.cpp:385-392 decode. -/
def decode : List Byte → List Word
  | a :: b :: c :: d :: l => decodeWord a b c d :: decode l
  | _ => []

/-- vm/md5/md5.cpp:368-378 encode. -/
def encode : List Word → List Byte
  | [] => []
  | w :: l => w.setWidth 8 :: (w >>> 8).setWidth 8 :: (w >>> 16).setWidth 8 :: (w >>> 24).setWidth 8 :: encode l

/-- vm/md5/md5.h: the private data.  `count0` and `count1` are the two words of `count`. -/
structure Ctx where
  state : Regs
  count0 : Word
  count1 : Word
  buffer : List Byte
  digest : List Byte
  finalized : Bool

/-- vm/md5/md5.cpp:233-246 init; the buffer and the digest are not initialised. -/
def Ctx.init (buffer digest : List Byte) : Ctx :=
  ⟨⟨0x67452301, 0xefcdab89, 0x98badcfe, 0x10325476⟩, 0, 0, buffer, digest, false⟩

/-- vm/md5/md5.cpp:274-363 transform. -/
def transform (r : Regs) (blk : List Byte) : Regs :=
  let q := ops.foldl (Op.run (decode blk)) r
  ⟨r.a + q.a, r.b + q.b, r.c + q.c, r.d + q.d⟩

/-- vm/md5/md5.cpp:88-90: the loop over the whole blocks of the input, and where it stops. -/
def transformAll (input : List Byte) (index : Nat) (r : Regs) : Option (Nat × Regs) :=
  if (index + 63) % 4294967296 < input.length then
    if index + 64 ≤ input.length then transformAll input (index + 64) (transform r ((input.drop index).take 64))
    else none
  else some (index, r)
termination_by input.length - index

/-- The memcpy into a buffer. -/
def put (buffer : List Byte) (at_ : Nat) (l : List Byte) : List Byte := buffer.take at_ ++ l ++ buffer.drop (at_ + l.length)

/-- vm/md5/md5.cpp:61-101 update, for an input shorter than 2^32. -/
def update (input : List Byte) (m : Ctx) : Option Ctx :=
  if m.finalized then some m
  else
    let len : Word := BitVec.ofNat 32 input.length
    let index := ((m.count0 >>> 3) &&& 63).toNat
    let count0 := m.count0 + (len <<< 3)
    let count1 := if count0 < (len <<< 3) then m.count1 + 1 else m.count1
    let count1 := count1 + (len >>> 29)
    let space := 64 - index
    if input.length ≥ space then
      let buffer := put m.buffer index (input.take space)
      match transformAll input space (transform m.state buffer) with
      | none => none
      | some (i, r) => some { m with count0 := count0, count1 := count1, state := r, buffer := put buffer 0 (input.drop i) }
    else some { m with count0 := count0, count1 := count1, buffer := put m.buffer index input }

/-- vm/md5/md5.cpp:126-161 finalize.  The memset clears one byte of the buffer. -/
def finalize (m : Ctx) : Option Ctx :=
  if m.finalized then some m
  else
    let bits := encode [m.count0, m.count1]
    let index := ((m.count0 >>> 3) &&& 63).toNat
    let padLen := if index < 56 then 56 - index else 120 - index
    match update ((128 :: List.replicate 63 0).take padLen) m with
    | none => none
    | some m =>
      match update bits m with
      | none => none
      | some m =>
        some { m with digest := encode [m.state.a, m.state.b, m.state.c, m.state.d], buffer := put m.buffer 0 [0], finalized := true }

/-- vm/md5/md5.cpp:185-194 raw_digest into a buffer; `none` when there is no digest yet. -/
def rawDigest (m : Ctx) : Option (List Byte) := if m.finalized then some m.digest else none

/-- Several updates. -/
def updates : List (List Byte) → Ctx → Option Ctx
  | [], m => some m
  | c :: cs, m => (update c m).bind (updates cs)

/-- What a user does: a new object, some updates, finalize and raw_digest. -/
def md5 (buffer digest : List Byte) (chunks : List (List Byte)) : Option (List Byte) :=
  (updates chunks (.init buffer digest)).bind fun m => (finalize m).bind rawDigest

end Verif.Md5

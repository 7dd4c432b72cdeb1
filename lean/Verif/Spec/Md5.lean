/-!
MD5 as RFC 1321 defines it: the message is padded (3.1, 3.2), and its 16-word blocks are processed one after the other (3.3, 3.4).
-/
namespace Verif.Md5

abbrev Byte := BitVec 8
abbrev Word := BitVec 32

/-- The four words A, B, C, D. -/
structure Regs where
  a : Word
  b : Word
  c : Word
  d : Word
deriving DecidableEq

namespace Spec

/-- RFC 1321, 3.4: `T[i]`, the integer part of 4294967296 times `abs(sin(i))`, for i from 1 to 64. -/
def table : List Nat := [
  3614090360, 3905402710, 606105819, 3250441966, 4118548399, 1200080426, 2821735955, 4249261313,
  1770035416, 2336552879, 4294925233, 2304563134, 1804603682, 4254626195, 2792965006, 1236535329,
  4129170786, 3225465664, 643717713, 3921069994, 3593408605, 38016083, 3634488961, 3889429448,
  568446438, 3275163606, 4107603335, 1163531501, 2850285829, 4243563512, 1735328473, 2368359562,
  4294588738, 2272392833, 1839030562, 4259657740, 2763975236, 1272893353, 4139469664, 3200236656,
  681279174, 3936430074, 3572445317, 76029189, 3654602809, 3873151461, 530742520, 3299628645,
  4096336452, 1126891415, 2878612391, 4237533241, 1700485571, 2399980690, 4293915773, 2240044497,
  1873313359, 4264355552, 2734768916, 1309151649, 4149444226, 3174756917, 718787259, 3951481745]

/-- 3.4: the auxiliary functions F, G, H and I, of the rounds 0 to 3. -/
def aux (round : Nat) (x y z : Word) : Word :=
  if round = 0 then (x &&& y) ||| (~~~x &&& z)
  else if round = 1 then (x &&& z) ||| (y &&& ~~~z)
  else if round = 2 then x ^^^ y ^^^ z
  else y ^^^ (x ||| ~~~z)

/-- 3.4: the word of the block that operation `i` (from 0) uses. -/
def index (i : Nat) : Nat :=
  if i < 16 then i else if i < 32 then (5 * i + 1) % 16 else if i < 48 then (3 * i + 5) % 16 else 7 * i % 16

/-- 3.4: how far operation `i` rotates. -/
def amount (i : Nat) : Nat :=
  (if i < 16 then [7, 12, 17, 22] else if i < 32 then [5, 9, 14, 20] else if i < 48 then [4, 11, 16, 23] else [6, 10, 15, 21]).getD (i % 4) 0

/-- 3.4: operation `i`, `a = b + ((a + F(b,c,d) + X[k] + T[i]) <<< s)`, after which the registers change roles. -/
def operation (x : List Word) (r : Regs) (i : Nat) : Regs :=
  { a := r.d, d := r.c, c := r.b,
    b := r.b + (r.a + aux (i / 16) r.b r.c r.d + x.getD (index i) 0 + BitVec.ofNat 32 (table.getD i 0)).rotateLeft (amount i) }

/-- 3.4: one block of 16 words. -/
def block (r : Regs) (x : List Word) : Regs :=
  let q := (List.range 64).foldl (operation x) r
  ⟨r.a + q.a, r.b + q.b, r.c + q.c, r.d + q.d⟩

/-- Section 2: bytes form words with the low-order byte first. -/
def words : List Byte → List Word
  | a :: b :: c :: d :: l => BitVec.ofNat 32 (a.toNat + 256 * b.toNat + 65536 * c.toNat + 16777216 * d.toNat) :: words l
  | _ => []

/-- The low-order bytes of a number, lowest first. -/
def bytes : Nat → Nat → List Byte
  | 0, _ => []
  | k+1, n => BitVec.ofNat 8 n :: bytes k (n / 256)

/-- 3.1, 3.2: a one bit, zeros up to 56 bytes modulo 64, and the length in bits modulo 2^64. -/
def padding (len : Nat) : List Byte :=
  128#8 :: List.replicate ((119 - len % 64) % 64) 0 ++ bytes 8 (8 * len)

/-- 3.4: the blocks of a padded message. -/
def blocks : Nat → Regs → List Byte → Regs
  | 0, r, _ => r
  | n+1, r, m => blocks n (block r (words (m.take 64))) (m.drop 64)

/-- 3.3 -/
def initial : Regs := ⟨0x67452301, 0xefcdab89, 0x98badcfe, 0x10325476⟩

/-- 3.5: the digest of a message. -/
def digest (m : List Byte) : List Byte :=
  let p := m ++ padding m.length
  let r := blocks (p.length / 64) initial p
  bytes 4 r.a.toNat ++ bytes 4 r.b.toNat ++ bytes 4 r.c.toNat ++ bytes 4 r.d.toNat

/-- RFC 1321, A.5: the digests of the empty message and of "abc". -/
example : digest [] = [0xd4, 0x1d, 0x8c, 0xd9, 0x8f, 0x00, 0xb2, 0x04, 0xe9, 0x80, 0x09, 0x98, 0xec, 0xf8, 0x42, 0x7e] := by decide +kernel
example : digest [97, 98, 99] =
    [0x90, 0x01, 0x50, 0x98, 0x3c, 0xd2, 0x4f, 0xb0, 0xd6, 0x96, 0x3f, 0x7d, 0x28, 0xe1, 0x7f, 0x72] := by decide +kernel

end Spec
end Verif.Md5

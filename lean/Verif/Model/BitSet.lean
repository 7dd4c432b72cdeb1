/-!
The growable bit set of include/utils/bitset.h.  Words are 64 bits (`uintptr_t` on a 64-bit host).  The
optional `max_bits_` only feeds assertions and is left out.
-/
namespace Verif.BitSet

/-- `std::vector<uintptr_t> words_`, include/utils/bitset.h:118. -/
abbrev Words := List (BitVec 64)

/-- `uintptr_t(1) << pos`. -/
def mask (pos : Nat) : BitVec 64 := 1#64 <<< pos

/-- include/utils/bitset.h:39-44 test. -/
def test (ws : Words) (bit : Nat) : Bool :=
  match ws[bit / 64]? with
  | none => false
  | some w => w &&& mask (bit % 64) != 0

/-- `words_.resize(n)` for a larger n: zero filled. -/
def grow (ws : Words) (n : Nat) : Words := ws ++ List.replicate (n - ws.length) 0

/-- include/utils/bitset.h:46-52 set. -/
def set (ws : Words) (bit : Nat) : Words :=
  let ws := if bit / 64 ≥ ws.length then grow ws (bit / 64 + 1) else ws
  ws.modify (bit / 64) (· ||| mask (bit % 64))

/-- include/utils/bitset.h:54-59 unset. -/
def unset (ws : Words) (bit : Nat) : Words :=
  if bit / 64 < ws.length then ws.modify (bit / 64) (· &&& ~~~ mask (bit % 64)) else ws

/-- `ke::FindRightmostBit` of a non-zero word (amtl/am-bits.h): index of the lowest set bit.  The
compiler intrinsic is replaced by a search from bit 0. -/
def lowBit (w : BitVec 64) : Nat := ((List.range 64).find? fun i => w.getLsbD i).getD 0

/-- include/utils/bitset.h:61-72 take_any; the loop runs on the reversed word list, whose head is
`words_.back()`. -/
def takeAnyRev : List (BitVec 64) → Option Nat × List (BitVec 64)
  | [] => (none, [])
  | w :: rest =>
    if w ≠ 0 then
      let bit := lowBit w
      (some (rest.length * 64 + bit), (w &&& ~~~ mask bit) :: rest)
    else takeAnyRev rest

/-- include/utils/bitset.h:61-72 take_any. -/
def takeAny (ws : Words) : Option Nat × Words :=
  let (r, rev) := takeAnyRev ws.reverse
  (r, rev.reverse)

/-- include/utils/bitset.h:78-82: bits of one word in the order they are visited.  At most 64 rounds. -/
def wordBits : Nat → BitVec 64 → List Nat
  | 0, _ => []
  | n+1, w => if w = 0 then [] else lowBit w :: wordBits n (w &&& ~~~ mask (lowBit w))

/-- include/utils/bitset.h:74-84 for_each: the indexes passed to the callback, in order; `i` is the index
of the first word of the list. -/
def forEachFrom (i : Nat) : Words → List Nat
  | [] => []
  | w :: ws => (wordBits 64 w).map (i * 64 + ·) ++ forEachFrom (i + 1) ws

/-- include/utils/bitset.h:74-84 for_each. -/
def forEach (ws : Words) : List Nat := forEachFrom 0 ws

/-- include/utils/bitset.h:92-97, second loop of or_with over the words `other[i..]`. -/
def orTail (ws : Words) (i : Nat) : List (BitVec 64) → Words
  | [] => ws
  | o :: os =>
    if o = 0 then orTail ws (i + 1) os
    else orTail ((grow ws (i + 1)).set i o) (i + 1) os

/-- include/utils/bitset.h:86-91, first loop of or_with. -/
def orHead : Words → List (BitVec 64) → Words
  | [], _ => []
  | ws, [] => ws
  | w :: ws, o :: os => (w ||| o) :: orHead ws os

/-- include/utils/bitset.h:86-99 or_with. -/
def orWith (ws other : Words) : Words := orTail (orHead ws other) ws.length (other.drop ws.length)

end Verif.BitSet

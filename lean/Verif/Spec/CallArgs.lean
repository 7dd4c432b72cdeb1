import Verif.Model.CallArgs
import Verif.Props.C13

/-! What a host call passes to the plugin and what it brings back (C48). -/
namespace Verif.VM

/-- The arguments that lie within the documented contract: host objects are large enough, sizes can be allocated, a text to be
copied is terminated, and UTF-8 text is valid UTF-8.  64-bit integers are not included. -/
inductive ValidArg (H : Host) (x : ArgSlot) : Prop where
  | cell : x.type = argCell → ValidArg H x
  | ref bs : x.type = argRef → H x.u = some bs → 4 ≤ bs.length → ValidArg H x
  | array bs : x.type = argArray → H x.u = some bs → x.size.toNat < 536870911 → 4 * x.size.toNat ≤ bs.length →
      ValidArg H x
  | chars bs : x.type = argChars → H x.u = some bs → x.size.toNat < 2147483640 →
      (x.flags.getLsbD 0 = true → x.size.toNat ≤ bs.length) →
      (x.flags.getLsbD 2 = true → x.flags.getLsbD 1 = true → x.size.toNat ≠ 1 ∧ ∃ cs rest, bs = utf8 cs ++ 0 :: rest ∧
        ∀ b ∈ utf8 cs, b ≠ 0) →
      (x.flags.getLsbD 2 = true → x.flags.getLsbD 1 = false → x.flags.getLsbD 3 = true → x.size.toNat ≤ bs.length) →
      (x.flags.getLsbD 2 = true → x.flags.getLsbD 1 = false → x.flags.getLsbD 3 = false → 0 ∈ bs) → ValidArg H x

/-- Memory holds the bytes `bs` at `a`. -/
def HoldsBytes (m : Int → BitVec 8) (a : Int) (bs : List (BitVec 8)) : Prop := ∀ i (h : i < bs.length), m (a + i) = bs[i]

/-- Argument `x` reached the callee as parameter `p`, with plugin memory `m`. -/
structure Passed (H : Host) (x : ArgSlot) (p : Cell) (m : Int → BitVec 8) : Prop where
  cell : x.type = argCell → p = x.u.setWidth 32
  ref : x.type = argRef → ∀ bs, H x.u = some bs → HoldsBytes m p.toInt (bs.take 4)
  array : x.type = argArray → ∀ bs, H x.u = some bs → HoldsBytes m p.toInt (bs.take (4 * x.size.toNat))
  /-- a string without the copy flag arrives empty -/
  blank : x.type = argChars → x.flags.getLsbD 2 = false → 0 < x.size.toNat → rd32 m p.toInt = 0
  binary : x.type = argChars → x.flags.getLsbD 2 = true → x.flags.getLsbD 1 = false → x.flags.getLsbD 3 = true →
    ∀ bs, H x.u = some bs → HoldsBytes m p.toInt (bs.take x.size.toNat)
  /-- a string arrives, cut to the size of the buffer -/
  plain : x.type = argChars → x.flags.getLsbD 2 = true → x.flags.getLsbD 1 = false → x.flags.getLsbD 3 = false →
    0 < x.size.toNat → ∀ str rest, H x.u = some (str ++ 0 :: rest) → (∀ b ∈ str, b ≠ 0) →
    HoldsString m p.toInt (str.take (x.size.toNat - 1))
  /-- a UTF-8 text arrives, cut to the characters that fit in the buffer -/
  text : x.type = argChars → x.flags.getLsbD 2 = true → x.flags.getLsbD 1 = true → 0 < x.size.toNat →
    ∀ cs rest, H x.u = some (utf8 cs ++ 0 :: rest) → (∀ b ∈ utf8 cs, b ≠ 0) →
    ∃ k, LongestPrefix cs (x.size.toNat - 1) k ∧ HoldsString m p.toInt (utf8 (cs.take k))

/-- Bytes of the plugin's copy of an argument. -/
def ArgSlot.bytes (x : ArgSlot) : Nat :=
  if x.type = argRef then 4 else if x.type = argArray then 4 * x.size.toNat else if x.type = argChars then x.size.toNat else 0

/-- The copies lie in the heap from `lo` to `hi`, one after the other. -/
def Blocks (lo hi : Int) : List (ArgSlot × Cell) → Prop
  | [] => lo ≤ hi
  | (x, p) :: rest => if x.type = argCell then Blocks lo hi rest
    else lo ≤ p.toInt ∧ Blocks (p.toInt + x.bytes) hi rest

/-- Pushed with the copy-back flag (bit 0), and not a cell. -/
def ArgSlot.back (x : ArgSlot) : Prop := x.type ≠ argCell ∧ x.flags.getLsbD 0 = true

/-- Byte `j` of the host object at `k`. -/
def Host.byte (H : Host) (k : BitVec 64) (j : Nat) : Option (BitVec 8) := (H k).bind (·[j]?)

/-- `H'` is `H` with the copy-back arguments brought back from plugin memory `m`; where two arguments name the same object the
later one wins. -/
structure BroughtBack (m : Int → BitVec 8) (l : List (ArgSlot × Cell)) (H H' : Host) : Prop where
  back : ∀ (i : Nat) x p j, l[i]? = some (x, p) → x.back → j < x.bytes →
    (∀ (i' : Nat) x' p', i < i' → l[i']? = some (x', p') → x'.back → x'.u = x.u → x'.bytes ≤ j) →
    H'.byte x.u j = some (m (p.toInt + j))
  same : ∀ k j, (∀ q ∈ l, q.1.back → q.1.u = k → q.1.bytes ≤ j) → H'.byte k j = H.byte k j

end Verif.VM

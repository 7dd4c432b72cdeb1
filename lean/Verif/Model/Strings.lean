import Verif.Model.Mem

/-!
Copying host strings into plugin memory (vm/plugin-runtime.cpp:609-696).  A host string is the list of its
bytes before the terminator.  Reads and writes outside plugin memory are `ub`.
-/
namespace Verif.VM

/-- The address test shared by LocalToString, StringToLocal and StringToLocalUTF8,
vm/plugin-runtime.cpp:600-603, 614-617, 671-674. -/
abbrev badStringAddr (s : State) (a : Int) : Prop := (a ≥ s.hp ∧ a < s.sp) ∨ a < 0 ∨ a ≥ s.memSize

/-- `memmove(memory_ + a, bs, bs.length)`. -/
def writeBytes (m : Int → BitVec 8) (a : Int) (bs : List (BitVec 8)) : Int → BitVec 8 :=
  fun x => if a ≤ x ∧ x < a + bs.length then bs.getD (x - a).toNat 0 else m x

/-- `memmove` into plugin memory. -/
def copyIn (a : Int) (bs : List (BitVec 8)) : VMM Unit := fun s =>
  if s.inMem a bs.length then .ok { s with mem := writeBytes s.mem a bs } () else .ub

/-- vm/plugin-runtime.cpp:609-632 StringToLocal. -/
def stringToLocal (a : Int) (bytes : Nat) (source : List (BitVec 8)) : VMM Unit := fun s =>
  if badStringAddr s a then .fail s .invalidAddress
  else if bytes = 0 then .ok s ()
  else
    let len := if source.length ≥ bytes then bytes - 1 else source.length
    (do copyIn a (source.take len)
        storeRaw8 (a + len) 0 : VMM Unit) s

/-- vm/plugin-runtime.cpp:642-656: sequence length announced by a lead byte; 0 if it is none. -/
def leadLength (b : BitVec 8) : Nat :=
  if b &&& 0xF0 = 0xC0 ∨ b &&& 0xF0 = 0xD0 then 2
  else if b &&& 0xF0 = 0xE0 then 3
  else if b &&& 0xF0 = 0xF0 then 4
  else 0

/-- vm/plugin-runtime.cpp:634-661 __CheckValidChar, for the pointer `memory_ + (n - 1)`, with the loop counter.
`none` when the loop walks in front of the memory block. -/
def checkValidChar (m : Int → BitVec 8) : Nat → Nat → Option Nat
  | 0, _ => none
  | n+1, count =>
    if m n &&& 0xC0 = 0x80 then checkValidChar m n (count + 1)
    else some (if leadLength (m n) ≠ count then count else 0)

/-- vm/plugin-runtime.cpp:664-698 StringToLocalUTF8; returns the reported byte count (`none` when the count is
not written).  `len` is a size_t: a subtraction below zero wraps for the count, and moves the pointer
backwards for the terminator. -/
def stringToLocalUTF8 (a : Int) (maxbytes : Nat) (source : List (BitVec 8)) : VMM (Option Nat) := fun s =>
  if badStringAddr s a then .fail s .invalidAddress
  else if maxbytes = 0 then .ok s none
  else
    let needtocheck := source.length ≥ maxbytes
    let len := if needtocheck then maxbytes - 1 else source.length
    match copyIn a (source.take len) s with
    | .ok s () =>
      if ¬ s.inMem (a + len - 1) 1 then .ub
      else
        let drop := if s.mem (a + len - 1) &&& 0x80 ≠ 0 ∧ needtocheck then checkValidChar s.mem (a + len).toNat 1
          else some 0
        match drop with
        | none => .ub
        | some d =>
          match storeRaw8 (a + len - d) 0 s with
          | .ok s () => .ok s (some (((len : Int) - d) % 2 ^ 64).toNat)
          | .fail s e => .fail s e
          | .ub => .ub
    | .fail s e => .fail s e
    | .ub => .ub

end Verif.VM

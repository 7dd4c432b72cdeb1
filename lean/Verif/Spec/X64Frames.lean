import Verif.Spec.X64Run

/-!
A processor that runs several pieces of code which call each other: the native stack has addresses, rbp points
into it, and the instruction pointer is an address.

`Verif.Spec.X64Run` has the processor inside one piece of code.  Here are the calls that leave it, the return,
and the instructions that make and leave a frame of the native stack.  The native stack is still kept as a list;
rsp is the address of its first element.
-/
namespace Verif.X64

/-- What surrounds the processor. -/
structure World where
  /-- the pieces of code in memory -/
  images : List Image
  /-- the address just above the native stack, which grows downwards -/
  top : BitVec 64
  /-- how many words the native stack has room for -/
  room : Nat
  /-- what is found in words of the native stack that were not written -/
  junk : BitVec 64

/-- rsp when the native stack holds `n` words. -/
def World.rsp (W : World) (n : Nat) : BitVec 64 := W.top - BitVec.ofNat 64 (8 * n)

/-- How many words the native stack holds when rsp is `a`. -/
def World.words (W : World) (a : BitVec 64) : Nat := (W.top - a).toNat / 8

/-- The address is one of the code of this piece. -/
def Image.holds (I : Image) (a : BitVec 64) : Bool := decide ((a - I.entry).toNat < I.bytes.length - I.start)

/-- The address of offset `p` of the code. -/
def Image.addr (I : Image) (p : Nat) : BitVec 64 := I.entry + BitVec.ofNat 64 p

/-- One instruction, at offset `p` of the code of `I`.  A call needs room for the frame of the callee and a few
words more: without it the processor runs off the native stack. -/
def World.inside (H : Host) (W : World) (I : Image) (p : Nat) (m : Mach) : Option (BitVec 64 × Mach) :=
  match decode (I.at p) with
  | none => none
  | some (i, rest) =>
    let next := p + ((I.at p).length - rest.length)
    match i with
    | .callRM (.rip d) =>
      if m.stack.length + 8 ≤ W.room then
        match qword I.bytes (I.start + next + d) with
        | some v => some (v, { m with stack := I.addr next :: m.stack })
        | none => none
      else none
    | .ret => match m.stack with
      | [] => none
      | a :: st => some (a, { m with stack := st })
    | .movL .q r (.reg 4) => some (I.addr next, m.setReg r (W.rsp m.stack.length))
    | .aluI .sub .q (.reg 4) 8 => some (I.addr next, { m with flags := none, stack := W.junk :: m.stack })
    | .aluI .add .q (.reg 4) 8 => match m.stack with
      | [] => none
      | _ :: st => some (I.addr next, { m with flags := none, stack := st })
    | .leave =>
      if W.words (m.reg 5) ≤ m.stack.length ∧ W.rsp (W.words (m.reg 5)) = m.reg 5 then
        match m.stack.drop (m.stack.length - W.words (m.reg 5)) with
        | [] => none
        | v :: st => some (I.addr next, { m with stack := st }.setReg 5 v)
      else none
    | _ => match X64.cpu H I p m with
      | some (q, m) => some (I.addr q, m)
      | none => none

/-- One instruction, at an address. -/
def World.cpu (H : Host) (W : World) (pc : BitVec 64) (m : Mach) : Option (BitVec 64 × Mach) :=
  match W.images.find? fun I => I.holds pc with
  | none => none
  | some I => W.inside H I (pc - I.entry).toNat m

/-- The processor gets from one address and state to another. -/
inductive World.Reach (H : Host) (W : World) : BitVec 64 → Mach → BitVec 64 → Mach → Prop where
  | here (pc : BitVec 64) (m : Mach) : World.Reach H W pc m pc m
  | step {pc pc' pc'' : BitVec 64} {m m' m'' : Mach} : W.cpu H pc m = some (pc', m') → World.Reach H W pc' m' pc'' m'' →
    World.Reach H W pc m pc'' m''

/-- Pieces of code do not overlap, nor do they overlap the memory block of the plugin, and the native stack fits
in the address space. -/
structure WorldOk (H : Host) (W : World) : Prop where
  apart : ∀ I ∈ W.images, ∀ I' ∈ W.images, ∀ a, I.holds a = true → I'.holds a = true → I = I'
  image : ∀ I ∈ W.images, ImageOk H I
  stack : 8 * W.room < 18446744073709551616

end Verif.X64

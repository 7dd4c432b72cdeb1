/-!
Labels threaded through the compiler's code buffer (compiler/label.h, compiler/smx-assembly-buffer.h).

Every write of SmxAssemblyBuffer is a whole cell, so the buffer is a list of cells and `pc()` is four times its
length.  Running out of memory is not modelled here.
-/
namespace Verif.Labels

/-- A 32-bit cell. -/
abbrev Cell := BitVec 32

/-- The code buffer, the status words of the labels (by name) and of the data labels. -/
structure Asm where
  buf : List Cell
  lab : Nat → Cell
  dat : Nat → Cell

/-- A fresh buffer and fresh labels, compiler/label.h:50-52, 119-121. -/
def Asm.init : Asm := ⟨[], fun _ => 0, fun _ => 0⟩

/-- compiler/smx-assembly-buffer.h:226-228 pc(). -/
def Asm.pc (A : Asm) : Nat := 4 * A.buf.length

/-- compiler/label.h:81-83 bound(). -/
def bound (status : Cell) : Bool := status &&& 1 ≠ 0

/-- compiler/label.h:74-76 Label::ToOffset: an arithmetic shift. -/
def toOffset (status : Cell) : Cell := status.sshiftRight 1

/-- compiler/label.h:126-128 DataLabel::ToOffset: a logical shift. -/
def dataOffset (status : Cell) : Cell := status >>> 1

/-- Function update. -/
def upd (f : Nat → Cell) (l : Nat) (v : Cell) : Nat → Cell := fun k => if k = l then v else f k

/-- compiler/smx-assembly-buffer.h:231-237 encodeAbsoluteAddress with compiler/label.h:92-97 addPending. -/
def useLabel (A : Asm) (l : Nat) : Asm :=
  if bound (A.lab l) then { A with buf := A.buf ++ [toOffset (A.lab l)] }
  else ⟨A.buf ++ [A.lab l], upd A.lab l (BitVec.ofNat 32 (A.pc + 4) <<< 1), A.dat⟩

/-- The cell index of `bytes() + offset - 4`; `none` outside the buffer or off a cell boundary. -/
def cellAt (buf : List Cell) (offset : Nat) : Option Nat :=
  if offset % 4 = 0 ∧ 4 ≤ offset ∧ offset / 4 - 1 < buf.length then some (offset / 4 - 1) else none

/-- The patch loop compiler/smx-assembly-buffer.h:197-204. `none` is an access outside the buffer or a loop that
does not end within `fuel` rounds. -/
def patch : Nat → List Cell → Cell → Cell → Option (List Cell)
  | 0, _, _, _ => none
  | fuel+1, buf, status, value =>
    if status = 0 then some buf
    else
      match cellAt buf (toOffset status).toNat with
      | none => none
      | some p =>
        match buf[p]? with
        | none => none
        | some next => patch fuel (buf.set p value) next value

/-- compiler/smx-assembly-buffer.h:186-207 bind_to(Label) with compiler/label.h:98-102 bind. -/
def bindLabel (A : Asm) (l : Nat) (value : Cell) : Option Asm :=
  match patch (A.buf.length + 1) A.buf (A.lab l) value with
  | none => none
  | some buf => some ⟨buf, upd A.lab l ((value <<< 1) ||| 1), A.dat⟩

/-- compiler/smx-assembly-buffer.h:79-83 the operand written for a data label, with compiler/label.h:144-148 use. -/
def useData (A : Asm) (d : Nat) : Asm :=
  ⟨A.buf ++ [0xb0b0b0b0#32], A.lab, upd A.dat d (BitVec.ofNat 32 (A.pc + 4) <<< 1)⟩

/-- compiler/smx-assembly-buffer.h:208-224 bind_to(DataLabel) with compiler/label.h:149-152 bind. -/
def bindData (A : Asm) (d : Nat) (value : Cell) : Option Asm :=
  match cellAt A.buf (dataOffset (A.dat d)).toNat with
  | none => none
  | some p => some ⟨A.buf.set p value, A.lab, upd A.dat d (A.dat d ||| 1)⟩

/-- What the code generator does to the buffer. -/
inductive Op where
  | cell (c : Cell)
  | use (l : Nat)
  | bind (l : Nat) (value : Cell)
  | useData (d : Nat)
  | bindData (d : Nat) (value : Cell)

/-- One operation. -/
def step (A : Asm) : Op → Option Asm
  | .cell c => some { A with buf := A.buf ++ [c] }
  | .use l => some (useLabel A l)
  | .bind l v => bindLabel A l v
  | .useData d => some (useData A d)
  | .bindData d v => bindData A d v

/-- A sequence of operations. -/
def run (A : Asm) : List Op → Option Asm
  | [] => some A
  | o :: os =>
    match step A o with
    | none => none
    | some A => run A os

end Verif.Labels

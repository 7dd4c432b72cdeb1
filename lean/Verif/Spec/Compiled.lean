import Verif.Model.CodeGen
import Verif.Model.Interp

/-!
What it means for a machine state to represent the variables of a program, and for a run of the machine to do what the source
says.
-/
namespace Verif.Compiled
open Verif.VM Verif.Lang Verif.CodeGen

/-- These cells are in the code, starting at this position, and are not the last ones. -/
def At (code : List Cell) (p : Nat) (c : List Cell) : Prop :=
  (∀ k, k < c.length → code[p + k]? = c[k]?) ∧ p + c.length < code.length

/-- The address of a parameter or local slot. -/
def laddr (b : State) (i : Int) : Int := b.frm + (if i < 0 then 4 * (2 - i) else -4 * (i + 1))

/-- The byte belongs to a global of the program. -/
def OwnG (L : Layout) (a : Int) : Prop := ∃ x i, i < L.size x ∧ L.gaddr x + 4 * (i : Nat) ≤ a ∧ a < L.gaddr x + 4 * (i : Nat) + 4

/-- The byte belongs to a parameter or local slot of the current function. -/
def OwnL (L : Layout) (b : State) (a : Int) : Prop := ∃ i, L.hasSlot i = true ∧ laddr b i ≤ a ∧ a < laddr b i + 4

/-- The plugin and the layout chosen by the compiler fit: globals are disjoint parts of the data section, which lies below 2 GB;
the code has less than 2 GB.  `lim` is more than the stack space a call needs apart from the arguments. -/
structure Fits (E : Env) (L : Layout) (lim : Int) (b : State) : Prop where
  code : E.code.length < 536870912
  typed : E.legacyStack = false
  data : 0 ≤ b.dataSize
  heap : b.dataSize ≤ b.hp
  mem : b.stp + 4 ≤ b.memSize
  big : b.memSize ≤ 2147483000
  globals : ∀ x i, i < L.size x → 0 ≤ L.gaddr x + 4 * (i : Nat) ∧ L.gaddr x + 4 * (i : Nat) + 4 ≤ b.dataSize
  disjoint : ∀ x y i j, i < L.size x → j < L.size y → (x ≠ y ∨ i ≠ j) →
    L.gaddr x + 4 * (i : Nat) + 4 ≤ L.gaddr y + 4 * (j : Nat) ∨ L.gaddr y + 4 * (j : Nat) + 4 ≤ L.gaddr x + 4 * (i : Nat)
  scope : -2147483648 ≤ b.hpScope ∧ b.hpScope < 2147483648
  lim : 72 ≤ lim

/-- The activation of a function with the parameters and slots of `L`, whose code starts at `m`. -/
structure Activation (E : Env) (L : Layout) (m : Nat) (b : State) : Prop where
  offsets : E.localOffsets m = (List.range L.slots).map fun (i : Nat) => -4 * ((i : Int) + 1)
  top : b.frm + 12 + 4 * (L.params : Int) ≤ b.stp

/-- The globals are in memory. -/
def Globals (L : Layout) (g : Nat → Nat → Cell) (mem : Int → BitVec 8) : Prop :=
  ∀ x i, i < L.size x → rd32 mem (L.gaddr x + 4 * (i : Nat)) = g x i

/-- The machine state `v` holds the variables `σ`.  Nothing but the memory and the stack pointer differs from the state `b`,
and the stack pointer is below the slots. -/
structure Holds (L : Layout) (b : State) (σ : Store) (v : State) : Prop where
  same : v = { b with mem := v.mem, sp := v.sp }
  heap : b.hp ≤ v.sp
  frame : v.sp ≤ b.frm - 4 * (L.slots : Int)
  globals : Globals L σ.g v.mem
  locals : ∀ i w, σ.l i = some w → L.hasSlot i = true ∧ rd32 v.mem (laddr b i) = w

/-- The memory differs at most in variables and in the free space between heap and stack. -/
def Keeps (L : Layout) (b : State) (sp : Int) (mem mem' : Int → BitVec 8) : Prop :=
  ∀ a, (a < b.hp ∨ sp ≤ a) → ¬ OwnG L a → ¬ OwnL L b a → mem' a = mem a

/-- The machine has run out of stack or the watchdog has stopped it. -/
def OutOf (E : Env) (lim : Int) (s : IState) : Err → Prop
  | .stackLow | .heapLow => s.vm.sp - s.vm.hp < lim
  | .timeout => ∃ k, k < s.polls ∧ E.watchdog k = false
  | _ => False

/-- From here the machine stops with an error. -/
def Fails (E : Env) (m p : Nat) (s s' : IState) (e : Err) : Prop := ∃ n, loop E n m p s = some (.fail s' e)

/-- The machine gets from one point of a function to another: whatever happens from there on, happens from here. -/
def GetsTo (E : Env) (m p : Nat) (s : IState) (q : Nat) (s' : IState) : Prop :=
  ∃ n, ∀ k r, loop E k m q s' = some r → loop E (n + k) m p s = some r

/-- From here the machine stops because it has run out of stack or time. -/
def Exhausted (E : Env) (lim : Int) (m p : Nat) (s : IState) : Prop :=
  ∃ s' e, Fails E m p s s' e ∧ OutOf E lim s' e

end Verif.Compiled

import Verif.Model.JitCall
import Verif.Spec.JitFlow
import Verif.Spec.X64Frames

/-!
What it means that compiled methods call each other: how a call changes the plugin's stack, and what a run with
calls in it is.
-/
namespace Verif.Jit
open Verif.VM hiding Op
open Verif.X64 hiding Pre decode

/-- The compiled methods of a plugin, by the cell at which they start. -/
structure Plugin where
  J : Nat → JitEnv
  F : Nat → Parts
  C : Nat → Compiled
  A : Nat → Asm
  /-- where the code was put -/
  chunk : Nat → BitVec 64
  /-- the memory of the plugin, as the compiler sees it -/
  memSize : Int
  dataSize : Int
  off : Field → BitVec 32
  /-- the stack a method needs, in bytes -/
  maxStack : Nat → Int
  /-- how many heap scopes are open at a RETN -/
  depth : Nat → Nat

/-- The code of a method in memory. -/
def Plugin.image (P : Plugin) (t : Nat) : Image := (P.A t).toImage (P.chunk t)

/-- The method that starts at cell `t` is compiled and in memory.  Its calls go to the code of the methods they
name. -/
structure Plugin.Has (P : Plugin) (E : Env) (W : World) (t : Nat) : Prop where
  method : Method E.code (P.J t) (P.F t) t (P.C t) (P.A t)
  image : P.image t ∈ W.images
  env : P.J t = ⟨P.memSize, P.dataSize, P.off, slotOffset E t⟩
  prologue : (P.F t).prologue = prologueOf (P.J t) t (P.maxStack t) (stackSizeForLocals E t)
  retn : ∀ pc n next, (pc, n) ∈ (P.C t).places → decode E.code pc = some (.retn, next) →
    (P.F t).other pc = retnOf (P.J t) (P.depth pc) n
  call : ∀ pc n o next, (pc, n) ∈ (P.C t).places → decode E.code pc = some (.call o, next) →
    ∃ u junk, acquireMethod E o = some u ∧ (P.F t).other pc = callOf (P.image u).entry junk

/-- The sizes the compiler was given make sense. -/
structure Sizes (max locals : Int) : Prop where
  max0 : 0 ≤ max
  max1 : max < 2147483648
  locals0 : -2147483648 ≤ locals
  locals1 : locals ≤ 0

/-- The state in which a called method begins: below the arguments, the stack holds the frame and the heap top of the
caller; the frame pointer points to them, and the stack pointer leaves room for local variables. -/
def entered (locals : Int) (s : IState) : IState :=
  { s with
    vm := { s.vm with
      mem := wr32 (wr32 s.vm.mem (s.vm.sp - 4) (BitVec.ofInt 32 s.vm.frm)) (s.vm.sp - 8) (BitVec.ofInt 32 s.vm.hp)
      frm := s.vm.sp - 8
      sp := s.vm.sp - 8 + locals }
    pri := 0
    alt := 0 }

/-- The call finds enough stack for all that the method may push. -/
def EnoughStack (max : Int) (s : IState) : Prop := max = 0 ∨ s.vm.hp + 64 ≤ s.vm.sp - 8 - max

/-- The state after a return: frame pointer and heap top are what the frame says, and the arguments are gone. -/
def left (s : IState) : IState :=
  { s with
    vm := { s.vm with
      frm := (rd32 s.vm.mem (s.vm.frm + 4)).toInt
      hp := (rd32 s.vm.mem s.vm.frm).toInt
      sp := s.vm.frm + 12 + 4 * (rd32 s.vm.mem (s.vm.frm + 8)).toNat } }

/-- `n` heap scopes are left. -/
def ScopesLeft (E : Env) (t : Nat) : Nat → IState → IState → Prop
  | 0, s, s' => s' = s
  | n + 1, s, s' => ∃ s1, visit E t 0 .heapRestore s = .ok s1 .next ∧ Layout s1.vm ∧ ScopesLeft E t n s1 s'

/-- A method is entered. -/
structure Enter (P : Plugin) (E : Env) (t : Nat) (s s' : IState) : Prop where
  sizes : Sizes (P.maxStack t) (stackSizeForLocals E t)
  stack : EnoughStack (P.maxStack t) s
  layout : Layout s'.vm
  eq : s' = entered (stackSizeForLocals E t) s

/-- A method returns: `s1` is the state with its heap scopes left, and `s'` that of the caller. -/
structure Leave (P : Plugin) (E : Env) (t pc : Nat) (s s' : IState) : Prop where
  ex : ∃ s1, ScopesLeft E t (P.depth pc) s s1 ∧ s' = left s1
  layout : Layout s'.vm
  frm0 : 0 ≤ s'.vm.frm
  frm1 : s'.vm.frm ≤ s'.vm.stp
  cells : s.vm.frm + 12 ≤ s.vm.memSize

/-- A run in one activation of a method, from one of its instructions to another; the calls in it nest at most `d`
deep.  `kp` and `ka` are those of `Step`.  A called method may not rely on PRI and ALT, and the caller not on ALT. -/
inductive Trace (H : Host) (P : Plugin) (E : Env) (W : World) : Nat → Nat → Nat → IState → Bool → Bool → Nat → IState → Bool → Bool → Prop where
  | none (d t pc : Nat) (s : IState) (kp ka : Bool) : Trace H P E W d t pc s kp ka pc s kp ka
  | step {d t pc pc1 pc' : Nat} {s s1 s' : IState} {kp ka kp1 ka1 kp' ka' : Bool} : Step H (P.J t) E t pc s kp ka pc1 s1 kp1 ka1 →
    Trace H P E W d t pc1 s1 kp1 ka1 pc' s' kp' ka' → Trace H P E W d t pc s kp ka pc' s' kp' ka'
  | call {d t pc next pr nr pc' u : Nat} {o : Int} {s s1 s2 s3 s' : IState} {kp ka kp2 ka2 kp' ka' : Bool} :
    decode E.code pc = some (.call o, next) → acquireMethod E o = some u → P.Has E W u → Enter P E u s s1 →
    Trace H P E W d u (u + 1) s1 false false pr s2 kp2 ka2 → decode E.code pr = some (.retn, nr) → Leave P E u pr s2 s3 →
    Trace H P E W (d + 1) t next { s3 with alt := s.alt } kp2 false pc' s' kp' ka' →
    Trace H P E W (d + 1) t pc s kp ka pc' s' kp' ka'

end Verif.Jit

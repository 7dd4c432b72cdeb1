import Verif.Proofs.JitAll
import Verif.Proofs.JitErr

/-! C62: machine code compiled for an instruction does what the interpreter does. -/
namespace Verif.Jit
open Verif.X64 Verif.VM

/-- **C62** for the instructions that go on with the next one and need no helper of the host: if the
interpreter carries out an instruction, then the machine code compiled for it, started in a processor that
agrees with the interpreter, runs to its end and leaves the processor in agreement with the interpreter:
same memory, same stack, heap and frame, and the two registers as far as the instruction keeps them.
Missing: calls, jumps, natives and indirection vectors, and what `Side` excludes. -/
theorem C62_compiled_instruction_partial {H : Host} {J : JitEnv} {E : Env} {method : Nat} {here : Int} {s s' : IState}
    {m : Mach} {kp ka : Bool} {i : Insn} {is : List Item} (S : Setup H J E method s) (F : FloatsAgree E.floats H.fpu)
    (h : Sim H kp ka m s) (hp : needsPri i = true → kp = true) (ha : needsAlt i = true → ka = true)
    (side : Side H s i) (hj : jit J i = .code is) (hv : visit E method here i s = .ok s' .next) :
    ∃ m', run H none is m = .done m' ∧ Sim H (priAfter i kp) (altAfter i ka) m' s' ∧ m'.outer = m.outer :=
  (sim_all S F h hp ha side hj hv).elim

/-- **C62** for errors: if the interpreter refuses an access, a division or an index, so does the compiled
code, for the same reason, and neither changes anything.  Missing: the other errors of the interpreter, which
compiled code leaves to the verifier or does not notice. -/
theorem C62_compiled_error_partial {H : Host} {J : JitEnv} {E : Env} {method : Nat} {here : Int} {s s' : IState}
    {m : Mach} {kp ka : Bool} {i : Insn} {is : List Item} {e : Err} (S : Setup H J E method s)
    (h : Sim H kp ka m s) (hp : needsPri i = true → kp = true) (ha : needsAlt i = true → ka = true)
    (side : ErrSide s i) (hj : jit J i = .code is) (hv : visit E method here i s = .fail s' e) :
    (∃ je m', run H none is m = .error je m' ∧ je.code = e ∧ m'.mem = m.mem ∧ m'.field = m.field ∧ m'.outer = m.outer) ∧ s'.vm = s.vm :=
  err_all S h hp ha side hj hv

/-- The caller sees the same error number in both, except for bad addresses. -/
theorem C62_error_numbers (e : JErr) (h : e ≠ .memAccess) : e.num = e.code.num := by
  cases e <;> first | rfl | exact absurd rfl h

/-! ## A host, a plugin, and states that agree -/

/-- Floats that are whole numbers: bit patterns taken as integers.  Enough for examples. -/
def demoFpu : Fpu where
  add := (· + ·)
  sub := (· - ·)
  mul := (· * ·)
  div := BitVec.sdiv
  fmod := BitVec.srem
  cmp := fun a b => if a.slt b then .lt else if a = b then .eq else .gt
  ofInt := id

/-- The same for the interpreter. -/
def demoFloats : FloatOps where
  truth := fun a => a != 0
  neg := fun a => a ^^^ 0x80000000
  bin := fun
    | .mul, p, a => p * a
    | .divAlt, p, a => BitVec.sdiv a p
    | .add, p, a => p + a
    | .subAlt, p, a => a - p
    | .modAlt, p, a => BitVec.srem a p
  cmp := fun c p a => FRel.sat (demoFpu.cmp p a) c
  ofInt := id

theorem demo_floats : FloatsAgree demoFloats demoFpu where
  neg _ := rfl
  mul _ _ := rfl
  divAlt _ _ := rfl
  add _ _ := rfl
  subAlt _ _ := rfl
  modAlt _ _ := rfl
  cmp _ _ _ _ _ := rfl
  swap p a := by
    have h1 := BitVec.slt_iff_toInt_lt (x := a) (y := p)
    have h2 := BitVec.slt_iff_toInt_lt (x := p) (y := a)
    have h3 := @BitVec.toInt_inj 32 a p
    show (if a.slt p then FRel.lt else if a = p then .eq else .gt) = FRel.swap (if p.slt a then FRel.lt else if p = a then .eq else .gt)
    by_cases c1 : a.slt p = true
    · rw [if_pos c1, if_neg (by rw [h2]; rw [h1] at c1; omega), if_neg (by rintro rfl; rw [h1] at c1; omega)]; rfl
    · by_cases c2 : a = p
      · rw [if_neg c1, if_pos c2, if_neg (by rw [h2, c2]; omega), if_pos c2.symm]; rfl
      · rw [if_neg c1, if_neg c2, if_pos (by rw [h2]; rw [h1] at c1; have := mt h3.1 c2; omega)]; rfl
  ofInt _ := rfl

/-- 4 KB at `base`; the context elsewhere. -/
def demoHost (base : BitVec 64) : Host where
  base := base
  memSize := 4096
  ctx := 0x7f0000000000
  off := fun | .hp => 0x20 | .sp => 0x24 | .frm => 0x28 | .scope => 0x2c
  fpu := demoFpu
  junk := fun _ _ => 0
def demoJit : JitEnv where
  memSize := 4096
  dataSize := 1024
  off := (demoHost 0).off
  slot := some
def demoEnv : Env where
  code := []
  floats := demoFloats
  natives := fun _ => none
  legacyStack := true
  localOffsets := fun _ => []
  validate := fun _ => none
  watchdog := fun _ => true
def demoVM : State where
  mem := fun a => BitVec.ofInt 8 a
  memSize := 4096
  dataSize := 1024
  stp := 4092
  hp := 1024
  sp := 3072
  frm := 4000
  hpScope := 1020
  directArrays := true
  usesHeapScopes := true
/-- The plugin with some register contents. -/
def demo (pri alt : Cell) : IState := ⟨demoVM, pri, alt, 0⟩
/-- The processor in the same state. -/
def demoMach (base : BitVec 64) (pri alt : Cell) : Mach where
  reg := fun r => if r = 0 then pri.setWidth 64 else if r = 2 then alt.setWidth 64 else if r = 3 then base + 4000
    else if r = 12 then 0x7f0000000000 else if r = 14 then base + 3072 else if r = 15 then base else 0
  xmm := fun _ => 0
  flags := none
  df := false
  mem := demoVM.mem
  field := fun | .hp => 1024 | .sp => 0 | .frm => 4000 | .scope => 1020
  stack := []

theorem demo_inj : ∀ f g, (demoHost 0).addr f = (demoHost 0).addr g → f = g := by
  intro f g
  cases f <;> cases g <;> decide +kernel

theorem demo_setup {base : BitVec 64} (h : base.toNat < 0x7e0000000000) (p a : Cell) :
    Setup (demoHost base) demoJit demoEnv 0 (demo p a) := by
  refine ⟨⟨?_, ?_, ?_⟩, rfl, rfl, rfl, rfl, rfl, ?_, show (0 : Int) ≤ 4000 by decide, show (4000 : Int) ≤ 4092 by decide⟩
  · show (base.toNat : Int) + 4096 ≤ _
    omega
  · intro f
    cases f
    all_goals
      show (4096 : Int) ≤ ((_ - base : BitVec 64).toNat : Int)
      rw [BitVec.toNat_sub]
      simp only [Host.addr, demoHost]
      simp
      omega
  · exact demo_inj
  · exact (show Layout demoVM from ⟨by decide, by decide, by decide, by decide, by decide, by decide⟩)

theorem demo_sim (base : BitVec 64) (p a : Cell) : Sim (demoHost base) true true (demoMach base p a) (demo p a) :=
  ⟨fun _ => rfl, fun _ => rfl, rfl, rfl, rfl, rfl, rfl, rfl, rfl, rfl, rfl⟩

/-- What a run of the compiled code says about the processor. -/
def Out.test (f : Mach → Bool) : Out → Bool
  | .done m => f m
  | _ => false
/-- The compiled code has touched memory of the host. -/
def Out.isFault : Out → Bool
  | .fault => true
  | _ => false
/-- What an instruction of the interpreter says about its state. -/
def resTest (f : IState → Bool) : Res IState Ctl → Bool
  | .ok s .next => f s
  | _ => false
/-- The interpreter reports `e`. -/
def resFails (e : Err) : Res IState Ctl → Bool
  | .fail _ e' => e = e'
  | _ => false
/-- The code of some instructions, one after the other. -/
def codes (J : JitEnv) : List Insn → List Item
  | [] => []
  | i :: is => (match jit J i with | .code c => c | _ => []) ++ codes J is
/-- The interpreter on some instructions, one after the other. -/
def visits (E : Env) : List Insn → IState → Res IState Ctl
  | [], s => .ok s .next
  | i :: is, s =>
    match visit E 0 0 i s with
    | .ok s' .next => visits E is s'
    | r => r

/-- The hypotheses are met: an array element is stored through an address, and a division. -/
example : (∀ i ∈ [Insn.storI, .sdiv .pri, .movs 16, .heap 16, .binF32 .add, .bin64 .add 0],
    (needsPri i = true ∧ needsAlt i = true ∨ i = .heap 16) ∧ Side (demoHost 0x100000) (demo 512 256) i ∧
    (match jit demoJit i with | .code _ => true | _ => false) = true ∧
    resTest (fun _ => true) (visit demoEnv 0 0 i (demo 512 256)) = true) ∧
    Setup (demoHost 0x100000) demoJit demoEnv 0 (demo 512 256) ∧
    Sim (demoHost 0x100000) true true (demoMach 0x100000 512 256) (demo 512 256) ∧ FloatsAgree demoEnv.floats (demoHost 0x100000).fpu := by
  refine ⟨?_, demo_setup (by decide) _ _, demo_sim _ _ _, demo_floats⟩
  intro i hi
  simp only [List.mem_cons, List.not_mem_nil, or_false] at hi
  rcases hi with rfl | rfl | rfl | rfl | rfl | rfl
  · exact ⟨.inl (by decide), trivial, by decide +kernel, by decide +kernel⟩
  · exact ⟨.inl (by decide), trivial, by decide +kernel, by decide +kernel⟩
  · exact ⟨.inl (by decide), .inl (by decide), by decide +kernel, by decide +kernel⟩
  · exact ⟨.inr rfl, fun _ => ⟨by decide, by decide⟩, by decide +kernel, by decide +kernel⟩
  · exact ⟨.inl (by decide), trivial, by decide +kernel, by decide +kernel⟩
  · exact ⟨.inl (by decide), trivial, by decide +kernel, by decide +kernel⟩

/-- The hypotheses for errors are met: an address between heap and stack, a division by zero, an index that is too large. -/
example : ErrSide (demo 2048 0) .loadI ∧ resFails .invalidAddress (visit demoEnv 0 0 .loadI (demo 2048 0)) = true ∧
    ErrSide (demo 2048 0) (.sdiv .pri) ∧ resFails .divideByZero (visit demoEnv 0 0 (.sdiv .pri) (demo 2048 0)) = true ∧
    ErrSide (demo 2048 0) (.bounds 5) ∧ resFails .arrayBounds (visit demoEnv 0 0 (.bounds 5) (demo 2048 0)) = true :=
  ⟨show (demo 2048 0).pri.toInt ≠ 4092 by decide, by decide +kernel, trivial, by decide +kernel,
    show (0 : Int) ≤ 5 ∧ (5 : Int) < 2147483648 by decide, by decide +kernel⟩

/-! ## Where compiled code differs -/

/-- **The number differs for bad addresses**: a load from between heap and stack makes the interpreter report 5,
INVALID_ADDRESS, and compiled code 11, MEMACCESS. -/
theorem C62_bad_address_number : ∃ is je m' s', jit demoJit .loadI = .code is ∧
    visit demoEnv 0 0 .loadI (demo 2048 0) = .fail s' .invalidAddress ∧ Err.invalidAddress.num = 5 ∧
    run (demoHost 0x10000) none is (demoMach 0x10000 2048 0) = .error je m' ∧ je.num = 11 := by
  obtain ⟨⟨je, m', h1, h2, _⟩, _⟩ := C62_compiled_error_partial (here := 0) (i := .loadI) (s' := demo 2048 0) (e := .invalidAddress)
    (demo_setup (base := 0x10000) (by decide) 2048 0) (demo_sim 0x10000 2048 0) (fun _ => rfl) (fun _ => rfl)
    (show (2048 : Cell).toInt ≠ (4096 : Int) - 4 by decide) rfl rfl
  refine ⟨_, je, m', _, rfl, rfl, rfl, h1, ?_⟩
  cases je <;> first | rfl | cases h2

/-- **An index of 2^30 leaves the plugin's memory**: the address of an array element is computed in 64 bits and
checked in 32.  The interpreter reads the first element; compiled code reads 4 GB further on. -/
theorem C62_index_escapes : resTest (fun s => s.pri == 0x03020100) (visits demoEnv [.idxaddr, .loadI] (demo 0x40000000 256)) = true ∧
    (run (demoHost 0x100000) none (codes demoJit [.idxaddr, .loadI]) (demoMach 0x100000 0x40000000 256)).isFault = true := by
  decide +kernel

/-- **A 64-bit remainder leaves the plugin's memory**: it stays in the register that holds ALT, and a store
checks the lower half of that register and uses all of it. -/
theorem C62_remainder_escapes :
    resTest (fun _ => true) (visits demoEnv [.storSCI64 0 0x10 1, .storSCI64 8 0x20 2, .addr .alt 0, .addr .pri 8, .bin64 .smodAlt 16, .storI] (demo 0 0)) = true ∧
    (run (demoHost 0x100000) none (codes demoJit [.storSCI64 0 0x10 1, .storSCI64 8 0x20 2, .addr .alt 0, .addr .pri 8, .bin64 .smodAlt 16, .storI])
      (demoMach 0x100000 0 0)).isFault = true := by
  decide +kernel

/-- **References are not checked**: a by-reference argument of -4 makes the interpreter report an error and
compiled code read the host's memory. -/
theorem C62_reference_escapes :
    resFails .invalidAddress (visits demoEnv [.storSC 12 (-4), .lrefS .pri 12] (demo 0 0)) = true ∧
    (run (demoHost 0x100000) none (codes demoJit [.storSC 12 (-4), .lrefS .pri 12]) (demoMach 0x100000 0 0)).isFault = true := by
  decide +kernel

/-- **Block copies and fills are not checked** either. -/
theorem C62_blocks_escape :
    resFails .invalidAddress (visit demoEnv 0 0 (.movs 16) (demo (-4) 256)) = true ∧
    (run (demoHost 0x100000) none (codes demoJit [.movs 16]) (demoMach 0x100000 (-4) 256)).isFault = true ∧
    resFails .invalidAddress (visit demoEnv 0 0 (.fill 16) (demo 0 (-4))) = true ∧
    (run (demoHost 0x100000) none (codes demoJit [.fill 16]) (demoMach 0x100000 0 (-4))).isFault = true := by
  decide +kernel

/-- **The heap check depends on where the block lies**, as it compares the lower halves of host addresses.  Near
a multiple of 4 GB an allocation that fits is refused, and one that does not fit is made. -/
theorem C62_heap_straddles :
    resTest (fun s => s.vm.hp == 1040) (visit demoEnv 0 0 (.heap 16) (demo 0 0)) = true ∧
    (match run (demoHost 0xfffff800) none (codes demoJit [.heap 16]) (demoMach 0xfffff800 0 0) with
      | .error .heapLow _ => true | _ => false) = true ∧
    resFails .heapLow (visit demoEnv 0 0 (.heap 8192) (demo 0 0)) = true ∧
    (run (demoHost 0xffffe000) none (codes demoJit [.heap 8192]) (demoMach 0xffffe000 0 0)).test
      (fun m => m.field .hp == 9216) = true := by
  decide +kernel

/-- **Freeing more than the whole heap is not noticed**: the new heap pointer is compared as an unsigned number. -/
theorem C62_heap_underflow :
    resFails .heapMin (visit demoEnv 0 0 (.heap (-1028)) (demo 0 0)) = true ∧
    (run (demoHost 0x100000) none (codes demoJit [.heap (-1028)]) (demoMach 0x100000 0 0)).test
      (fun m => m.field .hp == -4) = true := by
  decide +kernel

/-- **Testing a float is compiled wrongly**: the comparison sets the lowest byte of the register and leaves the
rest of the float in it, so `1.0` becomes 0x3f800001, not 1. -/
theorem C62_test_float :
    resTest (fun s => s.pri == 1) (visit demoEnv 0 0 .testF32 (demo 0x3f800000 0)) = true ∧
    (run (demoHost 0x100000) none (codes demoJit [.testF32]) (demoMach 0x100000 0x3f800000 0)).test
      (fun m => m.reg 0 == 0x3f800001) = true := by
  decide +kernel

/-- **Storing two bytes stores four**: the operand size prefix is missing. -/
theorem C62_store_two_bytes :
    resTest (fun s => rd32 s.vm.mem 256 == 0x0302ccdd) (visit demoEnv 0 0 (.strbI 2) (demo 0xaabbccdd 256)) = true ∧
    (run (demoHost 0x100000) none (codes demoJit [.strbI 2]) (demoMach 0x100000 0xaabbccdd 256)).test
      (fun m => rd32 m.mem 256 == 0xaabbccdd) = true := by
  decide +kernel

/-- **The last cell**: compiled code reads it, the interpreter refuses. -/
theorem C62_last_cell :
    resFails .invalidAddress (visit demoEnv 0 0 .loadI (demo 4092 0)) = true ∧
    (run (demoHost 0x100000) none (codes demoJit [.loadI]) (demoMach 0x100000 4092 0)).test
      (fun m => m.reg 0 == (rd32 demoVM.mem 4092).setWidth 64) = true := by
  decide +kernel

/-- **A limit above 2147483647** lets compiled code accept an index of -1. -/
theorem C62_bounds_unsigned :
    resFails .arrayBounds (visit demoEnv 0 0 (.bounds (-1)) (demo (-1) 0)) = true ∧
    (run (demoHost 0x100000) none (codes demoJit [.bounds (-1)]) (demoMach 0x100000 (-1) 0)).test (fun _ => true) = true := by
  decide +kernel

/-- **Overlapping copies**: the interpreter moves, compiled code copies forwards and repeats the first cell. -/
theorem C62_overlap :
    resTest (fun s => rd32 s.vm.mem 264 == 0x07060504) (visit demoEnv 0 0 (.movs 8) (demo 256 260)) = true ∧
    (run (demoHost 0x100000) none (codes demoJit [.movs 8]) (demoMach 0x100000 256 260)).test
      (fun m => rd32 m.mem 264 == 0x03020100) = true := by
  decide +kernel

/-- **Instructions that are not compiled**: the interpreter carries them out, the compiler gives up. -/
theorem C62_refused (J : JitEnv) : jit J .sub = .refused ∧ jit J .lidx = .refused ∧ (∀ a, jit J (.zeroA a) = .refused) ∧
    (∀ vs, jit J (.pushA vs) = .refused) ∧ jit J .incI = .refused ∧ jit J .decI = .refused ∧
    (∀ a, jit J (.incA a) = .refused ∧ jit J (.decA a) = .refused ∧ jit J (.incS a) = .refused ∧ jit J (.decS a) = .refused) ∧
    (∀ n, jit J (.sysreqC n) = .refused) ∧
    (∀ E method here s p a, visit E method here .sub ⟨s, p, a, 0⟩ = .ok ⟨s, p - a, a, 0⟩ .next) :=
  ⟨rfl, rfl, fun _ => rfl, fun _ => rfl, rfl, rfl, fun _ => ⟨rfl, rfl, rfl, rfl⟩, fun _ => rfl, fun _ _ _ _ _ _ => rfl⟩

end Verif.Jit

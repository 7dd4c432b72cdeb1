import Verif.Proofs.JitMethod
import Verif.Props.C62
import Verif.Props.C18

/-!
# C65: a compiled method runs as the interpreter would run it

`Method` (Verif/Spec/JitFlow.lean) says that a method was scanned, compiled by the model of the x64 compiler and
linked.  `C.places` says how many calls of the assembler were made before each instruction, so `pos C.ops n` is
the offset of the code of an instruction.  The processor is `cpu` of Verif/Spec/X64Run.lean: it fetches and
decodes the bytes of the linked image.
-/
namespace Verif.Jit
open Verif.VM hiding Op
open Verif.X64 hiding Pre decode
open Verif.Graph

variable {H : Host} {J : JitEnv} {F : Parts} {E : Env} {start method : Nat} {C : Compiled} {A : Asm} {chunk : BitVec 64}

/-- **C65**: let the interpreter go from one instruction of a method to another, through any number of
instructions: arithmetic, loads and stores, jumps, conditional jumps and switches.  Then the processor, started
at the code of the first in an agreeing state, gets to the code of the last, in an agreeing state.  Missing:
calls of functions and natives, returns, and the instructions whose code calls the host. -/
theorem C65_method_partial (M : Method E.code J F start C A) (ok : ImageOk H (A.toImage chunk)) (FA : FloatsAgree E.floats H.fpu)
    {pc pc' n : Nat} {s s' : IState} {kp ka kp' ka' : Bool} {m : Mach} (S : Setup H J E method s) (sim : Sim H kp ka m s)
    (hp : (pc, n) ∈ C.places) (st : Steps H J E method pc s kp ka pc' s' kp' ka') :
    ∃ n' m', (pc', n') ∈ C.places ∧ Reach H (A.toImage chunk) (pos C.ops n) m (pos C.ops n') m' ∧ Sim H kp' ka' m' s' ∧
      m'.outer = m.outer := by
  obtain ⟨fuel, P, B, G, blks, fin, f, h1, h2, h3, _, rfl, h5⟩ := M.parts
  obtain ⟨n', m', g1, g2, g3, g4, _⟩ := many_steps H M.tables h1 h2 h3 M.linked (follows_image M.linked chunk) ok FA st S sim ((h5 _ _).1 hp)
  exact ⟨n', m', (h5 _ _).2 g1, g2, g3, g4⟩

/-- The code after the prologue is that of the first instruction. -/
theorem C65_entry (M : Method E.code J F start C A) (m : Mach) :
    ∃ n, (start + 1, n) ∈ C.places ∧ Reach H (A.toImage chunk) (pos C.ops F.prologue.1.length) m (pos C.ops n) m := by
  obtain ⟨fuel, P, B, G, blks, fin, f, h1, h2, h3, h4, rfl, h5⟩ := M.parts
  obtain ⟨R, N⟩ := node_first M.tables h1 h2
  obtain ⟨a1, a2⟩ := block_start h3 N
  obtain ⟨fu, a, a', g1, g2, g3, g4⟩ := a1.here.ex
  obtain ⟨_, n, l, ⟨go, _⟩ | ⟨_, _, h, _⟩⟩ := settle M.tables h1 h2 h3 M.linked H (follows_image M.linked chunk) N a1.on g1 g2 g3 g4
  rotate_left
  · cases h
  refine ⟨n, (h5 _ _).2 l.live, ?_⟩
  have e := starts_pos M.linked (seg_fin a2 : Starts (finish F fin).ops f 0)
  rw [h4] at go e
  have := go m
  rwa [e] at this

/-- **C65** for errors: if the interpreter refuses an instruction, with an error that compiled code checks
(`ErrSide`), then the processor gets from the code of the instruction to the code that reports errors, with the
number of the error in rax and a return address on the stack that the map from addresses to instructions
(`C.cips`) takes back to the instruction; or, for an index that is too large, to the stub that belongs to the
limit and the instruction.  Plugin memory is as it was.  Missing: the other errors. -/
theorem C65_error_partial (M : Method E.code J F start C A) {here : Int}
    {pc pc' n : Nat} {s s' : IState} {kp ka : Bool} {m : Mach} {i : Insn} {e : Err} (S : Setup H J E method s) (sim : Sim H kp ka m s)
    (hp : (pc, n) ∈ C.places) (hd : decode E.code pc = some (i, pc')) (hi : ∃ is, jit J i = .code is ∧ hasCall is = false)
    (hpri : needsPri i = true → kp = true) (halt : needsAlt i = true → ka = true) (side : ErrSide s i)
    (hv : visit E method here i s = .fail s' e) :
    s'.vm = s.vm ∧ ∃ (je : JErr) (m' : Mach), je.code = e ∧ m'.mem = m.mem ∧ m'.field = m.field ∧
      (((∀ v, je ≠ .bounds v) ∧ ∃ q r : Nat, (q, pc) ∈ C.cips ∧ C.ops[r]? = some (.bind (throwLabel 0)) ∧
          Reach H (A.toImage chunk) (pos C.ops n) m (pos C.ops r) m' ∧ m'.reg 0 = BitVec.ofNat 64 je.num ∧
          m'.outer = (((A.toImage chunk).entry + BitVec.ofNat 64 (pos C.ops q)) :: m.stack, m.outer.2)) ∨
        ∃ v q lab, je = .bounds v ∧ (q, (⟨lab, v, pc⟩ : Stub)) ∈ C.stubs ∧
          Reach H (A.toImage chunk) (pos C.ops n) m (pos C.ops q) m' ∧ m'.outer = m.outer) := by
  obtain ⟨fuel, P, B, G, blks, fin, f, h1, h2, h3, _, rfl, h5⟩ := M.parts
  obtain ⟨is, hj, hc⟩ := hi
  have hie : Ends i = false := by cases i <;> first | rfl | cases hj
  obtain ⟨h, je, m', g1, g2, g3, ⟨g4, q, r, g5, g6, g7⟩ | g⟩ :=
    fail_step H M.tables h1 M.linked (follows_image M.linked chunk) S sim hpri halt side ((h5 _ _).1 hp) hd hj hc hie hv
  · exact ⟨h, je, m', g1, g2, g3, .inl ⟨g4, q, r, g5, g6.head, g7⟩⟩
  · exact ⟨h, je, m', g1, g2, g3, .inr g⟩

/-! ## A method with a loop and a switch -/

/-- `zero.pri; l: inc.pri; switch t; a: jump l; b: jump l; c: retn; t: casetbl (1 → a, 2 → b), default c`, and a
RETN after it. -/
def flowCode : List Cell := [46, 89, 107, 129, 40, 51, 8, 51, 8, 48, 130, 2, 36, 1, 20, 2, 28, 48]
/-- Parts that are not modelled, with made-up code: `ret` for RETN and for the handlers. -/
def flowParts : Parts where
  prologue := ([.raw [0x55]], [])
  other := fun _ => ([.raw [0xc3]], [])
  handlers := ([], [])
  stub := fun _ => [.raw [0xc3]]
  report := [.raw [0xc3]]
  rest := [.bind timeoutLabel, .raw [0xc3]]
  junk := fun _ => 0xcc
def flowEnv : Env := { demoEnv with code := flowCode }

theorem flow_tables : NoNegativeTable flowCode 0 := by
  intro pc n hb h1 h2
  have hm := boundary_mem [1, 2, 3, 5, 7, 9, 10, 17, 18] (by decide) (by decide +kernel) hb
  have : ∀ pc ∈ [1, 2, 3, 5, 7, 9, 10, 17, 18], flowCode[pc]? = some 130 → ∀ n, flowCode[pc + 1]? = some n → 0 ≤ n.toInt := by
    intro pc hpc hc n hn
    have h : pc = 10 := by
      clear hn
      revert hc; revert pc; decide +kernel
    subst h
    have : n = 2 := by simpa [flowCode] using hn.symm
    subst this; decide
  exact this pc hm h1 n h2

/-- Compile and link. -/
def built (code : List Cell) : Option (Compiled × Asm) :=
  match build code 0 (2 * code.length) with
  | .ok (_, B, G) => match blocksOf 0 B G.order G.order with
    | some blks => match compile code demoJit flowParts blks with
      | some C => (Asm.run true {} C.ops).map fun A => (C, A)
      | none => none
    | none => none
  | _ => none

theorem built_method {code : List Cell} {p : Compiled → Asm → Prop} [∀ C A, Decidable (p C A)] (hn : NoNegativeTable code 0)
    (h : (match built code with | some (C, A) => decide (p C A) | none => false) = true) :
    ∃ C A, Method code demoJit flowParts 0 C A ∧ p C A := by
  unfold built at h
  cases e1 : build code 0 (2 * code.length) with
  | ok x =>
    obtain ⟨P, B, G⟩ := x
    simp only [e1] at h
    cases e2 : blocksOf 0 B G.order G.order with
    | none => simp only [e2] at h; cases h
    | some blks =>
      simp only [e2] at h
      cases e3 : compile code demoJit flowParts blks with
      | none => simp only [e3] at h; cases h
      | some C =>
        simp only [e3] at h
        cases e4 : Asm.run true {} C.ops with
        | none => simp only [e4] at h; cases h
        | some A =>
          simp only [e4, Option.map_some] at h
          exact ⟨C, A, ⟨hn, ⟨_, P, B, G, blks, e1, e2, e3⟩, e4⟩, of_decide_eq_true h⟩
  | rejected => simp only [e1] at h; cases h
  | fuel => simp only [e1] at h; cases h
  | ub => simp only [e1] at h; cases h

theorem flow_method : ∃ C A, Method flowCode demoJit flowParts 0 C A ∧
    C.places = [(1, 3), (2, 6), (3, 7), (7, 19), (5, 22), (9, 25)] ∧ C.edges = [(26, 20, 7), (27, 23, 5)] ∧ (A.image 0x100000).length = 73 :=
  built_method flow_tables (by decide +kernel)

/-- The hypotheses of `C65_method_partial` are met, by a run that goes through the switch three times and twice
around the loop. -/
example : ∃ C A m', Method flowCode demoJit flowParts 0 C A ∧
    Reach (demoHost 0x10000) (A.toImage 0x100000) (pos C.ops 3) (demoMach 0x10000 7 8) (pos C.ops 25) m' ∧ m'.reg 0 = 3 := by
  obtain ⟨C, A, M, hp, _, hl⟩ := flow_method
  have ok : ImageOk (demoHost 0x10000) (A.toImage 0x100000) := by
    refine ⟨by show (A.image 0x100000).length < _; rw [hl]; decide, ?_⟩
    intro p h
    have h : p < (A.image 0x100000).length := h
    rw [hl] at h
    have : ∀ p < 73, (4096 : Int) ≤ (demoHost 0x10000).offset (0x100000 + BitVec.ofNat 64 p) := by decide +kernel
    exact this p h
  have S0 := demo_setup (base := 0x10000) (by decide) 7 8
  have S : Setup (demoHost 0x10000) demoJit flowEnv 0 (demo 7 8) :=
    ⟨S0.host, S0.size, S0.jsize, S0.jdata, S0.joff, S0.jslot, S0.layout, S0.frm0, S0.frm1⟩
  have L : ∀ p a n, Layout (⟨demoVM, p, a, n⟩ : IState).vm := fun _ _ _ => S0.layout
  have inc : ∀ (p a : Cell) (n : Nat), Step (demoHost 0x10000) demoJit flowEnv 0 2 ⟨demoVM, p, a, n⟩ true true 3 ⟨demoVM, p + 1, a, n⟩ true true :=
    fun p a n => ⟨⟨.inc .pri, 3, .next, rfl, ⟨_, rfl, rfl⟩, fun _ => rfl, fun _ => rfl, trivial, rfl, rfl, rfl, rfl⟩, L _ _ _⟩
  have jmp : ∀ (pc : Nat) (p a : Cell) (n : Nat), decode flowCode pc = some (.jump 8, pc + 2) → 8 < ((pc + 2) * 4 : Nat) →
      Step (demoHost 0x10000) demoJit flowEnv 0 pc ⟨demoVM, p, a, n⟩ true true 2 ⟨demoVM, p, a, n + 1⟩ true true := by
    intro pc p a n hd hlt
    refine ⟨⟨.jump 8, pc + 2, .goto 8, hd, trivial, fun _ => rfl, fun _ => rfl, trivial, ?_, rfl, rfl, rfl⟩, L _ _ _⟩
    show takeJump flowEnv _ 8 _ = _
    unfold takeJump
    rw [if_pos (by omega)]
    rfl
  have zero : Step (demoHost 0x10000) demoJit flowEnv 0 1 (demo 7 8) true true 2 ⟨demoVM, 0, 8, 0⟩ true true :=
    ⟨⟨.zero .pri, 2, .next, rfl, ⟨_, rfl, rfl⟩, fun _ => rfl, fun _ => rfl, trivial, rfl, rfl, rfl, rfl⟩, L _ _ _⟩
  have sw : ∀ (p : Cell) (n : Nat) (t : Int) (pc : Nat), visit flowEnv 0 20 (.switch 40) ⟨demoVM, p, 8, n⟩ = .ok ⟨demoVM, p, 8, n⟩ (.goto t) →
      jumpIndex flowEnv t = some pc → Step (demoHost 0x10000) demoJit flowEnv 0 3 ⟨demoVM, p, 8, n⟩ true true pc ⟨demoVM, p, 8, n⟩ true true :=
    fun p n t pc hv hj => ⟨⟨.switch 40, 5, .goto t, rfl, trivial, fun _ => rfl, fun _ => rfl, trivial, hv, hj, rfl, rfl⟩, L _ _ _⟩
  have st : Steps (demoHost 0x10000) demoJit flowEnv 0 1 (demo 7 8) true true 9 ⟨demoVM, 3, 8, 2⟩ true true :=
    .more zero <| .more (inc 0 8 0) <| .more (sw 1 0 20 5 rfl rfl) <| .more (jmp 5 1 8 0 rfl (by decide)) <|
    .more (inc 1 8 1) <| .more (sw 2 1 28 7 rfl rfl) <| .more (jmp 7 2 8 1 rfl (by decide)) <|
    .more (inc 2 8 2) <| .more (sw 3 2 36 9 rfl rfl) <| .none _ _ _ _
  obtain ⟨n', m', h1, h2, h3, _⟩ := C65_method_partial (E := flowEnv) (n := 3) M ok demo_floats S (demo_sim 0x10000 7 8) (by rw [hp]; decide) st
  rw [hp] at h1
  have : n' = 25 := by simpa using h1
  subst this
  exact ⟨C, A, m', M, h2, h3.pri rfl⟩

/-- `sdiv; bounds 5; retn`. -/
def failCode : List Cell := [46, 73, 121, 5, 48]
def failEnv : Env := { demoEnv with code := failCode }
theorem fail_tables : NoNegativeTable failCode 0 := by
  intro pc n hb h1 h2
  have hm := boundary_mem [1, 2, 4, 5] (by decide) (by decide +kernel) hb
  exact absurd h1 ((by decide : ∀ pc ∈ [1, 2, 4, 5], failCode[pc]? ≠ some 130) pc hm)
theorem fail_method : ∃ C A, Method failCode demoJit flowParts 0 C A ∧ C.places = [(1, 3), (2, 14), (4, 16)] ∧ C.cips = [(21, 1), (23, 1)] ∧
    C.stubs = [(17, ⟨63, 5, 2⟩)] :=
  built_method fail_tables (by decide +kernel)

/-- The hypotheses of `C65_error_partial` are met: a division by zero, and an index that is too large. -/
example : ∃ C A, Method failCode demoJit flowParts 0 C A ∧
    (∃ (r : Nat) (m' : Mach), C.ops[r]? = some (.bind (throwLabel 0)) ∧
      Reach (demoHost 0x10000) (A.toImage 0x100000) (pos C.ops 3) (demoMach 0x10000 7 0) (pos C.ops r) m' ∧ m'.reg 0 = 14) ∧
    ∃ (q lab : Nat) (m' : Mach), (q, (⟨lab, 5, 2⟩ : Stub)) ∈ C.stubs ∧
      Reach (demoHost 0x10000) (A.toImage 0x100000) (pos C.ops 14) (demoMach 0x10000 6 0) (pos C.ops q) m' := by
  obtain ⟨C, A, M, hp, _, hst⟩ := fail_method
  have S : ∀ p a, Setup (demoHost 0x10000) demoJit failEnv 0 (demo p a) := fun p a =>
    have S0 := demo_setup (base := 0x10000) (by decide) p a
    ⟨S0.host, S0.size, S0.jsize, S0.jdata, S0.joff, S0.jslot, S0.layout, S0.frm0, S0.frm1⟩
  refine ⟨C, A, M, ?_, ?_⟩
  · obtain ⟨_, je, m', h1, _, _, ⟨_, q, r, _, h2, h3, h4, _⟩ | ⟨v, q, lab, h2, _⟩⟩ := C65_error_partial (E := failEnv) (chunk := 0x100000) (here := 8)
      (n := 3) (i := .sdiv .pri) (pc := 1) (e := .divideByZero) (s' := demo 7 0) M (S 7 0) (demo_sim 0x10000 7 0) (by rw [hp]; decide) rfl ⟨_, rfl, rfl⟩ (fun _ => rfl) (fun _ => rfl)
      trivial rfl
    · refine ⟨r, m', h2, h3, ?_⟩
      rw [h4]
      cases je <;> first | rfl | cases h1
    · subst h2; cases h1
  · obtain ⟨_, je, m', h1, _, _, ⟨h0, q, r, _, h2, h3, h4, _⟩ | ⟨v, q, lab, h2, h3, h4, _⟩⟩ := C65_error_partial (E := failEnv) (chunk := 0x100000) (here := 16)
      (n := 14) (i := .bounds 5) (pc := 2) (e := .arrayBounds) (s' := demo 6 0) M (S 6 0) (demo_sim 0x10000 6 0) (by rw [hp]; decide) rfl ⟨_, rfl, rfl⟩ (fun _ => rfl) (fun _ => rfl)
      (show (0 : Int) ≤ 5 ∧ (5 : Int) < 2147483648 by decide) rfl
    · cases je with
      | bounds v => exact absurd rfl (h0 v)
      | _ => cases h1
    · refine ⟨q, lab, m', ?_, h4⟩
      have : v = 5 := by rw [hst] at h3; simp at h3; exact h3.2.2
      rwa [this] at h3

end Verif.Jit

import Verif.Proofs.JitBack
import Verif.Props.C68

/-!
# C69: a stack trace of compiled code lists the calls that have not returned

`Active` (Verif/Spec/JitTrace.lean) says which functions of a plugin have been called, and at which instructions they
are.  `backtrace` (Verif/Model/JitTrace.lean) is the walk through the frames of the native stack, and `findCip` the
search for the instruction of a return address, as the host makes them when an error is reported.
-/
namespace Verif.Jit
open Verif.VM hiding Op
open Verif.X64 hiding Pre decode
open Verif.Graph

variable {H : Host} {P : Plugin} {E : Env} {W : World}

/-- **C69**: the host has called a function, by a stub that made an entry frame; functions have called each other to any
depth, and have returned or not; and now an instruction fails with an error that compiled code checks.  Then the
processor gets to the place where the host is called to report the error, and a stack trace made there shows the function
that failed, with the instruction that failed, and then its callers, the last first, each with the call instruction it
is at, and ends at the entry frame.  The frame pointer that the error return goes back to is that of the entry frame.
Missing: index errors, errors in natives, and a function that finds too little stack. -/
theorem C69_trace_partial (ok : WorldOk H W) (FA : FloatsAgree E.floats H.fpu) (placed : ∀ t, P.Has E W t → Placed P t)
    (report : ∀ t, P.Has E W t → ∃ more, (P.F t).report = (exitCalls.map fun c => .raw c.bytes) ++ more)
    {d0 t0 : Nat} {s0 : IState} {kp0 ka0 : Bool} {m0 : Mach} (has : P.Has E W t0) (S : Setup H (P.J t0) E t0 s0) (sim : Sim H kp0 ka0 m0 s0)
    (room : m0.stack.length + 4 * d0 + 11 ≤ W.room)
    {entry : FrameLayout} (hst : m0.stack ≠ []) (hentry : frameFromFp (W.word m0.stack) (m0.reg 5) = some entry)
    (htype : entry.frameType = BitVec.ofNat 32 entryFrame)
    {d t pc pc' : Nat} {ch : List (Nat × Nat)} {s s' : IState} {kp ka : Bool} (act : Active H P E W d0 t0 s0 d ch t pc s kp ka)
    {i : Insn} {e : Err} {here : Int} (hd : decode E.code pc = some (i, pc')) (hi : ∃ is, jit (P.J t) i = .code is ∧ hasCall is = false)
    (hpri : needsPri i = true → kp = true) (halt : needsAlt i = true → ka = true) (side : ErrSide s i)
    (hv : visit E t here i s = .fail s' e) (he : e ≠ .arrayBounds) :
    ∃ (r : Nat) (m : Mach) (it : JitIter) (je : JErr), W.Reach H (P.image t0).entry m0 ((P.image t).addr (pos (P.C t).ops (r + 5))) m ∧
      Seg (P.C t).ops r (.bind (throwLabel 0) :: (P.F t).report) ∧ je.code = e ∧ m.reg 0 = BitVec.ofNat 64 je.num ∧
      JitIter.init (W.word m.stack) (m.reg 5) = some it ∧
      backtrace (W.word m.stack) (P.find E) m.stack.length it =
        some (.internal :: .scripted (t * 4) (some (pc * 4)) :: ch.map (fun (u, q) => .scripted (u * 4) (some (q * 4))) ++ [.internal]) ∧
      findEntryFp (W.word m.stack) m.stack.length it 0 = some (m0.reg 5) := by
  obtain ⟨n, m, hast, h1, h2, h3, h4, h5, h6, h7⟩ := active_ok ok FA has S sim room act
  obtain ⟨fuel, Q, B, G, blks, fin, f, g1, g2, g3, _, hC, g5⟩ := hast.method.parts
  obtain ⟨is, hj, hc⟩ := hi
  have hie : Ends i = false := by cases i <;> first | rfl | cases hj
  have hl := hast.method.linked
  rw [hC] at hl
  obtain ⟨_, je, m1, k1, k2, k3, ⟨_, q, r, k5, k6, k7, k8, k9⟩ | ⟨v, _, _, hv', _⟩⟩ :=
    fail_step (here := here) H hast.method.tables g1 hl (follows_image hl (P.chunk t)) h4 h3 hpri halt side ((g5 _ _).1 h1) hd hj hc hie hv
  rotate_left
  · subst hv'
    exact absurd k1.symm he
  rw [← hC] at k5 k6 k7 k9
  obtain ⟨more, hmore⟩ := report t hast
  obtain ⟨m2, x1, x2, x3, x4, _, _, _⟩ := exit_ok ok hast (hmore ▸ k6) m1
  have e1 : m1.stack = (P.image t).addr (pos (P.C t).ops q) :: m.stack := congrArg Prod.fst k9
  have e2 : m1.reg 5 = m.reg 5 := congrArg (fun x => x.2.1) k9
  rw [e1, e2] at x2
  rw [e1] at x3
  have hlen : m2.stack.length = m.stack.length + 3 := by rw [x2]; rfl
  obtain ⟨it, w1, w2, w3⟩ := walk_exit ok placed hentry htype hst (fuel := m2.stack.length) h5 hast (by omega) k5 (by omega)
  refine ⟨r, m2, it, je, h2.trans ((lift ok hast.image k7).trans x1), k6, k1, x4.trans k8, ?_, ?_, ?_⟩
  · rw [x2, x3]; exact w1
  · rw [← x2] at w2; exact w2
  · rw [← x2] at w3; exact w3 0

/-! ## An example -/

/-- `int f(int n) { return n ? f(n - 1) + 1 : 0 / 0; }`: `proc; load.s.pri 12; jzer 52; dec.pri; push.pri; push.c 1; call 0;
inc.pri; retn; zero.alt; sdiv; retn`. -/
def trCode : List Cell := [46, 3, 12, 53, 52, 112, 36, 39, 1, 49, 0, 107, 48, 90, 73, 48]
def trEnv : Env := { demoEnv with code := trCode }
def trJit : JitEnv := ⟨4096, 1024, (demoHost 0).off, slotOffset trEnv 0⟩
def trParts : Parts := { flowParts with
  prologue := prologueOf trJit 0 16 0
  other := fun pc => if pc = 9 then callOf 0x100008 0xaa else if pc = 12 then retnOf trJit 0 59 else retnOf trJit 0 38
  report := (exitCalls.map fun c => .raw c.bytes) ++ [.raw [0xc3]] }

theorem tr_tables : NoNegativeTable trCode 0 := by
  intro pc n hb h1 h2
  have hm := boundary_mem [1, 3, 5, 6, 7, 9, 11, 12, 13, 14, 15, 16] (by decide) (by decide +kernel) hb
  exact absurd h1 ((by decide : ∀ pc ∈ [1, 3, 5, 6, 7, 9, 11, 12, 13, 14, 15, 16], trCode[pc]? ≠ some 130) pc hm)

def trPlaces : List (Nat × Nat) := [(1, 21), (3, 22), (13, 26), (14, 27), (15, 38), (5, 52), (6, 53), (7, 55), (9, 57), (11, 58), (12, 59)]

theorem tr_method : ∃ C A, Method trCode trJit trParts 0 C A ∧ C.places = trPlaces ∧ (A.image 0x100000).length = 309 ∧ A.table.length = 1 :=
  builtBy_method tr_tables (by decide +kernel)

/-- The state after an instruction. -/
def trAfter (here : Int) (i : Insn) (s : IState) : IState :=
  match visit trEnv 0 here i s with
  | .ok s' _ => s'
  | _ => s
def tr2 : IState := trAfter 12 (.loadS .pri 12) call1
def tr3 : IState := trAfter 24 (.dec .pri) tr2
def tr4 : IState := trAfter 28 (.push .pri) tr3
def tr5 : IState := trAfter 36 (.pushC [1]) tr4
def tr6 : IState := entered 0 tr5
def tr7 : IState := trAfter 12 (.loadS .pri 12) tr6
def tr8 : IState := trAfter 56 (.zero .alt) tr7

theorem tr_layout : Layout call1.vm ∧ Layout tr4.vm ∧ Layout tr5.vm ∧ Layout tr6.vm := by
  refine ⟨?_, ?_, ?_, ?_⟩ <;> constructor <;> decide +kernel

section
variable (C : Compiled) (A : Asm)
def trPlugin : Plugin := ⟨fun _ => trJit, fun _ => trParts, fun _ => C, fun _ => A, fun t => if t = 0 then 0x100000 else 0, 4096, 1024, (demoHost 0).off, fun _ => 16, fun _ => 0⟩

theorem tr_entry (ht : A.table.length = 1) : ((trPlugin C A).image 0).entry = 0x100008 := by
  show (0x100000 : BitVec 64) + BitVec.ofNat 64 (A.table.length * 8) = _
  rw [ht]; rfl

theorem tr_has (M : Method trCode trJit trParts 0 C A) (hp : C.places = trPlaces) (ht : A.table.length = 1) :
    (trPlugin C A).Has trEnv (callWorld A) 0 := by
  have places : ∀ {pc n : Nat}, (pc, n) ∈ C.places → (pc, n) ∈ trPlaces := fun h => hp ▸ h
  refine ⟨M, List.mem_cons_self, rfl, rfl, ?_, ?_⟩
  · intro pc n next h hd
    have h := places h
    simp only [trPlaces, List.mem_cons, Prod.mk.injEq, List.not_mem_nil, or_false] at h
    rcases h with ⟨rfl, rfl⟩ | ⟨rfl, rfl⟩ | ⟨rfl, rfl⟩ | ⟨rfl, rfl⟩ | ⟨rfl, rfl⟩ | ⟨rfl, rfl⟩ | ⟨rfl, rfl⟩ | ⟨rfl, rfl⟩ | ⟨rfl, rfl⟩ | ⟨rfl, rfl⟩ | ⟨rfl, rfl⟩ <;>
      first | rfl | (cases hd; done)
  · intro pc n o next h hd
    have h := places h
    simp only [trPlaces, List.mem_cons, Prod.mk.injEq, List.not_mem_nil, or_false] at h
    rcases h with ⟨rfl, rfl⟩ | ⟨rfl, rfl⟩ | ⟨rfl, rfl⟩ | ⟨rfl, rfl⟩ | ⟨rfl, rfl⟩ | ⟨rfl, rfl⟩ | ⟨rfl, rfl⟩ | ⟨rfl, rfl⟩ | ⟨rfl, rfl⟩ | ⟨rfl, rfl⟩ | ⟨rfl, rfl⟩ <;>
      first
      | (cases hd; done)
      | (cases hd; exact ⟨0, 0xaa, rfl, by rw [tr_entry C A ht]; rfl⟩)

theorem tr_world (hl : (A.image 0x100000).length = 309) : WorldOk (demoHost 0x10000) (callWorld A) := by
  refine ⟨?_, ?_, by show 8 * 1000 < _; decide⟩
  · intro I hI I' hI' a _ _
    rw [List.mem_singleton.1 hI, List.mem_singleton.1 hI']
  · intro I hI
    rw [List.mem_singleton.1 hI]
    refine ⟨by show (A.image 0x100000).length < _; rw [hl]; decide, ?_⟩
    intro p h
    have h : p < (A.image 0x100000).length := h
    rw [hl] at h
    have : ∀ p < 309, (4096 : Int) ≤ (demoHost 0x10000).offset (0x100000 + BitVec.ofNat 64 p) := by decide +kernel
    exact this p h

/-- The host has called `f(1)`: there is an entry frame, and the return address for `f` below it. -/
def trMach : Mach := { demoMach 0x10000 0 0 with mem := callVM.mem, stack := [0x1234, 1, 0x4444, 0x5555] }.setReg 5 0x7ffefff0

/-- `f(1)` has called `f(0)`, and that is about to divide. -/
theorem tr_active (has : (trPlugin C A).Has trEnv (callWorld A) 0) :
    Active (demoHost 0x10000) (trPlugin C A) trEnv (callWorld A) 1 0 callStart 0 [(0, 9)] 0 14 tr8 true true := by
  obtain ⟨L1, L4, L5, L6⟩ := tr_layout
  have hs : Sizes ((trPlugin C A).maxStack 0) (stackSizeForLocals trEnv 0) :=
    ⟨(by decide : (0 : Int) ≤ 16), (by decide : (16 : Int) < 2147483648), by decide, by decide⟩
  refine .run (pc := 1) (s := tr6) (kp := false) (ka := false) (.call (o := 0) (u := 0) (next := 11) (s := tr5) (kp := true) (ka := false)
    (.run (pc := 1) (s := call1) (kp := false) (ka := false) (.start ⟨hs, .inr (by exact (by decide +kernel : callStart.vm.hp + 64 ≤ callStart.vm.sp - 8 - 16)), L1, rfl⟩) ?_) rfl rfl has ⟨hs, .inr (by exact (by decide +kernel : tr5.vm.hp + 64 ≤ tr5.vm.sp - 8 - 16)), L6, rfl⟩) ?_
  · refine .step (s1 := tr2) (kp1 := true) (ka1 := false) ⟨⟨.loadS .pri 12, 3, .next, rfl, ⟨_, rfl, rfl⟩, (fun h => nomatch h), (fun h => nomatch h), trivial, rfl, rfl, rfl, rfl⟩, L1⟩ ?_
    refine .step (s1 := tr2) (kp1 := true) (ka1 := false) ⟨⟨.jcmp .zero 52, 5, .next, rfl, trivial, fun _ => rfl, (fun h => nomatch h), trivial, rfl, rfl, rfl, rfl⟩, L1⟩ ?_
    refine .step (s1 := tr3) (kp1 := true) (ka1 := false) ⟨⟨.dec .pri, 6, .next, rfl, ⟨_, rfl, rfl⟩, fun _ => rfl, (fun h => nomatch h), trivial, rfl, rfl, rfl, rfl⟩, L1⟩ ?_
    refine .step (s1 := tr4) (kp1 := true) (ka1 := false) ⟨⟨.push .pri, 7, .next, rfl, ⟨_, rfl, rfl⟩, fun _ => rfl, (fun h => nomatch h), trivial, rfl, rfl, rfl, rfl⟩, L4⟩ ?_
    refine .step (s1 := tr5) (kp1 := true) (ka1 := false) ⟨⟨.pushC [1], 9, .next, rfl, ⟨_, rfl, rfl⟩, (fun h => nomatch h), (fun h => nomatch h), trivial, rfl, rfl, rfl, rfl⟩, L5⟩ ?_
    exact .none _ _ _ _ _ _
  · refine .step (s1 := tr7) (kp1 := true) (ka1 := false) ⟨⟨.loadS .pri 12, 3, .next, rfl, ⟨_, rfl, rfl⟩, (fun h => nomatch h), (fun h => nomatch h), trivial, rfl, rfl, rfl, rfl⟩, L6⟩ ?_
    refine .step (s1 := tr7) (kp1 := true) (ka1 := false) ⟨⟨.jcmp .zero 52, 5, .goto 52, rfl, trivial, fun _ => rfl, (fun h => nomatch h), trivial, rfl, rfl, rfl, rfl⟩, L6⟩ ?_
    refine .step (s1 := tr8) (kp1 := true) (ka1 := true) ⟨⟨.zero .alt, 14, .next, rfl, ⟨_, rfl, rfl⟩, (fun h => nomatch h), (fun h => nomatch h), trivial, rfl, rfl, rfl, rfl⟩, L6⟩ ?_
    exact .none _ _ _ _ _ _

/-- The hypotheses of `C69_trace_partial` are met: the trace shows `f` at its division, and `f` at its call. -/
example : ∃ C A p m it, Method trCode trJit trParts 0 C A ∧ (callWorld A).Reach (demoHost 0x10000) 0x100008 trMach p m ∧ m.reg 0 = 14 ∧
    JitIter.init ((callWorld A).word m.stack) (m.reg 5) = some it ∧
    backtrace ((callWorld A).word m.stack) ((trPlugin C A).find trEnv) m.stack.length it = some [.internal, .scripted 0 (some 56), .scripted 0 (some 36), .internal] ∧
    findEntryFp ((callWorld A).word m.stack) m.stack.length it 0 = some 0x7ffefff0 := by
  obtain ⟨C, A, M, hp, hl, ht⟩ := tr_method
  have has := tr_has C A M hp ht
  have S0 := demo_setup (base := 0x10000) (by decide) 0 0
  have S : Setup (demoHost 0x10000) trJit trEnv 0 callStart :=
    ⟨S0.host, S0.size, rfl, rfl, rfl, rfl, call_start, by decide +kernel, by decide +kernel⟩
  have sim : Sim (demoHost 0x10000) true true trMach callStart :=
    ⟨fun _ => rfl, fun _ => rfl, rfl, rfl, rfl, rfl, rfl, rfl, rfl, rfl, rfl⟩
  have only : ∀ t, (trPlugin C A).Has trEnv (callWorld A) t → t = 0 := by
    intro t h
    refine Decidable.byContradiction fun h0 => ?_
    have h1 := congrArg Image.base (List.mem_singleton.1 h.image)
    have h2 : ((trPlugin C A).image t).base = if t = 0 then 0x100000 else 0 := rfl
    rw [h2, if_neg h0] at h1
    cases h1
  obtain ⟨r, m, it, je, h1, _, h3, h4, h5, h6, h7⟩ := C69_trace_partial (P := trPlugin C A) (E := trEnv) (t0 := 0) (d0 := 1) (entry := ⟨1, 0x4444, 0x5555⟩)
    (here := 60) (i := .sdiv .pri) (e := .divideByZero) (s' := tr8) (pc' := 15)
    (tr_world A hl) demo_floats
    (fun t h => by
      obtain rfl := only t h
      refine ⟨?_, by decide⟩
      rw [tr_entry C A ht]
      show _ + ((A.image 0x100000).length - A.table.length * 8) < _
      rw [hl, ht]; decide)
    (fun t h => ⟨_, rfl⟩) has S sim (by show 4 + 4 * 1 + 11 ≤ 1000; decide) (by decide)
    (by exact (by decide +kernel : frameFromFp (World.word ⟨[], 0x7fff0000, 1000, 0x11⟩ [0x1234, 1, 0x4444, 0x5555]) 0x7ffefff0 = some ⟨1, 0x4444, 0x5555⟩)) rfl (tr_active C A has) rfl ⟨_, rfl, rfl⟩ (fun _ => rfl) (fun _ => rfl)
    trivial (by rfl) (by decide)
  rw [tr_entry C A ht] at h1
  refine ⟨C, A, _, m, it, M, h1, ?_, h5, h6, h7⟩
  cases je <;> first | (cases h3; done) | (rw [h4]; rfl)

end

end Verif.Jit

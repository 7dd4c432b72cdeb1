import Verif.Proofs.JitCalls
import Verif.Proofs.JitFrame
import Verif.Proofs.GenCall

/-!
# C68: compiled functions call each other and return as the plugin's calls do

`Plugin` (Verif/Spec/JitCall.lean) is a set of compiled methods; `P.Has E W t` says that the one that starts at cell
`t` is in memory, and that its prologue, its calls and its returns are what the x64 compiler emits.  The processor is
`World.cpu` of Verif/Spec/X64Frames.lean: it decodes the bytes of all methods, calls through the tables of constants,
and keeps the native stack with its frame pointers and return addresses.  `Trace` is a run with calls in it, as seen
by the plugin: `entered` and `left` say what a call and a return do to its registers and memory.
-/
namespace Verif.Jit
open Verif.VM hiding Op
open Verif.X64 hiding Pre decode
open Verif.Graph

variable {H : Host} {P : Plugin} {E : Env} {W : World}

/-- **C68**: let a method go from one instruction to another, through any number of instructions and calls, nested to
any depth `d` that the native stack has room for.  Then the processor, started at the code of the first instruction in
an agreeing state, gets to the code of the last, in an agreeing state, and its own stack, rbp and r13 are as before.
Missing: calls of natives. -/
theorem C68_calls_partial (ok : WorldOk H W) (FA : FloatsAgree E.floats H.fpu) {d t pc pc' n : Nat} {s s' : IState} {kp ka kp' ka' : Bool}
    {m : Mach} (has : P.Has E W t) (S : Setup H (P.J t) E t s) (sim : Sim H kp ka m s) (hp : (pc, n) ∈ (P.C t).places)
    (room : m.stack.length + 4 * d + 8 ≤ W.room) (tr : Trace H P E W d t pc s kp ka pc' s' kp' ka') :
    ∃ n' m', (pc', n') ∈ (P.C t).places ∧
      W.Reach H ((P.image t).addr (pos (P.C t).ops n)) m ((P.image t).addr (pos (P.C t).ops n')) m' ∧ Sim H kp' ka' m' s' ∧ m'.outer = m.outer := by
  obtain ⟨n', m', h1, h2, h3, h4, _⟩ := trace_ok ok FA tr has S sim hp room
  exact ⟨n', m', h1, h2, h3, h4⟩

/-- **C68** for a whole call: with a return address on the native stack, the processor gets from the entry of a method
to that address, once the method has run to one of its RETN instructions.  The state is that which the plugin's
return leaves, the return address is gone from the stack, and rbp and r13 are as they were. -/
theorem C68_invocation_partial (ok : WorldOk H W) (FA : FloatsAgree E.floats H.fpu) {d t pr nr : Nat} {s s1 s2 s3 : IState} {kp ka kp2 ka2 : Bool}
    {m : Mach} {ra : BitVec 64} {st : List (BitVec 64)} (has : P.Has E W t) (S : Setup H (P.J t) E t s) (sim : Sim H kp ka m s)
    (hst : m.stack = ra :: st) (room : st.length + 4 * d + 12 ≤ W.room)
    (en : Enter P E t s s1) (tr : Trace H P E W d t (t + 1) s1 false false pr s2 kp2 ka2) (hd : decode E.code pr = some (.retn, nr))
    (lv : Leave P E t pr s2 s3) :
    ∃ m', W.Reach H (P.image t).entry m ra m' ∧ Sim H kp2 false m' s3 ∧ m'.outer = (st, m.outer.2) := by
  obtain ⟨n1, m1, q1, r1, sm1, S1, o1⟩ := enter_ok ok has (Base.of has S) S.layout en sim
  have hl : m.stack.length = st.length + 1 := by rw [hst]; rfl
  have hst1 : m1.stack.length = st.length + 4 := by rw [show m1.stack = _ from congrArg Prod.fst o1, List.length_cons, List.length_cons, List.length_cons, hl]
  obtain ⟨n2, m2, q2, r2, sm2, o2, S2⟩ := trace_ok ok FA tr has S1 sm1 q1 (by omega)
  rw [hl, hst] at o1
  obtain ⟨m3, r3, sm3, o3, b3⟩ := leave_ok (st := st) ok has S2 sm2 q2 hd lv (o2.trans o1) (by omega)
  exact ⟨m3, r1.trans (r2.trans r3), sm3, o3⟩

/-- **C68**: a call that finds too little stack ends in the code that reports errors, with the number of STACKLOW in
rax; of plugin memory only the new frame was written.  It is assumed that the memory block of the plugin is not at a
very low address. -/
theorem C68_stack_low_partial (ok : WorldOk H W) {t : Nat} {s : IState} {kp ka : Bool} {m : Mach} (has : P.Has E W t)
    (S : Setup H (P.J t) E t s) (sim : Sim H kp ka m s) (z : Sizes (P.maxStack t) (stackSizeForLocals E t)) (low : ¬ EnoughStack (P.maxStack t) s)
    (h8 : 8 ≤ s.vm.sp) (h64 : s.vm.hp + 64 ≤ s.vm.memSize) (hb : P.maxStack t ≤ H.base.toNat) :
    ∃ m' r q, (P.C t).ops[r]? = some (.bind (throwLabel 0)) ∧ W.Reach H (P.image t).entry m ((P.image t).addr (pos (P.C t).ops r)) m' ∧
      m'.reg 0 = BitVec.ofNat 64 JErr.stackLow.num ∧ m'.mem = (entered 0 s).vm.mem ∧
      m'.stack = (P.image t).addr (pos (P.C t).ops q) :: W.junk :: frameWord t :: m.reg 5 :: m.stack := by
  obtain ⟨l1, l2, l3, l4, l5, l6⟩ := S.layout
  have hsz := S.size
  obtain ⟨fin, hC, hle⟩ := has.method.base
  have hF := follows_image has.method.linked (P.chunk t)
  have hrun := has.method.linked
  obtain ⟨m1, r1, o1, f1, _, _⟩ := frame_ok ok has m
  obtain ⟨m2, r2, s2, o2⟩ := run_frame S.host S.joff (f1 _ _ _ sim) h8 (by omega)
    (checkItems (P.J t) (P.maxStack t) ++ localItems (stackSizeForLocals E t))
  obtain ⟨m3, r3, s3, o3⟩ := run_low (J := P.J t) S.host S.joff (by omega) (by omega) (by omega) (by omega) h8 z.max0 z.max1 hb s2 low
    (localItems (stackSizeForLocals E t))
  rw [r3, ← List.append_assoc] at r2
  obtain ⟨hw, hs, he⟩ := prologue_frag (E := E) has
  obtain ⟨q, hq, _, herr⟩ := frag (H := H) hrun hF _ 5 none m1 hw hs he (fun l h => nomatch h)
  cases hq
  obtain ⟨j, cc, hjj, hgo⟩ := herr _ _ r2
  have hm : (⟨4 * (5 + j) + 3, JErr.stackLow.num, 0⟩ : Thunk) ∈ fin.thunks := by
    rcases item_err (cip := 0) _ 5 j cc _ hjj with ⟨v, h, _⟩ | ⟨_, h2⟩
    · cases h
    · refine hle.thunks.subset ?_
      show _ ∈ (P.F t).prologue.2
      rw [has.prologue]
      exact h2
  rw [hC] at hrun hF
  obtain ⟨q, r, _, t2, k, t3, t4⟩ := thunk_path hrun H hF hm (show JErr.stackLow.num ∈ throwList by decide)
  obtain ⟨m4, u1, u2, u3, u4, u5⟩ := t4 m3
  rw [← hC] at t2 t3 u1 u3
  refine ⟨m4, r, q, t2.head, r1.trans ((lift ok has.image (hgo k t3)).trans (lift ok has.image u1)), u2, u4.trans s3.mem, ?_⟩
  have : m4.stack = _ := congrArg Prod.fst u3
  rw [this, show m3.stack = _ from congrArg Prod.fst (o3.trans (o2.trans o1))]
  rfl

/-! ## The caller finds its frame again -/

/-- **C68**: as long as a method keeps its frame pointer and does not overwrite the frame (two words, and the number of
arguments above them), the caller gets back its frame pointer and its heap top, and the arguments are gone from its
stack. -/
theorem C68_caller_restored {locals : Int} {s s2 : IState} (L : Layout s.vm) (h0 : 0 ≤ s.vm.frm) (h1 : s.vm.frm ≤ s.vm.stp)
    (hf : s2.vm.frm = (entered locals s).vm.frm) (hm : ∀ a, s.vm.sp - 8 ≤ a → a < s.vm.sp + 4 → s2.vm.mem a = (entered locals s).vm.mem a) :
    (left s2).vm.frm = s.vm.frm ∧ (left s2).vm.hp = s.vm.hp ∧ (left s2).vm.sp = s.vm.sp + 4 + 4 * (rd32 s.vm.mem s.vm.sp).toNat := by
  obtain ⟨l1, l2, l3, l4, l5, l6⟩ := L
  have hf : s2.vm.frm = s.vm.sp - 8 := hf
  have rd : ∀ (p q : Int → BitVec 8) (a : Int), (∀ i, a ≤ i → i < a + 4 → p i = q i) → rd32 p a = rd32 q a := by
    intro p q a h
    unfold rd32
    rw [h a (by omega) (by omega), h (a + 1) (by omega) (by omega), h (a + 2) (by omega) (by omega), h (a + 3) (by omega) (by omega)]
  have em : (entered locals s).vm.mem = wr32 (wr32 s.vm.mem (s.vm.sp - 4) (BitVec.ofInt 32 s.vm.frm)) (s.vm.sp - 8) (BitVec.ofInt 32 s.vm.hp) := rfl
  have ev : ∀ x : Int, 0 ≤ x → x < 2147483648 → (BitVec.ofInt 32 x).toInt = x := by
    intro x a b
    show (bv x).toInt = _
    rw [bv_toInt, wrap32_id (by omega) b]
  refine ⟨?_, ?_, ?_⟩
  · show (rd32 s2.vm.mem (s2.vm.frm + 4)).toInt = _
    rw [hf, show s.vm.sp - 8 + 4 = s.vm.sp - 4 by omega, rd _ _ _ (fun i a b => hm i (by omega) (by omega)), em,
      rd32_wr32_disj (by omega), rd32_wr32_same, ev _ h0 (by omega)]
  · show (rd32 s2.vm.mem s2.vm.frm).toInt = _
    rw [hf, rd _ _ _ (fun i a b => hm i (by omega) (by omega)), em, rd32_wr32_same, ev _ (by omega) (by omega)]
  · show s2.vm.frm + 12 + 4 * ((rd32 s2.vm.mem (s2.vm.frm + 8)).toNat : Int) = _
    rw [hf, show s.vm.sp - 8 + 8 = s.vm.sp by omega, rd _ _ _ (fun i a b => hm i (by omega) (by omega)), em,
      rd32_wr32_disj (by omega), rd32_wr32_disj (by omega)]
    omega

/-! ## The interpreter makes the same frames -/

/-- **C68**: the interpreter and compiled code make the same frame, at the same address, with the same contents, and
leave the same room for local variables.  But the interpreter takes one cell of the heap for itself at each call, so
that heap addresses of the called method differ. -/
theorem C68_same_frame {E : Env} {t : Nat} {s s' : IState} (L : Layout s.vm) (hm : s.vm.memSize ≤ 2147483000)
    (hl : -2147483648 ≤ stackSizeForLocals E t + s.vm.sp - 8 ∧ stackSizeForLocals E t ≤ 0)
    (h : enterMethod E t s = .ok s' ()) :
    s'.vm.frm = (entered (stackSizeForLocals E t) s).vm.frm ∧ s'.vm.sp = (entered (stackSizeForLocals E t) s).vm.sp ∧
    s'.pri = 0 ∧ s'.alt = 0 ∧ s'.vm.hp = s.vm.hp + 4 ∧ (entered (stackSizeForLocals E t) s).vm.hp = s.vm.hp ∧
    ∀ a, a < s.vm.hp ∨ s.vm.hp + 4 ≤ a → s'.vm.mem a = (entered (stackSizeForLocals E t) s).vm.mem a := by
  obtain ⟨l1, l2, l3, l4, l5, l6⟩ := L
  obtain ⟨s1, _, h1, h2⟩ := im_bind_inv h
  obtain ⟨v1, hv, rfl⟩ := vmOp_inv h1
  have hf : v1 = Verif.Compiled.entered s.vm 0 ∧ s.vm.hp + 72 ≤ s.vm.sp := by
    rcases Verif.Compiled.pushAmxFrame_cases (v := s.vm) (by omega) l3 l4 (by omega) (by omega) with ⟨hr, e⟩ | ⟨v', e, he, _, _⟩
    · rw [e] at hv; cases hv; exact ⟨rfl, hr⟩
    · rw [he] at hv; cases hv
  obtain ⟨rfl, hr⟩ := hf
  have mm : ∀ a, a < s.vm.hp ∨ s.vm.hp + 4 ≤ a → Verif.Compiled.framed s.vm a = (entered (stackSizeForLocals E t) s).vm.mem a := by
    intro a ha
    show wr32 (wr32 (wr32 s.vm.mem (s.vm.sp - 4) _) s.vm.hp _) (s.vm.sp - 8) _ a = wr32 (wr32 s.vm.mem (s.vm.sp - 4) _) (s.vm.sp - 8) _ a
    have w : ∀ (f g : Int → BitVec 8) (b : Int) (c : Cell), f a = g a → wr32 f b c a = wr32 g b c a := by
      intro f g b c hfg
      simp only [wr32, hfg]
    exact w _ _ _ _ (wr32_far ha)
  by_cases hz : stackSizeForLocals E t = 0
  · have h2 : (if stackSizeForLocals E t ≠ 0 then vmOp (addStack (stackSizeForLocals E t)) else pure () : IM Unit) _ = _ := h2
    rw [if_neg (by omega)] at h2
    cases h2
    refine ⟨rfl, ?_, rfl, rfl, rfl, rfl, mm⟩
    show s.vm.sp - 8 - 4 * ((0 : Nat) : Int) = s.vm.sp - 8 + stackSizeForLocals E t
    omega
  · have h2 : (if stackSizeForLocals E t ≠ 0 then vmOp (addStack (stackSizeForLocals E t)) else pure () : IM Unit) _ = _ := h2
    rw [if_pos hz] at h2
    obtain ⟨v2, hv2, rfl⟩ := vmOp_inv h2
    unfold addStack at hv2
    have e : wrap32 ((Verif.Compiled.entered s.vm 0).sp + stackSizeForLocals E t) = s.vm.sp - 8 + stackSizeForLocals E t := by
      show wrap32 (s.vm.sp - 8 - 4 * ((0 : Nat) : Int) + _) = _
      rw [wrap32_id (by omega) (by omega)]; omega
    simp only [e] at hv2
    rw [if_pos (by omega)] at hv2
    split at hv2
    · cases hv2
    · cases hv2
      exact ⟨rfl, rfl, rfl, rfl, rfl, rfl, mm⟩

theorem pop_raw {s s' : State} {v : Cell} (h : popStack s = .ok s' v) :
    s' = { s with sp := wrap32 (s.sp + 4) } ∧ v = rd32 s.mem s.sp ∧ s.sp < s.stp := by
  unfold popStack at h
  split at h
  · cases h
  · split at h
    · rename_i hl
      obtain ⟨rfl, rfl, _⟩ := loadRaw_inv hl
      cases h
      exact ⟨rfl, rfl, by omega⟩
    · cases h
    · cases h

/-- **C68**: where the interpreter returns, compiled code returns the same way. -/
theorem C68_same_return {s : IState} {v : State} (L : Layout s.vm) (hf : 0 ≤ s.vm.frm)
    (hn : s.vm.frm + 12 + 4 * (rd32 s.vm.mem (s.vm.frm + 8)).toInt < 2147483648) (h : popAmxFrame s.vm = .ok v ()) :
    v.frm = (left s).vm.frm ∧ v.hp = (left s).vm.hp ∧ v.sp = (left s).vm.sp ∧ v.mem = (left s).vm.mem := by
  obtain ⟨l1, l2, l3, l4, l5, l6⟩ := L
  obtain ⟨v1, saved, p1, h⟩ := vmm_bind_inv h
  obtain ⟨rfl, rfl, q1⟩ := pop_raw p1
  have q1 : s.vm.frm < s.vm.stp := q1
  obtain ⟨v2, p, p2, h⟩ := vmm_bind_inv h
  obtain ⟨rfl, rfl, q2⟩ := throw_inv p2
  obtain ⟨v3, sc, p3, h⟩ := vmm_bind_inv h
  obtain ⟨rfl, rfl, q3⟩ := loadRaw_inv p3
  obtain ⟨v4, u4, p4, h⟩ := vmm_bind_inv h
  unfold restoreHeap at p4
  split at p4
  · cases p4
  · cases p4
    obtain ⟨v5, frm, p5, h⟩ := vmm_bind_inv h
    obtain ⟨rfl, rfl, q5⟩ := pop_raw p5
    have w1 : wrap32 (s.vm.frm + 4) = s.vm.frm + 4 := wrap32_id (by omega) (by omega)
    simp only [w1] at q5 h
    obtain ⟨v6, u6, p6, h⟩ := vmm_bind_inv h
    cases p6
    obtain ⟨v7, nargs, p7, h⟩ := vmm_bind_inv h
    obtain ⟨rfl, rfl, q7⟩ := pop_raw p7
    have w2 : wrap32 (s.vm.frm + 4 + 4) = s.vm.frm + 8 := by rw [wrap32_id (by omega) (by omega)]; omega
    simp only [w2] at q7 h
    have w3 : wrap32 (s.vm.frm + 8 + 4) = s.vm.frm + 12 := by rw [wrap32_id (by omega) (by omega)]; omega
    simp only [w3] at h
    unfold dropArgs at h
    have hr := toInt_range (rd32 s.vm.mem (s.vm.frm + 8))
    split at h
    · cases h
    · rename_i hc
      cases h
      refine ⟨rfl, rfl, ?_, rfl⟩
      show wrap32 (s.vm.frm + 12 + (rd32 s.vm.mem (s.vm.frm + 8)).toInt * 4) = s.vm.frm + 12 + 4 * ((rd32 s.vm.mem (s.vm.frm + 8)).toNat : Int)
      have ht := BitVec.toInt_eq_toNat_cond (rd32 s.vm.mem (s.vm.frm + 8))
      have hb := (rd32 s.vm.mem (s.vm.frm + 8)).isLt
      rw [wrap32_id (by omega) (by omega)]
      split at ht <;> omega

/-! ## An example -/

/-- Compile and link with parts of one's own. -/
def builtBy (code : List Cell) (J : JitEnv) (F : Parts) : Option (Compiled × Asm) :=
  match build code 0 (2 * code.length) with
  | .ok (_, B, G) => match blocksOf 0 B G.order G.order with
    | some blks => match compile code J F blks with
      | some C => (Asm.run true {} C.ops).map fun A => (C, A)
      | none => none
    | none => none
  | _ => none

theorem builtBy_method {code : List Cell} {J : JitEnv} {F : Parts} {p : Compiled → Asm → Prop} [∀ C A, Decidable (p C A)]
    (hn : NoNegativeTable code 0) (h : (match builtBy code J F with | some (C, A) => decide (p C A) | none => false) = true) :
    ∃ C A, Method code J F 0 C A ∧ p C A := by
  unfold builtBy at h
  cases e1 : build code 0 (2 * code.length) with
  | ok x =>
    obtain ⟨P, B, G⟩ := x
    simp only [e1] at h
    cases e2 : blocksOf 0 B G.order G.order with
    | none => simp only [e2] at h; cases h
    | some blks =>
      simp only [e2] at h
      cases e3 : compile code J F blks with
      | none => simp only [e3] at h; cases h
      | some C =>
        simp only [e3] at h
        cases e4 : Asm.run true {} C.ops with
        | none => simp only [e4] at h; cases h
        | some A =>
          simp only [e4, Option.map_some] at h
          exact ⟨C, A, ⟨hn, ⟨_, P, B, G, blks, e1, e2, e3⟩, e4⟩, of_decide_eq_true h⟩
  | rejected => simp only [e1] at h; cases h
  | fuel => simp only [e1] at h; cases h
  | ub => simp only [e1] at h; cases h

/-- `int f(int n) { return n ? f(n - 1) + 1 : 0; }`: `proc; load.s.pri 12; jzer 48; dec.pri; push.pri; push.c 1; call 0;
inc.pri; retn`. -/
def callCode : List Cell := [46, 3, 12, 53, 48, 112, 36, 39, 1, 49, 0, 107, 48]
def callEnv : Env := { demoEnv with code := callCode }
def callJit : JitEnv := ⟨4096, 1024, (demoHost 0).off, slotOffset callEnv 0⟩
def callParts : Parts := { flowParts with
  prologue := prologueOf callJit 0 16 0
  other := fun pc => if pc = 9 then callOf 0x100008 0xaa else retnOf callJit 0 35 }

theorem call_tables : NoNegativeTable callCode 0 := by
  intro pc n hb h1 h2
  have hm := boundary_mem [1, 3, 5, 6, 7, 9, 11, 12, 13] (by decide) (by decide +kernel) hb
  exact absurd h1 ((by decide : ∀ pc ∈ [1, 3, 5, 6, 7, 9, 11, 12, 13], callCode[pc]? ≠ some 130) pc hm)

theorem call_method : ∃ C A, Method callCode callJit callParts 0 C A ∧
    C.places = [(1, 21), (3, 22), (5, 26), (6, 27), (7, 29), (9, 31), (11, 32), (12, 35)] ∧ (A.image 0x100000).length = 183 ∧ A.table.length = 1 :=
  builtBy_method call_tables (by decide +kernel)

/-- One argument, which is one, has been pushed for `f`. -/
def callVM : State := { demoVM with mem := wr32 (wr32 demoVM.mem 3072 1) 3076 1 }
def callStart : IState := ⟨callVM, 0, 0, 0⟩
/-- The state after an instruction. -/
def after (here : Int) (i : Insn) (s : IState) : IState :=
  match visit callEnv 0 here i s with
  | .ok s' _ => s'
  | _ => s
def call1 : IState := entered 0 callStart
def call2 : IState := after 12 (.loadS .pri 12) call1
def call3 : IState := after 24 (.dec .pri) call2
def call4 : IState := after 28 (.push .pri) call3
def call5 : IState := after 36 (.pushC [1]) call4
def call6 : IState := entered 0 call5
def call7 : IState := after 12 (.loadS .pri 12) call6
def call8 : IState := left call7
def call9 : IState := after 48 (.inc .pri) { call8 with alt := call5.alt }


section
variable (C : Compiled) (A : Asm)
def callPlugin : Plugin := ⟨fun _ => callJit, fun _ => callParts, fun _ => C, fun _ => A, fun _ => 0x100000, 4096, 1024, (demoHost 0).off, fun _ => 16, fun _ => 0⟩
def callWorld : World := ⟨[A.toImage 0x100000], 0x7fff0000, 1000, 0x11⟩

theorem call_has (M : Method callCode callJit callParts 0 C A)
    (hp : C.places = [(1, 21), (3, 22), (5, 26), (6, 27), (7, 29), (9, 31), (11, 32), (12, 35)]) (ht : A.table.length = 1) :
    (callPlugin C A).Has callEnv (callWorld A) 0 := by
  refine ⟨M, List.mem_cons_self, rfl, rfl, ?_, ?_⟩
  · intro pc n next h hd
    have h : (pc, n) ∈ C.places := h
    rw [hp] at h
    simp only [List.mem_cons, Prod.mk.injEq, List.not_mem_nil, or_false] at h
    rcases h with ⟨rfl, rfl⟩ | ⟨rfl, rfl⟩ | ⟨rfl, rfl⟩ | ⟨rfl, rfl⟩ | ⟨rfl, rfl⟩ | ⟨rfl, rfl⟩ | ⟨rfl, rfl⟩ | ⟨rfl, rfl⟩ <;> first | rfl | (cases hd; done)
  · intro pc n o next h hd
    have h : (pc, n) ∈ C.places := h
    rw [hp] at h
    have he : ((callPlugin C A).image 0).entry = 0x100008 := by
      show (0x100000 : BitVec 64) + BitVec.ofNat 64 (A.table.length * 8) = _
      rw [ht]; rfl
    simp only [List.mem_cons, Prod.mk.injEq, List.not_mem_nil, or_false] at h
    rcases h with ⟨rfl, rfl⟩ | ⟨rfl, rfl⟩ | ⟨rfl, rfl⟩ | ⟨rfl, rfl⟩ | ⟨rfl, rfl⟩ | ⟨rfl, rfl⟩ | ⟨rfl, rfl⟩ | ⟨rfl, rfl⟩ <;>
      first
      | (cases hd; done)
      | (cases hd; exact ⟨0, 0xaa, rfl, by rw [he]; rfl⟩)

theorem call_start : Layout callStart.vm := by constructor <;> decide +kernel
theorem call_sizes : Sizes ((callPlugin C A).maxStack 0) (stackSizeForLocals callEnv 0) :=
  ⟨(by decide : (0 : Int) ≤ 16), (by decide : (16 : Int) < 2147483648), by decide, by decide⟩
theorem call_enough : EnoughStack 16 callStart ∧ EnoughStack 16 call5 :=
  ⟨.inr (by decide +kernel), .inr (by decide +kernel)⟩

theorem call_layout : Layout call1.vm ∧ Layout call4.vm ∧ Layout call5.vm ∧ Layout call6.vm ∧ Layout call8.vm ∧ Layout (left call9).vm := by
  refine ⟨?_, ?_, ?_, ?_, ?_, ?_⟩ <;> constructor <;> decide +kernel

theorem call_trace (has : (callPlugin C A).Has callEnv (callWorld A) 0) :
    Trace (demoHost 0x10000) (callPlugin C A) callEnv (callWorld A) 1 0 1 call1 false false 12 call9 true false := by
  obtain ⟨L1, L4, L5, L6, L8, L9⟩ := call_layout
  refine .step (s1 := call2) (kp1 := true) (ka1 := false) ⟨⟨.loadS .pri 12, 3, .next, rfl, ⟨_, rfl, rfl⟩, (fun h => nomatch h), (fun h => nomatch h), trivial, rfl, rfl, rfl, rfl⟩, L1⟩ ?_
  refine .step (s1 := call2) (kp1 := true) (ka1 := false) ⟨⟨.jcmp .zero 48, 5, .next, rfl, trivial, fun _ => rfl, (fun h => nomatch h), trivial, rfl, rfl, rfl, rfl⟩, L1⟩ ?_
  refine .step (s1 := call3) (kp1 := true) (ka1 := false) ⟨⟨.dec .pri, 6, .next, rfl, ⟨_, rfl, rfl⟩, fun _ => rfl, (fun h => nomatch h), trivial, rfl, rfl, rfl, rfl⟩, L1⟩ ?_
  refine .step (s1 := call4) (kp1 := true) (ka1 := false) ⟨⟨.push .pri, 7, .next, rfl, ⟨_, rfl, rfl⟩, fun _ => rfl, (fun h => nomatch h), trivial, rfl, rfl, rfl, rfl⟩, L4⟩ ?_
  refine .step (s1 := call5) (kp1 := true) (ka1 := false) ⟨⟨.pushC [1], 9, .next, rfl, ⟨_, rfl, rfl⟩, (fun h => nomatch h), (fun h => nomatch h), trivial, rfl, rfl, rfl, rfl⟩, L5⟩ ?_
  refine .call (o := 0) (u := 0) (next := 11) (pr := 12) (nr := 13) (s1 := call6) (s2 := call7) (s3 := call8) (kp2 := true) (ka2 := false) rfl rfl has ?_ ?_ rfl ?_ ?_
  · exact ⟨call_sizes C A, call_enough.2, L6, rfl⟩
  · refine .step (s1 := call7) (kp1 := true) (ka1 := false) ⟨⟨.loadS .pri 12, 3, .next, rfl, ⟨_, rfl, rfl⟩, (fun h => nomatch h), (fun h => nomatch h), trivial, rfl, rfl, rfl, rfl⟩, L6⟩ ?_
    refine .step (s1 := call7) (kp1 := true) (ka1 := false) ⟨⟨.jcmp .zero 48, 5, .goto 48, rfl, trivial, fun _ => rfl, (fun h => nomatch h), trivial, rfl, rfl, rfl, rfl⟩, L6⟩ ?_
    exact .none _ _ _ _ _ _
  · exact ⟨⟨call7, rfl, rfl⟩, L8, by decide +kernel, by decide +kernel, by decide +kernel⟩
  · refine .step (s1 := call9) (kp1 := true) (ka1 := false) ⟨⟨.inc .pri, 12, .next, rfl, ⟨_, rfl, rfl⟩, fun _ => rfl, (fun h => nomatch h), trivial, rfl, rfl, rfl, rfl⟩, L8⟩ ?_
    exact .none _ _ _ _ _ _

theorem call_world (hl : (A.image 0x100000).length = 183) : WorldOk (demoHost 0x10000) (callWorld A) := by
  refine ⟨?_, ?_, by show 8 * 1000 < _; decide⟩
  · intro I hI I' hI' a _ _
    rw [List.mem_singleton.1 hI, List.mem_singleton.1 hI']
  · intro I hI
    rw [List.mem_singleton.1 hI]
    refine ⟨by show (A.image 0x100000).length < _; rw [hl]; decide, ?_⟩
    intro p h
    have h : p < (A.image 0x100000).length := h
    rw [hl] at h
    have : ∀ p < 183, (4096 : Int) ≤ (demoHost 0x10000).offset (0x100000 + BitVec.ofNat 64 p) := by decide +kernel
    exact this p h

/-- The hypotheses of `C68_invocation_partial` and `C68_calls_partial` are met: `f(1)` calls `f(0)` and returns one. -/
example : ∃ C A m', Method callCode callJit callParts 0 C A ∧
    (callWorld A).Reach (demoHost 0x10000) 0x100008 { demoMach 0x10000 0 0 with mem := callVM.mem, stack := [0x1234] } 0x1234 m' ∧
    m'.reg 0 = 1 ∧ m'.stack = [] := by
  obtain ⟨C, A, M, hp, hl, ht⟩ := call_method
  have has := call_has C A M hp ht
  have he : ((callPlugin C A).image 0).entry = 0x100008 := by
    show (0x100000 : BitVec 64) + BitVec.ofNat 64 (A.table.length * 8) = _
    rw [ht]; rfl
  have ok := call_world A hl
  have S0 := demo_setup (base := 0x10000) (by decide) 0 0
  have S : Setup (demoHost 0x10000) callJit callEnv 0 callStart :=
    ⟨S0.host, S0.size, rfl, rfl, rfl, rfl, call_start, by decide +kernel, by decide +kernel⟩
  have sim0 := demo_sim 0x10000 0 0
  have sim : Sim (demoHost 0x10000) true true { demoMach 0x10000 0 0 with mem := callVM.mem, stack := [0x1234] } callStart :=
    ⟨fun _ => rfl, fun _ => rfl, rfl, rfl, rfl, rfl, rfl, rfl, rfl, rfl, rfl⟩
  obtain ⟨L1, L4, L5, L6, L8, L9⟩ := call_layout
  obtain ⟨m', h1, h2, h3⟩ := C68_invocation_partial (P := callPlugin C A) (E := callEnv) (t := 0) (ra := 0x1234) (st := []) (pr := 12) (nr := 13) (d := 1)
    (s1 := call1) (s2 := call9) (s3 := left call9) ok demo_floats has S sim rfl (by show 0 + 4 * 1 + 12 ≤ 1000; decide)
    ⟨call_sizes C A, call_enough.1, L1, rfl⟩ (call_trace C A has) rfl
    ⟨⟨call9, rfl, rfl⟩, L9, by decide +kernel, by decide +kernel, by decide +kernel⟩
  rw [he] at h1
  exact ⟨C, A, m', M, h1, (h2.pri rfl).trans (by decide +kernel), congrArg Prod.fst h3⟩

/-- `f` is called with little stack left. -/
def lowStart : IState := ⟨{ callVM with sp := 1100 }, 0, 0, 0⟩

/-- The hypotheses of `C68_stack_low_partial` are met. -/
example : ∃ C A m m' r, Method callCode callJit callParts 0 C A ∧ C.ops[r]? = some (.bind (throwLabel 0)) ∧
    (callWorld A).Reach (demoHost 0x10000) 0x100008 m ((A.toImage 0x100000).addr (pos C.ops r)) m' ∧ m'.reg 0 = 8 := by
  obtain ⟨C, A, M, hp, hl, ht⟩ := call_method
  have has := call_has C A M hp ht
  have he : ((callPlugin C A).image 0).entry = 0x100008 := by
    show (0x100000 : BitVec 64) + BitVec.ofNat 64 (A.table.length * 8) = _
    rw [ht]; rfl
  have S0 := demo_setup (base := 0x10000) (by decide) 0 0
  have L : Layout lowStart.vm := by constructor <;> decide +kernel
  have S : Setup (demoHost 0x10000) callJit callEnv 0 lowStart :=
    ⟨S0.host, S0.size, rfl, rfl, rfl, rfl, L, by decide +kernel, by decide +kernel⟩
  have sim : Sim (demoHost 0x10000) true true ({ demoMach 0x10000 0 0 with mem := callVM.mem, stack := [0x1234] }.setReg 14 (0x10000 + 1100)) lowStart :=
    ⟨fun _ => rfl, fun _ => rfl, rfl, rfl, rfl, rfl, rfl, rfl, rfl, rfl, rfl⟩
  obtain ⟨m', r, q, h1, h2, h3, _⟩ := C68_stack_low_partial (P := callPlugin C A) (E := callEnv) (t := 0) (call_world A hl) has S sim (call_sizes C A)
    (fun h => (by decide +kernel : ¬ ((16 : Int) = 0 ∨ lowStart.vm.hp + 64 ≤ lowStart.vm.sp - 8 - 16)) h) (by decide +kernel) (by decide +kernel) (by show (16 : Int) ≤ _; decide +kernel)
  rw [he] at h2
  exact ⟨C, A, _, m', r, M, h1, h2, h3⟩

/-- The hypotheses of `C68_caller_restored` are met: in the call of `f(0)`, at its RETN. -/
example : (left call7).vm.frm = call5.vm.frm ∧ (left call7).vm.hp = call5.vm.hp ∧ (left call7).vm.sp = call5.vm.sp + 4 + 4 * 1 :=
  C68_caller_restored (locals := 0) (s := call5) (s2 := call7) call_layout.2.2.1 (by decide +kernel) (by decide +kernel) rfl fun _ _ _ => rfl

/-- The hypotheses of `C68_same_frame` and `C68_same_return` are met. -/
example : ∃ s' v, enterMethod callEnv 0 callStart = .ok s' () ∧ s'.vm.frm = 3064 ∧ popAmxFrame s'.vm = .ok v () ∧ v.sp = 3080 :=
  ⟨_, _, rfl, by decide +kernel, rfl, by decide +kernel⟩

end

end Verif.Jit

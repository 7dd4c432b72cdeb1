import Verif.Proofs.JitWatch
import Verif.Props.C65
import Verif.Props.C20

/-!
# C66: the watchdog can stop compiled code

When the watchdog timer declares a timeout, the distances of the jumps that the compiler remembered (`C.loopEdges`,
Verif/Model/JitEdges.lean) are exchanged with distances to code that reports the timeout.  When the main thread has
seen the timeout they are exchanged once more.  `Patched C A chunk es I` (Verif/Spec/JitEdges.lean): `I` is the
memory of the method with the distances of `es` exchanged, which may be all of the edges or, while the exchange is
going on, some of them.
-/
namespace Verif.Jit
open Verif.VM hiding Op
open Verif.X64 hiding Pre decode
open Verif.Graph

variable {H : Host} {J : JitEnv} {F : Parts} {E : Env} {start method : Nat} {C : Compiled} {A : Asm} {chunk : BitVec 64}

/-- **C66**: any of the loop edges of a method can be exchanged, and the same exchange once more restores the code
and the edges. -/
theorem C66_exchange (M : Method E.code J F start C A) (chunk : BitVec 64) {es : List LoopEdge} (hs : es.Sublist C.loopEdges) :
    ∃ bytes old, swapEdges (A.table.length * 8) (A.image chunk) es = some (bytes, old) ∧ bytes.length = (A.image chunk).length ∧
      swapEdges (A.table.length * 8) bytes old = some (A.image chunk, es) := by
  obtain ⟨fuel, P, B, G, blks, h1, h2, h3⟩ := M.compiled
  obtain ⟨fin, f, h4, _, _, rfl, _⟩ := compiled_parts M.tables h1 h2 h3
  obtain ⟨ls, h5, h6⟩ : ∃ ls : List (Nat × Nat × Nat), ls.Sublist (finish F fin).edges ∧ es = ls.map (edgeOf (finish F fin).ops) :=
    List.sublist_map_iff.1 hs
  have eo := (finish_edges (F := F) (start_inv h4)).1.sub h5
  subst h6
  have sep := edges_sep M.linked eo
  have tot := edges_total M.linked eo chunk
  obtain ⟨bytes, old, h7⟩ := swap_total _ (A.image chunk) sep tot
  exact ⟨bytes, old, h7, (swapped _ h7 sep).len, swap_twice h7 sep tot⟩

/-- **C66**: whichever of its loop edges have been exchanged, compiled code does what the interpreter does
(as in C65), or at some instruction goes to the code that reports the timeout.  Missing: as in C65, calls of
functions and natives, returns, and the instructions whose code calls the host. -/
theorem C66_follow_partial (M : Method E.code J F start C A) (ok : ImageOk H (A.toImage chunk)) (FA : FloatsAgree E.floats H.fpu)
    {es : List LoopEdge} {I : Image} (hI : Patched C A chunk es I) {r : Nat} (hr : C.ops[r]? = some (.bind timeoutLabel))
    {count pc pc' n : Nat} {s s' : IState} {kp ka kp' ka' : Bool} {m : Mach} (S : Setup H J E method s) (sim : Sim H kp ka m s)
    (hp : (pc, n) ∈ C.places) (st : StepsN H J E method count pc s kp ka pc' s' kp' ka') :
    (∃ n' m', (pc', n') ∈ C.places ∧ Reach H I (pos C.ops n) m (pos C.ops n') m' ∧ Sim H kp' ka' m' s' ∧ m'.outer = m.outer) ∨
    Stopped H J E method C I r count pc s kp ka n m := by
  obtain ⟨fuel, P, B, G, blks, h1, h2, h3⟩ := M.compiled
  obtain ⟨fin, f, h4, h5, _, rfl, h6⟩ := compiled_parts M.tables h1 h2 h3
  obtain ⟨ls, h7, _, h8, h9⟩ := patched_follows (start_inv h4) M.linked hI
  obtain ⟨k, hl⟩ := (h6 _ _).1 hp
  rcases watched_steps H M.tables h1 h2 h5 M.linked h8 (h9 H ok) FA st S sim hl with ⟨k2, n', m', a1, a2, a3, a4, _⟩ |
    ⟨count1, pc1, pc3, s1, s3, kp1, ka1, kp3, ka3, n0, q, m', b1, b2, b3, b4, b5, b6, b7, b8⟩
  · exact .inl ⟨n', m', (h6 _ _).2 a1.live, a2, a3, a4⟩
  · exact .inr (stopped h4 M.linked h7 h8 hr b1 b2 b3 b4 b5 b6 b7 b8)

/-- **C66**: if conditional jumps that do not jump, and switches, lead to code that is compiled later
(`Watched`), there is a number of instructions after which compiled code has gone to the code that reports the
timeout, whatever it does, once all edges have been exchanged.  Missing: methods with other loops (see
`C66_hidden_loop`), and calls. -/
theorem C66_stops_partial (M : Watched E.code J F start C A) : ∃ N, ∀ {H : Host} {chunk : BitVec 64} {I : Image} {method r count pc pc' n : Nat}
    {s s' : IState} {kp ka kp' ka' : Bool} {m : Mach}, ImageOk H (A.toImage chunk) → FloatsAgree E.floats H.fpu →
    Patched C A chunk C.loopEdges I → C.ops[r]? = some (.bind timeoutLabel) → Setup H J E method s → Sim H kp ka m s →
    (pc, n) ∈ C.places → StepsN H J E method count pc s kp ka pc' s' kp' ka' → N ≤ count →
    Stopped H J E method C I r count pc s kp ka n m := by
  obtain ⟨fuel, P, B, G, blks, h1, h2, h3, hh⟩ := M.compiled
  obtain ⟨fin, f, h4, h5, _, rfl, h6⟩ := compiled_parts M.tables h1 h2 h3
  refine ⟨blks.length * (E.code.length + 1) + 1, ?_⟩
  intro H chunk I method r count pc pc' n s s' kp ka kp' ka' m ok FA hI hr S sim hp st hN
  obtain ⟨eo, e2, _⟩ := finish_edges (F := F) (start_inv h4)
  obtain ⟨ls, h7, h7', h8, h9⟩ := patched_follows (start_inv h4) M.linked hI
  have hls : ls = (finish F fin).edges := by
    refine h7.eq_of_length ?_
    have := congrArg List.length h7'
    rw [List.length_map] at this
    rw [← this]
    exact List.length_map _
  obtain ⟨k, hl⟩ := (h6 _ _).1 hp
  rcases watched_steps H M.tables h1 h2 h5 M.linked h8 (h9 H ok) FA st S sim hl with ⟨k2, n', m', a1, a2, a3, a4, a5⟩ |
    ⟨count1, pc1, pc3, s1, s3, kp1, ka1, kp3, ka3, n0, q, m', b1, b2, b3, b4, b5, b6, b7, b8⟩
  · exfalso
    have := a5 hh (by
      intro e he
      obtain ⟨d, hd, rfl⟩ := List.mem_map.1 (e2 ▸ he)
      have h1 := (eo.long d hd).1
      rw [hls]
      unfold redOf
      intro hc
      rw [Option.map_eq_none_iff, List.find?_eq_none] at hc
      exact hc d hd (by simp; omega))
    obtain ⟨hk, hpc⟩ := a1.bounds M.tables h1
    have : (k2 + 1) * (E.code.length + 1) ≤ blks.length * (E.code.length + 1) := Nat.mul_le_mul_right _ hk
    rw [Nat.add_mul, Nat.one_mul] at this
    omega
  · exact stopped h4 M.linked h7 h8 hr b1 b2 b3 b4 b5 b6 b7 b8

/-! ## A loop that is stopped -/

/-- `NoHiddenLoop`, decided. -/
def noHidden (code : List Cell) (C : Compiled) (blks : List Blk) : Bool :=
  (List.range blks.length).all fun k => match blks[k]? with
    | some b => C.places.all fun p => match decode code p.1 with
      | some (.jcmp _ _, nx) => nx != b.stop || (match b.succs.head? with | some f => decide (k < f) | none => true)
      | some (.switch _, nx) => nx != b.stop || b.succs.all (k < ·)
      | _ => true
    | none => true

theorem noHidden_iff {code : List Cell} {C : Compiled} {blks : List Blk} (h : noHidden code C blks = true) : NoHiddenLoop code C blks := by
  intro k b hk pc n hp
  have h := List.all_eq_true.1 h k (List.mem_range.2 (List.getElem?_eq_some_iff.1 hk).1)
  simp only [hk] at h
  have h := List.all_eq_true.1 h _ hp
  refine ⟨?_, ?_⟩
  · intro c o hd f hf
    simp only [hd, hf] at h
    simpa using h
  · intro o hd t ht
    simp only [hd] at h
    have h : b.succs.all (k < ·) = true := by simpa using h
    simpa using List.all_eq_true.1 h t ht

theorem built_watched {code : List Cell} {p : Compiled → Asm → Prop} [∀ C A, Decidable (p C A)] (hn : NoNegativeTable code 0)
    (h : (match build code 0 (2 * code.length) with
      | .ok (_, B, G) => match blocksOf 0 B G.order G.order with
        | some blks => match compile code demoJit flowParts blks with
          | some C => noHidden code C blks && (match Asm.run true {} C.ops with | some A => decide (p C A) | none => false)
          | none => false
        | none => false
      | _ => false) = true) :
    ∃ C A, Watched code demoJit flowParts 0 C A ∧ p C A := by
  cases e1 : build code 0 (2 * code.length) with
  | ok x =>
    obtain ⟨P, B, G⟩ := x
    simp only [e1] at h
    cases e2 : blocksOf 0 B G.order G.order with
    | none => simp only [e2] at h; cases h
    | some blks =>
      simp only [e2] at h
      cases e3 : compile code demoJit flowParts blks with
      | none => simp only [e3] at h; cases h
      | some C =>
        simp only [e3, Bool.and_eq_true] at h
        cases e4 : Asm.run true {} C.ops with
        | none => simp only [e4] at h; cases h.2
        | some A =>
          simp only [e4] at h
          exact ⟨C, A, ⟨hn, ⟨_, P, B, G, blks, e1, e2, e3, noHidden_iff h.1⟩, e4⟩, of_decide_eq_true h.2⟩
  | rejected => simp only [e1] at h; cases h
  | fuel => simp only [e1] at h; cases h
  | ub => simp only [e1] at h; cases h

/-- `l: inc.pri; jump l; retn`: an endless loop. -/
def spinCode : List Cell := [46, 107, 51, 4, 48]
def spinEnv : Env := { demoEnv with code := spinCode }
theorem spin_tables : NoNegativeTable spinCode 0 := by
  intro pc n hb h1 h2
  have hm := boundary_mem [1, 2, 4, 5] (by decide) (by decide +kernel) hb
  exact absurd h1 ((by decide : ∀ pc ∈ [1, 2, 4, 5], spinCode[pc]? ≠ some 130) pc hm)

theorem spin_watched : ∃ C A, Watched spinCode demoJit flowParts 0 C A ∧ C.places = [(1, 5), (2, 6)] ∧ C.edges = [(7, 7, 2)] ∧
    C.cips = [(8, 2)] ∧ (A.image 0x100000).length = 15 ∧ (C.ops[8]?.map fun o => match o with | .bind l => l == timeoutLabel | _ => false) = some true :=
  built_watched spin_tables (by decide +kernel)

theorem bind_of {o : Option Op} (h : (o.map fun o => match o with | .bind l => l == timeoutLabel | _ => false) = some true) :
    o = some (.bind timeoutLabel) := by
  obtain ⟨op, rfl, _⟩ := Option.map_eq_some_iff.1 h
  cases op with
  | bind l =>
    have h : (l == timeoutLabel) = true := Option.some.inj h
    rw [beq_iff_eq.1 h]
  | _ => cases h

theorem demo_ok {A : Asm} {len : Nat} (hlen : len ≤ 100) (hl : (A.image 0x100000).length = len) : ImageOk (demoHost 0x10000) (A.toImage 0x100000) := by
  refine ⟨by show (A.image 0x100000).length < _; rw [hl]; omega, ?_⟩
  intro p h
  have h : p < (A.image 0x100000).length := h
  rw [hl] at h
  have : ∀ p < 100, (4096 : Int) ≤ (demoHost 0x10000).offset (0x100000 + BitVec.ofNat 64 p) := by decide +kernel
  exact this p (by omega)

theorem demo_setup_code (code : List Cell) (p a : Cell) : Setup (demoHost 0x10000) demoJit { demoEnv with code := code } 0 (demo p a) :=
  have S0 := demo_setup (base := 0x10000) (by decide) p a
  ⟨S0.host, S0.size, S0.jsize, S0.jdata, S0.joff, S0.jslot, S0.layout, S0.frm0, S0.frm1⟩

theorem spin_steps : ∀ (count : Nat) (p a : Cell) (n : Nat), ∃ s', StepsN (demoHost 0x10000) demoJit spinEnv 0 (2 * count) 1 ⟨demoVM, p, a, n⟩ true true 1 s' true true
  | 0, _, _, _ => ⟨_, .none _ _ _ _⟩
  | count + 1, p, a, n => by
    have L : Layout demoVM := (demo_setup (base := 0x10000) (by decide) 0 0).layout
    obtain ⟨s', h⟩ := spin_steps count (p + 1) a (n + 1)
    refine ⟨s', .more (pc' := 2) (s' := ⟨demoVM, p + 1, a, n⟩) (kp' := true) (ka' := true) ?_ (.more (pc' := 1) ?_ h)⟩
    · exact ⟨⟨.inc .pri, 2, .next, rfl, ⟨_, rfl, rfl⟩, fun _ => rfl, fun _ => rfl, trivial, rfl, rfl, rfl, rfl⟩, L⟩
    · exact ⟨⟨.jump 4, 4, .goto 4, rfl, trivial, fun _ => rfl, fun _ => rfl, trivial, rfl, rfl, rfl, rfl⟩, L⟩

theorem Watched.toMethod {code : List Cell} (W : Watched code J F start C A) : Method code J F start C A := by
  obtain ⟨fuel, P, B, G, blks, h1, h2, h3, _⟩ := W.compiled
  exact ⟨W.tables, ⟨fuel, P, B, G, blks, h1, h2, h3⟩, W.linked⟩

/-- The hypotheses of the theorems are met: the edge of an endless loop is exchanged, the processor gets to the
code that reports the timeout, with an address on the stack that belongs to the jump, and the exchange back
restores the code. -/
example : ∃ C A I m' old, Watched spinCode demoJit flowParts 0 C A ∧ Patched C A 0x100000 C.loopEdges I ∧
    Reach (demoHost 0x10000) I (pos C.ops 5) (demoMach 0x10000 7 8) (pos C.ops 8) m' ∧
    m'.stack = [I.entry + BitVec.ofNat 64 (pos C.ops 8)] ∧ swapEdges (A.table.length * 8) I.bytes old = some (A.image 0x100000, C.loopEdges) := by
  obtain ⟨C, A, W, hp, he, hc, hl, hr⟩ := spin_watched
  obtain ⟨bytes, old, h1, _, h3⟩ := C66_exchange (E := spinEnv) W.toMethod 0x100000 (es := C.loopEdges) (List.Sublist.refl _)
  obtain ⟨N, hN⟩ := C66_stops_partial (E := spinEnv) W
  obtain ⟨s', st⟩ := spin_steps N 7 8 0
  have hI : Patched C A 0x100000 C.loopEdges ⟨bytes, 0x100000, A.table.length * 8⟩ := ⟨.refl _, bytes, old, h1, rfl⟩
  obtain ⟨count1, pc1, pc2, s1, s2, kp1, ka1, kp2, ka2, q, m', _, _, _, g1, g2, _, g3⟩ := hN (demo_ok (by decide) hl) demo_floats hI (bind_of hr)
    (demo_setup_code spinCode 7 8) (demo_sim 0x10000 7 8) (n := 5) (by rw [hp]; decide) st (by omega)
  rw [hc] at g1
  have : q = 8 := by simp at g1; exact g1.1
  subst this
  exact ⟨C, A, _, m', old, W, hI, g2, congrArg Prod.fst g3, h3⟩

/-- The hypotheses of `C66_follow_partial` are met: the same loop, before the exchange, once around. -/
example : ∃ C A I r, Method spinCode demoJit flowParts 0 C A ∧ Patched C A 0x100000 [] I ∧ C.ops[r]? = some (.bind timeoutLabel) ∧
    ((∃ n' m', (1, n') ∈ C.places ∧ Reach (demoHost 0x10000) I (pos C.ops 5) (demoMach 0x10000 7 8) (pos C.ops n') m' ∧ m'.stack = []) ∨
      Stopped (demoHost 0x10000) demoJit spinEnv 0 C I r 2 1 (demo 7 8) true true 5 (demoMach 0x10000 7 8)) := by
  obtain ⟨C, A, W, hp, he, hc, hl, hr⟩ := spin_watched
  have hI : Patched C A 0x100000 [] ⟨A.image 0x100000, 0x100000, A.table.length * 8⟩ := ⟨List.nil_sublist _, _, [], rfl, rfl⟩
  obtain ⟨s', st⟩ := spin_steps 1 7 8 0
  refine ⟨C, A, _, 8, W.toMethod, hI, bind_of hr, ?_⟩
  rcases C66_follow_partial (E := spinEnv) W.toMethod (demo_ok (by decide) hl) demo_floats hI (bind_of hr)
    (demo_setup_code spinCode 7 8) (demo_sim 0x10000 7 8) (n := 5) (by rw [hp]; decide) st with ⟨n', m', h1, h2, _, h3⟩ | h
  · exact .inl ⟨n', m', h1, h2, congrArg Prod.fst h3⟩
  · exact .inr h

/-! ## A loop that is not stopped -/

/-- `jump b; a: jzer c; b: jump a; c: retn`: an endless loop if PRI is not zero. -/
def hideCode : List Cell := [46, 51, 20, 53, 28, 51, 12, 48]
def hideEnv : Env := { demoEnv with code := hideCode }
theorem hide_tables : NoNegativeTable hideCode 0 := by
  intro pc n hb h1 h2
  have hm := boundary_mem [1, 3, 5, 7, 8] (by decide) (by decide +kernel) hb
  exact absurd h1 ((by decide : ∀ pc ∈ [1, 3, 5, 7, 8], hideCode[pc]? ≠ some 130) pc hm)
theorem hide_method : ∃ C A, Method hideCode demoJit flowParts 0 C A ∧ C.places = [(1, 3), (5, 5), (3, 7), (7, 11)] ∧ C.edges = [] ∧
    (A.image 0x100000).length = 7 :=
  built_method hide_tables (by decide +kernel)

theorem hide_steps : ∀ (count n : Nat), StepsN (demoHost 0x10000) demoJit hideEnv 0 (2 * count) 5 ⟨demoVM, 7, 8, n⟩ true true 5 ⟨demoVM, 7, 8, n + count⟩ true true
  | 0, _ => .none _ _ _ _
  | count + 1, n => by
    have L : Layout demoVM := (demo_setup (base := 0x10000) (by decide) 0 0).layout
    have h := hide_steps count (n + 1)
    rw [show n + 1 + count = n + (count + 1) by omega] at h
    refine .more (pc' := 3) (s' := ⟨demoVM, 7, 8, n + 1⟩) (kp' := true) (ka' := true) ?_ (.more (pc' := 5) ?_ h)
    · exact ⟨⟨.jump 12, 7, .goto 12, rfl, trivial, fun _ => rfl, fun _ => rfl, trivial, rfl, rfl, rfl, rfl⟩, L⟩
    · exact ⟨⟨.jcmp .zero 28, 5, .next, rfl, trivial, fun _ => rfl, fun _ => rfl, trivial, rfl, rfl, rfl, rfl⟩, L⟩

/-- Not every loop can be stopped.  The verifier accepts this method.  The interpreter asks for a timeout each time
around its loop (`polls`), but the compiler remembers none of its jumps: whatever is exchanged, the processor goes
around the loop any number of times.  (The jump back is a conditional jump that does not jump.  The compiler of the
project does not write such code; the assertion in vm/x64/jit_x64.cpp:486 says so.) -/
theorem C66_hidden_loop : (∃ V, Verifier.verify (Verifier.ctxOf hideCode true) 0 60 = .ok V) ∧
    ∃ C A n, Method hideCode demoJit flowParts 0 C A ∧ (5, n) ∈ C.places ∧ ∀ es I, Patched C A 0x100000 es I → ∀ count,
      StepsN (demoHost 0x10000) demoJit hideEnv 0 (2 * count) 5 (demo 7 8) true true 5 ⟨demoVM, 7, 8, count⟩ true true ∧
      ∃ m', Reach (demoHost 0x10000) I (pos C.ops n) (demoMach 0x10000 7 8) (pos C.ops n) m' ∧
        Sim (demoHost 0x10000) true true m' ⟨demoVM, 7, 8, count⟩ ∧ m'.stack = [] := by
  refine ⟨?_, ?_⟩
  · obtain ⟨V, h, _⟩ := Verifier.exists_accepts (C := Verifier.ctxOf hideCode true) (p := fun _ => true) (by decide +kernel)
    exact ⟨V, h⟩
  · obtain ⟨C, A, M, hp, he, hl⟩ := hide_method
    refine ⟨C, A, 5, M, by rw [hp]; decide, ?_⟩
    intro es I hI count
    have st := hide_steps count 0
    rw [Nat.zero_add] at st
    refine ⟨st, ?_⟩
    obtain ⟨hs, bytes, old, h1, rfl⟩ := hI
    have : es = [] := by
      unfold Compiled.loopEdges at hs
      rw [he] at hs
      exact List.sublist_nil.1 hs
    subst this
    obtain ⟨rfl, rfl⟩ := Prod.mk.inj (Option.some.inj h1)
    obtain ⟨n', m', g1, g2, g3, g4⟩ := C65_method_partial (E := hideEnv) (chunk := 0x100000) (n := 5) M (demo_ok (by decide) hl) demo_floats
      (demo_setup_code hideCode 7 8) (demo_sim 0x10000 7 8) (by rw [hp]; decide) st.steps
    have : n' = 5 := by rw [hp] at g1; simpa using g1
    subst this
    exact ⟨m', g2, g3, congrArg Prod.fst g4⟩

end Verif.Jit

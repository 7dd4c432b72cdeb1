import Verif.Proofs.Replay
import Verif.Proofs.Globals

/-! C20, C21, C22: what the method verifier guarantees about the methods it accepts. -/
namespace Verif.Verifier
open Verif.VM
open Verif.Graph (Out NoNegativeTable Executes envOf boundary_mem)

/-! ## C20 -/

/-- **C20** for methods without negative case counts, called in a runtime whose native replacements are used with the right number of
arguments.  If the verifier accepts the method at `start`, there is a depth for each position, zero at the entry, such that in every run
(called functions remove their arguments and otherwise leave anything behind) the stack pointer at a position is the depth, in cells,
below where it was on entry, the depth is within the maximum the verifier computes, and the instruction there takes no more cells than
the depth (a CALL: the count on top of the stack and as many cells as it says).
Missing: negative case counts (`C18_negative_table`), replaced natives (`C20_replacement`), the local slots of a typed stack
(`C20_locals_not_counted`), and instructions that write cells without removing them (`C20_genarray_below`). -/
theorem C20_balance_partial (C : Ctx) (start fuel : Nat) (V : Verified) (h : verify C start fuel = .ok V)
    (hn : NoNegativeTable C.code start) (E : Env) (hE : E.code = C.code) (hr : ReplacementsFit E) :
    ∃ depth : Nat → Nat, depth (start + 1) = 0 ∧ ∀ s0 tr pc s, Is32 s0.vm.sp → Runs E start s0 tr pc s →
      s.vm.sp = wrap32 (s0.vm.sp - 4 * depth pc) ∧ 4 * depth pc ≤ V.maxStack ∧
      ∃ i pc', decode E.code pc = some (i, pc') ∧ pops i ≤ depth pc ∧
        ∀ o, i = .call o → 0 ≤ (rd32 s.vm.mem s.vm.sp).toInt + 1 ∧ (rd32 s.vm.mem s.vm.sp).toInt + 1 ≤ depth pc := by
  obtain ⟨d, m, Y⟩ := verify_ready h hn
  have key : ∀ pc, ∃ n : Nat, ∀ prev S, Point C start fuel V d m prev pc S → n = S.data.bal := by
    intro pc
    by_cases hp : ∃ prev S, Point C start fuel V d m prev pc S
    · obtain ⟨prev, S, hp⟩ := hp
      exact ⟨S.data.bal, fun prev' S' hp' => by rw [Y.unique hp hp']⟩
    · exact ⟨0, fun prev S h => absurd ⟨prev, S, h⟩ hp⟩
  obtain ⟨depth, hd⟩ : ∃ f : Nat → Nat, ∀ pc prev S, Point C start fuel V d m prev pc S → f pc = S.data.bal :=
    ⟨fun pc => (key pc).choose, fun pc => (key pc).choose_spec⟩
  refine ⟨depth, ?_, ?_⟩
  · obtain ⟨S, hS, prev', S'', p1, _, p3, _⟩ := Y.enter
    rw [hd _ _ _ p1, ← p3.1, hS]
    rfl
  · intro s0 tr pc s hs0 hx
    obtain ⟨prev, S, K⟩ := Y.runs E hE hr hs0 hx
    rw [hd _ _ _ K.point]
    refine ⟨K.sp, K.point.bound, ?_⟩
    obtain ⟨i, pc', S', g1, g2, g3, _⟩ := Y.step K.point E hE
    refine ⟨i, pc', by rw [hE]; exact g1, ?_, ?_⟩
    · by_cases hc : ∃ o, i = .call o
      · obtain ⟨o, rfl⟩ := hc
        exact Int.natCast_nonneg _
      · obtain ⟨⟨e, _⟩, _⟩ := effect g2 g3 fun o ho => hc ⟨o, ho⟩
        exact e.pops
    · intro o ho
      subst ho
      obtain ⟨p, n, rfl, k1, hpop⟩ := call_ok g2
      rw [K.top p n rfl k1]
      obtain ⟨q1, _⟩ := popStack_ok hpop
      have hb : S.data.bal ≤ 1073741823 := by
        have := K.point.bound
        have hm : V.maxStack ≤ 2147483644 := by
          unfold verify at h
          obtain ⟨_, _, h⟩ := Verif.Graph.bind_ok_iff.1 h
          simp only at h
          obtain ⟨_, _, h⟩ := Verif.Graph.bind_ok_iff.1 h
          obtain ⟨_, _, h⟩ := Verif.Graph.bind_ok_iff.1 h
          split at h
          · cases h
          · cases h; simp only; omega
        omega
      have := is32_toInt n
      unfold Is32 at this
      omega

/-- A plugin with this code: 64 bytes of data, 16384 of memory, one native. -/
def ctxOf (code : List Cell) (scopes : Bool) : Ctx := ⟨code, false, scopes, true, 16384, 64, 1, 0, []⟩

/-- The method `push.c 0; call 0; push.c 7; l: jnz l; stack 4; retn`. -/
def callCode : List Cell := [46, 39, 0, 49, 0, 39, 7, 54, 28, 44, 4, 48]

theorem callCode_accepted : ∃ V, verify (ctxOf callCode true) 0 40 = .ok V ∧ V.maxStack = 4 := by
  have h : (match verify (ctxOf callCode true) 0 40 with
      | .ok V => decide (V.maxStack = 4)
      | _ => false) = true := by decide +kernel
  split at h
  · rename_i V hb
    exact ⟨V, hb, of_decide_eq_true h⟩
  · cases h

/-- No case tables at all. -/
theorem no_tables {code : List Cell} (l : List Nat) (h1 : 1 ∈ l)
    (h2 : (l.all fun pc => match decode code pc with
      | some (_, pc') => code[pc]? == some 46 || code[pc]? == some 166 || l.contains pc'
      | none => true) = true)
    (h3 : (l.all fun pc => code[pc]? != some 130) = true) : NoNegativeTable code 0 := by
  intro pc n hb hc _
  have hm := boundary_mem l h1 h2 hb
  rw [List.all_eq_true] at h3
  have := h3 pc hm
  rw [hc] at this
  cases this

theorem callCode_tables : NoNegativeTable callCode 0 := no_tables [1, 3, 5, 7, 9, 11, 12] (by decide) (by decide +kernel) (by decide +kernel)

theorem no_natives (code : List Cell) : ReplacementsFit (envOf code) := by
  intro pc i n pc' nat k f _ h
  cases h

/-- The hypotheses of `C20_balance_partial` are met, by a run that makes the call and goes on with one cell on the stack. -/
example : (∃ V, verify (ctxOf callCode true) 0 40 = .ok V) ∧ NoNegativeTable callCode 0 ∧ ReplacementsFit (envOf callCode) ∧
    ∃ s, Runs (envOf callCode) 0 (c15State 0 0) [.jcmp .notZero 28, .pushC [7], .call 0, .pushC [0]] 9 s ∧
      s.vm.sp = (c15State 0 0).vm.sp - 4 := by
  refine ⟨by obtain ⟨V, h, _⟩ := callCode_accepted; exact ⟨V, h⟩, callCode_tables, no_natives _, ?_⟩
  obtain ⟨s1, h1, h2⟩ : ∃ s1, visit (envOf callCode) 0 12 (.pushC [0]) (c15State 0 0) = .ok s1 .next ∧
      (s1.vm.sp = 15996 ∧ rd32 s1.vm.mem s1.vm.sp = 0 ∧ s1.pri = 0 ∧ s1.vm.hp = 64) := by
    refine ⟨_, rfl, ?_⟩
    decide +kernel
  obtain ⟨h2, h3, h4, h5⟩ := h2
  have e1 : Runs (envOf callCode) 0 (c15State 0 0) [.pushC [0]] 3 s1 := .next (pc' := 3) .enter rfl h1
  have e2 : Runs (envOf callCode) 0 (c15State 0 0) [.call 0, .pushC [0]] 5 (c15State 0 0) := by
    refine .back (pc' := 5) (i := .call 0) (o := 0) e1 rfl rfl ?_
    unfold Returned
    rw [h3, h2]
    decide
  obtain ⟨s2, g1, g2⟩ : ∃ s2, visit (envOf callCode) 0 28 (.pushC [7]) (c15State 0 0) = .ok s2 .next ∧
      (s2.vm.sp = 15996 ∧ s2.pri = 0) := by
    refine ⟨_, rfl, ?_⟩
    decide +kernel
  have e3 : Runs (envOf callCode) 0 (c15State 0 0) [.pushC [7], .call 0, .pushC [0]] 7 s2 := .next (pc' := 7) e2 rfl g1
  refine ⟨s2, .next (pc' := 9) e3 rfl ?_, ?_⟩
  · show visit (envOf callCode) 0 _ (.jcmp .notZero 28) s2 = _
    unfold visit
    simp only [cmpCells, g2.2]
    rfl
  · rw [g2.1]; rfl

/-- A native replaced by an instruction that takes one argument (a FLOAT operation). -/
def replacedEnv (code : List Cell) : Env :=
  { envOf code with natives := fun _ => some { bound := true, fixed := true, replacement := some (1, fun _ => 0), call := fun _ => .ub } }

/-- **The stack pointer is not as verified when a replaced native is called with another number of arguments.**  The verifier accepts
`sysreq.n 0, 0; retn`, taking the call to remove nothing; the replacement removes one cell, below the frame. -/
theorem C20_replacement : (∃ V, verify (ctxOf [46, 135, 0, 0, 48] true) 0 40 = .ok V ∧ V.maxStack = 4) ∧
    ∃ s, Runs (replacedEnv [46, 135, 0, 0, 48]) 0 (c15State 0 0) [.sysreqN 0 0] 4 s ∧ s.vm.sp = (c15State 0 0).vm.sp + 4 := by
  constructor
  · have h : (match verify (ctxOf [46, 135, 0, 0, 48] true) 0 40 with
        | .ok V => decide (V.maxStack = 4)
        | _ => false) = true := by decide +kernel
    split at h
    · rename_i V hb
      exact ⟨V, hb, of_decide_eq_true h⟩
    · cases h
  · obtain ⟨s, c, h1, h2⟩ := Res.exists_ok (r := visit (replacedEnv [46, 135, 0, 0, 48]) 0 16 (.sysreqN 0 0) (c15State 0 0))
      (p := fun s c => decide (s.vm.sp = 16004 ∧ c = .next)) (by decide +kernel)
    obtain ⟨h3, rfl⟩ := of_decide_eq_true h2
    exact ⟨s, .next (pc' := 4) .enter rfl h1, by rw [h3]; rfl⟩

/-- Four constants pushed by a method with one local slot of four bytes, under a typed stack. -/
def localsCtx : Ctx := { ctxOf [46, 39, 1, 39, 2, 39, 3, 39, 4, 48] true with typed := true, locals := [4] }

/-- **The computed maximum leaves out the local slots of a typed stack.**  The method needs its local and four cells, 20 bytes; the
verifier computes 16.  (`max_stack_` starts at the bytes of the locals, vm/method-verifier.cpp:1154, and a push raises it only to the
cells pushed, so that it is the larger of the two and not the sum; the JIT compares it with the space that is left and then makes room
for the locals as well, vm/x86/jit_x86.cpp:225-239.) -/
theorem C20_locals_not_counted : ∃ V, verify localsCtx 0 40 = .ok V ∧ V.maxStack < localsCtx.locals.sum + 4 * 4 := by
  have h : (match verify localsCtx 0 40 with
      | .ok V => decide (V.maxStack < localsCtx.locals.sum + 4 * 4)
      | _ => false) = true := by decide +kernel
  split at h
  · rename_i V hb
    exact ⟨V, hb, of_decide_eq_true h⟩
  · cases h

/-- A caller's stack with 5 on top. -/
def fiveState : IState := { c15State 0 0 with vm := { (c15State 0 0).vm with mem := wr32 (c15State 0 0).vm.mem 16000 5 } }

/-- **GENARRAY with one dimension writes to the stack of the caller.**  The verifier accepts `genarray 1; retn` with nothing on the
stack: it takes the instruction to remove the dimensions but one, and does not ask for the last, which the array's address replaces. -/
theorem C20_genarray_below : (∃ V, verify (ctxOf [46, 162, 1, 48] true) 0 40 = .ok V) ∧
    ∃ s, Runs (envOf [46, 162, 1, 48]) 0 fiveState [.genarray 1 false] 3 s ∧
      rd32 fiveState.vm.mem fiveState.vm.sp = 5 ∧ rd32 s.vm.mem fiveState.vm.sp = 64 := by
  constructor
  · have h : (match verify (ctxOf [46, 162, 1, 48] true) 0 40 with
        | .ok _ => true
        | _ => false) = true := by decide +kernel
    split at h
    · rename_i V hb
      exact ⟨V, hb⟩
    · cases h
  · obtain ⟨s, c, h1, h2⟩ := Res.exists_ok (r := visit (envOf [46, 162, 1, 48]) 0 12 (.genarray 1 false) fiveState)
      (p := fun s c => decide (c = .next ∧ rd32 s.vm.mem fiveState.vm.sp = 64)) (by decide +kernel)
    obtain ⟨rfl, h3⟩ := of_decide_eq_true h2
    exact ⟨s, .next (pc' := 3) .enter rfl h1, by decide +kernel, h3⟩

/-! ## C21 -/

/-- **C21** for methods without negative case counts.  With heap scopes, there is a depth for each position, zero at the entry, such that
in every run the scopes opened minus the scopes closed are the depth, and a scope is only closed where the depth is positive; the
tracker is not used.  Without heap scopes, and if the verifier did not excuse a disagreement as the compiler's break bug, the same holds
of the entries pushed on and popped from the tracker; scopes are not used.
Missing: negative case counts (`C18_negative_table`), the excuse (`C21_break_bug`), and the amounts (`C21_heap_amount`). -/
theorem C21_heap_partial (C : Ctx) (start fuel : Nat) (V : Verified) (h : verify C start fuel = .ok V)
    (hn : NoNegativeTable C.code start) (E : Env) (hE : E.code = C.code) :
    (C.scopes = true → ∃ depth : Nat → Nat, depth (start + 1) = 0 ∧ ∀ s0 tr pc s, Traces E start s0 tr pc s →
      scopesOpen tr = depth pc ∧ ∃ i pc', decode E.code pc = some (i, pc') ∧ (i = .heapRestore → 0 < depth pc) ∧
        i ≠ .trackPop ∧ ∀ n, i ≠ .trackPushC n) ∧
    (C.scopes = false → (∀ b, V.state.bug b = false) → ∃ count : Nat → Nat, count (start + 1) = 0 ∧
      ∀ s0 tr pc s, Traces E start s0 tr pc s → tracked tr = count pc ∧ ∃ i pc', decode E.code pc = some (i, pc') ∧
        (i = .trackPop → 0 < count pc) ∧ i ≠ .heapSave ∧ i ≠ .heapRestore) := by
  obtain ⟨d, m, Y⟩ := verify_ready h hn
  have key (f : Data → Nat) : ∃ g : Nat → Nat, ∀ pc prev S, Point C start fuel V d m prev pc S → g pc = f S.data := by
    have key : ∀ pc, ∃ n : Nat, ∀ prev S, Point C start fuel V d m prev pc S → n = f S.data := by
      intro pc
      by_cases hp : ∃ prev S, Point C start fuel V d m prev pc S
      · obtain ⟨prev, S, hp⟩ := hp
        exact ⟨f S.data, fun prev' S' hp' => by rw [Y.unique hp hp']⟩
      · exact ⟨0, fun prev S h => absurd ⟨prev, S, h⟩ hp⟩
    exact ⟨fun pc => (key pc).choose, fun pc => (key pc).choose_spec⟩
  have mode {prev : Option Nat} {i : Insn} {S S' : Cur} (g2 : runChecks C prev (checksOf i) S = .ok S') (g3 : Small i) : Mode C i := by
    by_cases hc : ∃ o, i = .call o
    · obtain ⟨o, rfl⟩ := hc
      exact modes_of nofun nofun nofun nofun
    · obtain ⟨⟨e, _⟩, _⟩ := effect g2 g3 fun o ho => hc ⟨o, ho⟩
      exact e.modes
  obtain ⟨s1⟩ : Nonempty IState := ⟨c15State 0 0⟩
  constructor
  · intro hsc
    obtain ⟨depth, hd⟩ := key (·.depth)
    refine ⟨depth, ?_, ?_⟩
    · obtain ⟨prev, S, K⟩ := Y.traces E hE (.enter (s0 := s1))
      have := K.opened hsc
      rw [hd _ _ _ K.point]
      have e : scopesOpen [] = 0 := rfl
      omega
    · intro s0 tr pc s hx
      obtain ⟨prev, S, K⟩ := Y.traces E hE hx
      rw [hd _ _ _ K.point]
      refine ⟨K.opened hsc, ?_⟩
      obtain ⟨i, pc', S', g1, g2, g3, _⟩ := Y.step K.point E hE
      have hm := mode g2 g3
      unfold Mode at hm
      rw [if_pos hsc] at hm
      refine ⟨i, pc', by rw [hE]; exact g1, ?_, hm⟩
      intro hi
      subst hi
      have := (heap_effect g2 g3).1
      have e : scopes .heapRestore = -1 := rfl
      omega
  · intro hsc hb
    have hsc' : ¬ C.scopes = true := by simp [hsc]
    obtain ⟨count, hd⟩ := key (·.trk.length)
    refine ⟨count, ?_, ?_⟩
    · obtain ⟨prev, S, K⟩ := Y.traces E hE (.enter (s0 := s1))
      have := K.kept hsc hb
      rw [hd _ _ _ K.point]
      have e : tracked [] = 0 := rfl
      omega
    · intro s0 tr pc s hx
      obtain ⟨prev, S, K⟩ := Y.traces E hE hx
      rw [hd _ _ _ K.point]
      refine ⟨K.kept hsc hb, ?_⟩
      obtain ⟨i, pc', S', g1, g2, g3, _⟩ := Y.step K.point E hE
      have hm := mode g2 g3
      unfold Mode at hm
      rw [if_neg hsc'] at hm
      refine ⟨i, pc', by rw [hE]; exact g1, ?_, hm⟩
      intro hi
      subst hi
      have := (heap_effect g2 g3).2
      rw [if_neg hsc'] at this
      have e : tracks .trackPop = -1 := rfl
      omega

/-- What is checked of an accepted method. -/
def accepts (C : Ctx) (p : Verified → Bool) : Bool :=
  match verify C 0 60 with
  | .ok V => p V
  | _ => false

theorem exists_accepts {C : Ctx} {p : Verified → Bool} (h : accepts C p = true) : ∃ V, verify C 0 60 = .ok V ∧ p V = true := by
  unfold accepts at h
  split at h
  · rename_i V hb
    exact ⟨V, hb, h⟩
  · cases h

/-- The method `heap.save; heap 4; jnz l; nop; l: heap.restore; retn`. -/
def scopeCode : List Cell := [46, 171, 45, 4, 54, 28, 134, 172, 48]

/-- The hypotheses of `C21_heap_partial` are met with heap scopes, by runs that reach the HEAP_RESTORE with one scope open. -/
example : (∃ V, verify (ctxOf scopeCode true) 0 60 = .ok V) ∧ NoNegativeTable scopeCode 0 ∧
    ∃ s, Traces (envOf scopeCode) 0 (c15State 1 0) [.jcmp .notZero 28, .heap 4, .heapSave] 7 s ∧
      scopesOpen [.jcmp .notZero 28, .heap 4, .heapSave] = 1 := by
  refine ⟨?_, no_tables [1, 2, 4, 6, 7, 8, 9] (by decide) (by decide +kernel) (by decide +kernel), ?_⟩
  · obtain ⟨V, h, _⟩ := exists_accepts (C := ctxOf scopeCode true) (p := fun _ => true) (by decide +kernel)
    exact ⟨V, h⟩
  · have t1 : Traces (envOf scopeCode) 0 (c15State 1 0) [.heapSave] 2 _ := .next (pc' := 2) .enter rfl rfl
    have t2 := Traces.next (pc' := 4) (i := .heap 4) t1 rfl rfl
    exact ⟨_, .jump (pc' := 6) (i := .jcmp .notZero 28) (o := 28) t2 rfl rfl rfl, rfl⟩

/-- The method `heap 4; tracker.push.c 4; jnz l; nop; l: tracker.pop.setheap; retn`. -/
def trackCode : List Cell := [46, 45, 4, 160, 4, 54, 32, 134, 161, 48]

/-- The hypotheses of `C21_heap_partial` are met without heap scopes, by a run that reaches the pop with one entry on the tracker. -/
example : (∃ V, verify (ctxOf trackCode false) 0 60 = .ok V ∧ ∀ b, V.state.bug b = false) ∧
    NoNegativeTable trackCode 0 ∧
    ∃ s, Traces (envOf trackCode) 0 (c15State 1 0) [.jcmp .notZero 32, .trackPushC 4, .heap 4] 8 s ∧
      tracked [.jcmp .notZero 32, .trackPushC 4, .heap 4] = 1 := by
  refine ⟨?_, no_tables [1, 3, 5, 7, 8, 9, 10] (by decide) (by decide +kernel) (by decide +kernel), ?_⟩
  · exact ⟨_, rfl, fun _ => rfl⟩
  · have t1 : Traces (envOf trackCode) 0 (c15State 1 0) [.heap 4] 3 _ := .next (pc' := 3) .enter rfl rfl
    have t2 := Traces.next (pc' := 5) (i := .trackPushC 4) t1 rfl rfl
    exact ⟨_, .jump (pc' := 7) (i := .jcmp .notZero 32) (o := 32) t2 rfl rfl rfl, rfl⟩

/-- The method `l: heap 4; tracker.push.c 4; jnz x; tracker.pop.setheap; jnz l; jump x; x: tracker.pop.setheap; retn`. -/
def breakCode : List Cell := [46, 45, 4, 160, 4, 54, 48, 161, 54, 4, 51, 48, 161, 48]

/-- **What the verifier excuses as the compiler's break bug breaks the property.**  The method is accepted, and one run reaches the last
TRACKER_POP with one entry of its own on the tracker, another with none, so that it pops an entry of its caller. -/
theorem C21_break_bug : (∃ V, verify (ctxOf breakCode false) 0 60 = .ok V) ∧
    (∃ tr s, Traces (envOf breakCode) 0 (c15State 1 0) tr 12 s ∧ tracked tr = 1) ∧
    (∃ tr s, Traces (envOf breakCode) 0 (c15State 0 0) tr 12 s ∧ tracked tr = 0) ∧
    decode breakCode 12 = some (.trackPop, 13) := by
  refine ⟨?_, ?_, ?_, rfl⟩
  · obtain ⟨V, h, _⟩ := exists_accepts (C := ctxOf breakCode false) (p := fun _ => true) (by decide +kernel)
    exact ⟨V, h⟩
  · have t1 : Traces (envOf breakCode) 0 (c15State 1 0) [.heap 4] 3 _ := .next (pc' := 3) .enter rfl rfl
    have t2 := Traces.next (pc' := 5) (i := .trackPushC 4) t1 rfl rfl
    exact ⟨_, _, .jump (pc' := 7) (i := .jcmp .notZero 48) (o := 48) t2 rfl rfl rfl, rfl⟩
  · have t1 : Traces (envOf breakCode) 0 (c15State 0 0) [.heap 4] 3 _ := .next (pc' := 3) .enter rfl rfl
    have t2 := Traces.next (pc' := 5) (i := .trackPushC 4) t1 rfl rfl
    have t3 := Traces.next (pc' := 7) (i := .jcmp .notZero 48) t2 rfl rfl
    have t4 := Traces.next (pc' := 8) (i := .trackPop) t3 rfl rfl
    have t5 := Traces.next (pc' := 10) (i := .jcmp .notZero 4) t4 rfl rfl
    exact ⟨_, _, .jump (pc' := 12) (i := .jump 48) (o := 48) t5 rfl rfl rfl, rfl⟩

/-- The method `jzer l; heap 4; jump j; l: nop; j: heap -4; retn`. -/
def amountCode : List Cell := [46, 53, 28, 45, 4, 51, 32, 134, 45, -4, 48]

/-- A caller that has taken four bytes of the heap. -/
def heapState : IState := { c15State 0 0 with vm := { (c15State 0 0).vm with hp := 68 } }

/-- **The amount of heap in use need not be the same on every path.**  Where paths meet, only the tracker's entries and the heap below
them are compared: the method is accepted, and a run that takes the jump frees four bytes of its caller's heap. -/
theorem C21_heap_amount : (∃ V, verify (ctxOf amountCode false) 0 60 = .ok V ∧ ∀ b, V.state.bug b = false) ∧
    ∃ s, Traces (envOf amountCode) 0 heapState [.heap (-4), .nop, .jcmp .zero 28] 10 s ∧ s.vm.hp = heapState.vm.hp - 4 := by
  refine ⟨⟨_, rfl, fun _ => rfl⟩, ?_⟩
  have t1 : Traces (envOf amountCode) 0 heapState [.jcmp .zero 28] 7 _ :=
    .jump (pc' := 3) (i := .jcmp .zero 28) (o := 28) .enter rfl rfl rfl
  have t2 := Traces.next (pc' := 8) (i := .nop) t1 rfl rfl
  exact ⟨_, .next (pc' := 10) (i := .heap (-4)) t2 rfl rfl, by decide +kernel⟩

/-! ## C22 -/

/-- **C22** for methods without negative case counts.  Every instruction a run of an accepted method comes to names only addresses inside
the data section, and the cell there is inside it too if both are aligned; the template of an INITARRAY is inside it and aligned.  In any
state whose heap starts above the data section, executing an instruction that names a global neither fails with an invalid address nor
reads or writes outside the plugin's memory.
Missing: negative case counts (`C18_negative_table`); an unaligned address may be that of a cell which is partly outside
(`C22_unaligned`). -/
theorem C22_globals_partial (C : Ctx) (start fuel : Nat) (V : Verified) (h : verify C start fuel = .ok V)
    (hn : NoNegativeTable C.code start) (E : Env) (hE : E.code = C.code) (s0 : IState) (tr : List Insn) (pc : Nat) (s : IState)
    (hx : Traces E start s0 tr pc s) :
    ∃ i pc', decode E.code pc = some (i, pc') ∧
      (∀ a ∈ globals i, 0 ≤ a ∧ a < C.datSize ∧ (a % 4 = 0 → C.datSize % 4 = 0 → a + 4 ≤ C.datSize)) ∧
      (∀ r a iv cp fl v, i = .initarray r a iv cp fl v →
        0 ≤ iv ∧ 0 ≤ cp ∧ 0 ≤ fl ∧ (iv ≠ 0 ∨ cp ≠ 0 → 0 ≤ a ∧ a % 4 = 0 ∧ a + 4 * (iv + cp) ≤ C.datSize)) ∧
      ∀ s1 hi, Layout s1.vm → s1.vm.dataSize = (C.datSize : Int) → globals i ≠ [] →
        visit E start hi i s1 ≠ .ub ∧ ∀ s', visit E start hi i s1 ≠ .fail s' .invalidAddress := by
  obtain ⟨d, m, Y⟩ := verify_ready h hn
  obtain ⟨prev, S, K⟩ := Y.traces E hE hx
  obtain ⟨i, pc', S', g1, g2, g3, _⟩ := Y.step K.point E hE
  have hg : ∀ a ∈ globals i, 0 ≤ a ∧ a < C.datSize := fun a ha => runChecks_dat _ _ _ g2 (globals_checked ha)
  refine ⟨i, pc', by rw [hE]; exact g1, ?_, ?_, ?_⟩
  · intro a ha
    obtain ⟨h1, h2⟩ := hg a ha
    exact ⟨h1, h2, by omega⟩
  · intro r a iv cp fl v hi
    subst hi
    exact init_template (run_one g2) g3
  · intro s1 hi hl hd hne
    obtain ⟨h1, h2, _⟩ := visit_globals E start hi i C.datSize hne hg s1 ⟨hl, hd⟩
    exact ⟨h1, h2⟩

/-- The method `l: inc 60; push2 56, 60; stack 8; jnz l; retn`. -/
def globalCode : List Cell := [46, 109, 60, 139, 56, 60, 44, 8, 54, 4, 48]

/-- The hypotheses of `C22_globals_partial` are met by a run that has executed both instructions that name globals. -/
example : (∃ V, verify (ctxOf globalCode true) 0 60 = .ok V) ∧ NoNegativeTable globalCode 0 ∧
    (∃ s, Traces (envOf globalCode) 0 (c15State 0 0) [.pushA [56, 60], .incA 60] 6 s) ∧ Layout (c15State 0 0).vm ∧
    (c15State 0 0).vm.dataSize = ((ctxOf globalCode true).datSize : Int) := by
  refine ⟨?_, no_tables [1, 3, 6, 8, 10, 11] (by decide) (by decide +kernel) (by decide +kernel), ?_, ?_, rfl⟩
  · obtain ⟨V, h, _⟩ := exists_accepts (C := ctxOf globalCode true) (p := fun _ => true) (by decide +kernel)
    exact ⟨V, h⟩
  · have t1 : Traces (envOf globalCode) 0 (c15State 0 0) [.incA 60] 3 _ := .next (pc' := 3) .enter rfl rfl
    exact ⟨_, .next (pc' := 6) (i := .pushA [56, 60]) t1 rfl rfl⟩
  · constructor <;> decide

/-- A state with a distinctive byte just above the data section. -/
def aboveState : IState := { c15State 0 0 with vm := { (c15State 0 0).vm with mem := fun a => if a = 64 then 1 else 0 } }

/-- **An unaligned address is accepted, and the access reaches past the data section.**  `load.pri 63` reads a byte of the heap. -/
theorem C22_unaligned : (∃ V, verify (ctxOf [46, 1, 63, 48] true) 0 60 = .ok V) ∧ Layout aboveState.vm ∧
    aboveState.vm.dataSize = ((ctxOf [46, 1, 63, 48] true).datSize : Int) ∧
    ∃ s, Traces (envOf [46, 1, 63, 48]) 0 aboveState [.load .pri 63] 3 s ∧ s.pri = 256 := by
  refine ⟨?_, by constructor <;> decide, rfl, ?_⟩
  · obtain ⟨V, h, _⟩ := exists_accepts (C := ctxOf [46, 1, 63, 48] true) (p := fun _ => true) (by decide +kernel)
    exact ⟨V, h⟩
  · exact ⟨_, .next (pc' := 3) .enter rfl rfl, by decide +kernel⟩

end Verif.Verifier

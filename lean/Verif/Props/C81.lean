import Verif.Proofs.LongStmt
import Verif.Props.C62

/-!
# C81: 64-bit integer expressions compute their value

`genStmts noSlots B` is the code of the statements `B` at the start of a function, and the slots of its frame; `gen64` and `gen32` are the code of
expressions.  `execs`, `eval64` and `eval32` say what statements and expressions mean (Verif/Spec/Long.lean).  The table of slots that the method has at
run time is that of the whole function, so the code may be followed by more that needs more slots.
-/
namespace Verif.Long
open Verif.VM Verif.Jit

/-- The function has these slots, and perhaps more. -/
def TableOf (E : Env) (m : Nat) (K : List Kind) (t : Slots) : Prop :=
  E.legacyStack = false ∧ E.localOffsets m = offsets 0 K ∧ ∃ L, K = t.kinds ++ L

def noScope : Scope := ⟨[], []⟩

/-- After the code of statements the variables, wherever they are, have the values that the statements give them; the stack is as before.  If the statements
end with a run time error, so does the code.

Missing: operands on the right that change the variable on the left (`C81_operand_changed`), assignments to parameters (`C81_parameter_overwritten`); shifts
by an amount outside of 0 to 63 (nothing is said about them); calls, elements and fields, `? :`, `&&`, `||`, and control flow. -/
theorem C81_statements_partial {F : Frame} {K : List Kind} {E : Env} {m : Nat} {here : Int} {B : Stmts} {room : Nat} {σ : Store} {s : IState}
    (hT : TableOf E m K (genStmts noSlots B).2) (hF : F.Fits K s.vm) (hH : Holds F K s.vm noScope noSlots σ s.vm) (hg : B.Good F room noScope)
    (hr : s.vm.hp + 4 * (room : Int) < s.vm.sp) :
    match execs F.tgt σ B with
    | .ok σ' => ∃ s', run E m here (genStmts noSlots B).1 s = .ok s' () ∧ Holds F K s.vm (B.after noScope) (genStmts noSlots B).2 σ' s'.vm ∧
        s'.vm.sp = s.vm.sp
    | .err x => ∃ s', run E m here (genStmts noSlots B).1 s = .fail s' x
    | .undef => True := by
  have h := (sound_stmts (here := here) ⟨hT.1, hT.2.1⟩ hF B wf_none rfl hT.2.2 hH hg hr).2
  cases he : execs F.tgt σ B with
  | ok σ' => rw [he] at h; exact h
  | err x => rw [he] at h; exact h
  | undef => trivial

/-- After the code of statements and an expression of type `int64`, PRI is the address of the value of the expression.

Missing: as above. -/
theorem C81_value_partial {F : Frame} {K : List Kind} {E : Env} {m : Nat} {here : Int} {B : Stmts} {e : E64} {room : Nat} {σ σ1 σ2 : Store}
    {v : BitVec 64} {s : IState} (hT : TableOf E m K (gen64 (genStmts noSlots B).2 e).2) (hF : F.Fits K s.vm)
    (hH : Holds F K s.vm noScope noSlots σ s.vm) (hg : B.Good F room noScope) (hr : s.vm.hp + 4 * (room : Int) < s.vm.sp)
    (hk : Known64 F (B.after noScope) e) (hc : Calm64 F.tgt e) (hn : need64 e ≤ room) (h1 : execs F.tgt σ B = .ok σ1)
    (h2 : eval64 F.tgt σ1 e = .ok (v, σ2)) :
    ∃ s', run E m here ((genStmts noSlots B).1 ++ (gen64 (genStmts noSlots B).2 e).1) s = .ok s' () ∧ rd64 s'.vm.mem s'.pri.toInt = v ∧
      Holds F K s.vm (B.after noScope) (gen64 (genStmts noSlots B).2 e).2 σ2 s'.vm ∧ s'.vm.sp = s.vm.sp := by
  have hM : Meth E m K := ⟨hT.1, hT.2.1⟩
  have hP : Pre (gen64 (genStmts noSlots B).2 e).2 K := hT.2.2
  have hP1 := hP.of_grows (gen64_grows _ e)
  obtain ⟨hW, h⟩ := sound_stmts (here := here) hM hF B wf_none rfl hP1 hH hg hr
  rw [h1] at h
  obtain ⟨s1, r1, H1, e1⟩ := h
  have h' := sound64 (here := here) hM hF e _ σ1 s1 hW hP H1 hk hc (by omega)
  rw [h2] at h'
  obtain ⟨s2, p, r2, g⟩ := h'
  have hw := g.place.wide hF (gen64_wf hW e) hP g.holds
  refine ⟨s2, by rw [run_two r1]; exact r2, ?_, g.holds, g.sp.trans e1⟩
  rw [g.pri, cell_toInt hw (by have := g.holds.regs.2.2.1; have := hF.small; omega), g.val]

/-- After the code of statements and a comparison, or another expression of type `int` or `bool`, PRI is its value.

Missing: as above. -/
theorem C81_condition_partial {F : Frame} {K : List Kind} {E : Env} {m : Nat} {here : Int} {B : Stmts} {e : E32} {room : Nat} {σ σ1 σ2 : Store}
    {v : Cell} {s : IState} (hT : TableOf E m K (gen32 (genStmts noSlots B).2 e).2) (hF : F.Fits K s.vm)
    (hH : Holds F K s.vm noScope noSlots σ s.vm) (hg : B.Good F room noScope) (hr : s.vm.hp + 4 * (room : Int) < s.vm.sp)
    (hk : Known32 F (B.after noScope) e) (hc : Calm32 F.tgt e) (hn : need32 e ≤ room) (h1 : execs F.tgt σ B = .ok σ1)
    (h2 : eval32 F.tgt σ1 e = .ok (v, σ2)) :
    ∃ s', run E m here ((genStmts noSlots B).1 ++ (gen32 (genStmts noSlots B).2 e).1) s = .ok s' () ∧ s'.pri = v ∧
      Holds F K s.vm (B.after noScope) (gen32 (genStmts noSlots B).2 e).2 σ2 s'.vm ∧ s'.vm.sp = s.vm.sp := by
  have hM : Meth E m K := ⟨hT.1, hT.2.1⟩
  have hP : Pre (gen32 (genStmts noSlots B).2 e).2 K := hT.2.2
  have hP1 := hP.of_grows (gen32_grows _ e)
  obtain ⟨hW, h⟩ := sound_stmts (here := here) hM hF B wf_none rfl hP1 hH hg hr
  rw [h1] at h
  obtain ⟨s1, r1, H1, e1⟩ := h
  have h' := sound32 (here := here) hM hF e _ σ1 s1 hW hP H1 hk hc (by omega)
  rw [h2] at h'
  obtain ⟨s2, r2, g⟩ := h'
  exact ⟨s2, by rw [run_two r1]; exact r2, g.pri, g.holds, g.sp.trans e1⟩

/-- While a statement is compiled no slot is given out twice, and none that has a variable: the slots of the variables and of the operands are
all different. -/
theorem C81_slots (B : Stmts) (e : E64) : let t := (gen64 (genStmts noSlots B).2 e).2
    (t.used.map (·.1)).Nodup ∧ (∀ n i, t.v64 n = some i → i ∉ t.used.map (·.1)) ∧ (∀ n i, t.v32 n = some i → i ∉ t.used.map (·.1)) ∧
      ∀ n n' i, t.v64 n = some i → t.v64 n' = some i → n = n' := by
  have h := gen64_wf (genStmts_wf B wf_none rfl) e
  refine ⟨?_, fun n i hn hc => (h.k64 n i hn).2 ?_, fun n i hn hc => (h.k32 n i hn).2 ?_, h.inj64⟩
  · have := h.nodup
    rw [List.map_append] at this
    exact (List.nodup_append.mp this).2.1
  · rw [List.map_append]; exact List.mem_append_right _ hc
  · rw [List.map_append]; exact List.mem_append_right _ hc

/-! ### A function -/

/-- `void f(int64 p, int64& r)`, with a global at 64 that holds 11; `p` is 12 and `r` refers to a variable that is 13. -/
def demoFrame : Frame where
  params := 2
  isRef := fun k => k = 1
  tgt := fun _ => .ext 0
  outer := fun o => o = .par 0 ∨ o = .glob 64 ∨ o = .ext 0
  addr := fun
    | .glob a => a.toInt
    | .par _ => 2000
    | .ext _ => 2008
    | .loc _ => 0

def demoMem : Int → BitVec 8 := wr32 (wr32 (wr64 (wr64 (wr64 (fun _ => 0) 64 11) 2000 12) 2008 13) 1012 2000) 1016 2008

def demoStore : Store where
  w := fun
    | .glob _ => 11
    | .par _ => 12
    | .ext _ => 13
    | .loc _ => 0
  c := fun _ => 0

def demoState (K : List Kind) : IState :=
  ⟨{ demoVM with mem := demoMem, hp := 100, frm := 1000, sp := 1000 - size K }, 0, 0, 0⟩

def demoLong (K : List Kind) : Env := { demoEnv with legacyStack := false, localOffsets := fun _ => offsets 0 K }

theorem demo_fits {K : List Kind} (h : size K ≤ 800) : demoFrame.Fits K (demoState K).vm where
  mem := by show (4092 : Int) ≤ 4096; decide
  small := by show (4092 : Int) < _; decide
  heap := by show (0 : Int) ≤ 100; decide
  frame := by show (100 : Int) ≤ 1000 - size K; omega
  cells := by show (1000 : Int) + 12 + 4 * 2 ≤ 4092; decide
  range := by
    show ∀ o, _ → 0 ≤ demoFrame.addr o ∧ demoFrame.addr o + 8 ≤ (4092 : Int) ∧ (demoFrame.addr o + 8 ≤ (100 : Int) ∨ 1000 ≤ demoFrame.addr o)
    rintro o (rfl | rfl | rfl) <;> decide
  apart := by rintro o o' (rfl | rfl | rfl) (rfl | rfl | rfl) h <;> first | exact absurd rfl h | decide
  own := by
    show ∀ o k, _ → _ → demoFrame.addr o + 8 ≤ cellAddr 1000 k ∨ cellAddr 1000 k + 4 ≤ demoFrame.addr o
    intro o k ho hk
    have hk : k < 2 := hk
    have h2 : k = 0 ∨ k = 1 := by omega
    rcases ho with rfl | rfl | rfl <;> rcases h2 with rfl | rfl <;> decide
  glob := by rintro a (h | h | h) <;> cases h; rfl
  loc := by rintro n (h | h | h) <;> cases h
  par := by rintro k (h | h | h) <;> cases h; decide
  ref := by rintro k rfl; exact ⟨by decide, .inr (.inr rfl)⟩

theorem demo_holds (K : List Kind) : Holds demoFrame K (demoState K).vm noScope noSlots demoStore (demoState K).vm where
  same := rfl
  top := Int.le_refl _
  outer := by
    show ∀ o, _ → rd64 demoMem (demoFrame.addr o) = _
    rintro o (rfl | rfl | rfl) <;> decide +kernel
  loc := fun n h => absurd h (by simp [noScope])
  int := fun n h => absurd h (by simp [noScope])
  par := by
    show ∀ k, _ → rd32 demoMem (cellAddr 1000 k) = _
    rintro k (h | h | h) <;> cases h; decide +kernel
  ref := by
    show ∀ k, _ → rd32 demoMem (cellAddr 1000 k) = _
    rintro k rfl; decide +kernel

theorem demo_table (t : Slots) : TableOf (demoLong t.kinds) 0 t.kinds t := ⟨rfl, rfl, [], (List.append_nil _).symm⟩

/-- `int64 a = p * glob; int64 c = -(a + r); glob = (r += a); { int b = c < a; r--; a = b; }` -/
def demoBody : Stmts :=
  .cons (.decl64 0 (some (.bin .mul (.var (.par 0)) (.var (.glob 64)))))
  (.cons (.decl64 1 (some (.neg (.bin .add (.var (.loc 0)) (.var (.ref 1))))))
  (.cons (.expr64 (.set (.glob 64) (.opset .add (.ref 1) (.var (.loc 0)))))
  (.cons (.block (.cons (.decl32 2 (some (.rel .lt (.var (.loc 1)) (.var (.loc 0)))))
    (.cons (.expr64 (.inc false false (.ref 1))) (.cons (.expr64 (.set (.loc 0) (.ofInt (.var 2)))) .nil)))) .nil)))

def demoKinds : List Kind := (genStmts noSlots demoBody).2.kinds

theorem demo_good : demoBody.Good demoFrame 2 noScope := by
  simp [demoBody, Stmts.Good, Stmt.Good, Known64, Known32, Calm64, Calm32, Frame.has, demoFrame, standsFor, writes64, need64, need32,
    Stmt.after, noScope, Var.obj]

/-- What a variable is after statements. -/
def atEnd (o : Obj) : Out Store → Option (BitVec 64)
  | .ok σ => some (σ.w o)
  | _ => none

/-- What is at an address after code. -/
def found (a : Int) : Res IState Unit → Option (BitVec 64)
  | .ok s _ => some (rd64 s.vm.mem a)
  | _ => none

/-- The hypotheses are met, the statements have a meaning: `a` is 1, `c` is -145, the global 145, and what `r` refers to 144. -/
example : TableOf (demoLong demoKinds) 0 demoKinds (genStmts noSlots demoBody).2 ∧ demoFrame.Fits demoKinds (demoState demoKinds).vm ∧
    Holds demoFrame demoKinds (demoState demoKinds).vm noScope noSlots demoStore (demoState demoKinds).vm ∧ demoBody.Good demoFrame 2 noScope ∧
    (demoState demoKinds).vm.hp + 4 * ((2 : Nat) : Int) < (demoState demoKinds).vm.sp ∧
    [Obj.loc 0, .loc 1, .glob 64, .ext 0, .par 0].map (fun o => atEnd o (execs demoFrame.tgt demoStore demoBody)) =
      [some 1, some (BitVec.ofInt 64 (-145)), some 145, some 144, some 12] :=
  ⟨demo_table _, demo_fits (by decide +kernel), demo_holds _, demo_good, by decide +kernel, by decide +kernel⟩

/-- And that is what the code does. -/
example : [slotAddr demoKinds 1000 0, slotAddr demoKinds 1000 2, 64, 2008, 2000].map
    (fun a => found a (run (demoLong demoKinds) 0 0 (genStmts noSlots demoBody).1 (demoState demoKinds))) =
      [some 1, some (BitVec.ofInt 64 (-145)), some 145, some 144, some 12] := by decide +kernel

/-- `p / (p - p)` is a run time error. -/
example : (match run (demoLong [.int64, .int64]) 0 0 (gen64 noSlots (.bin .div (.var (.par 0)) (.bin .sub (.var (.par 0)) (.var (.par 0))))).1
    (demoState [.int64, .int64]) with | .fail _ e => some e | _ => none) = some .divideByZero := by decide +kernel

/-- After those statements, `r - a * p` (132) and `r >= a` (1) also fulfil the hypotheses. -/
def demoValue : E64 := .bin .sub (.var (.ref 1)) (.bin .mul (.var (.loc 0)) (.var (.par 0)))
def demoCondition : E32 := .rel .ge (.var (.ref 1)) (.var (.loc 0))

/-- The value of an expression after statements. -/
def valueAfter (σ : Store) (B : Stmts) (e : E64) : Option (BitVec 64) :=
  match (execs demoFrame.tgt σ B).bind fun σ => eval64 demoFrame.tgt σ e with
  | .ok r => some r.1
  | _ => none

def conditionAfter (σ : Store) (B : Stmts) (e : E32) : Option Cell :=
  match (execs demoFrame.tgt σ B).bind fun σ => eval32 demoFrame.tgt σ e with
  | .ok r => some r.1
  | _ => none

example : let K := (gen64 (genStmts noSlots demoBody).2 demoValue).2.kinds
    TableOf (demoLong K) 0 K (gen64 (genStmts noSlots demoBody).2 demoValue).2 ∧ demoFrame.Fits K (demoState K).vm ∧
      Known64 demoFrame (demoBody.after noScope) demoValue ∧ Calm64 demoFrame.tgt demoValue ∧ need64 demoValue ≤ 2 ∧
      valueAfter demoStore demoBody demoValue = some 132 :=
  ⟨demo_table _, demo_fits (by decide +kernel), by simp [demoValue, Known64, Frame.has, demoFrame, demoBody, Stmts.after, Stmt.after, noScope],
    by simp [demoValue, Calm64, writes64], by decide, by decide +kernel⟩

example : let K := (gen32 (genStmts noSlots demoBody).2 demoCondition).2.kinds
    TableOf (demoLong K) 0 K (gen32 (genStmts noSlots demoBody).2 demoCondition).2 ∧ demoFrame.Fits K (demoState K).vm ∧
      Known32 demoFrame (demoBody.after noScope) demoCondition ∧ Calm32 demoFrame.tgt demoCondition ∧ need32 demoCondition ≤ 2 ∧
      conditionAfter demoStore demoBody demoCondition = some 1 :=
  ⟨demo_table _, demo_fits (by decide +kernel), by simp [demoCondition, Known32, Known64, Frame.has, demoFrame, demoBody, Stmts.after, Stmt.after, noScope],
    by simp [demoCondition, Calm32, Calm64, writes64], by decide, by decide +kernel⟩

/-! ### What goes wrong -/

/-- `int64 a = 1; int64 c = a + (a = 5);` -/
def changed : Stmts :=
  .cons (.decl64 0 (some (.num 1))) (.cons (.decl64 1 (some (.bin .add (.var (.loc 0)) (.set (.loc 0) (.num 5))))) .nil)

def changedKinds : List Kind := (genStmts noSlots changed).2.kinds

/-- An operand that is a variable is kept as its address: if the other operand changes the variable, the new value is used.  `a + (a = 5)` with `a` equal to 1
is 10, and not 6.  (For operands of type `int` it is 6, see C57.) -/
theorem C81_operand_changed :
    demoFrame.Fits changedKinds (demoState changedKinds).vm ∧
    Holds demoFrame changedKinds (demoState changedKinds).vm noScope noSlots demoStore (demoState changedKinds).vm ∧
    atEnd (.loc 1) (execs demoFrame.tgt demoStore changed) = some 6 ∧ (genStmts noSlots changed).2.v64 1 = some 2 ∧
    found (slotAddr changedKinds 1000 2) (run (demoLong changedKinds) 0 0 (genStmts noSlots changed).1 (demoState changedKinds)) = some 10 :=
  ⟨demo_fits (by decide +kernel), demo_holds _, by decide +kernel, by decide +kernel, by decide +kernel⟩

/-- `p = 64; int64 c = p;` -/
def assigned : Stmts := .cons (.expr64 (.set (.par 0) (.num 64))) (.cons (.decl64 0 (some (.var (.par 0)))) .nil)

def assignedKinds : List Kind := (genStmts noSlots assigned).2.kinds

/-- A parameter of type `int64` is the address of a copy, but an assignment to it writes into the cell of the parameter and the one after it.  After
`p = 64`, `p` is what is at the address 64 (the global, 11), and the cell of the parameter `r` is 0, so that `r` refers to something else. -/
theorem C81_parameter_overwritten :
    demoFrame.Fits assignedKinds (demoState assignedKinds).vm ∧
    Holds demoFrame assignedKinds (demoState assignedKinds).vm noScope noSlots demoStore (demoState assignedKinds).vm ∧
    atEnd (.loc 0) (execs demoFrame.tgt demoStore assigned) = some 64 ∧ (genStmts noSlots assigned).2.v64 0 = some 1 ∧
    found (slotAddr assignedKinds 1000 1) (run (demoLong assignedKinds) 0 0 (genStmts noSlots assigned).1 (demoState assignedKinds)) = some 11 ∧
    rd32 demoMem (cellAddr 1000 1) = 2008 ∧
    (found (cellAddr 1000 1) (run (demoLong assignedKinds) 0 0 (genStmts noSlots assigned).1 (demoState assignedKinds))).map (·.extractLsb' 0 32) = some 0 :=
  ⟨demo_fits (by decide +kernel), demo_holds _, by decide +kernel, by decide +kernel, by decide +kernel, by decide +kernel, by decide +kernel⟩

end Verif.Long

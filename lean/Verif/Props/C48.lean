import Verif.Proofs.CallArgs

/-! C48: host calls pass their arguments, bring back the results, and leave the plugin heap as it was. -/
namespace Verif.VM

theorem leaveScope_ok {s : State} (h0 : 0 ≤ s.hpScope) (h1 : s.hpScope < s.hp) (h2 : s.hpScope + 4 ≤ s.memSize)
    (h3 : s.hpScope < s.stp) :
    leaveScope s = some { s with hp := s.hpScope, hpScope := (rd32 s.mem s.hpScope).toInt } := by
  have e : ignoring leaveHeapScope s = .ok { s with hp := s.hpScope, hpScope := (rd32 s.mem s.hpScope).toInt } () := by
    unfold ignoring leaveHeapScope
    rw [bind_ok (throw_ok h0 (Or.inl h1) h3), loadRaw_ok ⟨h0, h2⟩]
    dsimp only
    by_cases hp : (rd32 s.mem s.hpScope).toInt = -1
    · rw [if_neg (by simp [hp])]
    · rw [if_pos hp]
      unfold throwIfBadAddress
      by_cases hb : (rd32 s.mem s.hpScope).toInt < 0 ∨
          ((rd32 s.mem s.hpScope).toInt ≥ s.hpScope ∧ (rd32 s.mem s.hpScope).toInt < s.sp) ∨
          (rd32 s.mem s.hpScope).toInt ≥ s.stp
      · rw [if_pos hb]
      · rw [if_neg hb]
  unfold leaveScope; rw [e]

theorem enterScope_ok {s : State} (L : Layout s) (hroom : s.hp + 68 ≤ s.sp) :
    ignoring enterHeapScope s =
      .ok { s with mem := wr32 s.mem s.hp (BitVec.ofInt 32 s.hpScope), hp := s.hp + 4, hpScope := s.hp } () := by
  obtain ⟨l1, l2, l3, l4, l5, l6⟩ := L
  refine ignoring_ok (a := ()) ?_
  unfold enterHeapScope
  rcases heapAlloc_cases ⟨l1, l2, l3, l4, l5, l6⟩ (n := 4) (by omega) (by omega) with (⟨h, _⟩ | ⟨_, h, _⟩) | ⟨_, _, e⟩
  · omega
  · omega
  · rw [e]
    dsimp only
    rw [bind_ok (throw_ok (by somega) (by somega) (by somega)), storeRaw_ok ⟨by somega, by somega⟩]

/-- The callee keeps to the memory block of its plugin and does nothing undefined. -/
def Behaves (E : InvokeEnv) : Prop :=
  ∀ i body, E.publics i = some (some body) → ∀ t,
    body t ≠ .ub ∧ (∀ t' r, body t = .ok t' r → SameBlock t t') ∧ (∀ t' e, body t = .fail t' e → SameBlock t t')

theorem invoke_block {E : InvokeEnv} (hE : Behaves E) {fnid : Nat} {ps : List Cell} {s s' : State}
    (h : (∃ r, invoke E fnid ps s = .ok s' r) ∨ (∃ e, invoke E fnid ps s = .fail s' e)) : SameBlock s s' := by
  unfold invoke at h
  split at h
  · rcases h with ⟨r, h⟩ | ⟨e, h⟩ <;> cases h; exact .rfl
  split at h
  · rcases h with ⟨r, h⟩ | ⟨e, h⟩ <;> cases h; exact .rfl
  rename_i method hm
  split at h
  · rcases h with ⟨r, h⟩ | ⟨e, h⟩ <;> cases h; exact .rfl
  dsimp only at h
  split at h
  · rcases h with ⟨r, h⟩ | ⟨e, h⟩ <;> cases h; exact .rfl
  split at h
  · rcases h with ⟨r, h⟩ | ⟨e, h⟩ <;> cases h; exact .rfl
  rename_i body
  split at h
  · rcases h with ⟨r, h⟩ | ⟨e, h⟩ <;> cases h
  generalize hu : ({ s with mem := _, sp := _ } : State) = u at h
  have w : SameBlock s u := by subst hu; exact ⟨rfl, rfl, rfl, rfl, rfl⟩
  obtain ⟨_, b2, b3⟩ := hE _ body hm u
  split at h
  · rename_i t r e
    have := w.trans (b2 _ _ e)
    rcases h with ⟨r, h⟩ | ⟨e, h⟩ <;> cases h
    exact ⟨this.1, this.2, this.3, this.4, this.5⟩
  · rename_i t r e
    have := w.trans (b3 _ _ e)
    rcases h with ⟨r, h⟩ | ⟨e, h⟩ <;> cases h
    exact ⟨this.1, this.2, this.3, this.4, this.5⟩
  · rcases h with ⟨r, h⟩ | ⟨e, h⟩ <;> cases h

theorem c07Env_behaves : Behaves c07Env := by
  intro i body h t
  unfold c07Env at h
  simp only at h
  split at h
  · cases h
    exact ⟨nofun, nofun, fun t' r e => by cases e; exact ⟨rfl, rfl, rfl, rfl, rfl⟩⟩
  split at h
  · cases h
    exact ⟨nofun, fun t' r e => by cases e; exact ⟨rfl, rfl, rfl, rfl, rfl⟩, nofun⟩
  · cases h

/-- Stack, frame and heap are what they were, and so is the enclosing heap scope unless the callee overwrote the cell (at the
heap top of the time of the call) that records it. -/
structure Restored (s s' : State) : Prop where
  regs : s'.sp = s.sp ∧ s'.hp = s.hp ∧ s'.frm = s.frm
  scope : s'.hpScope = s.hpScope ∨ rd32 s'.mem s.hp ≠ BitVec.ofInt 32 s.hpScope

/-- What the callee finds: the parameters on its stack, one per argument, each of them as passed, with the copies at
different places in the heap. -/
structure Received (H : Host) (args : List ArgSlot) (s t : State) (ps : List Cell) : Prop where
  one : ps.length = args.length
  count : rd32 t.mem t.sp = BitVec.ofInt 32 ps.length
  onStack : ∀ i (h : i < ps.length), rd32 t.mem (t.sp + 4 * ((i : Int) + 1)) = ps[i]
  passed : ∀ q ∈ args.zip ps, Passed H q.1 q.2 t.mem
  apart : Blocks s.hp t.hp (args.zip ps)
  rest : ∀ x, x < s.hp ∨ s.sp ≤ x → t.mem x = s.mem x

/-- **C48.** A host call with any number of valid arguments, of any function, in any state with room for the scope record.
Whatever the callee does, the call never does anything undefined and the stack, frame and heap are restored.  It either fails,
and no host object has changed; or the callee received exactly the arguments pushed, its result is returned, and exactly the
copy-back arguments have been brought back from the memory the callee left.

Missing: 64-bit arguments (`C48_int64_is_used_as_pointer`), and calls made when fewer than 68 bytes are left
(`C48_no_room_drops_outer_scope`). -/
theorem C48_call_partial {E : InvokeEnv} (hE : Behaves E) (fnid : Nat) (A : CallArgs) {s : State} (L : Layout s)
    (hroom : s.hp + 68 ≤ s.sp) (hsc : -2147483648 ≤ s.hpScope ∧ s.hpScope < 2147483648) (hargc : A.argc ≤ 32) (H : Host)
    (V : ∀ x ∈ A.argv.take A.argc, ValidArg H x) :
    (∃ s' e, callWith E fnid A s H = .fail s' H e ∧ Restored s s') ∨
    (∃ body t t' r s' H' ps, E.publics (fnid / 2) = some (some body) ∧ Received H (A.argv.take A.argc) s t ps ∧
      body t = .ok t' r ∧ callWith E fnid A s H = .ok s' H' r ∧ Restored s s' ∧ s'.mem = t'.mem ∧
      BroughtBack t'.mem ((A.argv.take A.argc).zip ps) H H') := by
  unfold callWith
  by_cases hp : E.paused = true
  · left; rw [if_pos hp]; exact ⟨s, _, rfl, ⟨rfl, rfl, rfl⟩, Or.inl rfl⟩
  rw [if_neg hp]
  by_cases he : A.error = true
  · left; rw [if_pos he]; exact ⟨s, _, rfl, ⟨rfl, rfl, rfl⟩, Or.inl rfl⟩
  rw [if_neg he, enterScope_ok L hroom]
  dsimp only
  generalize hs0 : ({ s with mem := wr32 s.mem s.hp (BitVec.ofInt 32 s.hpScope), hp := s.hp + 4, hpScope := s.hp } : State) = s0
  obtain ⟨l1, l2, l3, l4, l5, l6⟩ := L
  have f : s0.mem = wr32 s.mem s.hp (BitVec.ofInt 32 s.hpScope) ∧ s0.hp = s.hp + 4 ∧ s0.hpScope = s.hp ∧ s0.sp = s.sp ∧
      s0.frm = s.frm ∧ s0.stp = s.stp ∧ s0.memSize = s.memSize ∧ s0.dataSize = s.dataSize := by
    subst hs0; exact ⟨rfl, rfl, rfl, rfl, rfl, rfl, rfl, rfl⟩
  obtain ⟨f1, f2, f3, f4, f5, f6, f7, f8⟩ := f
  have L0 : Layout s0 := ⟨by omega, by omega, by omega, by omega, by omega, by omega⟩
  have scopeCell : ∀ m, (∀ x, x < s0.hp → m x = s0.mem x) → rd32 m s.hp = BitVec.ofInt 32 s.hpScope := fun m hm => by
    rw [rd32_congr (m := s0.mem) (fun x h1 h2 => hm x (by omega)), f1, rd32_wr32_same]
  have leave : ∀ u : State, u.sp = s.sp → u.frm = s.frm → u.hpScope = s.hp → s.hp + 4 ≤ u.hp → SameBlock s0 u →
      ∃ s', leaveScope u = some s' ∧ Restored s s' ∧ s'.mem = u.mem := fun u u1 u2 u3 u4 u5 => by
    refine ⟨_, leaveScope_ok (by omega) (by omega) (by have := u5.memSize; omega) (by have := u5.stp; omega),
      ⟨⟨u1, u3, u2⟩, ?_⟩, rfl⟩
    dsimp only
    rw [u3]
    by_cases h : rd32 u.mem s.hp = BitVec.ofInt 32 s.hpScope
    · left; rw [h, ofInt_toInt hsc.1 hsc.2]
    · right; exact h
  unfold callIn
  rcases marshalAll_ok (xs := A.argv.take A.argc) L0 V with ⟨s1, e, h1, M⟩ | ⟨s1, ps, h1, M, hl, B, Q⟩
  · left
    rw [h1]
    obtain ⟨s', e', R, _⟩ := leave s1 (by rw [M.regs.1, f4]) (by rw [M.regs.2.1, f5]) (by rw [M.regs.2.2.1, f3])
      (by have := M.regs.2.2.2; omega) M.same
    exact ⟨s', e, by dsimp only; rw [e'], R⟩
  rw [h1]
  dsimp only
  have hlen : ps.length < 536870912 := by rw [hl, List.length_take]; omega
  obtain ⟨m1, m2, m3, m4⟩ := M.regs
  have failing : ∀ u e, invoke E fnid ps s1 = .fail u e → u.sp = s1.sp → u.frm = s1.frm → u.hpScope = s1.hpScope →
      u.hp = s1.hp → SameBlock s0 u →
      ∃ s' e, (match invoke E fnid ps s1 with
        | .ub => CallRes.ub
        | .fail s e => match leaveScope s with | some s => .fail s H e | none => .ub
        | .ok s r => match copyBack s ((A.argv.take A.argc).zip ps) H with
          | none => .ub
          | some H => match leaveScope s with | some s => .ok s H r | none => .ub) = .fail s' H e ∧ Restored s s' := by
    intro u e h u1 u2 u3 u4 u5
    rw [h]
    obtain ⟨s', e', R, _⟩ := leave u (by rw [u1, m1, f4]) (by rw [u2, m2, f5]) (by rw [u3, m3, f3]) (by omega) u5
    exact ⟨s', e, by dsimp only; rw [e'], R⟩
  rcases C07_invoke M.lay E fnid ps hlen with ⟨e, h⟩ | ⟨body, t, hbody, W, hcase⟩
  · exact Or.inl (failing s1 e h rfl rfl rfl rfl M.same)
  obtain ⟨b1, b2, b3⟩ := hE _ body hbody t
  rcases hcase with ⟨t', r, s2, k1, k2, k3, k4, k5, k6, k7⟩ | ⟨t', e, s2, k1, k2, k3, k4, k5, k6, k7⟩ | ⟨k1, _⟩
  · right
    have hsb : SameBlock s0 s2 := M.same.trans (invoke_block hE (Or.inl ⟨r, k2⟩))
    have hin : ∀ q ∈ (A.argv.take A.argc).zip ps, q.1.type ≠ argCell → s2.inMem q.2.toInt q.1.bytes := fun q hq hqt => by
      have := B.range.2 q hq hqt
      have h1 := M.lay.hp_le_sp
      have h2 := hsb.memSize
      exact ⟨by omega, by omega⟩
    obtain ⟨H', hc, hBB⟩ := copyBack_ok (s := s2) (l := (A.argv.take A.argc).zip ps) (H := H) fun q hq =>
      (V q.1 (List.of_mem_zip hq).1).fit (hin q hq)
    obtain ⟨s', e', R, hmem⟩ := leave s2 (by rw [k4, m1, f4]) (by rw [k6, m2, f5]) (by rw [k7, m3, f3]) (by omega) hsb
    refine ⟨body, t, t', r, s', H', ps, hbody, ⟨hl, W.count, W.args, ?_, ?_, ?_⟩, k1, ?_, R, by rw [hmem, k3], by rw [← k3]; exact hBB⟩
    · refine Q t.mem fun y h1 h2 => W.rest y (Or.inl ?_)
      have := W.room; omega
    · rw [W.regs.1]
      exact B.lower (by omega)
    · intro x hx
      have hr := W.room
      have h1 := W.sp
      rw [W.rest x (by omega), M.mem x (by omega), f1, wr32_far (by omega)]
    · rw [k2]; dsimp only; rw [hc]; dsimp only; rw [e']
  · left
    exact failing s2 e k2 k4 k6 k7 k5 (M.same.trans (invoke_block hE (Or.inr ⟨e, k2⟩)))
  · exact absurd k1 b1

/-- The slot holds what was pushed. -/
def Carries (x : ArgSlot) : Push → Prop
  | .cell v => x.type = argCell ∧ x.u.setWidth 32 = v
  | .float v => x.type = argCell ∧ x.u.setWidth 32 = v
  | .ref a fl => x.type = argRef ∧ x.u = a ∧ x.flags = fl
  | .floatRef a fl => x.type = argRef ∧ x.u = a ∧ x.flags.getLsbD 0 = fl.getLsbD 0
  | .array a n fl => x.type = argArray ∧ x.u = a ∧ x.size = n ∧ x.flags = fl
  | .string a len => x.type = argChars ∧ x.u = a ∧ (len < 4294967295 → x.size.toNat = len + 1) ∧ x.flags.getLsbD 0 = false ∧
      x.flags.getLsbD 1 = false ∧ x.flags.getLsbD 2 = true ∧ x.flags.getLsbD 3 = false
  | .stringEx a n fl => x.type = argChars ∧ x.u = a ∧ (n.toNat < 4294967296 → x.size.toNat = n.toNat) ∧ x.flags = fl
  | .int64 v => x.type = argInt64 ∧ x.u = v

theorem low_half (h l : BitVec 32) : (h ++ l : BitVec 64).setWidth 32 = l := by
  apply BitVec.eq_of_getLsbD_eq
  intro i hi
  rw [BitVec.getLsbD_setWidth, BitVec.getLsbD_append]
  simp [hi]

theorem fill_carries (x : ArgSlot) (p : Push) : Carries (p.fill x) p := by
  cases p with
  | cell v => exact ⟨rfl, low_half ..⟩
  | float v => exact ⟨rfl, low_half ..⟩
  | ref => exact ⟨rfl, rfl, rfl⟩
  | floatRef a fl => exact ⟨rfl, rfl, by simp [Push.fill]⟩
  | array => exact ⟨rfl, rfl, rfl, rfl⟩
  | string a len =>
    refine ⟨rfl, rfl, fun h => ?_, (by decide : (4#16).getLsbD 0 = false), (by decide : (4#16).getLsbD 1 = false),
      (by decide : (4#16).getLsbD 2 = true), (by decide : (4#16).getLsbD 3 = false)⟩
    simp only [Push.fill, BitVec.toNat_ofNat]; omega
  | stringEx a n fl =>
    refine ⟨rfl, rfl, fun h => ?_, rfl⟩
    simp only [Push.fill, BitVec.toNat_setWidth]; omega
  | int64 => exact ⟨rfl, rfl⟩

theorem push_all (ps : List Push) : ∀ (A : CallArgs) (n : Nat), A.argv.length = 32 → A.argc = min n 32 → (A.error = true ↔ 32 < n) →
    ((ps.foldl CallArgs.push A).argv.length = 32 ∧ (ps.foldl CallArgs.push A).argc = min (n + ps.length) 32 ∧
    ((ps.foldl CallArgs.push A).error = true ↔ 32 < n + ps.length) ∧
    (∀ i, i < n → (ps.foldl CallArgs.push A).argv[i]? = A.argv[i]?) ∧
    ∀ (i : Nat) p, ps[i]? = some p → n + i < 32 → ∃ x, (ps.foldl CallArgs.push A).argv[n + i]? = some x ∧ Carries x p) := by
  induction ps with
  | nil =>
    intro A n h1 h2 h3
    exact ⟨h1, by simpa using h2, by simpa using h3, fun _ _ => rfl, fun i p h => by simp at h⟩
  | cons p ps ih =>
    intro A n h1 h2 h3
    rw [List.foldl_cons]
    have step : (A.push p).argv.length = 32 ∧ (A.push p).argc = min (n + 1) 32 ∧ ((A.push p).error = true ↔ 32 < n + 1) ∧
        (∀ i, i < n → (A.push p).argv[i]? = A.argv[i]?) ∧
        (n < 32 → ∃ x, (A.push p).argv[n]? = some x ∧ Carries x p) := by
      unfold CallArgs.push
      by_cases h : A.argc ≥ 32
      · rw [if_pos h]
        exact ⟨h1, by simp only; omega, by simp only [true_iff]; omega, fun _ _ => rfl, fun h' => by omega⟩
      · rw [if_neg h]
        refine ⟨by simpa using h1, by simp only; omega, by rw [h3]; omega, fun i hi => ?_, fun h' => ?_⟩
        · simp only
          exact List.getElem?_modify_ne _ _ (by omega)
        · simp only
          have hn : A.argc = n := by omega
          rw [hn, List.getElem?_modify_eq, List.getElem?_eq_getElem (by omega)]
          exact ⟨_, rfl, fill_carries _ p⟩
    obtain ⟨k1, k2, k3, k4, k5⟩ := step
    obtain ⟨i1, i2, i3, i4, i5⟩ := ih (A.push p) (n + 1) k1 k2 k3
    refine ⟨i1, by rw [i2, List.length_cons]; congr 1; omega, by rw [i3, List.length_cons]; omega,
      fun i hi => by rw [i4 i (by omega), k4 i hi], fun i q hq hlt => ?_⟩
    cases i with
    | zero =>
      simp only [List.getElem?_cons_zero, Option.some.injEq] at hq
      subst hq
      rw [Nat.add_zero, i4 n (by omega)]
      exact k5 (by omega)
    | succ i =>
      rw [List.getElem?_cons_succ] at hq
      have := i5 i q hq (by omega)
      rwa [show n + 1 + i = n + (i + 1) by omega] at this

/-- **C48, the pending list.** Any values pushed one after another on an empty list, whatever is left in its slots: the first
32 are kept in order, and a 33rd makes every call refuse the list with the parameter-count error and no effect. -/
theorem C48_pending (ps : List Push) (A : CallArgs) (hlen : A.argv.length = 32) (h0 : A.argc = 0 ∧ A.error = false) :
    (ps.foldl CallArgs.push A).argc = min ps.length 32 ∧
    ((ps.foldl CallArgs.push A).error = true ↔ 32 < ps.length) ∧
    (∀ (i : Nat) p, ps[i]? = some p → i < 32 → ∃ x, (ps.foldl CallArgs.push A).argv[i]? = some x ∧ Carries x p) ∧
    (32 < ps.length → ∀ E fnid s H, E.paused = false →
      callWith E fnid (ps.foldl CallArgs.push A) s H = .fail s H .paramsMax) := by
  obtain ⟨_, h2, h3, _, h5⟩ := push_all ps A 0 hlen (by simp [h0.1]) (by simp [h0.2])
  simp only [Nat.zero_add] at h2 h3 h5
  refine ⟨h2, h3, h5, fun h E fnid s H hp => ?_⟩
  unfold callWith
  rw [if_neg (by simp [hp]), if_pos (h3.2 h)]

/-- **C48, emptying.** After a call through the pending list, whatever its outcome, the list is empty and without error. -/
theorem C48_emptied (E : InvokeEnv) (fnid : Nat) (A : CallArgs) (s : State) (H : Host) :
    (callPending E fnid A s H).2.argc = 0 ∧ (callPending E fnid A s H).2.error = false ∧
    (callPending E fnid A s H).1 = callWith E fnid A s H := ⟨rfl, rfl, rfl⟩

/-! ### Where the code falls short -/

/-- A 64-bit argument is used as an address: unless the host happens to have an object of 8 bytes at the address given by the
value, calling with it is undefined. -/
theorem C48_int64_is_used_as_pointer (E : InvokeEnv) (hE : E.paused = false) (fnid : Nat) (s : State) (L : Layout s)
    (hroom : s.hp + 76 ≤ s.sp) (v : BitVec 64) (H : Host) (hv : H v = none) (A : CallArgs) (hlen : A.argv.length = 32)
    (h0 : A.argc = 0 ∧ A.error = false) : callWith E fnid (A.push (.int64 v)) s H = .ub := by
  have L' := L
  obtain ⟨l1, l2, l3, l4, l5, l6⟩ := L'
  have hp : A.push (.int64 v) = { A with argv := A.argv.modify 0 (Push.fill · (.int64 v)), argc := 1 } := by
    unfold CallArgs.push; rw [if_neg (by omega), h0.1]
  rw [hp]
  obtain ⟨x, rest, hx⟩ : ∃ x rest, A.argv = x :: rest := by
    cases h : A.argv with
    | nil => rw [h] at hlen; cases hlen
    | cons x rest => exact ⟨x, rest, rfl⟩
  unfold callWith
  rw [if_neg (by simp [hE]), if_neg (by simp [h0.2]), enterScope_ok L (by omega)]
  simp only [hx, List.modify_zero_cons, List.take_succ_cons, List.take_zero]
  unfold callIn marshalAll
  have hm : marshal H (Push.fill x (.int64 v))
      { s with mem := wr32 s.mem s.hp (BitVec.ofInt 32 s.hpScope), hp := s.hp + 4, hpScope := s.hp } = .ub := by
    unfold marshal
    rw [show (Push.fill x (.int64 v)).type = argInt64 from rfl, if_neg (by decide), if_neg (by decide), if_pos rfl]
    rcases heapAlloc_cases (s := { s with mem := wr32 s.mem s.hp (BitVec.ofInt 32 s.hpScope), hp := s.hp + 4, hpScope := s.hp })
      ⟨by somega, by somega, by somega, by somega, by somega, by somega⟩ (n := 8) (by omega) (by somega)
      with (⟨h, _⟩ | ⟨_, h, _⟩) | ⟨_, _, e⟩
    · omega
    · simp only at h; omega
    · rw [bind_ok e, bind_ub]
      unfold hostRead
      simp only [Push.fill, hv]
  rw [bind_ub hm]

/-- A plugin inside a heap scope of its own, with 64 bytes left between heap and stack. -/
def tightState : State :=
  { init (wr32 (fun _ => 0) 64 (-1)) 64 20064 true true with hp := 19996, hpScope := 64 }

def CallRes.failed (r : CallRes) (p : State → Bool) : Bool :=
  match r with
  | .fail s _ _ => p s
  | _ => false

theorem CallRes.exists_fail {r : CallRes} {p : State → Bool} (h : r.failed p = true) : ∃ s H e, r = .fail s H e ∧ p s = true := by
  cases r with
  | fail s H e => exact ⟨s, H, e, rfl, h⟩
  | ok => cases h
  | ub => cases h

def CallRes.succeeded (r : CallRes) (p : State → Host → Cell → Bool) : Bool :=
  match r with
  | .ok s H v => p s H v
  | _ => false

/-- With too little room the scope of the call is not entered, but it is left all the same: the call fails, as it should, and
the plugin's own enclosing scope is gone with everything the plugin had allocated in it. -/
theorem C48_no_room_drops_outer_scope :
    Layout tightState ∧ Behaves c07Env ∧
    ∃ s' H e, callWith c07Env 3 ⟨List.replicate 32 ⟨0, 0, 0, 0⟩, 0, false⟩ tightState (fun _ => none) = .fail s' H e ∧
      (tightState.hp == 19996 && tightState.hpScope == 64 && s'.hp == 64 && s'.hpScope == -1) = true :=
  ⟨⟨by decide, by decide, by decide, by decide, by decide, by decide⟩, c07Env_behaves,
    CallRes.exists_fail (p := fun s' => tightState.hp == 19996 && tightState.hpScope == 64 && s'.hp == 64 && s'.hpScope == -1)
      (by decide +kernel)⟩

/-! ### Non-vacuity -/

/-- A host with a 3-cell array at 1000 and the text "hé" in a larger buffer at 2000. -/
def c48Host : Host := fun k =>
  if k = 1000 then some [1, 0, 0, 0, 2, 0, 0, 0, 3, 0, 0, 0]
  else if k = 2000 then some [0x68, 0xC3, 0xA9, 0, 7, 7, 7, 7]
  else none

/-- The arguments 5, the array (copied back) and the text (UTF-8, copied, copied back). -/
def c48Args : CallArgs :=
  ([.cell 5, .array 1000 3 1, .stringEx 2000 6 7] : List Push).foldl CallArgs.push ⟨List.replicate 32 ⟨0, 9, 1, 77⟩, 0, false⟩

/-- A callee that writes 0xEE into the second cell of its array argument and into the first byte of its string, wrecks the
registers, and returns the first character it found. -/
def c48Env : InvokeEnv where
  interruptOk := true
  publics := fun i =>
    if i = 0 then some (some fun s =>
      let a := (rd32 s.mem (s.sp + 8)).toInt
      let b := (rd32 s.mem (s.sp + 12)).toInt
      .ok { s with mem := wr8 (wr32 s.mem (a + 4) 0xEE) b 0xEE, sp := 0, hp := 5, hpScope := 3 } ((s.mem b).setWidth 32))
    else none
  paused := false

theorem c48Env_behaves : Behaves c48Env := by
  intro i body h t
  unfold c48Env at h
  simp only at h
  split at h
  · cases h
    exact ⟨nofun, fun t' r e => by cases e; exact ⟨rfl, rfl, rfl, rfl, rfl⟩, nofun⟩
  · cases h

example : ∀ x ∈ c48Args.argv.take c48Args.argc, ValidArg c48Host x := by
  intro x hx
  have : x = ⟨5, 0, argCell, 77⟩ ∨ x = ⟨1000, 1, argArray, 3⟩ ∨ x = ⟨2000, 7, argChars, 6⟩ := by
    have e : c48Args.argv.take c48Args.argc = [⟨5, 0, argCell, 77⟩, ⟨1000, 1, argArray, 3⟩, ⟨2000, 7, argChars, 6⟩] := by
      decide +kernel
    rw [e] at hx; simpa using hx
  rcases this with rfl | rfl | rfl
  · exact .cell rfl
  · exact .array _ rfl rfl (by decide) (by decide)
  · exact .chars _ rfl rfl (by decide) (fun _ => by decide) (fun _ _ => ⟨by decide, ['h', 'é'], [7, 7, 7, 7],
      by decide +kernel, by decide +kernel⟩) (fun _ h => by cases h) (fun _ h => by cases h)

example : ((callWith c48Env 1 c48Args c07State c48Host).succeeded fun s H r =>
    s.hp == 64 && s.hpScope == -1 && r == 0x68 && H 1000 == some [1, 0, 0, 0, 0xEE, 0, 0, 0, 3, 0, 0, 0] &&
    H 2000 == some [0xEE, 0xC3, 0xA9, 0, 0, 0, 7, 7]) = true := by decide +kernel

end Verif.VM

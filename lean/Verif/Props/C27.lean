import Verif.Model.Runtime

/-! C27: function ids round trip.  C28: native bindings. -/
namespace Verif.Runtime

/-! ## C27 -/

/-- Requests a host can make of the function table. -/
inductive FnOp where
  | byId (id : BitVec 32)
  | byIdOrNull (id : BitVec 32)
  | byIndex (index : Nat)

/-- The table after a request (`nf` is the null-function feature bit). -/
def FnOp.run (nf : Bool) (T : FnTable) : FnOp → FnTable
  | .byId id => (getFunctionById T id).2
  | .byIdOrNull id => (getFunctionByIdOrNull nf T id).2
  | .byIndex i => (getPublicFunction T i).2

/-- The table after a history of requests. -/
def runFns (nf : Bool) (T : FnTable) (h : List FnOp) : FnTable := h.foldl (FnOp.run nf) T

structure FnInv (n : Nat) (T : FnTable) : Prop where
  len : T.slots.length = n
  good : ∀ i v, T.slots[i]? = some (some v) → v.index = i ∧ v.funcid = funcIdOf i

theorem FnInv.init (n : Nat) : FnInv n (FnTable.init n) := by
  refine ⟨by simp [FnTable.init], fun i v h => ?_⟩
  simp only [FnTable.init, List.getElem?_replicate] at h
  split at h <;> simp at h

theorem ensure_inv {n : Nat} {T : FnTable} (I : FnInv n T) (i : Nat) {id : BitVec 32} (hid : id = funcIdOf i) :
    FnInv n (ensure T i id).2 := by
  unfold ensure
  split
  · exact ⟨I.len, I.good⟩
  · exact I
  · refine ⟨by simpa using I.len, fun j v h => ?_⟩
    simp only [List.getElem?_set] at h
    split at h
    · split at h
      · simp only [Option.some.injEq] at h
        subst h; subst hid
        rename_i hij _
        subst hij
        exact ⟨rfl, rfl⟩
      · cases h
    · exact I.good j v h

theorem id_of_odd (id : BitVec 32) : ((id >>> 1) <<< 1) ||| 1#32 = funcIdOf (id >>> 1).toNat := by
  unfold funcIdOf
  rw [BitVec.ofNat_toNat, BitVec.setWidth_eq]

theorem run_inv {nf : Bool} {n : Nat} {T : FnTable} (I : FnInv n T) (o : FnOp) : FnInv n (o.run nf T) := by
  have key : ∀ id, FnInv n (getFunctionById T id).2 := by
    intro id
    unfold getFunctionById
    split
    · simp only
      split
      · exact I
      · exact ensure_inv I _ (id_of_odd _)
    · exact I
  cases o with
  | byId id => exact key id
  | byIdOrNull id =>
    simp only [FnOp.run, getFunctionByIdOrNull]
    split
    · exact I
    · have := key id
      split <;> (rename_i h; rw [h] at this; exact this)
  | byIndex i => exact ensure_inv I i rfl

theorem runFns_inv {nf : Bool} {n : Nat} (h : List FnOp) {T : FnTable} (I : FnInv n T) :
    FnInv n (runFns nf T h) := by
  induction h generalizing T with
  | nil => exact I
  | cons o h ih => exact ih (run_inv I o)

theorem ensure_some {n : Nat} {T : FnTable} (I : FnInv n T) {i : Nat} (hi : i < n) {id : BitVec 32}
    (hid : id = funcIdOf i) :
    ∃ v, (ensure T i id).1 = some v ∧ v.index = i ∧ v.funcid = funcIdOf i ∧
      (ensure T i id).2.slots[i]? = some (some v) := by
  unfold ensure
  have hl : i < T.slots.length := by rw [I.len]; exact hi
  rw [List.getElem?_eq_getElem hl]
  cases h : T.slots[i] with
  | some v =>
    have hg : T.slots[i]? = some (some v) := by rw [List.getElem?_eq_getElem hl, h]
    exact ⟨v, rfl, (I.good i v hg).1, (I.good i v hg).2, hg⟩
  | none => exact ⟨_, rfl, rfl, hid, by simp [hl]⟩

theorem ensure_found {T : FnTable} {i : Nat} {v : Invoker} {id : BitVec 32}
    (h : T.slots[i]? = some (some v)) : (ensure T i id).1 = some v := by
  unfold ensure
  rw [h]

theorem ensure_kept {T : FnTable} {i j : Nat} {v : Invoker} {id : BitVec 32}
    (h : T.slots[j]? = some (some v)) : (ensure T i id).2.slots[j]? = some (some v) := by
  unfold ensure
  split
  · exact h
  · exact h
  · rename_i hn
    simp only [List.getElem?_set]
    split
    · rename_i hij; subst hij; rw [h] at hn; cases hn
    · exact h

theorem run_kept {nf : Bool} {T : FnTable} {j : Nat} {v : Invoker} (o : FnOp)
    (h : T.slots[j]? = some (some v)) : (o.run nf T).slots[j]? = some (some v) := by
  have key : ∀ id, (getFunctionById T id).2.slots[j]? = some (some v) := by
    intro id
    unfold getFunctionById
    split
    · simp only
      split
      · exact h
      · exact ensure_kept h
    · exact h
  cases o with
  | byId id => exact key id
  | byIdOrNull id =>
    simp only [FnOp.run, getFunctionByIdOrNull]
    split
    · exact h
    · have := key id
      split <;> (rename_i h; rw [h] at this; exact this)
  | byIndex i => exact ensure_kept h

theorem runFns_kept {nf : Bool} (h : List FnOp) {T : FnTable} {j : Nat} {v : Invoker}
    (hv : T.slots[j]? = some (some v)) : (runFns nf T h).slots[j]? = some (some v) := by
  induction h generalizing T with
  | nil => exact hv
  | cons o h ih => exact ih (run_kept o hv)

theorem funcIdOf_toNat {i : Nat} (h : i < 2147483648) : (funcIdOf i).toNat = 2 * i + 1 := by
  unfold funcIdOf
  rw [BitVec.toNat_or, BitVec.toNat_shiftLeft, BitVec.toNat_ofNat, BitVec.toNat_ofNat,
    Nat.mod_eq_of_lt (by omega), Nat.shiftLeft_eq, Nat.mod_eq_of_lt (by omega)]
  have := Nat.two_pow_add_eq_or_of_lt (i := 1) (b := 1) (by decide) i
  rw [show i * 2 ^ 1 = 2 ^ 1 * i by omega, show 1 % 2 ^ 32 = 1 by decide, ← this]

theorem funcIdOf_shift {i : Nat} (h : i < 2147483648) : (funcIdOf i >>> 1).toNat = i := by
  rw [BitVec.toNat_ushiftRight, funcIdOf_toNat h, Nat.shiftRight_eq_div_pow]
  omega

theorem odd_iff (id : BitVec 32) : id &&& 1#32 ≠ 0 ↔ id.toNat % 2 = 1 := by
  rw [Ne, BitVec.toNat_eq, BitVec.toNat_and]
  show ¬ (id.toNat &&& 1 = 0) ↔ _
  rw [Nat.and_one_is_mod]
  omega

/-- C27: whatever was requested before (`h1`), the id handed out for public `i` resolves to a function
whose index is `i` and whose own id is that id; whatever is requested afterwards (`h2`), the same id and the
request by index resolve to the very same object. -/
theorem C27_round_trip (nf : Bool) (publics : Nat) (hn : publics ≤ 2147483648) (i : Nat) (hi : i < publics)
    (h1 h2 : List FnOp) :
    let T := runFns nf (FnTable.init publics) h1
    ∃ id v, getPublicByIndex T i = some id ∧ (getFunctionById T id).1 = some v ∧
      v.index = i ∧ v.funcid = id ∧
      let T' := runFns nf (getFunctionById T id).2 h2
      getPublicByIndex T' i = some id ∧ (getFunctionById T' id).1 = some v ∧
        (getPublicFunction T' i).1 = some v := by
  intro T
  have I : FnInv publics T := runFns_inv h1 (FnInv.init publics)
  have hodd : funcIdOf i &&& 1#32 ≠ 0 := (odd_iff _).2 (by rw [funcIdOf_toNat (by omega)]; omega)
  have hsh := funcIdOf_shift (i := i) (by omega)
  have unfoldId : ∀ {U : FnTable}, FnInv publics U →
      getFunctionById U (funcIdOf i) = ensure U i (funcIdOf i) := by
    intro U IU
    unfold getFunctionById
    rw [if_pos hodd]
    simp only [hsh, IU.len]
    rw [if_neg (by omega)]
    congr 1
    rw [id_of_odd, hsh]
  obtain ⟨v, hv, hx, hf, hs⟩ := ensure_some I hi (id := funcIdOf i) rfl
  refine ⟨funcIdOf i, v, ?_, ?_, hx, hf, ?_⟩
  · unfold getPublicByIndex; rw [if_neg (by rw [I.len]; omega)]
  · rw [unfoldId I]; exact hv
  · rw [unfoldId I]
    have I' : FnInv publics (runFns nf (ensure T i (funcIdOf i)).2 h2) :=
      runFns_inv h2 (ensure_inv I i rfl)
    have hk := runFns_kept (nf := nf) h2 hs
    refine ⟨?_, ?_, ?_⟩
    · unfold getPublicByIndex; rw [if_neg (by rw [I'.len]; omega)]
    · rw [unfoldId I']; exact ensure_found hk
    · exact ensure_found hk

/-- C27: distinct publics have distinct ids. -/
theorem C27_ids_distinct {i j : Nat} (hi : i < 2147483648) (hj : j < 2147483648) (h : funcIdOf i = funcIdOf j) :
    i = j := by
  have := congrArg BitVec.toNat h
  rw [funcIdOf_toNat hi, funcIdOf_toNat hj] at this
  omega

/-- C27: an id resolves exactly when it was handed out for one of the publics; every other 32-bit value is
rejected and changes nothing. -/
theorem C27_only_handed_out (nf : Bool) (publics : Nat) (hn : publics ≤ 2147483648) (h : List FnOp)
    (id : BitVec 32) :
    let T := runFns nf (FnTable.init publics) h
    ((∃ v, (getFunctionById T id).1 = some v) ↔ ∃ i, getPublicByIndex T i = some id) ∧
    ((getFunctionById T id).1 = none → (getFunctionById T id).2 = T) := by
  intro T
  have I : FnInv publics T := runFns_inv h (FnInv.init publics)
  constructor
  · constructor
    · rintro ⟨v, hv⟩
      unfold getFunctionById at hv
      split at hv
      · rename_i ho
        simp only at hv
        split at hv
        · cases hv
        · rename_i hlt
          refine ⟨(id >>> 1).toNat, ?_⟩
          unfold getPublicByIndex
          rw [if_neg hlt]
          congr 1
          have ho := (odd_iff id).1 ho
          rw [I.len] at hlt
          apply BitVec.eq_of_toNat_eq
          have hsh : (id >>> 1).toNat = id.toNat / 2 := by
            rw [BitVec.toNat_ushiftRight, Nat.shiftRight_eq_div_pow]
          rw [funcIdOf_toNat (by omega), hsh]
          omega
      · cases hv
    · rintro ⟨i, hi⟩
      unfold getPublicByIndex at hi
      split at hi
      · cases hi
      · rename_i hlt
        simp only [Option.some.injEq] at hi
        subst hi
        rw [I.len] at hlt
        obtain ⟨id', v, h1, h2, _⟩ := C27_round_trip nf publics hn i (by omega) h []
        have : id' = funcIdOf i := by
          unfold getPublicByIndex at h1
          split at h1
          · cases h1
          · simpa using h1.symm
        subst this
        exact ⟨v, h2⟩
  · intro hn
    unfold getFunctionById at hn ⊢
    split at hn
    · rename_i ho
      rw [if_pos ho]
      simp only at hn ⊢
      split at hn
      · rename_i hge; rw [if_pos hge]
      · rename_i hge
        rw [if_neg hge]
        unfold ensure at hn ⊢
        split at hn
        · rename_i hx
          rw [List.getElem?_eq_none_iff] at hx
          omega
        · cases hn
        · cases hn
    · rename_i ho; rw [if_neg ho]

theorem ensure_outside {T : FnTable} {i : Nat} {id : BitVec 32} (hi : i < T.slots.length) :
    (ensure T i id).2.outside = T.outside := by
  unfold ensure
  rw [List.getElem?_eq_getElem hi]
  cases T.slots[i] <;> rfl

/-- C27: looking up any ids whatever, and any valid indices, never reads outside the table of functions. -/
theorem C27_in_bounds (nf : Bool) (publics : Nat) (h : List FnOp) (hv : ∀ i, .byIndex i ∈ h → i < publics) :
    (runFns nf (FnTable.init publics) h).outside = false := by
  have hgen : ∀ (h : List FnOp) (T : FnTable), (∀ i, .byIndex i ∈ h → i < publics) → FnInv publics T → T.outside = false →
      (runFns nf T h).outside = false := by
    intro h
    induction h with
    | nil => intro T _ _ ho; exact ho
    | cons o h ih =>
      intro T hv I ho
      have key : ∀ id, (getFunctionById T id).2.outside = false := by
        intro id
        unfold getFunctionById
        split
        · simp only
          split
          · exact ho
          · rw [ensure_outside (by omega)]; exact ho
        · exact ho
      refine ih (o.run nf T) (fun i hi => hv i (List.mem_cons_of_mem _ hi)) (run_inv I o) ?_
      cases o with
      | byId id => exact key id
      | byIdOrNull id =>
        simp only [FnOp.run, getFunctionByIdOrNull]
        split
        · exact ho
        · have := key id
          split <;> (rename_i h; rw [h] at this; exact this)
      | byIndex i =>
        have hi := hv i (List.mem_cons_self ..)
        simp only [FnOp.run, getPublicFunction]
        rw [ensure_outside (by rw [I.len]; exact hi)]; exact ho
  exact hgen h _ hv (FnInv.init publics) rfl

example : ∀ i, FnOp.byIndex i ∈ [FnOp.byIndex 2, .byId 9, .byId 7] → i < 3 := by
  intro i h
  simp at h
  omega

/-- C27: the null function value of either code generation never resolves to a function: looking it up yields
null without an error, and looking it up as a plain id finds nothing.  (A plugin file has fewer than 2^29
publics: 8 bytes each in a section of less than 2^32 bytes.) -/
theorem C27_null (nf : Bool) (publics : Nat) (hn : publics < 2147483648) (h : List FnOp) :
    let T := runFns nf (FnTable.init publics) h
    (getFunctionById T (nullFunctionValue nf)).1 = none ∧
    getFunctionByIdOrNull nf T (nullFunctionValue nf) = (some none, T) := by
  intro T
  have I : FnInv publics T := runFns_inv h (FnInv.init publics)
  constructor
  · unfold getFunctionById nullFunctionValue
    cases nf
    · simp only [Bool.false_eq_true, if_false]
      rw [if_pos (by decide)]
      have : (BitVec.allOnes 32 >>> 1).toNat = 2147483647 := by decide
      rw [this, if_pos (by rw [I.len]; omega)]
    · simp
  · unfold getFunctionByIdOrNull
    rw [if_pos rfl]

example : (getFunctionById (runFns true (FnTable.init 3) [.byIndex 2, .byId 9]) 5#32).1.isSome = true := by
  decide
example : (getFunctionById (FnTable.init 3) 7#32).1.isSome = false ∧
    (getFunctionById (FnTable.init 3) 4#32).1.isSome = false := by decide

/-! ## C28 -/

/-- A binding request. -/
structure Bind where
  /-- through the object interface (`UpdateNativeBindingObject`) -/
  object : Bool
  index : Nat
  ptr : Option HostPtr
  flags : BitVec 32
  user : Nat

/-- Perform a request. -/
def Bind.run (t : List Entry) (b : Bind) : Code × List Entry :=
  if b.object then updateBindingObject t b.index b.ptr b.flags b.user
  else updateBinding t b.index b.ptr b.flags b.user

/-- The table after a history of requests. -/
def runBinds (t : List Entry) (h : List Bind) : List Entry := h.foldl (fun t b => (b.run t).2) t

/-- The specification's view of one native: what it is bound to, if anything, and whether that binding may
be replaced. -/
abbrev Slot := Option (HostPtr × Bool)

/-- Effect of a request on the slot of native `i` in a table of `n` natives: only requests for `i` matter; a
permanent binding is never replaced; otherwise the request takes effect (a null pointer unbinds). -/
def specBind (n i : Nat) (s : Slot) (b : Bind) : Slot :=
  if b.index ≠ i ∨ n ≤ i then s
  else
    match s with
    | some (p, false) => some (p, false)
    | _ => b.ptr.map fun p => (p, b.flags.getLsbD 0 || b.flags.getLsbD 1)

/-- Slot of native `i` after a history, starting from nothing bound. -/
def specBinds (n i : Nat) (h : List Bind) : Slot := h.foldl (specBind n i) none

/-- How an entry of the real table represents a slot. -/
def Represents (e : Entry) (s : Slot) : Prop :=
  match s with
  | none => e.bound = false
  | some (p, l) => e.bound = true ∧ e.loose = l ∧ e.target = .run p

theorem loose_eq (f : BitVec 32) : (decide (f &&& 3#32 ≠ 0)) = (f.getLsbD 0 || f.getLsbD 1) := by
  have h3 : ∀ k, (3#32).getLsbD k = decide (k < 2) := by
    intro k
    by_cases hk : k < 32
    · have : ∀ k : Fin 32, (3#32).getLsbD k = decide (k.val < 2) := by decide
      exact this ⟨k, hk⟩
    · rw [BitVec.getLsbD_of_ge _ _ (by omega)]; simp; omega
  by_cases h : f &&& 3#32 = 0
  · have h0 := congrArg (fun x => BitVec.getLsbD x 0) h
    have h1 := congrArg (fun x => BitVec.getLsbD x 1) h
    simp only [BitVec.getLsbD_and, h3] at h0 h1
    simp_all
  · simp only [ne_eq, h, not_false_eq_true, decide_true]
    apply Eq.symm
    apply Decidable.byContradiction
    intro hc
    apply h
    apply BitVec.eq_of_getLsbD_eq
    intro k hk
    simp only [BitVec.getLsbD_and, h3]
    match k with
    | 0 => simp at hc; simp [hc.1]
    | 1 => simp at hc; simp [hc.2]
    | k+2 => simp

theorem run_eq (t : List Entry) (b : Bind) :
    b.run t = match t[b.index]? with
      | none => (.index, t)
      | some e => if e.bound ∧ ¬ e.loose then (.param, t)
        else (.none, t.set b.index
          (if b.object then ⟨none, b.ptr, b.ptr.isSome, b.flags, b.user⟩
            else ⟨b.ptr, none, b.ptr.isSome, b.flags, b.user⟩)) := by
  unfold Bind.run updateBinding updateBindingObject
  cases b.object <;> simp only [Bool.false_eq_true, if_false, if_true] <;> (cases t[b.index]? <;> rfl)

theorem run_length (t : List Entry) (b : Bind) : (b.run t).2.length = t.length := by
  rw [run_eq]; split
  · rfl
  · split
    · rfl
    · simp

theorem represents_new (b : Bind) :
    Represents (if b.object then ⟨none, b.ptr, b.ptr.isSome, b.flags, b.user⟩
            else ⟨b.ptr, none, b.ptr.isSome, b.flags, b.user⟩)
      (b.ptr.map fun p => (p, b.flags.getLsbD 0 || b.flags.getLsbD 1)) := by
  cases hp : b.ptr with
  | none => cases b.object <;> simp [Represents]
  | some p =>
    have := loose_eq b.flags
    cases b.object <;> exact ⟨rfl, this, rfl⟩

theorem run_represents {t : List Entry} {i : Nat} {e : Entry} {s : Slot} (he : t[i]? = some e)
    (hr : Represents e s) (b : Bind) :
    ∃ e', (b.run t).2[i]? = some e' ∧ Represents e' (specBind t.length i s b) := by
  have hi : i < t.length := (List.getElem?_eq_some_iff.1 he).1
  rw [run_eq]
  unfold specBind
  by_cases hb : b.index = i
  · rw [if_neg (show ¬ (b.index ≠ i ∨ t.length ≤ i) by omega), hb, he]
    simp only
    split
    · rename_i hfix
      match s, hr with
      | none, hr => simp only [Represents] at hr; simp [hr] at hfix
      | some (p, true), hr => simp only [Represents] at hr; simp [hr.2.1] at hfix
      | some (p, false), hr => exact ⟨e, he, hr⟩
    · rename_i hfix
      refine ⟨_, List.getElem?_set_self hi, ?_⟩
      match s, hr with
      | none, hr => exact represents_new b
      | some (p, true), hr => exact represents_new b
      | some (p, false), hr => simp only [Represents] at hr; simp [hr.1, hr.2.1] at hfix
  · rw [if_pos (show b.index ≠ i ∨ t.length ≤ i by omega)]
    split
    · exact ⟨e, he, hr⟩
    · split
      · exact ⟨e, he, hr⟩
      · refine ⟨e, ?_, hr⟩
        simp only
        rw [List.getElem?_set_ne hb]
        exact he

theorem runBinds_represents {i : Nat} (h : List Bind) : ∀ {t : List Entry} {e : Entry} {s : Slot},
    t[i]? = some e → Represents e s →
    ∃ e', (runBinds t h)[i]? = some e' ∧ Represents e' (h.foldl (specBind t.length i) s) := by
  induction h with
  | nil => intro t e s he hr; exact ⟨e, he, hr⟩
  | cons b h ih =>
    intro t e s he hr
    obtain ⟨e', he', hr'⟩ := run_represents he hr b
    have := ih he' hr'
    rw [run_length] at this
    exact this

/-- An empty native table of `n` entries. -/
def freshTable (n : Nat) : List Entry := List.replicate n .fresh

/-- C28: after any history of bind and unbind requests, native `i`'s entry represents what the
specification, which looks only at the requests for `i`, says: it is bound to the last accepted request's function, or
unbound. -/
theorem C28_binding (n i : Nat) (hi : i < n) (h : List Bind) :
    ∃ e, (runBinds (freshTable n) h)[i]? = some e ∧ Represents e (specBinds n i h) := by
  have := runBinds_represents (i := i) h (t := freshTable n) (e := .fresh) (s := none)
    (by simp [freshTable, hi]) rfl
  rw [show (freshTable n).length = n by simp [freshTable]] at this
  exact this

/-- C28: when the interpreter executes a native call after any such history, it runs exactly the function
the native is bound to, and reports an invalid native, running nothing, when it is unbound; a null callback is never
called. -/
theorem C28_call (E : VM.Env) (behaviour : HostPtr → VM.State → VM.Res VM.State VM.Cell)
    (repl : Nat → Option (Nat × (List VM.Cell → VM.Cell))) (n i : Nat) (hi : i < n) (h : List Bind) (s : VM.IState)
    (hE : E.natives = view behaviour repl (runBinds (freshTable n) h)) :
    VM.invokeNative E i s =
      match specBinds n i h with
      | none => .fail s .invalidNative
      | some (p, _) =>
        match behaviour p s.vm with
        | .ok v r => .ok { s with vm := { v with sp := s.vm.sp, hp := s.vm.hp }, pri := r } ()
        | .fail v e => .fail { s with vm := { v with sp := s.vm.sp, hp := s.vm.hp } } e
        | .ub => .ub := by
  obtain ⟨e, he, hr⟩ := C28_binding n i hi h
  unfold VM.invokeNative
  rw [hE]
  simp only [view, Int.toNat_natCast, he, Option.map_some]
  rw [if_neg (by omega)]
  match hs : specBinds n i h, hr with
  | none, hr => simp only [Represents] at hr; simp [hr]
  | some (p, l), hr =>
    simp only [Represents] at hr
    simp only [hr.1, hr.2.2, if_true]
    cases behaviour p s.vm <;> rfl

/-- C28: the answer to a request: an index outside the table is refused; a native that is bound permanently
refuses; every other request is accepted. Refused requests change nothing. -/
theorem C28_answer (n : Nat) (h : List Bind) (b : Bind) :
    let t := runBinds (freshTable n) h
    let r := b.run t
    (r.1 = .index ↔ n ≤ b.index) ∧
    (r.1 = .param ↔ b.index < n ∧ ∃ p, specBinds n b.index h = some (p, false)) ∧
    (r.1 ≠ .none → r.2 = t) := by
  intro t r
  have hlen : t.length = n := by
    have : ∀ (h : List Bind) (t : List Entry), (runBinds t h).length = t.length := by
      intro h
      induction h with
      | nil => intro t; rfl
      | cons b h ih =>
        intro t
        show (runBinds (b.run t).2 h).length = _
        rw [ih, run_length]
    show (runBinds (freshTable n) h).length = n
    rw [this]; simp [freshTable]
  show ((b.run t).1 = .index ↔ _) ∧ ((b.run t).1 = .param ↔ _) ∧ ((b.run t).1 ≠ .none → (b.run t).2 = t)
  rw [run_eq]
  by_cases hb : b.index < n
  · obtain ⟨e, he, hr⟩ := C28_binding n b.index hb h
    have he' : t[b.index]? = some e := he
    rw [he']
    simp only
    match hs : specBinds n b.index h, hr with
    | none, hr =>
      simp only [Represents] at hr
      simp [hr]; omega
    | some (p, true), hr =>
      simp only [Represents] at hr
      simp [hr.2.1]; omega
    | some (p, false), hr =>
      simp only [Represents] at hr
      simp [hr.1, hr.2.1]; omega
  · rw [List.getElem?_eq_none (by omega)]
    simp; omega

/-- C28: once a native is bound without the optional and ephemeral flags, no later history changes what it
runs. -/
theorem C28_permanent (n i : Nat) (h1 h2 : List Bind) (p : HostPtr) (hb : specBinds n i h1 = some (p, false)) :
    specBinds n i (h1 ++ h2) = some (p, false) := by
  unfold specBinds at *
  rw [List.foldl_append, hb]
  induction h2 with
  | nil => rfl
  | cons b h2 ih =>
    rw [List.foldl_cons]
    have : specBind n i (some (p, false)) b = some (p, false) := by
      unfold specBind; split <;> rfl
    rw [this]; exact ih

/-- C28: requests for other natives never affect native `i`. -/
theorem C28_isolated (n i : Nat) (h : List Bind) :
    specBinds n i h = specBinds n i (h.filter fun b => b.index = i) := by
  unfold specBinds
  generalize (none : Slot) = s
  induction h generalizing s with
  | nil => rfl
  | cons b h ih =>
    by_cases hb : b.index = i
    · rw [List.filter_cons_of_pos (by simpa using hb), List.foldl_cons, List.foldl_cons]
      exact ih _
    · rw [List.filter_cons_of_neg (by simpa using hb), List.foldl_cons]
      have : specBind n i s b = s := by unfold specBind; rw [if_pos (by omega)]
      rw [this]; exact ih _

/-- C28: a loosely bound native can be rebound or unbound. -/
theorem C28_rebind (n i : Nat) (hi : i < n) (h : List Bind) (p : HostPtr) (hb : specBinds n i h = some (p, true))
    (b : Bind) (hbi : b.index = i) :
    specBinds n i (h ++ [b]) = b.ptr.map fun p => (p, b.flags.getLsbD 0 || b.flags.getLsbD 1) := by
  unfold specBinds at *
  rw [List.foldl_append, hb]
  simp only [List.foldl_cons, List.foldl_nil]
  unfold specBind
  rw [if_neg (by omega)]

/-- Loading installs the built-in float natives permanently: no later history of requests replaces or unbinds
them (they may have been compiled into instructions). -/
theorem C28_builtins_permanent (builtin : Nat → Option HostPtr) (n i : Nat) (hi : i < n) (f : HostPtr)
    (hf : builtin i = some f) (h : List Bind) :
    ∃ e, (runBinds (installBuiltins builtin (freshTable n)) h)[i]? = some e ∧ e.target = .run f := by
  have key : ∀ (l : List Nat) (t : List Entry), t.length = n → l.Nodup →
      (∀ j ∈ l, ∃ e, t[j]? = some e ∧ e.bound = false) →
      (∃ e, t[i]? = some e ∧ (i ∈ l ∨ Represents e (some (f, false)))) →
      let t' := l.foldl (installOne builtin) t
      ∃ e, t'[i]? = some e ∧ Represents e (some (f, false)) := by
    intro l
    induction l with
    | nil =>
      intro t _ _ _ hx
      obtain ⟨e, he, hx⟩ := hx
      exact ⟨e, he, by simpa using hx⟩
    | cons j l ih =>
      intro t hl hnd hfree hx
      rw [List.foldl_cons]
      obtain ⟨hjl, hnd'⟩ := List.nodup_cons.1 hnd
      cases hbj : builtin j with
      | none =>
        have : installOne builtin t j = t := by unfold installOne; rw [hbj]
        rw [this]
        apply ih t hl hnd' (fun k hk => hfree k (List.mem_cons_of_mem _ hk))
        obtain ⟨e, he, hx⟩ := hx
        refine ⟨e, he, ?_⟩
        rcases hx with hx | hx
        · left
          rcases List.mem_cons.1 hx with hx | hx
          · subst hx; rw [hf] at hbj; cases hbj
          · exact hx
        · right; exact hx
      | some g =>
        obtain ⟨e0, he0, hb0⟩ := hfree j (List.mem_cons_self ..)
        have hjn : j < t.length := (List.getElem?_eq_some_iff.1 he0).1
        have hu : installOne builtin t j = t.set j ⟨some g, none, true, 0, 0⟩ := by
          unfold installOne updateBinding
          rw [hbj, he0]
          simp [hb0]
        rw [hu]
        apply ih _ (by simp [hl]) hnd'
        · intro k hk
          have hkj : j ≠ k := by intro hc; subst hc; exact hjl hk
          rw [List.getElem?_set_ne hkj]
          exact hfree k (List.mem_cons_of_mem _ hk)
        · by_cases hij : j = i
          · subst hij
            rw [hf] at hbj
            cases hbj
            refine ⟨⟨some f, none, true, 0, 0⟩, by simp [hjn], Or.inr ?_⟩
            simp [Represents, Entry.loose, Entry.target]
          · rw [List.getElem?_set_ne hij]
            obtain ⟨e, he, hx⟩ := hx
            refine ⟨e, he, ?_⟩
            rcases hx with hx | hx
            · left
              rcases List.mem_cons.1 hx with hx | hx
              · exact absurd hx.symm hij
              · exact hx
            · right; exact hx
  obtain ⟨e, he, hr⟩ := key (List.range n) (freshTable n) (by simp [freshTable]) List.nodup_range
    (fun j hj => ⟨.fresh, by simp [freshTable, List.mem_range.1 hj], rfl⟩)
    ⟨.fresh, by simp [freshTable, hi], Or.inl (List.mem_range.2 hi)⟩
  have he' : (installBuiltins builtin (freshTable n))[i]? = some e := by
    unfold installBuiltins
    simpa [freshTable] using he
  obtain ⟨e', h1, h2⟩ := runBinds_represents h he' hr
  refine ⟨e', h1, ?_⟩
  have : ∀ (n : Nat) (h : List Bind), h.foldl (specBind n i) (some (f, false)) = some (f, false) := by
    intro n h
    induction h with
    | nil => rfl
    | cons b h ih =>
      rw [List.foldl_cons]
      have : specBind n i (some (f, false)) b = some (f, false) := by
        unfold specBind; split <;> rfl
      rw [this]; exact ih
  rw [this] at h2
  exact h2.2.2

/-- A history in which a native is bound as optional, rebound, bound permanently and then refuses. -/
def c28History : List Bind :=
  [⟨false, 1, some 10, 1, 0⟩, ⟨true, 1, some 11, 2, 0⟩, ⟨false, 0, some 12, 0, 0⟩, ⟨false, 1, some 13, 0, 0⟩]

example : specBinds 3 1 c28History = some (13, false) ∧ specBinds 3 0 c28History = some (12, false) ∧
    specBinds 3 2 c28History = none := by decide
example : (Bind.run (runBinds (freshTable 3) c28History) ⟨false, 1, none, 0, 0⟩).1 = .param := by decide
example : specBinds 3 1 (c28History.take 2) = some (11, true) ∧
    specBinds 3 1 (c28History.take 2 ++ [⟨false, 1, none, 0, 0⟩]) = none := by decide

end Verif.Runtime

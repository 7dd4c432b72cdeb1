import Verif.Proofs.GenArray

/-!
C09, C10, C11: creation of dynamic arrays.

`walkAbs` / `walkRel` (Spec/Arrays.lean) say how compiled code reaches the element with a given index
vector; `flat` is the row-major position, `dataCells` / `ptrCells` the mathematical sizes.
The dimensions are on the stack innermost first, hence the `reverse`.
-/
namespace Verif.VM

/-- What the claims C09 and C10 say about an array made at `base`, in terms of the way `walk` an
element is reached. -/
structure GoodArray (s s' : State) (base : Int) (dims : List Int) (autozero : Bool)
    (walk : Int → List Int → Int) : Prop where
  /-- the array starts at the old heap top -/
  at_old_top : base = s.hp
  /-- rows of the last dimension are contiguous, in row-major order, after all row pointers -/
  row_major : ∀ is, ValidIx dims is → walk base is = base + 4 * ptrCells dims + 4 * flat dims is
  /-- every element lies after the row pointers, between the old and the new heap top -/
  in_block : ∀ is, ValidIx dims is →
    s.hp + 4 * ptrCells dims ≤ walk base is ∧ walk base is + 4 ≤ s'.hp
  /-- the new heap block lies in the plugin's memory -/
  in_memory : s.hp ≤ s'.hp ∧ s'.hp ≤ s.memSize
  /-- different index vectors reach disjoint cells -/
  distinct : ∀ is js, ValidIx dims is → ValidIx dims js → is ≠ js →
    walk base is + 4 ≤ walk base js ∨ walk base js + 4 ≤ walk base is
  /-- elements are zero if that was requested -/
  zeroed : autozero = true → ∀ is, ValidIx dims is → rd32 s'.mem (walk base is) = 0
  /-- nothing outside the new heap block changes -/
  frame : ∀ x, x < s.hp ∨ s'.hp ≤ x → s'.mem x = s.mem x
  regs : s'.sp = s.sp ∧ s'.frm = s.frm ∧ s'.hpScope = s.hpScope

theorem rd32_zero {m : Int → BitVec 8} {a : Int} (h : ∀ x, a ≤ x → x < a + 4 → m x = 0) :
    rd32 m a = 0 := by
  unfold rd32
  rw [h a (by omega) (by omega), h (a+1) (by omega) (by omega), h (a+2) (by omega) (by omega),
    h (a+3) (by omega) (by omega)]
  decide

theorem ArrayMade.good {s s' : State} {base : Int} {dims : List Int} {az : Bool}
    (h : ArrayMade s s' base dims az) {walk : Int → List Int → Int}
    (hw : ∀ is, ValidIx dims is →
      walk base is = if s.directArrays then walkAbs s'.mem base is else walkRel s'.mem base is) :
    GoodArray s s' base dims az walk := by
  have hrm : ∀ is, ValidIx dims is → walk base is = base + 4 * ptrCells dims + 4 * flat dims is :=
    fun is his => by rw [hw is his]; exact h.walk s'.mem (fun _ _ _ => rfl) is his
  have hbe := h.base_eq
  have hhp := h.hp_eq
  have hins := h.inside
  have hin : (if s.usesHeapScopes then (0 : Int) else 4) = 0 ∨
    (if s.usesHeapScopes then (0 : Int) else 4) = 4 := by cases s.usesHeapScopes <;> simp
  have hP := ptrCells_nonneg h.pos.2
  have hD := dataCells_pos h.pos.2
  refine ⟨hbe, hrm, ?_, ⟨by omega, hins⟩, ?_, ?_, h.frame, h.regs⟩
  · intro is his
    rw [hrm is his]
    have := flat_bounds h.pos.2 his
    omega
  · intro is js hi hj hne
    rw [hrm is hi, hrm js hj]
    have hf : flat dims is ≠ flat dims js := fun e => hne (flat_inj h.pos.2 hi hj e)
    omega
  · intro haz is his
    have := flat_bounds h.pos.2 his
    rw [hrm is his]
    apply rd32_zero
    intro x hx1 hx2
    rw [h.data x (by omega) (by omega), if_pos haz]

/-- **C09.** Creating an array with direct addressing: whatever the number and size of the
dimensions, if creation succeeds then following the row pointers reaches a row-major, disjoint,
in-bounds set of elements, and nothing outside the new block changes. -/
theorem C09_direct_arrays {s s' : State} (L : Layout s)
    (hd : s.directArrays = true) {argv : List Int} {az : Bool} {base : Int}
    (h : generateFullArray argv az s = .ok s' base) :
    GoodArray s s' base argv.reverse az (walkAbs s'.mem) :=
  (generateFullArray_made L h).good (fun is _ => by rw [if_pos hd])

/-- **C10.** The same for legacy plugins, whose row vectors hold self-relative offsets. -/
theorem C10_relative_arrays {s s' : State} (L : Layout s)
    (hd : s.directArrays = false) {argv : List Int} {az : Bool} {base : Int}
    (h : generateFullArray argv az s = .ok s' base) :
    GoodArray s s' base argv.reverse az (walkRel s'.mem) :=
  (generateFullArray_made L h).good (fun is _ => by rw [if_neg (by simp [hd])])

/-- **C11 (partial).** For every list of dimensions (any 32-bit values, any number of them) creation either
allocates exactly the mathematically required number of bytes (plus the tracker entry of legacy
plugins), all dimensions being positive and the block ending below the stack, or it reports an error
and leaves the plugin exactly as it was.

Missing from the full claim: a stack pointer within 64 bytes of address zero, for which the code's
check is wrong (`C11_margin_underflow`). -/
theorem C11_size_exact_partial {s : State} (L : Layout s) (hsp : 64 ≤ s.sp) (argv : List Int) (az : Bool) :
    (∃ s', generateFullArray argv az s = .ok s' s.hp ∧
      (∀ d ∈ argv, 0 < d) ∧
      s'.hp = s.hp + 4 * (ptrCells argv.reverse + dataCells argv.reverse)
        + (if s.usesHeapScopes then 0 else 4) ∧
      s'.hp < s.sp) ∨
    (∃ e, generateFullArray argv az s = .fail s e) := by
  rcases generateFullArray_cases L hsp argv az with ⟨t, e, hm, h2⟩ | ⟨x, e, _⟩
  · refine Or.inl ⟨t, e, fun d hd => hm.pos.2 d (by simpa using hd), hm.hp_eq, ?_⟩
    have h1 := hm.hp_eq
    split at h1 <;> omega
  · exact Or.inr ⟨x, e⟩

theorem sizeLoop_none : ∀ {ds : List Int} {L : List Int} {iv : Int}, L ≠ [] → Pos L →
    (∀ d ∈ ds, 0 < d) → totalCells (ds.reverse ++ L) ≤ 4294967295 →
    ∃ p, sizeLoop ds (totalCells L) iv = some p
  | [], L, iv, _, _, _, _ => ⟨_, rfl⟩
  | d :: ds, L, iv, hL, pL, hp, h => by
      have hd := hp d (by simp)
      have hP := ptrCells_nonneg pL
      have hD := dataCells_pos pL
      have ht : totalCells (d :: L) = totalCells L * d + d := totalCells_cons hL
      have hmono : ∀ (es M : List Int), M ≠ [] → Pos M → Pos es → totalCells M ≤ totalCells (es ++ M) := by
        intro es
        induction es with
        | nil => intro M _ _ _; exact Int.le_refl _
        | cons e es ih =>
          intro M hM pM pe
          have h1 := ih M hM pM (fun x hx => pe x (by simp [hx]))
          have hne : es ++ M ≠ [] := by simp [hM]
          have h2 := totalCells_cons (d := e) hne
          have he := pe e (by simp)
          have h3 : 0 ≤ totalCells (es ++ M) := by
            have := ptrCells_nonneg pM; have := dataCells_pos pM
            unfold totalCells at h1 ⊢; omega
          rw [List.cons_append, h2]
          have h4 : totalCells (es ++ M) * 1 ≤ totalCells (es ++ M) * e :=
            Int.mul_le_mul_of_nonneg_left (by omega) h3
          omega
      have hle : totalCells (d :: L) ≤ 4294967295 := by
        refine Int.le_trans (hmono ds.reverse (d :: L) (by simp) ?_ ?_) (by simpa using h)
        · intro x hx
          rcases List.mem_cons.1 hx with rfl | hx
          · exact hd
          · exact pL x hx
        · intro x hx; exact hp x (by simp at hx; simp [hx])
      unfold sizeLoop
      rw [if_neg (by omega), if_neg (by simp [mulSafe]; omega), if_neg (by simp [addSafe]; omega)]
      rw [← ht]
      refine sizeLoop_none (by simp) ?_ (fun x hx => hp x (by simp [hx])) (by simpa using h)
      intro x hx
      rcases List.mem_cons.1 hx with rfl | hx
      · exact hd
      · exact pL x hx

/-- The other direction of C11: creation is refused only for a reason — a non-positive (or no)
dimension, or a mathematical size that does not leave 64 bytes below the stack pointer. -/
theorem C11_refused_only_if_too_big {s : State} (L : Layout s) (hsp : 64 ≤ s.sp) (argv : List Int)
    (az : Bool) {e : Err} {s' : State} (h : generateFullArray argv az s = .fail s' e) :
    argv = [] ∨ (∃ d ∈ argv, d ≤ 0) ∨
      s.sp ≤ s.hp + 4 * (ptrCells argv.reverse + dataCells argv.reverse) + 64 := by
  rcases generateFullArray_cases L hsp argv az with ⟨t, k, _⟩ | ⟨x, k, hc⟩
  · rw [h] at k; cases k
  obtain ⟨l1, l2, l3, l4, l5, l6⟩ := L
  rcases hc with hc | hc | hc
  · rcases Classical.em (argv = [] ∨ (∃ d ∈ argv, d ≤ 0)) with hx | hx
    · rcases hx with hx | hx
      · exact Or.inl hx
      · exact Or.inr (Or.inl hx)
    · right; right
      refine Classical.byContradiction fun hbig => ?_
      have hpos : ∀ d ∈ argv, 0 < d := by
        intro d hd
        refine Classical.byContradiction fun hh => hx (Or.inr ⟨d, hd, by omega⟩)
      match argv, hx, hpos, hc, hbig with
      | [], hx, _, _, _ => exact hx (Or.inl rfl)
      | d0 :: ds, _, hpos, hc, hbig =>
        have e1 : totalCells [d0] = d0 := by simp [totalCells, dataCells, ptrCells]
        have htot : totalCells (ds.reverse ++ [d0]) * 4 ≤ 4294967295 := by
          unfold totalCells
          simp only [List.reverse_cons] at hbig
          omega
        have pos0 := hpos d0 (by simp)
        obtain ⟨p, hp⟩ := sizeLoop_none (ds := ds) (L := [d0]) (iv := 0) (by simp)
          (by intro x hx; simp at hx; omega) (fun x hx => hpos x (by simp [hx])) (by omega)
        rw [e1] at hp
        obtain ⟨c, i⟩ := p
        have hs := sizeLoop_spec (ds := ds) (L := [d0]) (cells' := c) (iv' := i) (by simp)
            (by rw [e1]; simpa [ptrCells, wrap32] using hp)
        unfold arraySizes at hc
        dsimp only at hc
        rw [if_neg (by omega), hp] at hc
        dsimp only at hc
        rw [if_pos (by simp [mulSafe]; rw [hs.2.1]; exact htot)] at hc
        cases hc
  · right; right; omega
  · right; right; omega

/-! ### The instruction -/

theorem popN_ok : ∀ (k : Nat) {s : State}, Layout s → s.sp + 4 * (k : Int) ≤ s.stp →
    popN k s = .ok { s with sp := s.sp + 4 * (k : Int) } ()
  | 0, s, _, _ => by
      show Res.ok s () = _
      simp
  | k+1, s, L, h => by
      have L' := L
      obtain ⟨l1, l2, l3, l4, l5, l6⟩ := L'
      rcases popStack_cases L with ⟨k, e⟩ | ⟨_, e⟩
      · omega
      · unfold popN
        rw [bind_ok e, popN_ok k (s := { s with sp := s.sp + 4 })
          ⟨l1, l2, by somega, by somega, l5, l6⟩ (by somega)]
        dsimp only
        congr 2
        omega

/-- **C09/C10 for the instruction.** `GENARRAY n` with two or more dimensions on the stack: on success
the sizes are gone, the stack top holds the base address, and the array found there is a good one. -/
theorem C09_genarray_instruction {s s' : State} (L : Layout s) (hsp : 64 ≤ s.sp) {n : Nat}
    (hn : 2 ≤ n) (hn' : n < 268435456) {az : Bool} (h : genArray n az s = .ok s' ()) :
    let dims := (readCells s.mem s.sp n).reverse
    let walk := if s.directArrays then walkAbs s'.mem else walkRel s'.mem
    s'.sp = s.sp + 4 * (n - 1) ∧ (rd32 s'.mem s'.sp).toInt = s.hp ∧
    s'.hp = s.hp + 4 * (ptrCells dims + dataCells dims) + (if s.usesHeapScopes then 0 else 4) ∧
    (∀ is, ValidIx dims is → walk s.hp is = s.hp + 4 * ptrCells dims + 4 * flat dims is) ∧
    (az = true → ∀ is, ValidIx dims is → rd32 s'.mem (walk s.hp is) = 0) ∧
    (∀ x, x < s.hp ∨ s'.hp ≤ x → x < s'.sp ∨ s'.sp + 4 ≤ x → s'.mem x = s.mem x) := by
  have L' := L
  obtain ⟨l1, l2, l3, l4, l5, l6⟩ := L'
  intro dims walk
  unfold genArray at h
  have hw : wrap32 ((n : Int) * 4) = n * 4 := wrap32_id (by omega) (by omega)
  rw [hw] at h
  by_cases hb : s.sp + 4 * (n : Int) - 1 < s.stp
  case neg =>
    exfalso
    unfold acquireAddrRange at h
    by_cases h0 : s.sp < s.stp
    · rw [bind_ok (throw_ok (by omega) (by omega) (by omega)), if_pos (by omega),
        bind_fail (throw_fail (by
          unfold wrap32
          omega))] at h
      cases h
    · rw [bind_fail (throw_fail (by omega))] at h
      cases h
  have ha : acquireAddrRange s.sp ((n : Int) * 4) s = .ok s s.sp := by
    unfold acquireAddrRange
    rw [bind_ok (throw_ok (by omega) (by omega) (by omega)), if_pos (by omega)]
    have e : wrap32 (s.sp + (n : Int) * 4 - 1) = s.sp + n * 4 - 1 := wrap32_id (by omega) (by omega)
    rw [e, bind_ok (throw_ok (by omega) (by omega) (by omega))]
    rfl
  rw [ha] at h
  dsimp only at h
  rw [if_neg (by omega)] at h
  rcases generateFullArray_cases L hsp (readCells s.mem s.sp n) az with ⟨t, k, hm, hbel⟩ | ⟨x, k, _⟩
  · rw [k] at h
    dsimp only at h
    have hm : ArrayMade s t s.hp dims az := hm
    have hr := hm.regs
    have hsb := hm.same
    have hhp := hm.hp_eq
    have hbel : s.hp + 4 * (ptrCells dims + dataCells dims) + 64 < s.sp := hbel
    have hP := ptrCells_nonneg hm.pos.2
    have hD := dataCells_pos hm.pos.2
    have hmlt : t.hp < s.sp := by split at hhp <;> omega
    have hmge : s.hp + 4 * (ptrCells dims + dataCells dims) ≤ t.hp := by
      split at hhp <;> omega
    have hmge0 : s.hp ≤ t.hp := by omega
    rw [bind_ok (storeRaw_ok ⟨by omega, by rw [hsb.memSize]; omega⟩)] at h
    have Lt : Layout { t with mem := wr32 t.mem (s.sp + ((n : Int) - 1) * 4) (BitVec.ofInt 32 s.hp) } := by
      have q1 := hsb.memSize
      have q2 := hsb.dataSize
      have q3 := hsb.stp
      refine ⟨?_, ?_, ?_, ?_, ?_, ?_⟩ <;> dsimp only <;> omega
    rw [popN_ok (n - 1) Lt (by dsimp only; rw [hr.1, hsb.stp]; omega)] at h
    cases h
    dsimp only
    rw [hr.1]
    have es : s.sp + 4 * ((n - 1 : Nat) : Int) = s.sp + ((n : Int) - 1) * 4 := by omega
    have walk_eq : ∀ is, ValidIx dims is → walk s.hp is = s.hp + 4 * ptrCells dims + 4 * flat dims is := by
      intro is his
      have := hm.walk (wr32 t.mem (s.sp + ((n : Int) - 1) * 4) (BitVec.ofInt 32 s.hp)) (by
        intro x hx1 hx2
        rw [wr32_far (by omega)]) is his
      rw [← this]
      show (if s.directArrays then walkAbs _ else walkRel _) s.hp is = _
      split <;> rfl
    refine ⟨by omega, ?_, hhp, walk_eq, ?_, ?_⟩
    · rw [es, rd32_wr32_same, ofInt_toInt (by omega) (by omega)]
    · intro haz is his
      rw [walk_eq is his]
      have := flat_bounds hm.pos.2 his
      apply rd32_zero
      intro x hx1 hx2
      rw [wr32_far (by omega), hm.data x (by omega) (by omega), if_pos haz]
    · intro x hx1 hx2
      rw [wr32_far (by omega), hm.frame x hx1]
  · rw [k] at h
    cases h

/-! ### One dimension -/

/-- **C11 for one-dimensional arrays** (plugins with heap scopes): the size on the stack top is
replaced by the old heap top and exactly `size` cells are allocated below the stack pointer, zeroed
if requested; or an error is reported and the heap is as before. -/
theorem C11_one_dimension {s : State} (L : Layout s) (hu : s.usesHeapScopes = true)
    (h0 : s.sp + 4 ≤ s.stp) (az : Bool) :
    (∃ s', genArray 1 az s = .ok s' () ∧ (rd32 s'.mem s.sp).toInt = s.hp ∧
      0 < (rd32 s.mem s.sp).toNat ∧ s'.hp = s.hp + 4 * ((rd32 s.mem s.sp).toNat : Int) ∧
      s'.hp < s.sp ∧ s'.sp = s.sp ∧
      (az = true → ∀ i : Int, 0 ≤ i → i < (rd32 s.mem s.sp).toNat → rd32 s'.mem (s.hp + 4 * i) = 0) ∧
      (∀ x, x < s.hp ∨ s'.hp ≤ x → x < s.sp ∨ s.sp + 4 ≤ x → s'.mem x = s.mem x)) ∨
    (∃ s' e, genArray 1 az s = .fail s' e ∧ s'.hp = s.hp ∧ s'.sp = s.sp ∧
      ((rd32 s.mem s.sp).toNat = 0 ∨ s.sp ≤ s.hp + 4 * ((rd32 s.mem s.sp).toNat : Int))) := by
  obtain ⟨l1, l2, l3, l4, l5, l6⟩ := L
  have ha : acquireAddrRange s.sp (wrap32 (((1 : Nat) : Int) * 4)) s = .ok s s.sp := by
    rw [wrap32_id (by omega) (by omega)]
    unfold acquireAddrRange
    rw [bind_ok (throw_ok (by omega) (by omega) (by omega)), if_pos (by omega),
      wrap32_id (by omega) (by omega), bind_ok (throw_ok (by omega) (by omega) (by omega))]
    rfl
  unfold genArray
  rw [ha]
  dsimp only
  rw [if_pos rfl]
  unfold generateArray1
  rw [loadRaw_ok ⟨by omega, by omega⟩]
  dsimp only
  generalize hsz : (rd32 s.mem s.sp).toNat = size
  by_cases h1 : (size : Int) = 0
  · rw [if_pos h1]
    exact Or.inr ⟨_, _, rfl, rfl, rfl, Or.inl (by omega)⟩
  rw [if_neg h1]
  by_cases h2 : ¬ (size : Int) * 4 ≤ 4294967295
  · rw [if_pos (by simp [mulSafe]; omega)]
    exact Or.inr ⟨_, _, rfl, rfl, rfl, Or.inr (by omega)⟩
  rw [if_neg (by simp [mulSafe]; omega)]
  by_cases h3 : s.hp + (size : Int) * 4 ≥ s.sp
  · rw [if_pos h3]
    exact Or.inr ⟨_, _, rfl, rfl, rfl, Or.inr (by omega)⟩
  rw [if_neg h3, if_pos hu, wrap32_id (by omega) (by omega)]
  left
  cases az with
  | false =>
    refine ⟨_, rfl, ?_, by omega, by dsimp only; omega, by dsimp only; omega, rfl, by simp, ?_⟩
    · dsimp only
      rw [rd32_wr32_same, ofInt_toInt (by omega) (by omega)]
    · intro x hx1 hx2
      dsimp only
      rw [wr32_far (by omega)]
  | true =>
    rw [if_pos rfl, if_pos ⟨by somega, by somega⟩]
    refine ⟨_, rfl, ?_, by omega, by dsimp only; omega, by dsimp only; omega, rfl, ?_, ?_⟩
    · dsimp only
      rw [rd32_congr (m := wr32 s.mem s.sp (BitVec.ofInt 32 s.hp))]
      · rw [rd32_wr32_same, ofInt_toInt (by omega) (by omega)]
      · intro x hx1 hx2
        unfold zeroFill
        rw [if_neg (by omega)]
    · intro _ i i0 i1
      apply rd32_zero
      intro x hx1 hx2
      dsimp only
      unfold zeroFill
      rw [if_pos (by omega)]
    · intro x hx1 hx2
      dsimp only at hx1 ⊢
      unfold zeroFill
      rw [if_neg (by omega), wr32_far (by omega)]

/-! ### Where the code does not meet the claim -/

/-- A plugin without data whose stack has grown to within 64 bytes of address zero. -/
def lowStack : State :=
  { mem := fun _ => 0, memSize := 16384, dataSize := 0, stp := 16380, hp := 0, sp := 60, frm := 16372,
    hpScope := -1, directArrays := true, usesHeapScopes := true }

/-- `lowStack`'s registers are reached from a fresh runtime by two legal operations. -/
theorem lowStack_reachable :
    ∃ s1 s2, Op.exec (.stack (-16316)) (init (fun _ => 0) 0 (computeMemSize 0 0) true true) = .ok s1 () ∧
      Op.exec (.push 0) s1 = .ok s2 () ∧ s2.sp = lowStack.sp ∧ s2.hp = lowStack.hp ∧
      s2.memSize = lowStack.memSize ∧ s2.stp = lowStack.stp ∧ s2.dataSize = lowStack.dataSize := by
  refine ⟨_, _, rfl, rfl, ?_, ?_, ?_, ?_, ?_⟩ <;> decide

/-- The heap check computes `sp - 64` as an unsigned number.  With fewer than 64 bytes below the
stack pointer it wraps around, and a 20 by 20 array is placed over the live stack. -/
theorem C11_margin_underflow :
    ∃ s', generateFullArray [20, 20] true lowStack = .ok s' 0 ∧ s'.sp < s'.hp :=
  ⟨_, rfl, by decide⟩

/-- ... and a 100 by 100 array makes the VM write outside the memory block. -/
theorem C11_margin_underflow_ub : generateFullArray [100, 100] true lowStack = .ub := rfl

/-- A legacy plugin with 100 free bytes and a request for 20 cells on the stack. -/
def legacyTight : State :=
  { mem := wr32 (fun _ => 0) 164 20, memSize := 16384, dataSize := 64, stp := 16380, hp := 64, sp := 164,
    frm := 16372, hpScope := -1, directArrays := false, usesHeapScopes := false }

/-- In legacy mode a one-dimensional creation that fails for lack of room for its tracker entry has
already moved the heap pointer and replaced the size. -/
theorem C11_legacy_failure_moves_heap :
    ∃ s', genArray 1 true legacyTight = .fail s' .trackerBounds ∧ s'.hp = legacyTight.hp + 80 :=
  ⟨_, rfl, by decide⟩

/-! ### Non-vacuity -/

/-- A 2 by 3 by 4 array request on the stack of a plugin. -/
def request : State :=
  { mem := wr32 (wr32 (wr32 (fun _ => 0xaa) 1000 4) 1004 3) 1008 2, memSize := 16384, dataSize := 64,
    stp := 16380, hp := 64, sp := 1000, frm := 16372, hpScope := -1, directArrays := true,
    usesHeapScopes := true }

example : Layout request ∧ 64 ≤ request.sp ∧ request.directArrays = true :=
  ⟨⟨by decide, by decide, by decide, by decide, by decide, by decide⟩, by decide, rfl⟩

example : readCells request.mem request.sp 3 = [4, 3, 2] := by decide +kernel

example : ∃ s', generateFullArray [4, 3, 2] true request = .ok s' 64 ∧ s'.hp = 64 + 4 * (2 + 6 + 24) :=
  ⟨_, rfl, by decide⟩

example : ∃ s', generateFullArray [4, 3, 2] true { request with directArrays := false } = .ok s' 64 :=
  ⟨_, rfl⟩

example : ∃ s', genArray 3 true request = .ok s' () ∧ s'.sp = 1008 := by
  have h : (match genArray 3 true request with | .ok s' () => s'.sp == 1008 | _ => false) = true := by
    decide +kernel
  revert h
  cases genArray 3 true request with
  | ok s' _ => intro h; exact ⟨s', rfl, by simpa using h⟩
  | fail => intro h; cases h
  | ub => intro h; cases h

example : ValidIx [2, 3, 4] [1, 2, 3] ∧ flat [2, 3, 4] [1, 2, 3] = 23 := by
  refine ⟨⟨⟨?_, ?_⟩, ⟨?_, ?_⟩, ⟨?_, ?_⟩, trivial⟩, ?_⟩ <;> decide

example : ∃ e, generateFullArray [65536, 65536] true request = .fail request e := ⟨_, rfl⟩

example : ∃ s', genArray 1 true request = .ok s' () ∧ s'.hp = 64 + 16 := ⟨_, rfl, by decide +kernel⟩

end Verif.VM

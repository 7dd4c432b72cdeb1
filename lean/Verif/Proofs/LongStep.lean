import Verif.Proofs.Long

/-! Lemmas for C81: what single instructions and stores do to a frame. -/
namespace Verif.Long
open Verif.VM

/-- Where a variable is. -/
def ObjAt (F : Frame) (K : List Kind) (b : State) (t : Slots) (o : Obj) (p : Int) : Prop :=
  match o with
  | .loc n => ∃ i, t.v64 n = some i ∧ p = slotAddr K b.frm i
  | o => F.outer o ∧ p = F.addr o

/-- All slots that have been given out are in the table. -/
def Pre (t : Slots) (K : List Kind) : Prop := ∃ L, K = t.kinds ++ L

theorem Pre.of_grows {t t' : Slots} {K : List Kind} (h : Pre t' K) (g : Grows t t') : Pre t K := by
  obtain ⟨L, hL⟩ := h
  obtain ⟨M, hM⟩ := g.kinds
  exact ⟨M ++ L, by rw [hL, hM, List.append_assoc]⟩

theorem Pre.get {t : Slots} {K : List Kind} (h : Pre t K) {i : Nat} {k : Kind} (hi : t.kinds[i]? = some k) : K[i]? = some k := by
  obtain ⟨L, hL⟩ := h
  rw [hL]
  exact get_append hi

structure Keep (K : List Kind) (b : State) (t : Slots) (v v' : State) : Prop where
  stack : ∀ x, v.sp ≤ x → x < b.frm - size K → v'.mem x = v.mem x
  used : ∀ i k, (i, k) ∈ t.used → ∀ x, slotAddr K b.frm i ≤ x → x < slotAddr K b.frm i + k.bytes → v'.mem x = v.mem x

section
variable {F : Frame} {K : List Kind} {b : State} {D : Scope} {t : Slots} {σ : Store} {v : State}

theorem Keep.refl' : Keep K b t v v := ⟨fun _ _ _ => rfl, fun _ _ _ _ _ _ => rfl⟩

theorem Keep.trans {t' : Slots} {v' v'' : State} (h : Keep K b t v v') (k : Keep K b t' v' v'') (hs : v'.sp = v.sp) (g : Grows t t') :
    Keep K b t v v'' := by
  obtain ⟨M, hM⟩ := g.used
  refine ⟨fun x h1 h2 => (k.stack x (by omega) h2).trans (h.stack x h1 h2), fun i k' hi x h1 h2 => ?_⟩
  exact (k.used i k' (by rw [hM]; exact List.mem_append_left _ hi) x h1 h2).trans (h.used i k' hi x h1 h2)

theorem Holds.regs (h : Holds F K b D t σ v) : v.frm = b.frm ∧ v.hp = b.hp ∧ v.stp = b.stp ∧ v.memSize = b.memSize := by
  have := h.same
  refine ⟨?_, ?_, ?_, ?_⟩ <;> rw [this]

/-- Reading something else after a change of a region. -/
theorem Holds.of (h : Holds F K b D t σ v) {v' : State} {σ' : Store} (hs : v' = { b with mem := v'.mem, sp := v'.sp })
    (ht : v'.sp ≤ b.frm - size K)
    (h1 : ∀ o, F.outer o → rd64 v'.mem (F.addr o) = σ'.w o)
    (h2 : ∀ n i, n ∈ D.w → t.v64 n = some i → rd64 v.mem (slotAddr K b.frm i) = σ.w (.loc n) → rd64 v'.mem (slotAddr K b.frm i) = σ'.w (.loc n))
    (h3 : ∀ n i, n ∈ D.c → t.v32 n = some i → rd32 v.mem (slotAddr K b.frm i) = σ.c n → rd32 v'.mem (slotAddr K b.frm i) = σ'.c n)
    (h4 : ∀ k, k < F.params → rd32 v'.mem (cellAddr b.frm k) = rd32 v.mem (cellAddr b.frm k)) (hF : F.Fits K b) :
    Holds F K b D t σ' v' := by
  refine ⟨hs, ht, h1, fun n hn => ?_, fun n hn => ?_, fun k hk => ?_, fun k hk => ?_⟩
  · obtain ⟨i, e1, e2⟩ := h.loc n hn
    exact ⟨i, e1, h2 n i hn e1 e2⟩
  · obtain ⟨i, e1, e2⟩ := h.int n hn
    exact ⟨i, e1, h3 n i hn e1 e2⟩
  · rw [h4 k (hF.par k hk)]; exact h.par k hk
  · rw [h4 k (hF.ref k hk).1]; exact h.ref k hk

theorem Holds.temp (hF : F.Fits K b) (hW : WF t) (hP : Pre t K) (h : Holds F K b D t σ v) {i : Nat} (hi : K[i]? = some .int64)
    (n64 : ∀ n, t.v64 n ≠ some i) (n32 : ∀ n, t.v32 n ≠ some i) (w : BitVec 64) :
    Holds F K b D t σ { v with mem := wr64 v.mem (slotAddr K b.frm i) w } := by
  have hr := slot_range hi b.frm
  have hb : Kind.int64.bytes = 8 := rfl
  have hb' : Kind.int.bytes = 4 := rfl
  have hsz := size_nonneg K
  have hf := hF.frame
  refine h.of (σ' := σ) ?_ h.top ?_ ?_ ?_ ?_ hF
  · have := h.same
    rw [this]
  · intro o ho
    have := hF.range o ho
    dsimp only
    rw [rd64_far (by omega)]
    exact h.outer o ho
  · intro n j _ hj e
    dsimp only
    have := slot_apart hi (hP.get (hW.k64 n j hj).1) (fun hc => n64 n (hc ▸ hj)) b.frm
    rw [rd64_far (by omega)]
    exact e
  · intro n j _ hj e
    dsimp only
    have := slot_apart hi (hP.get (hW.k32 n j hj).1) (fun hc => n32 n (hc ▸ hj)) b.frm
    rw [rd32_far64 (by omega)]
    exact e
  · intro k _
    dsimp only
    unfold cellAddr
    rw [rd32_far64 (by omega)]

theorem ObjAt.cases {o : Obj} {p : Int} (h : ObjAt F K b t o p) (hW : WF t) (hP : Pre t K) :
    (∃ n i, o = .loc n ∧ t.v64 n = some i ∧ K[i]? = some .int64 ∧ p = slotAddr K b.frm i) ∨ (F.outer o ∧ p = F.addr o) := by
  cases o with
  | loc n =>
    obtain ⟨i, h1, h2⟩ := h
    exact .inl ⟨n, i, rfl, h1, hP.get (hW.k64 n i h1).1, h2⟩
  | par k => exact .inr h
  | glob a => exact .inr h
  | ext j => exact .inr h

theorem ObjAt.wide {o : Obj} {p : Int} (h : ObjAt F K b t o p) (hF : F.Fits K b) (hW : WF t) (hP : Pre t K) (hH : Holds F K b D t σ v) :
    Wide v p := by
  obtain ⟨r1, r2, r3, _⟩ := hH.regs
  have hf := hF.frame
  have hh := hF.heap
  have hc := hF.cells
  have ht := hH.top
  have hb : Kind.int64.bytes = 8 := rfl
  rcases h.cases hW hP with ⟨n, i, _, _, h1, h2⟩ | ⟨h1, h2⟩
  · have := slot_range h1 b.frm
    have := size_nonneg K
    exact ⟨by omega, by omega, by omega⟩
  · have := hF.range o h1
    exact ⟨by omega, by omega, by have := size_nonneg K; omega⟩

theorem slot_wide {i : Nat} (hi : K[i]? = some .int64) (hF : F.Fits K b) (hH : Holds F K b D t σ v) : Wide v (slotAddr K b.frm i) := by
  obtain ⟨r1, r2, r3, _⟩ := hH.regs
  have hf := hF.frame
  have hh := hF.heap
  have hc := hF.cells
  have ht := hH.top
  have hb : Kind.int64.bytes = 8 := rfl
  have := slot_range hi b.frm
  exact ⟨by omega, by omega, by omega⟩

theorem Holds.put (hF : F.Fits K b) (hW : WF t) (hP : Pre t K) (h : Holds F K b D t σ v) {o : Obj} {p : Int} (ho : ObjAt F K b t o p)
    (w : BitVec 64) : Holds F K b D t (σ.set64 o w) { v with mem := wr64 v.mem p w } := by
  have hb : Kind.int64.bytes = 8 := rfl
  have hb' : Kind.int.bytes = 4 := rfl
  have hsz := size_nonneg K
  have hf := hF.frame
  refine h.of (σ' := σ.set64 o w) ?_ h.top ?_ ?_ ?_ ?_ hF
  · have := h.same
    rw [this]
  · intro o' ho'
    dsimp only [Store.set64]
    by_cases he : o' = o
    · rw [if_pos he]
      rcases ho.cases hW hP with ⟨n, _, e, _⟩ | ⟨_, e⟩
      · exact absurd (e ▸ he ▸ ho' : F.outer (.loc n)) (hF.loc n)
      · rw [e, he, rd64_wr64_same]
    · rw [if_neg he]
      have hr' := hF.range o' ho'
      rcases ho.cases hW hP with ⟨n, i, _, _, hk, e⟩ | ⟨h1, e⟩
      · have hr := slot_range hk b.frm
        rw [rd64_far (by omega)]
        exact h.outer o' ho'
      · have := hF.apart o o' h1 ho' (fun hc => he hc.symm)
        rw [rd64_far (by omega)]
        exact h.outer o' ho'
  · intro n j _ hj e
    dsimp only [Store.set64]
    have hkj := hP.get (hW.k64 n j hj).1
    have hrj := slot_range hkj b.frm
    rcases ho.cases hW hP with ⟨n', i, e', hi, hk, ep⟩ | ⟨h1, ep⟩
    · by_cases he : n = n'
      · subst he
        rw [e', if_pos rfl, ep]
        have : i = j := by rw [hi] at hj; exact Option.some.inj hj
        rw [this, rd64_wr64_same]
      · rw [if_neg (by rw [e']; intro hc; exact he (Obj.loc.inj hc))]
        have := slot_apart hk hkj (fun hc => he (hW.inj64 n n' i (by rw [hc]; exact hj) hi)) b.frm
        rw [rd64_far (by omega)]
        exact e
    · have hr := hF.range o h1
      rw [if_neg (by intro (hc : Obj.loc n = o); exact hF.loc n (hc ▸ h1)), rd64_far (by omega)]
      exact e
  · intro n j _ hj e
    dsimp only [Store.set64]
    have hkj := hP.get (hW.k32 n j hj).1
    have hrj := slot_range hkj b.frm
    rcases ho.cases hW hP with ⟨n', i, e', hi, hk, ep⟩ | ⟨h1, ep⟩
    · have hne : i ≠ j := by
        intro hc
        subst hc
        rw [hk] at hkj
        cases hkj
      have := slot_apart hk hkj hne b.frm
      rw [rd32_far64 (by omega)]
      exact e
    · have hr := hF.range o h1
      rw [rd32_far64 (by omega)]
      exact e
  · intro k hk
    dsimp only
    rcases ho.cases hW hP with ⟨n', i, e', hi, hki, ep⟩ | ⟨h1, ep⟩
    · have hr := slot_range hki b.frm
      unfold cellAddr
      rw [rd32_far64 (by omega)]
    · have := hF.own o k h1 hk
      rw [rd32_far64 (by omega)]

theorem Holds.putInt (hF : F.Fits K b) (hW : WF t) (hP : Pre t K) (h : Holds F K b D t σ v) {n i : Nat} (hn : t.v32 n = some i)
    (w : Cell) : Holds F K b D t (σ.set32 n w) { v with mem := wr32 v.mem (slotAddr K b.frm i) w } := by
  have hb : Kind.int64.bytes = 8 := rfl
  have hb' : Kind.int.bytes = 4 := rfl
  have hsz := size_nonneg K
  have hf := hF.frame
  have hk := hP.get (hW.k32 n i hn).1
  have hr := slot_range hk b.frm
  refine h.of (σ' := σ.set32 n w) ?_ h.top ?_ ?_ ?_ ?_ hF
  · have := h.same
    rw [this]
  · intro o' ho'
    have hr' := hF.range o' ho'
    dsimp only [Store.set32]
    rw [rd64_far32 (by omega)]
    exact h.outer o' ho'
  · intro n' j _ hj e
    dsimp only [Store.set32]
    have hkj := hP.get (hW.k64 n' j hj).1
    have hne : i ≠ j := by
      intro hc
      subst hc
      rw [hk] at hkj
      cases hkj
    have := slot_apart hk hkj hne b.frm
    rw [rd64_far32 (by omega)]
    exact e
  · intro n' j _ hj e
    dsimp only [Store.set32]
    have hkj := hP.get (hW.k32 n' j hj).1
    by_cases he : n' = n
    · subst he
      have : i = j := by rw [hn] at hj; exact Option.some.inj hj
      rw [if_pos rfl, ← this, rd32_wr32_same]
    · rw [if_neg he]
      have := slot_apart hk hkj (fun hc => he (hW.inj32 n' n i (by rw [hc]; exact hj) hn)) b.frm
      rw [rd32_wr32_disj (by omega)]
      exact e
  · intro k hk
    dsimp only
    unfold cellAddr
    rw [rd32_wr32_disj (by omega)]

theorem Holds.pushed (hF : F.Fits K b) (hW : WF t) (hP : Pre t K) (h : Holds F K b D t σ v) (hroom : b.hp + 4 ≤ v.sp) (w : Cell) :
    Holds F K b D t σ { v with mem := wr32 v.mem (v.sp - 4) w, sp := v.sp - 4 } := by
  have hb : Kind.int64.bytes = 8 := rfl
  have hb' : Kind.int.bytes = 4 := rfl
  have hsz := size_nonneg K
  have ht := h.top
  refine h.of (σ' := σ) ?_ (by dsimp only; omega) ?_ ?_ ?_ ?_ hF
  · have := h.same
    rw [this]
  · intro o' ho'
    have hr' := hF.range o' ho'
    dsimp only
    rw [rd64_far32 (by omega)]
    exact h.outer o' ho'
  · intro n' j _ hj e
    dsimp only
    have hrj := slot_range (hP.get (hW.k64 n' j hj).1) b.frm
    rw [rd64_far32 (by omega)]
    exact e
  · intro n' j _ hj e
    dsimp only
    have hrj := slot_range (hP.get (hW.k32 n' j hj).1) b.frm
    rw [rd32_wr32_disj (by omega)]
    exact e
  · intro k hk
    dsimp only
    unfold cellAddr
    rw [rd32_wr32_disj (by omega)]

theorem Holds.popped (h : Holds F K b D t σ v) {sp : Int} (hs : sp ≤ b.frm - size K) : Holds F K b D t σ { v with sp := sp } := by
  refine ⟨?_, hs, h.outer, h.loc, h.int, h.par, h.ref⟩
  have := h.same
  rw [this]

theorem Holds.slots {t' : Slots} (h : Holds F K b D t σ v) (g : Grows t t') : Holds F K b D t' σ v :=
  ⟨h.same, h.top, h.outer, by rw [g.v64]; exact h.loc, by rw [g.v32]; exact h.int, h.par, h.ref⟩

theorem ObjAt.slots {t' : Slots} {o : Obj} {p : Int} (h : ObjAt F K b t o p) (g : Grows t t') : ObjAt F K b t' o p := by
  cases o with
  | loc n =>
    obtain ⟨i, h1, h2⟩ := h
    exact ⟨i, by rw [g.v64]; exact h1, h2⟩
  | par k => exact h
  | glob a => exact h
  | ext j => exact h

theorem Keep.temp (hW : WF t) (hP : Pre t K) {i : Nat} (hi : K[i]? = some .int64) (hn : i ∉ t.used.map (·.1)) (w : BitVec 64) :
    Keep K b t v { v with mem := wr64 v.mem (slotAddr K b.frm i) w } := by
  have hb : Kind.int64.bytes = 8 := rfl
  have hr := slot_range hi b.frm
  refine ⟨fun x h1 h2 => ?_, fun j k hj x h1 h2 => ?_⟩
  · exact wr64_far (by omega)
  · have hk : K[j]? = some k := hP.get (hW.kind (j, k) (List.mem_append_right _ hj))
    have := slot_apart hi hk (fun hc => hn (hc ▸ List.mem_map.mpr ⟨(j, k), hj, rfl⟩)) b.frm
    exact wr64_far (by omega)

theorem Keep.put (hF : F.Fits K b) (hW : WF t) (hP : Pre t K) {o : Obj} {p : Int} (ho : ObjAt F K b t o p) (hs : b.hp ≤ v.sp) (w : BitVec 64) :
    Keep K b t v { v with mem := wr64 v.mem p w } := by
  have hb : Kind.int64.bytes = 8 := rfl
  have hf := hF.frame
  have hsz := size_nonneg K
  rcases ho.cases hW hP with ⟨n, i, _, hn, hi, e⟩ | ⟨h1, e⟩
  · rw [e]
    exact Keep.temp hW hP hi (fun hc => (hW.k64 n i hn).2 (by rw [List.map_append]; exact List.mem_append_right _ hc)) w
  · have hr := hF.range o h1
    refine ⟨fun x h1 h2 => wr64_far (by omega), fun j k hj x h1 h2 => ?_⟩
    have hk : K[j]? = some k := hP.get (hW.kind (j, k) (List.mem_append_right _ hj))
    have := slot_range hk b.frm
    exact wr64_far (by omega)

theorem Keep.putInt (hW : WF t) (hP : Pre t K) {n i : Nat} (hn : t.v32 n = some i) (w : Cell) :
    Keep K b t v { v with mem := wr32 v.mem (slotAddr K b.frm i) w } := by
  have hb : Kind.int.bytes = 4 := rfl
  have hi := hP.get (hW.k32 n i hn).1
  have hr := slot_range hi b.frm
  refine ⟨fun x h1 h2 => wr32_far (by omega), fun j k hj x h1 h2 => ?_⟩
  have hk : K[j]? = some k := hP.get (hW.kind (j, k) (List.mem_append_right _ hj))
  have := slot_apart hi hk (fun hc => (hW.k32 n i hn).2 (by
    rw [List.map_append]; exact List.mem_append_right _ (hc ▸ List.mem_map.mpr ⟨(j, k), hj, rfl⟩))) b.frm
  exact wr32_far (by omega)

end

/-! ### Instructions -/

theorem run_append (E : Env) (m : Nat) (here : Int) : ∀ (c d : List Insn) (s : IState),
    run E m here (c ++ d) s = match run E m here c s with
      | .ok s' _ => run E m here d s'
      | .fail s' e => .fail s' e
      | .ub => .ub
  | [], d, s => rfl
  | i :: c, d, s => by
    simp only [List.cons_append, run]
    cases visit E m here i s with
    | ok s' _ => exact run_append E m here c d s'
    | fail s' e => rfl
    | ub => rfl

/-- The method has this table of slots. -/
structure Meth (E : Env) (m : Nat) (K : List Kind) : Prop where
  typed : E.legacyStack = false
  table : E.localOffsets m = offsets 0 K

section
variable {F : Frame} {K : List Kind} {b : State} {D : Scope} {t : Slots} {σ : Store} {E : Env} {m : Nat} {here : Int} {s : IState}

theorem offset_slot (hM : Meth E m K) {i : Nat} {k : Kind} (hi : K[i]? = some k) (s : IState) (frm : Int) :
    stackOffset E m (i : Int) s = .ok s (slotAddr K frm i - frm) := by
  unfold stackOffset slotAddr
  rw [hM.typed, if_neg (by simp), if_neg (by omega), hM.table]
  have := offsets_get K 0 i (List.getElem?_eq_some_iff.mp hi).1
  rw [show ((i : Int)).toNat = i by omega, this]
  show Res.ok s _ = _
  congr 1
  omega

theorem offset_cell (hM : Meth E m K) (hF : F.Fits K b) {k : Nat} (hk : k < F.params) (s : IState) :
    stackOffset E m (-((k : Int) + 1)) s = .ok s (cellAddr b.frm k - b.frm) := by
  have h1 := hF.cells
  have h2 := hF.small
  have h3 := hF.frame
  have h4 := hF.heap
  have h5 := size_nonneg K
  unfold stackOffset cellAddr
  rw [hM.typed, if_neg (by simp), if_pos (by omega)]
  show Res.ok s _ = _
  rw [wrap32_id (by omega) (by omega)]
  congr 1
  omega

theorem cell_toInt {p : Int} {v : State} (h : Wide v p) (hs : v.stp < 2147483648) : (BitVec.ofInt 32 p).toInt = p := by
  obtain ⟨h1, h2, h3⟩ := h
  exact ofInt_toInt (by omega) (by omega)

theorem visit_addr (hM : Meth E m K) (hF : F.Fits K b) (hH : Holds F K b D t σ s.vm) {i : Nat} (hi : K[i]? = some .int64) (r : Reg) :
    visit E m here (.addr r i) s = .ok (s.setReg r (BitVec.ofInt 32 (slotAddr K b.frm i))) .next := by
  have hw := slot_wide hi hF hH
  obtain ⟨r1, r2, r3, r4⟩ := hH.regs
  have := hF.small
  obtain ⟨w1, w2, w3⟩ := hw
  simp only [visit, bind, IM.bind, offset_slot hM hi s b.frm, getFrm, setR, pure, IM.pure, r1]
  rw [show b.frm + (slotAddr K b.frm i - b.frm) = slotAddr K b.frm i by omega, wrap32_id (by omega) (by omega)]

theorem get_cell (hF : F.Fits K b) {v : State} (hH : Holds F K b D t σ v) {k : Nat} (hk : k < F.params) :
    getFrameValue (cellAddr b.frm k - b.frm) v = .ok v (rd32 v.mem (cellAddr b.frm k)) := by
  have h1 := hF.cells
  have h2 := hF.small
  have h3 := hF.frame
  have h4 := hF.heap
  have h5 := size_nonneg K
  have h6 := hF.mem
  have h7 := hH.top
  obtain ⟨r1, r2, r3, r4⟩ := hH.regs
  have hc : cellAddr b.frm k = b.frm + 12 + 4 * (k : Int) := rfl
  simp only [getFrameValue, getCellValue, bind, VMM.bind, throwIfBadAddress, r1]
  rw [show b.frm + (cellAddr b.frm k - b.frm) = cellAddr b.frm k by omega, wrap32_id (by omega) (by omega), if_neg (by omega)]
  simp only [loadRaw]
  rw [if_pos ⟨by omega, by omega⟩]

theorem visit_loadCell (hM : Meth E m K) (hF : F.Fits K b) (hH : Holds F K b D t σ s.vm) {k : Nat} (hk : k < F.params) (r : Reg) :
    visit E m here (.loadS r (-((k : Int) + 1))) s = .ok (s.setReg r (rd32 s.vm.mem (cellAddr b.frm k))) .next := by
  simp only [visit, bind, IM.bind, offset_cell hM hF hk, vmOp, get_cell hF hH hk, setR, pure, IM.pure]

/-- The address of a variable. -/
theorem run_address (hM : Meth E m K) (hF : F.Fits K b) (hW : WF t) (hP : Pre t K) (hH : Holds F K b D t σ s.vm) {x : Var} (hx : F.has D x) :
    ∃ p, ObjAt F K b t (x.obj F.tgt) p ∧ rd64 s.vm.mem p = σ.w (x.obj F.tgt) ∧
      run E m here (addressPri t x) s = .ok { s with pri := BitVec.ofInt 32 p } () := by
  cases x with
  | loc n =>
    obtain ⟨i, h1, h2⟩ := hH.loc n hx
    refine ⟨_, ⟨i, h1, rfl⟩, h2, ?_⟩
    simp only [addressPri, run, Slots.slot64, h1, Option.getD_some, visit_addr hM hF hH (hP.get (hW.k64 n i h1).1), IState.setReg]
  | par k =>
    refine ⟨F.addr (.par k), ⟨hx, rfl⟩, hH.outer _ hx, ?_⟩
    simp only [addressPri, run, visit_loadCell hM hF hH (hF.par k hx), IState.setReg, hH.par k hx]
  | ref k =>
    have hk := hF.ref k hx
    refine ⟨F.addr (F.tgt k), ?_, hH.outer _ hk.2, ?_⟩
    · show ObjAt F K b t (F.tgt k) _
      unfold ObjAt
      split
      · rename_i n hn
        exact absurd (hn ▸ hk.2) (hF.loc n)
      · exact ⟨hk.2, rfl⟩
    · simp only [addressPri, run, visit_loadCell hM hF hH hk.1, IState.setReg, hH.ref k hx]
  | glob a =>
    refine ⟨F.addr (.glob a), ⟨hx, rfl⟩, hH.outer _ hx, ?_⟩
    rw [hF.glob a hx]
    simp only [addressPri, run, visit, bind, IM.bind, setR, pure, IM.pure, IState.setReg]
    simp

theorem load_ok {p : Int} (hs : s.vm.stp < 2147483648) (hm : s.vm.stp ≤ s.vm.memSize) (hp : Wide s.vm p) :
    acquireInt64Addr p s.vm = .ok s.vm p ∧ loadRaw64 p s.vm = .ok s.vm (rd64 s.vm.mem p) := by
  refine ⟨acquire8_ok hs hp, ?_⟩
  obtain ⟨p1, p2, p3⟩ := hp
  unfold loadRaw64
  rw [if_pos ⟨by omega, by omega⟩]

theorem save_ok {p : Int} (hm : s.vm.stp ≤ s.vm.memSize) (hp : Wide s.vm p) (w : BitVec 64) :
    storeRaw64 p w s.vm = .ok { s.vm with mem := wr64 s.vm.mem p w } () := by
  obtain ⟨p1, p2, p3⟩ := hp
  unfold storeRaw64
  rw [if_pos ⟨by omega, by omega⟩]

theorem visit_move {p q : Int} (hs : s.vm.stp < 2147483648) (hm : s.vm.stp ≤ s.vm.memSize) (h1 : s.pri = BitVec.ofInt 32 p) (h2 : s.alt = BitVec.ofInt 32 q)
    (hp : Wide s.vm p) (hq : Wide s.vm q) :
    visit E m here .moveI64 s = .ok { s with vm := { s.vm with mem := wr64 s.vm.mem q (rd64 s.vm.mem p) } } .next := by
  have e1 : s.pri.toInt = p := by rw [h1]; exact cell_toInt hp hs
  have e2 : s.alt.toInt = q := by rw [h2]; exact cell_toInt hq hs
  have a1 : acquireAddrRange p 8 s.vm = .ok s.vm p := acquire8_ok hs hp
  have a2 : acquireAddrRange q 8 s.vm = .ok s.vm q := acquire8_ok hs hq
  simp only [visit, bind, IM.bind, getR, IState.reg, e1, e2, vmOp, a1, a2, (load_ok hs hm hp).2, save_ok hm hq, pure, IM.pure]

theorem visit_const64 (hM : Meth E m K) (hF : F.Fits K b) (hH : Holds F K b D t σ s.vm) {i : Nat} (hi : K[i]? = some .int64) (w : BitVec 64) :
    visit E m here (.storSCI64 i (w.extractLsb' 0 32) (w.extractLsb' 32 32)) s =
      .ok { s with vm := { s.vm with mem := wr64 s.vm.mem (slotAddr K b.frm i) w } } .next := by
  have hw := slot_wide hi hF hH
  obtain ⟨r1, r2, r3, r4⟩ := hH.regs
  have hs := hF.small
  have hm := hF.mem
  have e : s.vm.frm + (slotAddr K b.frm i - b.frm) = slotAddr K b.frm i := by omega
  have a1 := slot8_ok (s := s.vm) (o := slotAddr K b.frm i - b.frm) (by omega) (by rw [e]; exact hw)
  rw [e] at a1
  obtain ⟨w1, w2, w3⟩ := hw
  simp only [visit, bind, IM.bind, offset_slot hM hi s b.frm, vmOp, a1, storeRaw64, halves, pure, IM.pure]
  rw [if_pos ⟨by omega, by omega⟩]

/-- The result of an instruction goes into a slot. -/
theorem finish_ok (hF : F.Fits K b) (hH : Holds F K b D t σ s.vm) {i : Nat} (hi : K[i]? = some .int64) (w : BitVec 64) :
    finish64 (slotAddr K b.frm i - b.frm) w s =
      .ok { s with vm := { s.vm with mem := wr64 s.vm.mem (slotAddr K b.frm i) w }, pri := BitVec.ofInt 32 (slotAddr K b.frm i) } () := by
  have hw := slot_wide hi hF hH
  obtain ⟨r1, r2, r3, r4⟩ := hH.regs
  have hs := hF.small
  have hm := hF.mem
  have e : s.vm.frm + (slotAddr K b.frm i - b.frm) = slotAddr K b.frm i := by omega
  have a1 := slot8_ok (s := s.vm) (o := slotAddr K b.frm i - b.frm) (by omega) (by rw [e]; exact hw)
  rw [e] at a1
  obtain ⟨w1, w2, w3⟩ := hw
  simp only [finish64, bind, IM.bind, vmOp, a1, storeRaw64, getFrm, setR, IState.setReg]
  rw [if_pos ⟨by omega, by omega⟩]
  dsimp only
  rw [e, wrap32_id (by omega) (by omega)]

theorem visit_inv (hM : Meth E m K) (hF : F.Fits K b) (hH : Holds F K b D t σ s.vm) {i : Nat} (hi : K[i]? = some .int64) {p : Int}
    (hp : Wide s.vm p) (h1 : s.pri = BitVec.ofInt 32 p) :
    visit E m here (.invertI64 i) s = .ok { s with vm := { s.vm with mem := wr64 s.vm.mem (slotAddr K b.frm i) (~~~ rd64 s.vm.mem p) }, pri := BitVec.ofInt 32 (slotAddr K b.frm i) } .next := by
  obtain ⟨r1, r2, r3, r4⟩ := hH.regs
  have hs := hF.small
  have hm := hF.mem
  have e1 : s.pri.toInt = p := by rw [h1]; exact cell_toInt hp (by omega)
  have hl := load_ok (by omega) (by omega) hp
  simp only [visit, bind, IM.bind, getR, IState.reg, e1, vmOp, hl.1, hl.2, offset_slot hM hi _ b.frm, finish_ok hF hH hi, pure, IM.pure]

theorem visit_neg (hM : Meth E m K) (hF : F.Fits K b) (hH : Holds F K b D t σ s.vm) {i : Nat} (hi : K[i]? = some .int64) {p : Int}
    (hp : Wide s.vm p) (h1 : s.pri = BitVec.ofInt 32 p) :
    visit E m here (.negI64 i) s = .ok { s with vm := { s.vm with mem := wr64 s.vm.mem (slotAddr K b.frm i) (-rd64 s.vm.mem p) }, pri := BitVec.ofInt 32 (slotAddr K b.frm i) } .next := by
  obtain ⟨r1, r2, r3, r4⟩ := hH.regs
  have hs := hF.small
  have hm := hF.mem
  have e1 : s.pri.toInt = p := by rw [h1]; exact cell_toInt hp (by omega)
  have hl := load_ok (by omega) (by omega) hp
  simp only [visit, bind, IM.bind, getR, IState.reg, e1, vmOp, hl.1, hl.2, offset_slot hM hi _ b.frm, finish_ok hF hH hi, pure, IM.pure]

theorem visit_cvt (hM : Meth E m K) (hF : F.Fits K b) (hH : Holds F K b D t σ s.vm) {i : Nat} (hi : K[i]? = some .int64) :
    visit E m here (.cvtI64 i) s = .ok { s with vm := { s.vm with mem := wr64 s.vm.mem (slotAddr K b.frm i) (s.pri.signExtend 64) }, pri := BitVec.ofInt 32 (slotAddr K b.frm i) } .next := by
  simp only [visit, bind, IM.bind, getR, IState.reg, offset_slot hM hi _ b.frm, finish_ok hF hH hi, pure, IM.pure]

theorem visit_trunc (hF : F.Fits K b) (hH : Holds F K b D t σ s.vm) {p : Int} (hp : Wide s.vm p) (h1 : s.pri = BitVec.ofInt 32 p) :
    visit E m here .truncI64 s = .ok { s with pri := (rd64 s.vm.mem p).extractLsb' 0 32 } .next := by
  obtain ⟨r1, r2, r3, r4⟩ := hH.regs
  have hs := hF.small
  have hm := hF.mem
  have e1 : s.pri.toInt = p := by rw [h1]; exact cell_toInt hp (by omega)
  have hl := load_ok (by omega) (by omega) hp
  simp only [visit, bind, IM.bind, getR, IState.reg, e1, vmOp, hl.1, hl.2, setR, IState.setReg, pure, IM.pure]

theorem visit_test (hF : F.Fits K b) (hH : Holds F K b D t σ s.vm) {p : Int} (hp : Wide s.vm p) (h1 : s.pri = BitVec.ofInt 32 p) :
    visit E m here .testI64 s = .ok { s with pri := boolCell (rd64 s.vm.mem p != 0) } .next := by
  obtain ⟨r1, r2, r3, r4⟩ := hH.regs
  have hs := hF.small
  have hm := hF.mem
  have e1 : s.pri.toInt = p := by rw [h1]; exact cell_toInt hp (by omega)
  have hl := load_ok (by omega) (by omega) hp
  simp only [visit, bind, IM.bind, getR, IState.reg, e1, vmOp, hl.1, hl.2, setR, IState.setReg, pure, IM.pure]

theorem visit_cmp (hF : F.Fits K b) (hH : Holds F K b D t σ s.vm) {p q : Int} (hp : Wide s.vm p) (h1 : s.pri = BitVec.ofInt 32 p)
    (hq : Wide s.vm q) (h2 : s.alt = BitVec.ofInt 32 q) (c : Cmp) :
    visit E m here (.cmp64 c) s = .ok { s with pri := boolCell (cmp64 c (rd64 s.vm.mem p) (rd64 s.vm.mem q)) } .next := by
  obtain ⟨r1, r2, r3, r4⟩ := hH.regs
  have hs := hF.small
  have hm := hF.mem
  have e1 : s.pri.toInt = p := by rw [h1]; exact cell_toInt hp (by omega)
  have e2 : s.alt.toInt = q := by rw [h2]; exact cell_toInt hq (by omega)
  have hl := load_ok (by omega) (by omega) hp
  have hl' := load_ok (by omega) (by omega) hq
  simp only [visit, bind, IM.bind, getR, IState.reg, e1, e2, vmOp, hl.1, hl.2, hl'.1, hl'.2,
    setR, IState.setReg, pure, IM.pure]

theorem visit_bin (hM : Meth E m K) (hF : F.Fits K b) (hH : Holds F K b D t σ s.vm) {i : Nat} (hi : K[i]? = some .int64) {p q : Int}
    (hp : Wide s.vm p) (h1 : s.pri = BitVec.ofInt 32 p) (hq : Wide s.vm q) (h2 : s.alt = BitVec.ofInt 32 q) (op : Op64) :
    visit E m here (.bin64 op i) s = match op64 op (rd64 s.vm.mem p) (rd64 s.vm.mem q) with
      | none => .ub
      | some (.error e) => .fail s e
      | some (.ok w) => .ok { s with vm := { s.vm with mem := wr64 s.vm.mem (slotAddr K b.frm i) w }, pri := BitVec.ofInt 32 (slotAddr K b.frm i) } .next := by
  obtain ⟨r1, r2, r3, r4⟩ := hH.regs
  have hs := hF.small
  have hm := hF.mem
  have e : s.vm.frm + (slotAddr K b.frm i - b.frm) = slotAddr K b.frm i := by omega
  have e1 : s.pri.toInt = p := by rw [h1]; exact cell_toInt hp (by omega)
  have e2 : s.alt.toInt = q := by rw [h2]; exact cell_toInt hq (by omega)
  have := visit_bin64 (E := E) (m := m) (here := here) (s := s) (op := op) (slot := i) (off := slotAddr K b.frm i - b.frm) (by omega) (by omega)
    (by rw [e1]; exact hp) (by rw [e2]; exact hq) (by rw [e]; exact slot_wide hi hF hH) (offset_slot hM hi _ b.frm)
  rw [this, e1, e2, e]
  cases op64 op (rd64 s.vm.mem p) (rd64 s.vm.mem q) with
  | none => rfl
  | some x => cases x <;> rfl

theorem visit_push (hF : F.Fits K b) (hH : Holds F K b D t σ s.vm) (hr : b.hp + 4 < s.vm.sp) (r : Reg) :
    visit E m here (.push r) s = .ok { s with vm := { s.vm with mem := wr32 s.vm.mem (s.vm.sp - 4) (s.reg r), sp := s.vm.sp - 4 } } .next := by
  obtain ⟨r1, r2, r3, r4⟩ := hH.regs
  have hs := hF.small
  have hm := hF.mem
  have hc := hF.cells
  have hh := hF.heap
  have ht := hH.top
  have := size_nonneg K
  simp only [visit, bind, IM.bind, getR, vmOp, pushStack, r2]
  rw [wrap32_id (by omega) (by omega), if_neg (by omega), wrap32_id (by omega) (by omega)]
  simp only [storeRaw]
  rw [if_pos ⟨by show 0 ≤ _; omega, by show _ ≤ s.vm.memSize; omega⟩]
  rfl

theorem visit_pop (hF : F.Fits K b) (hH : Holds F K b D t σ s.vm) (h0 : b.hp ≤ s.vm.sp) (hr : s.vm.sp + 4 ≤ b.frm - size K) (r : Reg) :
    visit E m here (.pop r) s = .ok ({ s with vm := { s.vm with sp := s.vm.sp + 4 } }.setReg r (rd32 s.vm.mem s.vm.sp)) .next := by
  obtain ⟨r1, r2, r3, r4⟩ := hH.regs
  have hs := hF.small
  have hm := hF.mem
  have hc := hF.cells
  have hh := hF.heap
  have ht := hH.top
  have := size_nonneg K
  simp only [visit, bind, IM.bind, vmOp, popStack]
  rw [if_neg (by omega)]
  simp only [loadRaw]
  rw [if_pos ⟨by omega, by omega⟩]
  dsimp only
  rw [wrap32_id (by omega) (by omega)]
  rfl

/-- A value is stored into a variable; afterwards PRI is what it was. -/
theorem run_store (hM : Meth E m K) (hF : F.Fits K b) (hW : WF t) (hP : Pre t K) (hH : Holds F K b D t σ s.vm) {x : Var} (hx : F.has D x)
    (hn : ∀ k, x ≠ .par k) {p : Int} (hp : Wide s.vm p) (h1 : s.pri = BitVec.ofInt 32 p) :
    ∃ q a, ObjAt F K b t (x.obj F.tgt) q ∧
      run E m here (store t x) s = .ok { s with vm := { s.vm with mem := wr64 s.vm.mem q (rd64 s.vm.mem p) }, alt := a } () := by
  obtain ⟨r1, r2, r3, r4⟩ := hH.regs
  have hs := hF.small
  have hm := hF.mem
  have key : ∀ q, Wide s.vm q → visit E m here .moveI64 { s with alt := BitVec.ofInt 32 q } =
      .ok { s with vm := { s.vm with mem := wr64 s.vm.mem q (rd64 s.vm.mem p) }, alt := BitVec.ofInt 32 q } .next := fun q hq =>
    visit_move (s := { s with alt := BitVec.ofInt 32 q }) (by dsimp only; omega) (by dsimp only; omega) h1 rfl hp hq
  cases x with
  | loc n =>
    obtain ⟨i, e1, e2⟩ := hH.loc n hx
    have hi := hP.get (hW.k64 n i e1).1
    refine ⟨slotAddr K b.frm i, BitVec.ofInt 32 (slotAddr K b.frm i), ⟨i, e1, rfl⟩, ?_⟩
    simp only [store, run, Slots.slot64, e1, Option.getD_some, visit_addr hM hF hH hi, IState.setReg]
    rw [key _ (slot_wide hi hF hH)]
  | par k => exact absurd rfl (hn k)
  | ref k =>
    have hk := hF.ref k hx
    have ho : ObjAt F K b t (F.tgt k) (F.addr (F.tgt k)) := by
      unfold ObjAt
      split
      · rename_i n hn
        exact absurd (hn ▸ hk.2) (hF.loc n)
      · exact ⟨hk.2, rfl⟩
    refine ⟨F.addr (F.tgt k), BitVec.ofInt 32 (F.addr (F.tgt k)), ho, ?_⟩
    simp only [store, run, visit_loadCell hM hF hH hk.1, IState.setReg, hH.ref k hx]
    rw [key _ (ho.wide hF hW hP hH)]
  | glob a =>
    have ho : ObjAt F K b t (.glob a) (F.addr (.glob a)) := ⟨hx, rfl⟩
    refine ⟨F.addr (.glob a), BitVec.ofInt 32 (F.addr (.glob a)), ho, ?_⟩
    have hc : visit E m here (.const .alt a) s = .ok { s with alt := BitVec.ofInt 32 (F.addr (.glob a)) } .next := by
      rw [hF.glob a hx]
      simp only [visit, bind, IM.bind, setR, pure, IM.pure, IState.setReg]
      simp
    simp only [store, run, hc]
    rw [key _ (ho.wide hF hW hP hH)]

theorem visit_xchg : visit E m here .xchg s = .ok { s with pri := s.alt, alt := s.pri } .next := by
  simp only [visit, bind, IM.bind, getR, IState.reg, setR, IState.setReg, pure, IM.pure]

/-- A cell in the frame is written. -/
theorem set_cell (hF : F.Fits K b) {v : State} (hH : Holds F K b D t σ v) {a : Int} (h1 : b.frm - size K ≤ a) (h2 : a + 4 ≤ b.frm) (w : Cell) :
    setFrameValue (a - b.frm) w v = .ok { v with mem := wr32 v.mem a w } () := by
  obtain ⟨r1, r2, r3, r4⟩ := hH.regs
  have hs := hF.small
  have hm := hF.mem
  have hc := hF.cells
  have hh := hF.heap
  have hf := hF.frame
  have ht := hH.top
  simp only [setFrameValue, setCellValue, bind, VMM.bind, throwIfBadAddress, r1]
  rw [show b.frm + (a - b.frm) = a by omega, wrap32_id (by omega) (by omega), if_neg (by omega)]
  simp only [storeRaw]
  rw [if_pos ⟨by omega, by omega⟩, r1]

/-- A cell in the frame is read. -/
theorem get_slot (hF : F.Fits K b) {v : State} (hH : Holds F K b D t σ v) {a : Int} (h1 : b.frm - size K ≤ a) (h2 : a + 4 ≤ b.frm) :
    getFrameValue (a - b.frm) v = .ok v (rd32 v.mem a) := by
  obtain ⟨r1, r2, r3, r4⟩ := hH.regs
  have hs := hF.small
  have hm := hF.mem
  have hc := hF.cells
  have hh := hF.heap
  have hf := hF.frame
  have ht := hH.top
  simp only [getFrameValue, getCellValue, bind, VMM.bind, throwIfBadAddress, r1]
  rw [show b.frm + (a - b.frm) = a by omega, wrap32_id (by omega) (by omega), if_neg (by omega)]
  simp only [loadRaw]
  rw [if_pos ⟨by omega, by omega⟩]

theorem visit_loadInt (hM : Meth E m K) (hF : F.Fits K b) (hH : Holds F K b D t σ s.vm) {i : Nat} (hi : K[i]? = some .int) (r : Reg) :
    visit E m here (.loadS r i) s = .ok (s.setReg r (rd32 s.vm.mem (slotAddr K b.frm i))) .next := by
  have hr := slot_range hi b.frm
  have hb : Kind.int.bytes = 4 := rfl
  simp only [visit, bind, IM.bind, offset_slot hM hi s b.frm, vmOp, get_slot hF hH hr.1 (by omega), setR, pure, IM.pure]

theorem visit_storInt (hM : Meth E m K) (hF : F.Fits K b) (hH : Holds F K b D t σ s.vm) {i : Nat} (hi : K[i]? = some .int) :
    visit E m here (.storS i .pri) s = .ok { s with vm := { s.vm with mem := wr32 s.vm.mem (slotAddr K b.frm i) s.pri } } .next := by
  have hr := slot_range hi b.frm
  have hb : Kind.int.bytes = 4 := rfl
  simp only [visit, bind, IM.bind, offset_slot hM hi s b.frm, getR, IState.reg, vmOp, set_cell hF hH hr.1 (show _ + 4 ≤ _ by omega), pure, IM.pure]

theorem visit_storSC (hM : Meth E m K) (hF : F.Fits K b) (hH : Holds F K b D t σ s.vm) {i : Nat} (hi : K[i]? = some .int) (w : Cell) :
    visit E m here (.storSC i w) s = .ok { s with vm := { s.vm with mem := wr32 s.vm.mem (slotAddr K b.frm i) w } } .next := by
  have hr := slot_range hi b.frm
  have hb : Kind.int.bytes = 4 := rfl
  simp only [visit, bind, IM.bind, offset_slot hM hi s b.frm, vmOp, set_cell hF hH hr.1 (show _ + 4 ≤ _ by omega), pure, IM.pure]

theorem visit_zeroS (hM : Meth E m K) (hF : F.Fits K b) (hH : Holds F K b D t σ s.vm) {i : Nat} (hi : K[i]? = some .int) :
    visit E m here (.zeroS i) s = .ok { s with vm := { s.vm with mem := wr32 s.vm.mem (slotAddr K b.frm i) 0 } } .next := by
  have hr := slot_range hi b.frm
  have hb : Kind.int.bytes = 4 := rfl
  simp only [visit, bind, IM.bind, offset_slot hM hi s b.frm, vmOp, set_cell hF hH hr.1 (show _ + 4 ≤ _ by omega), pure, IM.pure]

theorem visit_zeroLong (hM : Meth E m K) (hF : F.Fits K b) (hH : Holds F K b D t σ s.vm) {i : Nat} (hi : K[i]? = some .int64) :
    visit E m here (.zeroSI64 i) s = .ok { s with vm := { s.vm with mem := wr64 s.vm.mem (slotAddr K b.frm i) 0 } } .next := by
  have hr := slot_range hi b.frm
  have hb : Kind.int64.bytes = 8 := rfl
  obtain ⟨r1, r2, r3, r4⟩ := hH.regs
  have hs := hF.small
  have hc := hF.cells
  have hh := hF.heap
  have hf := hF.frame
  have h1 := set_cell hF hH hr.1 (show _ + 4 ≤ _ by omega) 0
  have hoff : wrap32 (slotAddr K b.frm i - b.frm + 4) = slotAddr K b.frm i + 4 - b.frm := by
    rw [wrap32_id (by omega) (by omega)]; omega
  have hm := hF.mem
  have ht := hH.top
  have h2 : setFrameValue (slotAddr K b.frm i + 4 - b.frm) 0 { s.vm with mem := wr32 s.vm.mem (slotAddr K b.frm i) 0 } =
      .ok { s.vm with mem := wr32 (wr32 s.vm.mem (slotAddr K b.frm i) 0) (slotAddr K b.frm i + 4) 0 } () := by
    simp only [setFrameValue, setCellValue, bind, VMM.bind, throwIfBadAddress, r1]
    rw [show b.frm + (slotAddr K b.frm i + 4 - b.frm) = slotAddr K b.frm i + 4 by omega, wrap32_id (by omega) (by omega), if_neg (by omega)]
    simp only [storeRaw]
    rw [if_pos ⟨by omega, by show _ ≤ s.vm.memSize; omega⟩]
  simp only [visit, bind, IM.bind, offset_slot hM hi s b.frm, vmOp, h1, hoff, h2, pure, IM.pure]
  rfl

theorem visit_storLong (hM : Meth E m K) (hF : F.Fits K b) (hH : Holds F K b D t σ s.vm) {i : Nat} (hi : K[i]? = some .int64) {p : Int}
    (hp : Wide s.vm p) (h1 : s.pri = BitVec.ofInt 32 p) :
    visit E m here (.storSPriI64 i) s = .ok { s with vm := { s.vm with mem := wr64 s.vm.mem (slotAddr K b.frm i) (rd64 s.vm.mem p) } } .next := by
  obtain ⟨r1, r2, r3, r4⟩ := hH.regs
  have hs := hF.small
  have hm := hF.mem
  have e1 : s.pri.toInt = p := by rw [h1]; exact cell_toInt hp (by omega)
  have hl := load_ok (s := s) (by omega) (by omega) hp
  have hw := slot_wide hi hF hH
  have e : s.vm.frm + (slotAddr K b.frm i - b.frm) = slotAddr K b.frm i := by omega
  have a1 := slot8_ok (s := s.vm) (o := slotAddr K b.frm i - b.frm) (by omega) (by rw [e]; exact hw)
  rw [e] at a1
  simp only [visit, bind, IM.bind, getR, IState.reg, e1, vmOp, hl.1, hl.2, offset_slot hM hi _ b.frm, a1, save_ok (by omega) hw, pure, IM.pure]

end

end Verif.Long

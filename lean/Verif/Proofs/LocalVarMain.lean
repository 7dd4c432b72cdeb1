import Verif.Proofs.LocalVar

/-! Lemmas for C82: declarations one after the other. -/
namespace Verif.LocalVar
open Verif.VM hiding run
open Verif.ArrayInit (Em Base Init buildArray buildStruct Path part row structRow follow adjust)
open Verif.Long (Kind size slotAddr Meth run run_append offset_slot slot_range slot_apart size_nonneg)

/-- The cells besides the slot. -/
def Ty.img (A : Cell) : Ty → List Cell
  | .array b dims init => image (buildArray b dims init 0) A
  | .struct fields init => image (buildStruct fields init) A
  | _ => []

def Ty.Stored (m : Int → BitVec 8) (p A : Int) : Ty → Prop
  | .cell init => rd32 m p = init.getD 0
  | .int64 => rd32 m p = 0 ∧ rd32 m (p + 4) = 0
  | t => rd32 m p = BitVec.ofInt 32 A ∧ Cells m A (t.img (BitVec.ofInt 32 A))

theorem image_array (b : Base) (dims : List Nat) (init : Option Init) (A : Cell) :
    image (buildArray b dims init 0) A = (buildArray b dims init A).cells := by
  unfold image buildArray Em.cells
  dsimp only
  rw [List.map_map]
  congr 2
  apply List.map_congr_left
  intro v _
  show adjust _ v + 0 + A = _
  congr 1
  exact BitVec.add_zero _

theorem image_struct (fields : List Verif.ArrayInit.FieldTy) (init : Option Init) (A : Cell) (h : (buildStruct fields init).iv = []) :
    image (buildStruct fields init) A = (buildStruct fields init).cells := by
  unfold image Em.cells
  rw [h]
  rfl

theorem struct_none_cells (fields : List Verif.ArrayInit.FieldTy) : (buildStruct fields none).cells = List.replicate (Verif.ArrayInit.esSize fields) 0 := by
  unfold buildStruct Verif.ArrayInit.pad Em.cells Verif.ArrayInit.Em.size Verif.ArrayInit.padRank
  simp only [List.length_nil, Nat.add_zero, Nat.one_mul]
  split
  · simp
  · have : Verif.ArrayInit.esSize fields = 0 := by omega
    simp [this]

theorem struct_iv (fields : List Verif.ArrayInit.FieldTy) (items : List Init)
    (hv : Verif.ArrayInit.validStruct fields (.arr items false) = true) (ho : Verif.ArrayInit.okFields fields items = true) :
    (buildStruct fields (some (.arr items false))).iv = [] := by
  simp only [Verif.ArrayInit.validStruct, Bool.and_eq_true] at hv
  obtain ⟨h1, h2, h3⟩ := Verif.ArrayInit.addStruct_ok hv.1 ho ⟨[], [], 0⟩
  have hp := Verif.ArrayInit.pad_zeroes (n := Verif.ArrayInit.padRank (.es fields) 1)
    (emitted := (Verif.ArrayInit.addStruct fields items ⟨[], [], 0⟩).size) none none (Verif.ArrayInit.addStruct fields items ⟨[], [], 0⟩)
  show (Verif.ArrayInit.pad _ _ false none none _).iv = []
  rw [hp.2, h2]

theorem struct_none_iv (fields : List Verif.ArrayInit.FieldTy) : (buildStruct fields none).iv = [] := by
  unfold buildStruct Verif.ArrayInit.pad
  dsimp only
  split <;> rfl

theorem accepted_path {b : Base} : ∀ (dims : List Nat) (init : Option Init) (idx : List Nat), Verif.ArrayInit.Accepted b dims init → Path dims idx →
    Verif.ArrayInit.Accepted b [dims.getLastD 0] (idx.foldl part init) := by
  intro dims
  induction dims with
  | nil => intro init idx _ hp; cases idx <;> exact hp.elim
  | cons n ds ih =>
    intro init idx hv hp
    match ds, idx, hp, ih with
    | [], [], _, _ => exact hv
    | d :: ds, i :: idx, hp, ih =>
      have := ih (part init i) idx (Verif.ArrayInit.accepted_part hv i) hp.2
      have e : (n :: d :: ds).getLastD 0 = (d :: ds).getLastD 0 := by simp [List.getLastD]
      rw [e]
      exact this

/-- The number of cells is right. -/
theorem img_length {t : Ty} (hg : t.Good) (A : Cell) : (t.img A).length = t.cells := by
  cases t with
  | cell i => rfl
  | int64 => rfl
  | array b dims init =>
    show (image _ A).length = _
    rw [image_array]
    exact (Verif.ArrayInit.C41_size_partial hg.1 hg.2.1 hg.2.2.1 A).1
  | struct fields init =>
    show (image _ A).length = _
    cases init with
    | none => rw [image_struct _ _ _ (struct_none_iv _), struct_none_cells]; simp [Ty.cells]
    | some i =>
      cases i with
      | arr items e =>
        obtain ⟨rfl, h1, h2, _⟩ := hg
        rw [image_struct _ _ _ (struct_iv _ _ h1 h2), (Verif.ArrayInit.C41_struct_partial h1 h2).1]
        exact (Verif.ArrayInit.C41_struct_partial h1 h2).2
      | _ => exact absurd hg.1 (fun h => nomatch h)

theorem Ty.Stored.has {m : Int → BitVec 8} {p A : Int} {t : Ty} (hg : t.Good) (h : t.Stored m p A) (h0 : 0 ≤ A) (h1 : A + 4 * (t.cells : Int) < 2147483648) :
    t.Has m p := by
  cases t with
  | cell i => exact h
  | int64 => exact h
  | array b dims init =>
    obtain ⟨e1, e2⟩ := h
    have hl := img_length hg (BitVec.ofInt 32 A)
    change Cells m A (image _ _) at e2
    change (image _ _).length = _ at hl
    rw [image_array] at e2 hl
    intro idx hp
    rw [e1]
    have hs : (Ty.array b dims init).cells < 268435456 := hg.2.2.2.2
    obtain ⟨pos, f1, f2, _⟩ := Verif.ArrayInit.C41_row_partial hg.1 hg.2.1 (BitVec.ofInt 32 A) (by omega) hp
    rw [walk_follow e2 h0 (by omega) _ _ _ f1]
    intro j c hj
    have hjl := (List.getElem?_eq_some_iff.mp hj).1
    rw [← f2] at hj hjl
    rw [List.length_take, List.length_drop] at hjl
    rw [List.getElem?_take_of_lt (by omega), List.getElem?_drop] at hj
    rw [← e2 _ c hj]
    have : (BitVec.ofInt 32 A + BitVec.ofNat 32 (4 * pos)).toInt = A + 4 * (pos : Int) := by
      rw [← BitVec.ofInt_natCast, ← BitVec.ofInt_add, ofInt_toInt (by omega) (by omega)]
      omega
    rw [this]
    congr 1
    omega
  | struct fields init =>
    obtain ⟨e1, e2⟩ := h
    have hA : (rd32 m p).toInt = A := by rw [e1, ofInt_toInt (by omega) (by omega)]
    change Cells m A (image _ _) at e2
    cases init with
    | none =>
      show Cells m (rd32 m p).toInt _
      rw [hA]
      rw [image_struct _ _ _ (struct_none_iv _), struct_none_cells] at e2
      exact e2
    | some i =>
      cases i with
      | arr items e =>
        obtain ⟨rfl, h1, h2, _⟩ := hg
        rw [image_struct _ _ _ (struct_iv _ _ h1 h2), (Verif.ArrayInit.C41_struct_partial h1 h2).1] at e2
        show Cells m (rd32 m p).toInt _
        rw [hA]
        exact e2
      | _ => exact absurd hg.1 (fun h => nomatch h)

theorem Ty.Stored.congr {m m' : Int → BitVec 8} {p A : Int} {t : Ty} (hg : t.Good) (h : t.Stored m p A)
    (h1 : ∀ x, p ≤ x → x < p + t.kind.bytes → m' x = m x) (h2 : ∀ x, A ≤ x → x < A + 4 * (t.cells : Int) → m' x = m x) : t.Stored m' p A := by
  have b4 : Kind.int.bytes = 4 := rfl
  have b8 : Kind.int64.bytes = 8 := rfl
  cases t with
  | cell i => exact (rd32_congr fun x a b => h1 x a b).trans h
  | int64 =>
    simp only [Ty.kind] at h1
    exact ⟨(rd32_congr fun x a b => h1 x (by omega) (by omega)).trans h.1, (rd32_congr fun x a b => h1 x (by omega) (by omega)).trans h.2⟩
  | array b dims init =>
    refine ⟨(rd32_congr fun x a b => h1 x a b).trans h.1, h.2.congr fun x a b => h2 x a ?_⟩
    rw [img_length hg] at b
    exact b
  | struct fields init =>
    refine ⟨(rd32_congr fun x a b => h1 x a b).trans h.1, h.2.congr fun x a b => h2 x a ?_⟩
    rw [img_length hg] at b
    exact b

section
variable {K : List Kind} {E : Env} {m : Nat} {here : Int} {s : IState}

theorem decl_ok (hM : Meth E m K) (hI : InFrame K s.vm) {i : Nat} {d : Decl} (hi : K[i]? = some d.ty.kind) (hz : d.zero = true) (hg : d.ty.Good)
    {data rest : List Cell} (hL : Loaded ((genDecl data i d).2 ++ rest) s.vm) :
    (run E m here (genDecl data i d).1 s = .fail s .heapLow ∧ s.vm.sp < s.vm.hp + 4 * (d.ty.cells : Int) + 64) ∨
    ∃ s', run E m here (genDecl data i d).1 s = .ok s' () ∧ Done K s.vm s'.vm (slotAddr K s.vm.frm i) d.ty.kind.bytes d.ty.cells ∧
      d.ty.Stored s'.vm.mem (slotAddr K s.vm.frm i) s.vm.hp := by
  obtain ⟨t, z⟩ := d
  have hz : z = true := hz
  subst hz
  have hslot := hI.slot hi
  have b4 : Kind.int.bytes = 4 := rfl
  have b8 : Kind.int64.bytes = 8 := rfl
  cases t with
  | cell init =>
    right
    have hi : K[i]? = some .int := hi
    have hslot : _ ∧ slotAddr K s.vm.frm i + Kind.int.bytes ≤ _ := hslot
    refine ⟨{ s with vm := { s.vm with mem := wr32 s.vm.mem (slotAddr K s.vm.frm i) (init.getD 0) } }, ?_,
      ⟨rfl, by show s.vm.hp = _ + 4 * ((0 : Nat) : Int); omega, fun h => absurd h (by show ¬ 0 < 0; omega), ?_⟩, rd32_wr32_same ..⟩
    · cases init with
      | none =>
        simp only [genDecl, run, visit, bind, IM.bind, offset_slot hM hi s s.vm.frm, vmOp, set_cell hI.layout rfl hslot.1 (show _ + 4 ≤ _ by omega), pure, IM.pure]
        rfl
      | some v =>
        simp only [genDecl, run, visit, bind, IM.bind, offset_slot hM hi s s.vm.frm, vmOp, set_cell hI.layout rfl hslot.1 (show _ + 4 ≤ _ by omega), pure, IM.pure]
        rfl
    · intro x _ h2
      have h2 : x < slotAddr K s.vm.frm i ∨ slotAddr K s.vm.frm i + Kind.int.bytes ≤ x := h2
      exact wr32_far (by omega)
  | int64 =>
    right
    have hi : K[i]? = some .int64 := hi
    have hslot : _ ∧ slotAddr K s.vm.frm i + Kind.int64.bytes ≤ _ := hslot
    have hf := hI.frame
    have hs := hI.small
    obtain ⟨l1, l2, l3, l4, l5, l6⟩ := hI.layout
    have hsz := size_nonneg K
    generalize hp : slotAddr K s.vm.frm i = p at *
    refine ⟨{ s with vm := { s.vm with mem := wr32 (wr32 s.vm.mem p 0) (p + 4) 0 } }, ?_,
      ⟨rfl, by show s.vm.hp = _ + 4 * ((0 : Nat) : Int); omega, fun h => absurd h (by show ¬ 0 < 0; omega), ?_⟩, ?_, rd32_wr32_same ..⟩
    · have e1 := set_cell (v := s.vm) hI.layout rfl hslot.1 (show p + 4 ≤ _ by omega) 0
      have e2 := set_cell (v := { s.vm with mem := wr32 s.vm.mem p 0 }) ⟨l1, l2, l3, l4, l5, l6⟩ rfl (show s.vm.sp ≤ p + 4 by omega)
        (show p + 4 + 4 ≤ s.vm.stp by omega) 0
      have e2 : setFrameValue (p + 4 - s.vm.frm) 0 { s.vm with mem := wr32 s.vm.mem p 0 } =
          .ok { s.vm with mem := wr32 (wr32 s.vm.mem p 0) (p + 4) 0 } () := e2
      simp only [genDecl, run, visit, bind, IM.bind, offset_slot hM hi s s.vm.frm, vmOp, hp]
      rw [wrap32_id (by omega) (by omega), show p - s.vm.frm + 4 = p + 4 - s.vm.frm by omega, e1]
      simp only [e2]
      rfl
    · intro x _ h2
      have h2 : x < p ∨ p + Kind.int64.bytes ≤ x := h2
      show wr32 (wr32 s.vm.mem p 0) (p + 4) 0 x = _
      rw [wr32_far (by omega), wr32_far (by omega)]
    · show rd32 (wr32 (wr32 s.vm.mem p 0) (p + 4) 0) p = 0
      rw [rd32_wr32_disj (by omega), rd32_wr32_same]
  | array b dims init =>
    have hi : K[i]? = some .int := hi
    have hl := img_length hg 0
    change (image _ 0).length = (Ty.array b dims init).cells at hl
    rw [image_length] at hl
    have h1 : 0 < (Ty.array b dims init).cells := hg.2.2.2.1
    have h2 : (Ty.array b dims init).cells < 268435456 := hg.2.2.2.2
    rcases arrayCode_ok (here := here) hM hI hi (e := buildArray b dims init 0) hL (by omega) (by omega) with h | ⟨s', r, hd, e1, e2⟩
    · refine .inl ⟨h.1, ?_⟩
      have := h.2
      rw [hl] at this
      exact this
    · exact .inr ⟨s', r, by rw [hl] at hd; exact hd, e1, e2⟩
  | struct fields init =>
    have hi : K[i]? = some .int := hi
    have hl := img_length hg 0
    change (image _ 0).length = (Ty.struct fields init).cells at hl
    rw [image_length] at hl
    have h12 : 0 < (Ty.struct fields init).cells ∧ (Ty.struct fields init).cells < 268435456 := by
      cases init with
      | none => exact hg.2
      | some i =>
        cases i with
        | arr items e => exact hg.2.2.2
        | _ => exact absurd hg.1 (fun h => nomatch h)
    rcases arrayCode_ok (here := here) hM hI hi (e := buildStruct fields init) hL (by omega) (by omega) with h | ⟨s', r, hd, e1, e2⟩
    · refine .inl ⟨h.1, ?_⟩
      have := h.2
      rw [hl] at this
      exact this
    · exact .inr ⟨s', r, by rw [hl] at hd; exact hd, e1, e2⟩

theorem genDecl_data (data : List Cell) (i : Nat) (d : Decl) : ∃ L, (genDecl data i d).2 = data ++ L := by
  unfold genDecl
  split
  · exact ⟨[], by simp⟩
  · exact ⟨[], by simp⟩
  · exact ⟨[], by simp⟩
  · exact ⟨_, rfl⟩
  · exact ⟨_, rfl⟩

theorem genDecls_data : ∀ (ds : List Decl) (data : List Cell) (i : Nat), ∃ L, (genDecls data i ds).2 = data ++ L
  | [], data, _ => ⟨[], by simp [genDecls]⟩
  | d :: ds, data, i => by
    obtain ⟨L, hL⟩ := genDecl_data data i d
    obtain ⟨M, hM⟩ := genDecls_data ds (genDecl data i d).2 (i + 1)
    exact ⟨L ++ M, by simp only [genDecls]; rw [hM, hL, List.append_assoc]⟩

theorem Loaded.of_prefix {a b : List Cell} {s : State} (h : Loaded (a ++ b) s) : Loaded a s := by
  obtain ⟨h1, h2⟩ := h
  rw [List.length_append] at h2
  exact ⟨(Cells.append.mp h1).1, by omega⟩

/-- What is known after the code of declarations. -/
structure After (K : List Kind) (s s' : State) (slot : Nat) (ds : List Decl) : Prop where
  same : SameRegs s s'
  hp : s'.hp = base s.hp ds ds.length
  inFrame : InFrame K s'
  stored : ∀ (j : Nat) d, ds[j]? = some d → d.ty.Stored s'.mem (slotAddr K s.frm (slot + j)) (base s.hp ds j)
  frame : ∀ x, (x < s.hp ∨ s'.hp ≤ x) → (∀ (j : Nat) d, ds[j]? = some d → x < slotAddr K s.frm (slot + j) ∨ slotAddr K s.frm (slot + j) + d.ty.kind.bytes ≤ x) →
    s'.mem x = s.mem x

theorem base_zero (hp : Int) (ds : List Decl) : base hp ds 0 = hp := by simp [base]
theorem base_succ (hp : Int) (d : Decl) (ds : List Decl) (j : Nat) : base hp (d :: ds) (j + 1) = base (hp + 4 * (d.ty.cells : Int)) ds j := by
  simp only [base, List.take_succ_cons, List.map_cons, List.sum_cons]
  omega
theorem base_le (hp : Int) (ds : List Decl) (j : Nat) : hp ≤ base hp ds j := by unfold base; omega

theorem base_next {hp : Int} : ∀ {ds : List Decl} {j : Nat} {d : Decl}, ds[j]? = some d → base hp ds (j + 1) = base hp ds j + 4 * (d.ty.cells : Int)
  | [], _, _, h => by simp at h
  | d' :: ds, 0, d, h => by
    cases h
    rw [base_succ, base_zero, base_zero]
  | d' :: ds, j + 1, d, h => by
    rw [base_succ, base_succ]
    exact base_next (by simpa using h)

theorem base_mono (hp : Int) : ∀ (ds : List Decl) {i j : Nat}, i ≤ j → base hp ds i ≤ base hp ds j
  | ds, 0, j, _ => by rw [base_zero]; exact base_le _ _ _
  | [], i + 1, j, _ => by simp [base]
  | d :: ds, i + 1, 0, h => absurd h (by omega)
  | d :: ds, i + 1, j + 1, h => by
    rw [base_succ, base_succ]
    exact base_mono _ ds (by omega)

theorem decls_ok (hM : Meth E m K) : ∀ (ds : List Decl) (data rest : List Cell) (slot : Nat) (s : IState), InFrame K s.vm →
    (∀ (j : Nat) d, ds[j]? = some d → K[slot + j]? = some d.ty.kind ∧ d.zero = true ∧ d.ty.Good) →
    Loaded ((genDecls data slot ds).2 ++ rest) s.vm →
    (∃ s', run E m here (genDecls data slot ds).1 s = .fail s' .heapLow ∧ s.vm.sp < base s.vm.hp ds ds.length + 64) ∨
    ∃ s', run E m here (genDecls data slot ds).1 s = .ok s' () ∧ After K s.vm s'.vm slot ds
  | [], data, rest, slot, s, hI, _, _ =>
    .inr ⟨s, rfl, rfl, by simp [base], hI, fun j d h => (by simp at h), fun _ _ _ => rfl⟩
  | d :: ds, data, rest, slot, s, hI, hd, hL => by
    obtain ⟨M, hMe⟩ := genDecls_data ds (genDecl data slot d).2 (slot + 1)
    have hd0 := hd 0 d rfl
    have hL1 : Loaded ((genDecl data slot d).2 ++ (M ++ rest)) s.vm := by
      rw [← List.append_assoc, ← hMe]; exact hL
    have hk0 : K[slot]? = some d.ty.kind := hd0.1
    rcases decl_ok (here := here) hM hI hk0 hd0.2.1 hd0.2.2 hL1 with h | ⟨s1, r1, D1, S1⟩
    · refine .inl ⟨s, ?_, ?_⟩
      · simp only [genDecls]
        rw [run_append, h.1]
      · have := base_le (s.vm.hp + 4 * (d.ty.cells : Int)) ds ds.length
        rw [List.length_cons, base_succ]
        omega
    · have hI1 := D1.inFrame hI
      have hsl := hI.slot hk0
      have hfr := D1.frame
      obtain ⟨l1, l2, l3, l4, l5, l6⟩ := hI.layout
      have hL2 : Loaded ((genDecls (genDecl data slot d).2 (slot + 1) ds).2 ++ rest) s1.vm := by
        have hLf := hL.fits
        simp only [genDecls] at hLf
        refine ⟨hL.cells.congr fun x h1 h2 => hfr x (.inl ?_) (.inl ?_), ?_⟩
        · simp only [genDecls] at h2; omega
        · simp only [genDecls] at h2; omega
        · have : s1.vm.dataSize = s.vm.dataSize := by rw [D1.same]
          omega
      have e3 : s1.vm.sp = s.vm.sp := by rw [D1.same]
      have e5 : s1.vm.frm = s.vm.frm := by rw [D1.same]
      rcases decls_ok hM ds (genDecl data slot d).2 rest (slot + 1) s1 hI1 (fun j d' h => by
          have := hd (j + 1) d' h
          rw [show slot + (j + 1) = slot + 1 + j by omega] at this
          exact this) hL2 with ⟨s', h, hb⟩ | ⟨s2, r2, A2⟩
      · refine .inl ⟨s', ?_, ?_⟩
        · simp only [genDecls]
          rw [run_append, r1]
          exact h
        · rw [List.length_cons, base_succ, ← D1.hp]
          omega
      · refine .inr ⟨s2, ?_, ?_, ?_, A2.inFrame, ?_, ?_⟩
        · simp only [genDecls]
          rw [run_append, r1]
          exact r2
        · have := A2.same
          unfold SameRegs at *
          rw [this, D1.same]
        · rw [A2.hp, List.length_cons, base_succ, D1.hp]
        · intro j d' hj
          cases j with
          | zero =>
            cases hj
            rw [base_zero]
            refine S1.congr hd0.2.2 (fun x h1 h2 => A2.frame x ?_ ?_) (fun x h1 h2 => A2.frame x (.inl ?_) ?_)
            · right
              have := A2.inFrame.layout.hp_le_sp
              have : s2.vm.sp = s1.vm.sp := by rw [A2.same]
              have h1 : slotAddr K s.vm.frm slot ≤ x := h1
              omega
            · intro j d' hj
              have hk := (hd (j + 1) d' hj).1
              rw [show slot + (j + 1) = slot + 1 + j by omega] at hk
              have h1 : slotAddr K s.vm.frm slot ≤ x := h1
              have h2 : x < slotAddr K s.vm.frm slot + d.ty.kind.bytes := h2
              have := slot_apart hk0 hk (by omega) s.vm.frm
              rw [e5]
              omega
            · have := D1.hp
              omega
            · intro j d' hj
              left
              have hk := (hd (j + 1) d' hj).1
              rw [show slot + (j + 1) = slot + 1 + j by omega] at hk
              have := (hI1.slot hk).1
              have h3 := D1.hp
              have := hI1.layout.hp_le_sp
              omega
          | succ j =>
            have := A2.stored j d' hj
            rw [base_succ, ← D1.hp, show slot + (j + 1) = slot + 1 + j by omega, ← e5]
            exact this
        · intro x h1 h2
          have hle := base_le s1.vm.hp ds ds.length
          have hA := A2.hp
          have hD := D1.hp
          rw [A2.frame x (by omega) (fun j d' hj => by
            have := h2 (j + 1) d' hj
            rw [show slot + (j + 1) = slot + 1 + j by omega, ← e5] at this
            exact this)]
          exact hfr x (by omega) (h2 0 d rfl)

end
end Verif.LocalVar

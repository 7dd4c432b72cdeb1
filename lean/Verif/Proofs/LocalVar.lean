import Verif.Spec.LocalVar
import Verif.Proofs.LongMain
import Verif.Props.C12
import Verif.Props.C41

/-! Lemmas for C82. -/
namespace Verif.LocalVar
open Verif.VM hiding run
open Verif.ArrayInit (Em Base Init buildArray buildStruct Path part row structRow follow)
open Verif.Long (Kind size slotAddr Meth run offset_slot slot_range slot_apart size_nonneg)

theorem operand_eq {n : Nat} (h : n < 2147483648) : operand n = (n : Int) := by
  unfold operand
  rw [BitVec.toInt_eq_toNat_of_lt (by rw [BitVec.toNat_ofNat]; omega), BitVec.toNat_ofNat]
  omega

theorem Cells.append {m : Int → BitVec 8} {a : Int} {l r : List Cell} : Cells m a (l ++ r) ↔ Cells m a l ∧ Cells m (a + 4 * (l.length : Int)) r := by
  constructor
  · intro h
    constructor
    · intro j c hj
      exact h j c (by rw [List.getElem?_append_left (List.getElem?_eq_some_iff.mp hj).1]; exact hj)
    · intro j c hj
      have := h (l.length + j) c (by rw [List.getElem?_append_right (by omega), show l.length + j - l.length = j by omega]; exact hj)
      rw [← this]
      congr 1
      omega
  · rintro ⟨h1, h2⟩ j c hj
    by_cases hl : j < l.length
    · exact h1 j c (by rw [List.getElem?_append_left hl] at hj; exact hj)
    · rw [List.getElem?_append_right (by omega)] at hj
      rw [← h2 _ c hj]
      congr 1
      omega

theorem Cells.congr {m m' : Int → BitVec 8} {a : Int} {l : List Cell} (h : Cells m a l)
    (hm : ∀ x, a ≤ x → x < a + 4 * (l.length : Int) → m' x = m x) : Cells m' a l := by
  intro j c hj
  have := (List.getElem?_eq_some_iff.mp hj).1
  rw [← h j c hj]
  exact rd32_congr fun x h1 h2 => hm x (by omega) (by omega)

theorem cells_replicate {m : Int → BitVec 8} {a : Int} {n : Nat} {v : Cell} (h : ∀ i : Nat, i < n → rd32 m (a + 4 * (i : Int)) = v) :
    Cells m a (List.replicate n v) := by
  intro j c hj
  have hl := (List.getElem?_eq_some_iff.mp hj).1
  rw [List.length_replicate] at hl
  rw [List.getElem?_replicate, if_pos hl] at hj
  cases hj
  exact h j hl

/-- The instruction succeeds. -/
theorem initArray_ok {s : State} (L : Layout s) {arr dat : Int} (iv copy fill : Nat) (v : Cell) (h1 : 0 ≤ arr) (h2 : arr < s.hp)
    (h3 : arr + 4 * ((iv + copy + fill : Nat) : Int) ≤ s.memSize) (h4 : 0 < iv + copy → 0 ≤ dat ∧ dat + 4 * ((iv + copy : Nat) : Int) ≤ s.dataSize)
    (h5 : arr % 4 = 0) (h6 : 0 < iv + copy → dat % 4 = 0) (h7 : s.memSize % 4 = 0 ∧ s.dataSize % 4 = 0) (h8 : s.dataSize ≤ arr) :
    ∃ m', initArray arr dat iv copy fill v s = .ok { s with mem := m' } () ∧ Initialised s.mem m' arr dat iv copy fill v := by
  by_cases hz : iv + copy = 0
  · have C := C12_init_array L h7 h5 (dat := 0) (by decide) iv copy fill v (.inl hz)
    have e : initArray arr dat iv copy fill v s = initArray arr 0 iv copy fill v s := by
      unfold initArray
      have : (iv : Int) = 0 ∧ (copy : Int) = 0 := by omega
      simp only [this.1, this.2, and_self, if_true]
    have hi : iv = 0 := by omega
    have hc : copy = 0 := by omega
    rcases C with ⟨x, hx⟩ | ⟨m', hm, _, _, _, hI⟩
    · exfalso
      subst hi hc
      unfold initArray localToPhysAddr at hx
      have l1 := L.hp_le_sp
      have l2 := L.sp_le_stp
      have l3 := L.stp_eq
      rw [if_neg (by omega)] at hx
      dsimp only at hx
      rw [if_neg (by omega), if_neg (by omega), if_pos ⟨rfl, rfl⟩] at hx
      dsimp only at hx
      split at hx
      · cases hx
      · split at hx <;> cases hx
    · subst hi hc
      refine ⟨m', by rw [e, hm], ⟨fun i h => absurd h (by omega), fun i h => absurd h (by omega), hI.filled, hI.frame⟩⟩
  · have h4 := h4 (by omega)
    have h6 := h6 (by omega)
    have C := C12_init_array L h7 h5 h6 iv copy fill v (.inr (.inr (by omega)))
    rcases C with ⟨x, hx⟩ | ⟨m', hm, _, _, _, hI⟩
    · exfalso
      unfold initArray localToPhysAddr at hx
      have l1 := L.hp_le_sp
      have l2 := L.sp_le_stp
      have l3 := L.stp_eq
      rw [if_neg (by omega)] at hx
      dsimp only at hx
      rw [if_neg (by omega), if_neg (by omega), if_neg (by omega), if_neg (by omega)] at hx
      dsimp only at hx
      rw [if_neg (by omega)] at hx
      split at hx
      · rename_i hq
        split at hq
        · cases hq
        · cases hq
          split at hx
          · cases hx
          · split at hx <;> cases hx
      · rename_i hq
        split at hq <;> cases hq
      · cases hx
    · exact ⟨m', hm, hI⟩

theorem heap_low {s : State} (L : Layout s) (hs : s.memSize ≤ 536870912) {n : Nat} (hn : n < 268435456) (h : s.hp + 4 * (n : Int) + 64 > s.sp) :
    heapAlloc (4 * (n : Int)) s = .fail s .heapLow := by
  obtain ⟨l1, l2, l3, l4, l5, l6⟩ := L
  unfold heapAlloc stackMargin
  dsimp only
  rw [if_neg (by omega)]
  rw [if_pos]
  unfold wrap32
  omega

theorem heap_ok {s : State} (L : Layout s) {n : Nat} (hn : n < 268435456) (h : ¬ s.hp + 4 * (n : Int) + 64 > s.sp) :
    heapAlloc (4 * (n : Int)) s = .ok { s with hp := s.hp + 4 * (n : Int) } s.hp := by
  obtain ⟨l1, l2, l3, l4, l5, l6⟩ := L
  unfold heapAlloc stackMargin
  dsimp only
  rw [if_neg (by omega), wrap32_id (x := s.hp + 4 * (n : Int)) (by omega) (by omega), wrap32_id (by omega) (by omega), if_neg (by omega)]

section
variable {K : List Kind} {E : Env} {m : Nat} {here : Int} {s : IState}

theorem InFrame.slot (hI : InFrame K s.vm) {i : Nat} {k : Kind} (hi : K[i]? = some k) :
    s.vm.sp ≤ slotAddr K s.vm.frm i ∧ slotAddr K s.vm.frm i + k.bytes ≤ s.vm.stp := by
  have := slot_range hi s.vm.frm
  have := hI.frame
  omega

/-- A cell in the frame is written. -/
theorem set_cell {v : State} (L : Layout v) {a f : Int} (hf : v.frm = f) (h1 : v.sp ≤ a) (h2 : a + 4 ≤ v.stp) (w : Cell) :
    setFrameValue (a - f) w v = .ok { v with mem := wr32 v.mem a w } () := by
  obtain ⟨l1, l2, l3, l4, l5, l6⟩ := L
  simp only [setFrameValue, setCellValue, bind, VMM.bind, throwIfBadAddress, hf]
  rw [show f + (a - f) = a by omega, wrap32_id (by omega) (by omega), if_neg (by omega)]
  simp only [storeRaw]
  rw [if_pos ⟨by omega, by omega⟩, ← hf]

/-- What is known after the code of one declaration. -/
structure Done (K : List Kind) (s s' : State) (slot : Int) (bytes : Int) (n : Nat) : Prop where
  same : SameRegs s s'
  hp : s'.hp = s.hp + 4 * (n : Int)
  room : 0 < n → s.hp + 4 * (n : Int) + 64 ≤ s.sp
  frame : ∀ x, (x < s.hp ∨ s.hp + 4 * (n : Int) ≤ x) → (x < slot ∨ slot + bytes ≤ x) → s'.mem x = s.mem x

theorem Done.inFrame {s s' : State} {slot bytes : Int} {n : Nat} (h : Done K s s' slot bytes n) (hI : InFrame K s) : InFrame K s' := by
  obtain ⟨⟨l1, l2, l3, l4, l5, l6⟩, ⟨a1, a2, a3⟩, ⟨f1, f2⟩, hsm⟩ := hI
  obtain ⟨hs, hp, hr, _⟩ := h
  have e1 : s'.memSize = s.memSize := by rw [hs]
  have e2 : s'.dataSize = s.dataSize := by rw [hs]
  have e3 : s'.sp = s.sp := by rw [hs]
  have e4 : s'.stp = s.stp := by rw [hs]
  have e5 : s'.frm = s.frm := by rw [hs]
  have hle : s.hp + 4 * (n : Int) ≤ s.sp := by
    by_cases hn : 0 < n
    · have := hr hn; omega
    · omega
  exact ⟨⟨by omega, by omega, by omega, by omega, by omega, by omega⟩, ⟨by omega, by omega, by omega⟩, ⟨by omega, by omega⟩, by omega⟩

/-- The cells that an array gets, at the address `base`. -/
def image (e : Em) (base : Cell) : List Cell := e.iv.map (· + base) ++ e.data ++ List.replicate e.zeroes 0

theorem image_length (e : Em) (base : Cell) : (image e base).length = e.iv.length + e.data.length + e.zeroes := by
  simp [image]
  omega

theorem arrayCode_ok (hM : Meth E m K) (hI : InFrame K s.vm) {i : Nat} (hi : K[i]? = some .int) {e : Em} {data rest : List Cell}
    (hL : Loaded (data ++ template e ++ rest) s.vm) (hn : 0 < e.iv.length + e.data.length + e.zeroes)
    (hb : e.iv.length + e.data.length + e.zeroes < 268435456) :
    (run E m here (arrayCode data.length i true e) s = .fail s .heapLow ∧
      s.vm.sp < s.vm.hp + 4 * ((e.iv.length + e.data.length + e.zeroes : Nat) : Int) + 64) ∨
    ∃ s', run E m here (arrayCode data.length i true e) s = .ok s' () ∧
      Done K s.vm s'.vm (slotAddr K s.vm.frm i) 4 (e.iv.length + e.data.length + e.zeroes) ∧
      rd32 s'.vm.mem (slotAddr K s.vm.frm i) = BitVec.ofInt 32 s.vm.hp ∧
      Cells s'.vm.mem s.vm.hp (image e (BitVec.ofInt 32 s.vm.hp)) := by
  have hslot := hI.slot hi
  have hb4 : Kind.int.bytes = 4 := rfl
  obtain ⟨L, ⟨a1, a2, a3⟩, ⟨f1, f2⟩, hsm⟩ := hI
  obtain ⟨l1, l2, l3, l4, l5, l6⟩ := L
  obtain ⟨hc, hfit⟩ := hL
  -- the parts
  generalize hz : (if e.zeroes < 16 then 0 else e.zeroes) = fill
  generalize hcp : e.data.length + e.zeroes - fill = copy
  obtain ⟨T, hT, hTl, hTi⟩ : ∃ T, template e = e.iv ++ T ∧ T.length = copy ∧ e.data ++ List.replicate e.zeroes 0 = T ++ List.replicate fill 0 := by
    by_cases h16 : e.zeroes < 16
    · rw [if_pos h16] at hz
      refine ⟨e.data ++ List.replicate e.zeroes 0, ?_, ?_, ?_⟩
      · unfold template; rw [if_pos h16, List.append_assoc]
      · simp; omega
      · rw [← hz]; simp
    · rw [if_neg h16] at hz
      refine ⟨e.data, ?_, ?_, ?_⟩
      · unfold template; rw [if_neg h16, List.append_nil]
      · omega
      · rw [hz]
  have hfill : fill ≤ e.zeroes := by rw [← hz]; split <;> omega
  have htot : e.iv.length + copy + fill = e.iv.length + e.data.length + e.zeroes := by omega
  have hcode : arrayCode data.length i true e = [.heap (4 * ((e.iv.length + copy + fill : Nat) : Int)),
      .initarray .alt (operand (4 * data.length)) (e.iv.length : Int) (copy : Int) (fill : Int) 0, .storS i .alt] := by
    unfold arrayCode
    rw [hz]
    dsimp only
    rw [hcp]
    simp only [if_true]
    rw [operand_eq (n := e.iv.length) (by omega), operand_eq (n := copy) (by omega), operand_eq (n := fill) (by omega), operand_eq (by omega)]
    congr 2
    omega
  rw [List.length_append, List.length_append, hT, List.length_append] at hfit
  rw [hT, List.append_assoc, Cells.append, Cells.append, Cells.append] at hc
  obtain ⟨_, ⟨c1, c2⟩, _⟩ := hc
  -- the heap
  by_cases hroom : s.vm.hp + 4 * ((e.iv.length + copy + fill : Nat) : Int) + 64 > s.vm.sp
  · left
    refine ⟨?_, by omega⟩
    rw [hcode]
    simp only [run, visit, bind, IM.bind, vmOp, heap_low (s := s.vm) ⟨l1, l2, l3, l4, l5, l6⟩ hsm (by omega) hroom]
  · right
    generalize hN : e.iv.length + copy + fill = N at *
    have hA : visit E m here (.heap (4 * (N : Int))) s = .ok { s with vm := { s.vm with hp := s.vm.hp + 4 * (N : Int) }, alt := BitVec.ofInt 32 s.vm.hp } .next := by
      simp only [visit, bind, IM.bind, vmOp, heap_ok (s := s.vm) ⟨l1, l2, l3, l4, l5, l6⟩ (by omega) hroom]
      rfl
    have hLay : Layout { s.vm with hp := s.vm.hp + 4 * (N : Int) } :=
      ⟨l1, show s.vm.dataSize ≤ s.vm.hp + 4 * (N : Int) by omega, show s.vm.hp + 4 * (N : Int) ≤ s.vm.sp by omega, l4, l5, l6⟩
    have hop : 0 < e.iv.length + copy → operand (4 * data.length) = 4 * (data.length : Int) := by
      intro _
      rw [operand_eq (by omega)]
      omega
    obtain ⟨m', hm, hI⟩ := initArray_ok hLay (arr := s.vm.hp) (dat := operand (4 * data.length)) e.iv.length copy fill 0 (by omega)
      (show s.vm.hp < s.vm.hp + 4 * (N : Int) by omega) (show s.vm.hp + _ ≤ s.vm.memSize by omega)
      (fun h => by rw [hop h]; exact ⟨by omega, show _ ≤ s.vm.dataSize by omega⟩) a3 (fun h => by rw [hop h]; omega) ⟨a1, a2⟩ l2
    have hB : visit E m here (.initarray .alt (operand (4 * data.length)) (e.iv.length : Int) (copy : Int) (fill : Int) 0)
        { s with vm := { s.vm with hp := s.vm.hp + 4 * (N : Int) }, alt := BitVec.ofInt 32 s.vm.hp } =
        .ok { s with vm := { s.vm with hp := s.vm.hp + 4 * (N : Int), mem := m' }, alt := BitVec.ofInt 32 s.vm.hp } .next := by
      simp only [visit, bind, IM.bind, vmOp, getR, IState.reg]
      rw [ofInt_toInt (by omega) (by omega), hm]
      rfl
    have hC : visit E m here (.storS i .alt) { s with vm := { s.vm with hp := s.vm.hp + 4 * (N : Int), mem := m' }, alt := BitVec.ofInt 32 s.vm.hp } =
        .ok { s with vm := { s.vm with hp := s.vm.hp + 4 * (N : Int), mem := wr32 m' (slotAddr K s.vm.frm i) (BitVec.ofInt 32 s.vm.hp) }, alt := BitVec.ofInt 32 s.vm.hp } .next := by
      simp only [visit, bind, IM.bind, vmOp, getR, offset_slot hM hi _ s.vm.frm]
      rw [set_cell (v := { s.vm with hp := s.vm.hp + 4 * (N : Int), mem := m' })
        ⟨l1, show s.vm.dataSize ≤ s.vm.hp + 4 * (N : Int) by omega, show s.vm.hp + 4 * (N : Int) ≤ s.vm.sp by omega, l4, l5, l6⟩ rfl hslot.1
        (show slotAddr K s.vm.frm i + 4 ≤ s.vm.stp by omega)]
      rfl
    have hfr := hI.frame
    rw [hN] at hfr
    refine ⟨{ s with vm := { s.vm with hp := s.vm.hp + 4 * (N : Int), mem := wr32 m' (slotAddr K s.vm.frm i) (BitVec.ofInt 32 s.vm.hp) },
                     alt := BitVec.ofInt 32 s.vm.hp }, ?_, ⟨rfl, ?_, ?_, ?_⟩, ?_, ?_⟩
    · rw [hcode]
      simp only [run, hA, hB, hC]
    · show s.vm.hp + 4 * (N : Int) = _
      rw [htot]
    · intro _; omega
    · intro x h1 h2
      show wr32 m' _ _ x = _
      rw [wr32_far (by omega)]
      exact hfr x (by omega)
    · exact rd32_wr32_same ..
    · show Cells (wr32 m' _ _) _ _
      refine Cells.congr (m := m') ?_ fun x h1 h2 => wr32_far (by rw [image_length] at h2; omega)
      unfold image
      rw [List.append_assoc, hTi, Cells.append, Cells.append, List.length_map, hTl]
      refine ⟨?_, ?_, ?_⟩
      · intro j c hj
        have hl : j < e.iv.length := by have := (List.getElem?_eq_some_iff.mp hj).1; simpa using this
        rw [hI.pointers j hl, hop (by omega)]
        rw [List.getElem?_map, List.getElem?_eq_getElem hl] at hj
        cases hj
        rw [← c1 j _ (List.getElem?_eq_getElem hl)]
        congr 2
        omega
      · intro j c hj
        have hl : j < copy := by have := (List.getElem?_eq_some_iff.mp hj).1; omega
        have := hI.copied j hl
        rw [hop (by omega)] at this
        rw [show s.vm.hp + 4 * (e.iv.length : Int) + 4 * (j : Int) = s.vm.hp + 4 * ((e.iv.length + j : Nat) : Int) by omega, this, ← c2 j c hj]
        congr 1
        omega
      · refine cells_replicate fun j hl => ?_
        rw [← hI.filled j hl]
        congr 1
        omega

end

/-! ### Walking -/

theorem walk_follow {mem : Int → BitVec 8} {A : Int} {img : List Cell} (hc : Cells mem A img) (h0 : 0 ≤ A) (hA : A + 4 * (img.length : Int) < 2147483648) :
    ∀ (idx : List Nat) (a r : Cell), follow img (BitVec.ofInt 32 A) a idx = some r → walk mem a idx = r
  | [], a, r, h => by cases h; rfl
  | i :: idx, a, r, h => by
    unfold follow at h
    dsimp only at h
    generalize ho : (a - BitVec.ofInt 32 A).toNat = off at *
    by_cases h4 : (off + 4 * i) % 4 = 0
    · rw [if_pos h4] at h
      cases hg : img[(off + 4 * i) / 4]? with
      | none => rw [hg] at h; cases h
      | some a' =>
        rw [hg] at h
        dsimp only at h
        have hl := (List.getElem?_eq_some_iff.mp hg).1
        unfold walk
        have ha : a = BitVec.ofInt 32 (A + (off : Int)) := by
          have e : a = (a - BitVec.ofInt 32 A) + BitVec.ofInt 32 A := by
            rw [BitVec.sub_add_cancel]
          rw [e, BitVec.ofInt_add, BitVec.add_comm]
          congr 1
          rw [← ho, BitVec.ofInt_natCast, BitVec.ofNat_toNat, BitVec.setWidth_eq]
        have hb : a.toInt = A + (off : Int) := by
          rw [ha, ofInt_toInt (by omega) (by omega)]
        have : rd32 mem (a.toInt + 4 * (i : Int)) = a' := by
          rw [← hc _ a' hg, hb]
          congr 1
          omega
        rw [this]
        exact walk_follow hc h0 hA idx a' r h
    · rw [if_neg h4] at h
      cases h

end Verif.LocalVar

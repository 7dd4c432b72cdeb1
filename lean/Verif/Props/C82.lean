import Verif.Proofs.LocalVarMain
import Verif.Props.C81

/-!
# C82: local variables start with the values that they are declared with

`genDecls data slot ds` is the code of the declarations `ds` and the data of the program after them; the slots of the variables are `slot`, `slot + 1`, ….
The state before the code is any state in a call of the function: the heap and the stack may hold anything, so the theorems are also about the second time
that control comes to the declarations.
-/
namespace Verif.LocalVar
open Verif.VM hiding run
open Verif.ArrayInit (Base Init Path part element valueOf storage)
open Verif.Long (Kind size slotAddr run offsets)

/-- The slots of the declarations in the table of the method. -/
def HasSlots (E : Env) (m : Nat) (K : List Kind) (slot : Nat) (ds : List Decl) : Prop :=
  E.legacyStack = false ∧ E.localOffsets m = offsets 0 K ∧ ∀ (j : Nat) d, ds[j]? = some d → K[slot + j]? = some d.ty.kind

/-- After the code of declarations each variable has the value that it is declared with, whatever the memory was before: scalars without a value are 0, arrays
and enum structs have the elements of their initialisers, and 0 where nothing is given.  The memory of each array is its own.  The data of the program, and all
else besides the slots and the new memory, is as before.  The only error is that there is no room.

Missing: the keyword `decl` (`C82_decl_unset`), and the arrays that are not emitted as they are declared, see C41 (`C82_int64_overlap`). -/
theorem C82_values_partial {E : Env} {m : Nat} {here : Int} {K : List Kind} {ds : List Decl} {data rest : List Cell} {slot : Nat} {s : IState}
    (hT : HasSlots E m K slot ds) (hI : InFrame K s.vm) (hL : Loaded ((genDecls data slot ds).2 ++ rest) s.vm)
    (hg : ∀ d ∈ ds, d.zero = true ∧ d.ty.Good) :
    (∃ s', run E m here (genDecls data slot ds).1 s = .fail s' .heapLow ∧ s.vm.sp < base s.vm.hp ds ds.length + 64) ∨
    ∃ s', run E m here (genDecls data slot ds).1 s = .ok s' () ∧
      (∀ (j : Nat) d, ds[j]? = some d → d.ty.Has s'.vm.mem (slotAddr K s.vm.frm (slot + j))) ∧
      (∀ (j : Nat) d, ds[j]? = some d → 0 < d.ty.cells →
        rd32 s'.vm.mem (slotAddr K s.vm.frm (slot + j)) = BitVec.ofInt 32 (base s.vm.hp ds j) ∧
        s.vm.hp ≤ base s.vm.hp ds j ∧ base s.vm.hp ds j + 4 * (d.ty.cells : Int) ≤ base s.vm.hp ds (j + 1)) ∧
      SameRegs s.vm s'.vm ∧ s'.vm.hp = base s.vm.hp ds ds.length ∧ InFrame K s'.vm ∧ Loaded ((genDecls data slot ds).2 ++ rest) s'.vm ∧
      ∀ x, (x < s.vm.hp ∨ s'.vm.hp ≤ x) →
        (∀ (j : Nat) d, ds[j]? = some d → x < slotAddr K s.vm.frm (slot + j) ∨ slotAddr K s.vm.frm (slot + j) + d.ty.kind.bytes ≤ x) →
        s'.vm.mem x = s.vm.mem x := by
  rcases decls_ok (here := here) ⟨hT.1, hT.2.1⟩ ds data rest slot s hI (fun j d h => ⟨hT.2.2 j d h, hg d (List.mem_of_getElem? h)⟩) hL with h | ⟨s', r, A⟩
  · exact .inl h
  · obtain ⟨l1, l2, l3, l4, l5, l6⟩ := hI.layout
    have hA := A.inFrame.layout
    have e1 : s'.vm.memSize = s.vm.memSize := by rw [A.same]
    have e2 : s'.vm.dataSize = s.vm.dataSize := by rw [A.same]
    have hend : ∀ (j : Nat) d, ds[j]? = some d → base s.vm.hp ds j + 4 * (d.ty.cells : Int) ≤ s'.vm.hp := by
      intro j d hj
      have := base_mono s.vm.hp ds (show j + 1 ≤ ds.length by have := (List.getElem?_eq_some_iff.mp hj).1; omega)
      rw [A.hp, ← base_next hj]
      exact this
    refine .inr ⟨s', r, ?_, ?_, A.same, A.hp, A.inFrame, ⟨hL.cells.congr fun x h1 h2 => A.frame x (.inl ?_) fun j d hj => .inl ?_, ?_⟩, A.frame⟩
    · intro j d hj
      have h1 := hend j d hj
      have h2 := base_le s.vm.hp ds j
      have := hA.hp_le_sp
      have := hA.sp_le_stp
      have := hA.stp_eq
      have := hA.mem_small
      exact (A.stored j d hj).has (hg d (List.mem_of_getElem? hj)).2 (by omega) (by omega)
    · intro j d hj hc
      refine ⟨?_, base_le _ _ _, Int.le_of_eq (base_next hj).symm⟩
      have := A.stored j d hj
      cases hty : d.ty with
      | cell i => rw [hty] at hc; exact absurd hc (by show ¬ 0 < 0; omega)
      | int64 => rw [hty] at hc; exact absurd hc (by show ¬ 0 < 0; omega)
      | array b dims init => rw [hty] at this; exact this.1
      | struct fields init => rw [hty] at this; exact this.1
    · have := hL.fits
      omega
    · have := hL.fits
      have := (hI.slot (hT.2.2 j d hj)).1
      omega
    · have := hL.fits
      omega

/-- In particular `x[i]…[j]` of a local array of cells is the element that the initialiser gives it, and 0 if it gives none. -/
theorem C82_element {E : Env} {m : Nat} {here : Int} {K : List Kind} {data rest : List Cell} {slot : Nat} {s s' : IState} {ds : List Decl} {k : Nat}
    {dims : List Nat} {init : Option Init} (hT : HasSlots E m K slot ds) (hI : InFrame K s.vm) (hL : Loaded ((genDecls data slot ds).2 ++ rest) s.vm)
    (hg : ∀ d ∈ ds, d.zero = true ∧ d.ty.Good) (hk : ds[k]? = some ⟨.array (.elem .cell) dims init, true⟩)
    (hr : run E m here (genDecls data slot ds).1 s = .ok s' ()) {idx : List Nat} (hp : Path dims idx) {j : Nat} (hj : j < dims.getLastD 0) :
    rd32 s'.vm.mem ((walk s'.vm.mem (rd32 s'.vm.mem (slotAddr K s.vm.frm (slot + k))) idx).toInt + 4 * (j : Int)) =
      match idx.foldl part init with
      | some (.arr items ellipses) => element (items.map valueOf) ellipses j
      | _ => 0 := by
  rcases C82_values_partial (here := here) hT hI hL hg with ⟨s2, h, _⟩ | ⟨s2, h, hv, _⟩
  · rw [hr] at h; cases h
  · rw [hr] at h
    cases h
    have h1 := hv k _ hk idx hp
    have hgk := (hg _ (List.mem_of_getElem? hk)).2
    generalize hq : idx.foldl part init = q at *
    cases q with
    | none =>
      refine h1 j 0 ?_
      show (List.replicate (dims.getLastD 0) 0)[j]? = _
      rw [List.getElem?_replicate, if_pos hj]
    | some i =>
      cases i with
      | arr items ellipses =>
        refine h1 j _ ?_
        show (Verif.ArrayInit.cellRow _ _ _)[j]? = _
        unfold Verif.ArrayInit.cellRow
        rw [List.getElem?_map, List.getElem?_range (by omega)]
        rfl
      | num v =>
        refine h1 j 0 ?_
        show (List.replicate (dims.getLastD 0) 0)[j]? = _
        rw [List.getElem?_replicate, if_pos hj]
      | num64 v =>
        refine h1 j 0 ?_
        show (List.replicate (dims.getLastD 0) 0)[j]? = _
        rw [List.getElem?_replicate, if_pos hj]
      | str t =>
        have := accepted_path dims init idx hgk.1 hp _ hq
        simp [Verif.ArrayInit.validRank, Verif.ArrayInit.validRow] at this

/-! ### An example -/

/-- `int a[2][3] = {{1, 2, 3}, {4, ...}}; char s[8] = "hi"; int n = 7; int64 w; int b[20];` -/
def demoDecls : List Decl := [
  ⟨.array (.elem .cell) [2, 3] (some (.arr [.arr [.num 1, .num 2, .num 3] false, .arr [.num 4] true] false)), true⟩,
  ⟨.array (.elem .char) [8] (some (.str [104, 105])), true⟩, ⟨.cell (some 7), true⟩, ⟨.int64, true⟩, ⟨.array (.elem .cell) [20] none, true⟩]

def demoSlots : List Kind := [.int, .int, .int, .int64, .int]

/-- Writes cells. -/
def put (m : Int → BitVec 8) (a : Int) : List Cell → Int → BitVec 8
  | [] => m
  | c :: cs => put (wr32 m a c) (a + 4) cs

/-- The program has a global with the value 99; the heap and the stack are full of 0xAB. -/
def demoLocals (D : List Cell) (K : List Kind) : IState :=
  ⟨{ Verif.Jit.demoVM with mem := put (fun _ => 0xAB) 0 D, frm := 3200, sp := 3200 - size K }, 0, 0, 0⟩

def demoData : List Cell := (genDecls [99] 0 demoDecls).2

example : demoData = [99, 8, 20, 1, 2, 3, 4, 4, 4, 26984, 0] := by decide +kernel

theorem demo_slots : HasSlots (Verif.Long.demoLong demoSlots) 0 demoSlots 0 demoDecls := by
  refine ⟨rfl, rfl, ?_⟩
  intro j d hj
  match j, hj with
  | 0, hj | 1, hj | 2, hj | 3, hj | 4, hj => cases hj; rfl
  | j + 5, hj => simp [demoDecls] at hj

theorem demo_frame : InFrame demoSlots (demoLocals demoData demoSlots).vm where
  layout := ⟨by decide, by decide, by decide +kernel, by decide +kernel, by decide, by decide⟩
  aligned := ⟨by decide, by decide, by decide⟩
  frame := by decide +kernel
  small := by decide

/-- Decides `Cells`. -/
def cellsB (m : Int → BitVec 8) (a : Int) (l : List Cell) : Bool := (List.range l.length).all fun j => l[j]? == some (rd32 m (a + 4 * (j : Int)))

theorem cells_of {m : Int → BitVec 8} {a : Int} {l : List Cell} (h : cellsB m a l = true) : Cells m a l := by
  intro j c hj
  have := List.all_eq_true.mp h j (List.mem_range.mpr (List.getElem?_eq_some_iff.mp hj).1)
  have := eq_of_beq this
  rw [hj] at this
  cases this
  rfl

theorem demo_loaded : Loaded ((genDecls [99] 0 demoDecls).2 ++ []) (demoLocals demoData demoSlots).vm :=
  ⟨cells_of (by decide +kernel), by decide +kernel⟩

theorem demo_good : ∀ d ∈ demoDecls, d.zero = true ∧ d.ty.Good := by
  intro d hd
  simp only [demoDecls, List.mem_cons, List.not_mem_nil, or_false] at hd
  rcases hd with rfl | rfl | rfl | rfl | rfl
  · refine ⟨rfl, fun i h => ?_, fun i h => ?_, by decide, by decide, by decide⟩
    · cases h; decide +kernel
    · match i, h with
      | 0, _ => rfl
      | 1, _ => rfl
  · exact ⟨rfl, fun i h => by cases h; decide +kernel, rfl, by decide, by decide, by decide⟩
  · exact ⟨rfl, trivial⟩
  · exact ⟨rfl, trivial⟩
  · exact ⟨rfl, (fun i h => nomatch h), rfl, by decide, by decide, by decide⟩

/-- The code runs, and the element `a[1][2]` is 4. -/
def observe (E : Env) (code : List Insn) (s : IState) (as : List Int) : Option (List Cell) :=
  match run E 0 0 code s with
  | .ok s' _ => some (as.map (rd32 s'.vm.mem))
  | _ => none

/-- The slots, then `a`, `s`, the first and the last cell of `b`, and the memory after it. -/
example : observe (Verif.Long.demoLong demoSlots) (genDecls [99] 0 demoDecls).1 (demoLocals demoData demoSlots)
    [3196, 3192, 3188, 3180, 3184, 3176, 1024, 1028, 1032, 1036, 1040, 1044, 1048, 1052, 1056, 1060, 1064, 1140, 1144] =
    some [1024, 1056, 7, 0, 0, 1064, 1032, 1044, 1, 2, 3, 4, 4, 4, 26984, 0, 0, 0, 0xABABABAB] := by decide +kernel

example : Path [2, 3] [1] := ⟨by decide, trivial⟩

/-! ### Where the code does not keep the property -/

/-- `int64 x[4]; int y[2] = {5, 6};`: `x` has eight cells, but `y` starts after four of them, so `x[2]` is 0x600000005 and a store to it changes `y`. -/
theorem C82_int64_overlap : let ds : List Decl := [⟨.array (.elem .int64) [4] none, true⟩, ⟨.array (.elem .cell) [2] (some (.arr [.num 5, .num 6] false)), true⟩]
    storage (.elem .int64) [4] = 8 ∧
    observe (Verif.Long.demoLong [.int, .int]) (genDecls [99] 0 ds).1 (demoLocals (genDecls [99] 0 ds).2 [.int, .int])
      [3196, 3192, 1024 + 8 * 2, 1024 + 8 * 2 + 4] = some [1024, 1040, 5, 6] := by decide +kernel

/-- `decl int x[20];` has whatever was there before; and so has `decl int x[20] = {1};` from the second element on. -/
theorem C82_decl_unset : let ds : List Decl := [⟨.array (.elem .cell) [20] none, false⟩, ⟨.array (.elem .cell) [20] (some (.arr [.num 1] false)), false⟩]
    observe (Verif.Long.demoLong [.int, .int]) (genDecls [99] 0 ds).1 (demoLocals (genDecls [99] 0 ds).2 [.int, .int])
      [3196, 3192, 1024, 1104, 1108] = some [1024, 1104, 0xABABABAB, 1, 0xABABABAB] := by decide +kernel

end Verif.LocalVar

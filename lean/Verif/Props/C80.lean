import Verif.Proofs.DataSection
import Verif.Props.C41

/-!
C80: each global and static variable, and each literal, has storage of its own in the data of a program, which holds its initial value when the program starts;
and code that reads, writes or passes a variable names the storage of that variable.

What the program does is to be seen from `S.data`, the data of the compiled program; `S.asm.buf`, its code; and `S.pubs`, its table of public variables.
-/
namespace Verif.DataSection
open Verif.Labels (Cell)
open Verif.Text (stringToCells)
open Verif.ArrayInit (Base Init FieldTy storage esSize)

/-- Every program gets data in which each variable and literal has cells of its own, one after the other, with its initial value. -/
theorem C80_own_storage {P : List Item} (hL : Legal P) : ∃ S, run .init P = some S ∧
    (∀ (k : Nat) v x pub, P[k]? = some (.var v x pub) → Holds S.data (start P k) (x.emit (address (start P k))) ∧
      (x.emit (address (start P k))).length = (Item.var v x pub).size) ∧
    (∀ (k : Nat) cells, P[k]? = some (.blob cells) → Holds S.data (start P k) cells) ∧
    (∀ (j k : Nat) x, j < k → P[j]? = some x → start P j + x.size ≤ start P k) ∧
    (∀ (k : Nat) x, P[k]? = some x → start P k + x.size ≤ S.data.length) := by
  obtain ⟨S, r, lv, h1, h2⟩ := run_all hL
  refine ⟨S, h1, fun k v x pub hk => ⟨(h2.ok k _ hk).2.1, emit_length _ _ x⟩, fun k cells hk => (h2.ok k _ hk).2, ?_, ?_⟩
  · intro j k x hjk hj
    rw [← start_next hj]
    exact start_mono hjk
  · intro k x hk
    rw [h2.data, ← start_next hk]
    exact start_le _ _

/-- The initial value of variables that are no arrays: the one given, or 0. -/
theorem C80_initial {P : List Item} {S : St} (hL : Legal P) (hS : run .init P = some S) :
    (∀ (k : Nat) v init pub, P[k]? = some (.var v (.cell init) pub) → S.data[start P k]? = some (init.getD 0)) ∧
    (∀ (k : Nat) v init pub, P[k]? = some (.var v (.int64 init) pub) →
      ∃ lo hi, S.data[start P k]? = some lo ∧ S.data[start P k + 1]? = some hi ∧ hi.toNat * 2 ^ 32 + lo.toNat = (init.getD 0).toNat) := by
  obtain ⟨S', r, lv, h1, h2⟩ := run_all hL
  rw [hS] at h1
  cases h1
  constructor
  · intro k v init pub hk
    have h := (h2.ok k _ hk).2.1
    cases init with
    | none => exact h 0 0 rfl
    | some c => exact h 0 c rfl
  · intro k v init pub hk
    have h := (h2.ok k _ hk).2.1
    cases init with
    | none => exact ⟨0, 0, h 0 0 rfl, h 1 0 rfl, rfl⟩
    | some c =>
      refine ⟨_, _, h 0 _ rfl, h 1 _ rfl, ?_⟩
      simp only [BitVec.toNat_setWidth, BitVec.toNat_ushiftRight, Option.getD_some, Nat.shiftRight_eq_div_pow]
      have := c.isLt
      omega

/-- A variable has as many cells as its type.  Missing: the variables that C41 has counterexamples for. -/
theorem C80_size_partial {x : Value} (hx : x.Sized) (base : Cell) : (x.emit base).length = x.cells := by
  cases x with
  | cell i => cases i <;> rfl
  | int64 i => cases i <;> rfl
  | array b dims init => exact (Verif.ArrayInit.C41_size_partial hx.1 hx.2.1 hx.2.2 base).1
  | struct fields init =>
    cases init with
    | none =>
      show (Verif.ArrayInit.buildStruct fields none).cells.length = esSize fields
      unfold Verif.ArrayInit.buildStruct
      dsimp only
      have hp := Verif.ArrayInit.pad_zeroes (n := Verif.ArrayInit.padRank (.es fields) 1) (emitted := (Verif.ArrayInit.Em.mk [] [] 0).size) none none
        (Verif.ArrayInit.Em.mk [] [] 0)
      have hc (e : Verif.ArrayInit.Em) : e.cells = e.iv ++ Verif.ArrayInit.content e := by
        unfold Verif.ArrayInit.Em.cells Verif.ArrayInit.content; rw [List.append_assoc]
      rw [hc, hp.1, hp.2]
      simp [Verif.ArrayInit.content, Verif.ArrayInit.Em.size, Verif.ArrayInit.padRank]
    | some i =>
      cases i with
      | arr items e =>
        cases e with
        | false =>
          obtain ⟨h1, h2⟩ := Verif.ArrayInit.C41_struct_partial hx.1 hx.2
          show (Verif.ArrayInit.buildStruct fields (some (.arr items false))).cells.length = esSize fields
          rw [h1, h2]
        | true => exact hx.elim
      | num _ => exact hx.elim
      | num64 _ => exact hx.elim
      | str _ => exact hx.elim

/-- Code that reads a variable or passes its address names its storage, also if the variable is declared after the code. -/
theorem C80_reads {P : List Item} {S : St} (hL : Legal P) (hS : run .init P = some S) {j k : Nat} {v : Nat} {x : Value} {pub : Bool}
    (hj : P[j]? = some (.var v x pub)) (hk : P[k]? = some (.load v) ∨ P[k]? = some (.addr v)) :
    S.asm.buf[place P k]? = some (address (start P j)) := by
  obtain ⟨S', r, lv, h1, h2⟩ := run_all hL
  rw [hS] at h1
  cases h1
  have hr : r.reverse[place P k]? = some (.ref v) := by
    rcases hk with hk | hk <;> exact h2.ok k _ hk
  exact (h2.inv.closed v _ (label_value h2 hj)).2.2 _ hr

/-- Code that writes a variable that is declared before it names its storage.  Missing: variables that are declared after the code, see `C80_store_before`. -/
theorem C80_writes_partial {P : List Item} {S : St} (hL : Legal P) (hS : run .init P = some S) {j k : Nat} {v : Nat} {x : Value} {pub : Bool}
    (hj : P[j]? = some (.var v x pub)) (hk : P[k]? = some (.store v)) (hjk : j < k) :
    S.asm.buf[place P k]? = some (address (start P j)) := by
  obtain ⟨S', r, lv, h1, h2⟩ := run_all hL
  rw [hS] at h1
  cases h1
  exact h2.inv.cell _ _ (h2.stores j k v x pub hjk hj hk)

/-- The code of a literal names the storage of that literal; the other code is as it was written. -/
theorem C80_literals {P : List Item} {S : St} (hL : Legal P) (hS : run .init P = some S) :
    (∀ (k : Nat) cells, P[k]? = some (.blob cells) → S.asm.buf[place P k]? = some (address (start P k))) ∧
    (∀ (k : Nat) c, P[k]? = some (.other c) → S.asm.buf[place P k]? = some c) ∧ S.asm.buf.length = P.countP Item.isCode := by
  obtain ⟨S', r, lv, h1, h2⟩ := run_all hL
  rw [hS] at h1
  cases h1
  exact ⟨fun k cells hk => h2.inv.cell _ _ (h2.ok k _ hk).1, fun k c hk => h2.inv.cell _ _ (h2.ok k _ hk), by rw [h2.inv.len, h2.code]⟩

/-- The fields of a `struct` hold the numbers given (the last one, if a field is given twice), or the addresses of the strings and variables given. -/
theorem C80_struct {P : List Item} {S : St} (hL : Legal P) (hS : run .init P = some S) {k : Nat} {v n : Nat} {fields : List (Nat × PValue)}
    {pub : Bool} (hk : P[k]? = some (.pstruct v n (some fields) pub)) {f : Nat} (hf : f < n) :
    match lastGiven fields f with
    | none => S.data[fieldsAt (start P k) fields + f]? = some 0
    | some (.num c) => S.data[fieldsAt (start P k) fields + f]? = some c
    | some (.str s) => ∃ b, S.data[fieldsAt (start P k) fields + f]? = some (address b) ∧ start P k ≤ b ∧
        b + (stringToCells s).length ≤ fieldsAt (start P k) fields ∧ Holds S.data b (stringToCells s)
    | some (.sym w) => ∀ (j : Nat) x pub', j < k → P[j]? = some (.var w x pub') →
        S.data[fieldsAt (start P k) fields + f]? = some (address (start P j)) := by
  obtain ⟨S', r, lv, h1, h2⟩ := run_all hL
  rw [hS] at h1
  cases h1
  have h := (h2.ok k _ hk).2.2 f hf
  cases hg : lastGiven fields f with
  | none => rw [hg] at h; exact h
  | some pv =>
    rw [hg] at h
    cases pv with
    | num c => exact h
    | str s => exact h
    | sym w => exact fun j x pub' hjk hj => h2.syms j k w x pub' v n fields pub f hjk hj hk hf hg

/-- The table of public variables has the variables that are declared as public, in their order, with the addresses of their storage.  Missing: variables whose type is a `struct` and
that are given no value, see `C80_struct_without_value`. -/
theorem C80_public_partial {P : List Item} {S : St} (hL : Legal P) (hS : run .init P = some S) :
    S.pubs.map (·.1) = P.filterMap Item.publishes ∧
    (∀ (k : Nat) v x, P[k]? = some (.var v x true) → (v, address (start P k)) ∈ S.pubs) ∧
    (∀ (k : Nat) v n fields, P[k]? = some (.pstruct v n (some fields) true) → (v, address (fieldsAt (start P k) fields)) ∈ S.pubs) := by
  obtain ⟨S', r, lv, h1, h2⟩ := run_all hL
  rw [hS] at h1
  cases h1
  exact ⟨h2.pubs, fun k v x hk => (h2.ok k _ hk).2.2 rfl, fun k v n fields hk => (h2.ok k _ hk).2.1 rfl⟩

/-! ### Where the code does not keep the property -/

/-- `void f() { g = 1; }` before `int a = 5; int g = 6;`: the code writes to the storage of `a`. -/
def early : List Item := [.other 1, .store 7, .var 3 (.cell (some 5)) false, .var 7 (.cell (some 6)) false]

theorem early_legal : Legal early := legal_of (by decide +kernel) (by decide +kernel) (by decide +kernel) (by decide +kernel)

theorem C80_store_before : Legal early ∧ early[1]? = some (.store 7) ∧ early[3]? = some (.var 7 (.cell (some 6)) false) ∧
    ∃ S, run .init early = some S ∧ S.asm.buf[place early 1]? = some (address (start early 2)) ∧
      address (start early 2) ≠ address (start early 3) :=
  ⟨early_legal, rfl, rfl, _, rfl, by decide +kernel, by decide +kernel⟩

/-- If the variable has been read before, then the code writes to an address that depends on where the code is: here to the fourth variable. -/
def earlier : List Item := [.load 7, .other 2, .load 7, .store 7, .var 1 (.cell none) false, .var 2 (.cell none) false, .var 3 (.cell none) false,
  .var 4 (.cell none) false, .var 7 (.cell (some 6)) false]

theorem C80_store_before_read : Legal earlier ∧ ∃ S, run .init earlier = some S ∧ S.asm.buf[place earlier 0]? = some (address (start earlier 8)) ∧
    S.asm.buf[place earlier 3]? = some (address (start earlier 7)) ∧ start earlier 7 ≠ start earlier 8 :=
  ⟨legal_of (by decide +kernel) (by decide +kernel) (by decide +kernel) (by decide +kernel), _, rfl, by decide +kernel, by decide +kernel, by decide +kernel⟩

/-- `int64 x[4]; int y;`: the type of `x` has eight cells, but `y` comes after four of them. -/
theorem C80_int64_array : let P : List Item := [.var 1 (.array (.elem .int64) [4] none) false, .var 2 (.cell (some 5)) false]
    Legal P ∧ (Value.array (.elem .int64) [4] none).cells = 8 ∧ start P 0 = 0 ∧ start P 1 = 4 :=
  ⟨legal_of (by decide +kernel) (by decide +kernel) (by decide +kernel) (by decide +kernel), by decide +kernel, by decide +kernel, by decide +kernel⟩

/-- `int a = 5; public Plugin info;`: the table has the address of `a` for `info`. -/
theorem C80_struct_without_value : let P : List Item := [.var 1 (.cell (some 5)) false, .pstruct 2 3 none true]
    Legal P ∧ ∃ S, run .init P = some S ∧ S.pubs = [(2, address (start P 0))] :=
  ⟨legal_of (by decide +kernel) (by decide +kernel) (by decide +kernel) (by decide +kernel), _, rfl, by decide +kernel⟩

/-! ### Examples -/

/-- `int a; f() { a = b; print("abc"); } int64 b = 1 << 32; public P info = { name = "x", number = 7, data = a }`. -/
def sample : List Item := [.var 1 (.cell none) true, .load 2, .store 1, .blob [0x00636261], .var 2 (.int64 (some 4294967296)) false,
  .pstruct 3 3 (some [(0, .str [120]), (1, .num 7), (2, .sym 1)]) true, .addr 2, .store 2]

theorem sample_legal : Legal sample := legal_of (by decide +kernel) (by decide +kernel) (by decide +kernel) (by decide +kernel)

example : (run .init sample).map (fun S => (S.asm.buf, S.data, S.pubs)) =
    some ([8, 0, 4, 8, 8], [0, 0x00636261, 0, 1, 120, 16, 7, 0], [(1, 0), (3, 20)]) := by decide +kernel

example : (Value.array (.elem .cell) [2, 3] none).Sized := ⟨fun _ h => (by cases h), by intro i hi; rfl, by decide⟩

end Verif.DataSection

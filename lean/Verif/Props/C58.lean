import Verif.Proofs.ScanUb
import Verif.Props.C18

/-! C58: building the graph of a method is memory safe. -/
namespace Verif.Graph
open Verif.VM

/-- **C58** for methods without negative case counts: whatever the code image, whatever the position of the method and however
long the scan is followed, it does not read outside the image, does not go to a position before the method and does not
overflow.  Missing: `C58_negative_table_overflows`, `C58_negative_table_leaves`. -/
theorem C58_scan_defined_partial (code : List Cell) (start fuel : Nat) (hn : NoNegativeTable code start) :
    build code start fuel ≠ .ub := by
  intro h
  unfold build at h
  rcases bind_ub_iff.1 h with h | ⟨P, h1, h⟩
  · unfold prescan at h
    split at h
    · rename_i hs
      have := (List.getElem?_eq_some_iff.1 hs).1
      exact prescanLoop_ub hn fuel _ ⟨by simp only; omega, by simp only; omega, .first, by simp, Or.inr rfl⟩ h
    · cases h
  · have IP := prescan_inv hn h1
    rcases bind_ub_iff.1 h with h | ⟨B, h2, h⟩
    · exact scan_ub IP h
    · split at h <;> cases h

/-- A switch whose table claims more cases than the image has room for, in a count whose double is no `int`. -/
def hugeTable : List Cell := [46, 129, 12, 130, 0x7fffffff, 4, 48]

/-- The hypothesis is met by an accepted method and by that one, which is rejected. -/
example : (NoNegativeTable loopCode 0 ∧ ∃ r, build loopCode 0 20 = .ok r) ∧
    NoNegativeTable hugeTable 0 ∧ build hugeTable 0 10 = .rejected := by
  refine ⟨⟨loopCode_tables, ?_⟩, ?_, rfl⟩
  · have h : (match build loopCode 0 20 with
        | .ok _ => true
        | _ => false) = true := by decide +kernel
    split at h
    · rename_i r hb; exact ⟨r, hb⟩
    · cases h
  · intro pc n hb h1 h2
    have := boundary_mem [1, 3] (by decide) (by decide +kernel) hb
    have h : pc = 1 ∨ pc = 3 := by simpa using this
    rcases h with h | h
    · subst h; exact absurd h1 (by decide)
    · subst h
      cases h2
      decide

/-- **A negative case count overflows**: twice -2147483648 is no `int`. -/
theorem C58_negative_table_overflows : ∀ fuel, build [46, 134, 130, 0x80000000, 4] 0 (fuel + 2) = .ub := by
  intro fuel; rfl

/-- **A negative case count makes the scan go on in front of the method**: after `casetbl -3` at cell 2 comes cell -1, in
front of the code, and in a method at cell 3 comes cell 2, in another method. -/
theorem C58_negative_table_leaves : (∀ fuel, build [46, 134, 130, -3, 4] 0 (fuel + 2) = .ub) ∧
    ∀ fuel, build [46, 48, 48, 46, 134, 130, -3, 16] 3 (fuel + 2) = .ub :=
  ⟨fun _ => rfl, fun _ => rfl⟩

end Verif.Graph

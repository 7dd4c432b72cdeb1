import Verif.Proofs.UnusedProgram

/-!
# C92: the compiler warns about the variables that are not used

`warnings gs fs` are the warnings (position, and 203 or 204) about variables that the compiler gives for a program with the global variables `gs` and the
functions `fs`; it is `none` if a name is not known, or declared twice in a scope.  Which ones there should be is `expectedF` and `expectedG`
(Verif/Spec/Unused.lean), which go by names alone: a use of a name is a use of a variable if it is after the declaration, in the same block, and there is no
other declaration of the name in between.
-/
namespace Verif.Unused

/-- There is a warning about a variable exactly if it is not read: 203 if it is not assigned to, either, and 204 if it is.

Missing: `#pragma unused` with more than one name (`C92_pragma_unused`), uses in `sizeof` and in static variables' values, and names of functions. -/
theorem C92_warnings_partial {gs : List Global} {fs : List Fn} {ws : List (Nat × Nat)} (h : warnings gs fs = some ws) (hp : ∀ f ∈ fs, SingleL f.body)
    (w : Nat × Nat) : w ∈ ws ↔ (∃ f ∈ fs, w ∈ expectedF f) ∨ ∃ g ∈ gs, w ∈ expectedG fs g :=
  warnings_ok h hp w

/-- There are no warnings exactly if every variable that has to be used is read. -/
theorem C92_no_warnings_partial {gs : List Global} {fs : List Fn} {ws : List (Nat × Nat)} (h : warnings gs fs = some ws) (hp : ∀ f ∈ fs, SingleL f.body) :
    ws = [] ↔ (∀ f ∈ fs, expectedF f = []) ∧ ∀ g ∈ gs, expectedG fs g = [] := by
  simp only [List.eq_nil_iff_forall_not_mem, C92_warnings_partial h hp, not_or, not_exists, not_and]
  exact ⟨fun h => ⟨fun f hf w => (h w).1 f hf, fun g hg w => (h w).2 g hg⟩, fun h w => ⟨fun f hf => h.1 f hf w, fun g hg => h.2 g hg w⟩⟩

/-- A function with a local variable that is read, one that is assigned to only, one that is hidden by another one, and an argument. -/
def sampleF : Fn :=
  ⟨[(⟨10, 100, .arg, true⟩, false), (⟨11, 101, .arg, true⟩, true)], false, false,
   [.decl ⟨1, 102, .var, true⟩ (some .leaf),
    .decl ⟨2, 103, .var, true⟩ none,
    .expr (.assign 2 (.name 1)),
    .decl ⟨3, 104, .var, true⟩ none,
    .block [.decl ⟨3, 105, .var, true⟩ (some (.name 0)), .expr (.name 3)],
    .decl ⟨4, 106, .const, true⟩ (some .leaf),
    .decl ⟨5, 107, .var, true⟩ none,
    .unused [5]]⟩

def sampleG : List Global := [⟨⟨0, 1, .var, true⟩, false, false, false⟩, ⟨⟨6, 2, .var, true⟩, true, false, false⟩, ⟨⟨7, 3, .var, false⟩, true, false, false⟩]

example : warnings sampleG [sampleF] = some [(106, 203), (104, 203), (103, 204), (2, 204), (3, 203), (100, 203)] := by decide +kernel
example : ∀ f ∈ [sampleF], SingleL f.body := by simp [sampleF, SingleL, Single]
example : expectedF sampleF = [(103, 204), (104, 203), (106, 203), (100, 203)] := by decide +kernel
example : sampleG.flatMap (expectedG [sampleF]) = [(2, 204), (3, 203)] := by decide +kernel
example : warnings [⟨⟨0, 1, .var, true⟩, false, false, false⟩] [⟨[], true, false, [.expr (.assign 0 .leaf), .expr (.name 0)]⟩] = some [] := by decide +kernel

/-- `int a; int b; #pragma unused a, b`. -/
def pragmaF : Fn := ⟨[], false, false, [.decl ⟨1, 10, .var, true⟩ none, .decl ⟨2, 11, .var, true⟩ none, .unused [1, 2]]⟩

/-- Only the first of the variables in a `#pragma unused` is marked: there is a warning about the second one. -/
theorem C92_pragma_unused : warnings [] [pragmaF] = some [(11, 203)] ∧ expectedF pragmaF = [] := by decide +kernel

end Verif.Unused

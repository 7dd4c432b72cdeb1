import Verif.Proofs.Names

/-!
# C70: a name refers to the innermost declaration in scope

`resolveNames` (Verif/Model/Names.lean) is what the compiler does: scopes are made when the first name is added to them,
and linked to each other by pointers.  `Plugin.all` and `Plugin.bodies` (Verif/Spec/Names.lean) are the rules of the
language.
-/
namespace Verif.Names

/-- No names. -/
def nothing : Plugin := ⟨[], fun _ => [], 0⟩

/-- **C70**: in the first pass, over the declarations of all files, each name that is used refers to the declaration that
the rules say, and duplicate and hidden names are reported as the rules say.  If there was no error, the same holds in
the second pass, over the bodies of the functions.  A plugin begins in some file (compiler/parser.cpp:75-78).
Missing: a constant that is defined by itself (`C70_const_sees_itself`); types, methodmaps, enum structs. -/
theorem C70_names_partial (files n : Nat) (ds : List TopDecl) (fair : ∀ x ∈ TopDecl.file n :: ds, x.fair files) :
    (resolveNames files (.file n :: ds)).1 = (nothing.all (.file n :: ds)).2 ∧
    ((∀ e ∈ (nothing.all (.file n :: ds)).2, e.isError = false) →
      (resolveNames files (.file n :: ds)).2 = (nothing.all (.file n :: ds)).1.bodies (.file n :: ds)) := by
  have hn : n < files := fair _ List.mem_cons_self
  have t0 : Top files { start files with scope := fileScope n } { nothing with file := n } := by
    refine ⟨rfl, fun k hk => ?_, rfl, hn, rfl, rfl⟩
    show (List.replicate files (⟨some 0, .fileStatic, []⟩ : Scope))[k]? = _
    rw [List.getElem?_replicate, if_pos hk]
    rfl
  have fair' : ∀ x ∈ ds, x.fair files := fun x hx => fair x (List.mem_cons_of_mem _ hx)
  obtain ⟨h1, t1, _, h3⟩ := Top.enterAll ds _ _ [] t0 fair'
  have e1 : Names.enterAll (start files) [] (.file n :: ds) = Names.enterAll { start files with scope := fileScope n } [] ds := rfl
  have e2 : nothing.all (.file n :: ds) = ((Plugin.all { nothing with file := n } ds).1, (Plugin.all { nothing with file := n } ds).2) := by
    simp [Plugin.all, Plugin.top]
  rw [e2]
  constructor
  · show (Names.enterAll (start files) [] (.file n :: ds)).1.log = _
    rw [e1, h1]
    rfl
  · intro he
    have hb := h3 he
    show (Names.bindAll (Names.enterAll (start files) [] (.file n :: ds)).2 { (Names.enterAll (start files) [] (.file n :: ds)).1 with log := [] } (.file n :: ds)).log = _
    rw [e1]
    have := Top.bindAll (.file n :: ds) _ _ (Names.enterAll { start files with scope := fileScope n } [] ds).2 (t1.say []) fair (by
      intro x hx
      rcases List.mem_cons.1 hx with rfl | hx
      · trivial
      · exact hb x hx)
    rw [this]
    rfl

/-! ## An example

File 0 has `int x; static int y; void f(int x) { int z = x; { int x = x; y = x; } x = z; }`, and file 1 has
`int y; void g() { y = x; for (int x; x; x) { x; } f(x); }`. -/

def exampleDecls : List TopDecl :=
  [.var 1 10 false none, .var 2 11 true none,
   .fn 3 20 false false [(4, 10, none)] (.seq (.var 5 12 (some (.sym 10)))
     (.seq (.block (.seq (.var 6 10 (some (.sym 10))) (.expr (.pair (.sym 11) (.sym 10))))) (.expr (.pair (.sym 10) (.sym 12))))),
   .file 1, .var 7 11 false none,
   .fn 8 21 false false [] (.seq (.expr (.pair (.sym 11) (.sym 10)))
     (.seq (.for_ (.var 9 10 none) (.sym 10) (.sym 10) (.block (.expr (.sym 10)))) (.expr (.call (.sym 20) (.sym 10)))))]

/-- In `f`, `x` is the parameter, except in the block, where it is the inner variable after that is declared; `y` is that of
file 0.  In `g`, `y` is that of file 1, and `x` is the global one outside of the loop. -/
theorem example_names : resolveNames 2 (.file 0 :: exampleDecls) =
    ([], [.shadow 10, .use 10 (some ⟨4, false⟩), .use 12 (some ⟨5, false⟩), .use 10 (some ⟨4, false⟩), .shadow 10,
      .use 10 (some ⟨6, false⟩), .use 11 (some ⟨2, false⟩), .use 10 (some ⟨6, false⟩), .use 10 (some ⟨4, false⟩), .use 12 (some ⟨5, false⟩),
      .use 11 (some ⟨7, false⟩), .use 10 (some ⟨1, false⟩), .shadow 10, .use 10 (some ⟨9, false⟩), .use 10 (some ⟨9, false⟩),
      .use 10 (some ⟨9, false⟩), .use 20 (some ⟨3, true⟩), .use 10 (some ⟨1, false⟩)]) := by decide +kernel

/-- The hypotheses of `C70_names_partial` are met by this plugin. -/
example : (∀ x ∈ TopDecl.file 0 :: exampleDecls, x.fair 2) ∧ ∀ e ∈ (nothing.all (.file 0 :: exampleDecls)).2, e.isError = false := by
  refine ⟨?_, by decide +kernel⟩
  intro x hx
  simp only [exampleDecls, List.mem_cons, List.not_mem_nil, or_false] at hx
  rcases hx with rfl | rfl | rfl | rfl | rfl | rfl | rfl
  · exact (by show (_ : Nat) < 2; decide)
  · trivial
  · trivial
  · exact ⟨rfl, fun h => nomatch h⟩
  · exact (by show (_ : Nat) < 2; decide)
  · trivial
  · exact ⟨rfl, fun h => nomatch h⟩

/-! ## Where the compiler does not keep to the rules -/

/-- `const int X = 5; void f() { const int X = X + 1; }`. -/
def constDecls : List TopDecl := [.file 0, .const 1 10 .lit, .fn 2 20 false false [] (.const 3 10 (.pair (.sym 10) .lit))]

/-- A constant in a function is defined before its value is looked at: `const int X = X + 1` is about the new `X`, whose
value is not known yet (compiler/parse-node.h:422 value_ has no initial value).  A variable is about the outer one. -/
theorem C70_const_sees_itself :
    resolveNames 1 constDecls = ([], [.shadow 10, .use 10 (some ⟨3, false⟩)]) ∧
    (nothing.all constDecls).1.bodies constDecls = [.shadow 10, .use 10 (some ⟨1, false⟩)] ∧
    resolveNames 1 [.file 0, .const 1 10 .lit, .fn 2 20 false false [] (.var 3 10 (some (.pair (.sym 10) .lit)))] =
      ([], [.use 10 (some ⟨1, false⟩), .shadow 10, .use 10 (some ⟨3, false⟩)]) := by
  refine ⟨by decide +kernel, by decide +kernel, by decide +kernel⟩

end Verif.Names

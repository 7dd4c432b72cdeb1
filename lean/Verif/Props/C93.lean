import Verif.Proofs.Convert

/-!
# C93: values are converted to other types by rules, and otherwise there is a message

`messages E how t s` are the numbers of the messages when a value of type `s` is assigned to, passed as, or returned as (`how`) a `t`.  What the types mean is in
Verif/Spec/Convert.lean.
-/
namespace Verif.Convert

/-- Without a message, and without a variable of type `any`, what a value is never changes, however often it is assigned, passed, returned and chosen by `? :`: a float stays a
float, a function a function, an enum struct the same enum struct, and a number or handle stays one or becomes an `int64`.

Missing: arrays, references and operators, and choices with `null`, for which it is false (`C93_choice_of_null`).  `view_as` changes what a value is taken for: see `C93_view`. -/
theorem C93_kind_partial {E : Env} {s t : Ty} (h : Flow E s t) (hs : s ≠ .any) (hn : s ≠ .null) (hv : s ≠ .void) :
    kind t = kind s ∨ (t = .int64 ∧ kind s = .cell) := by
  have key : (kind t = kind s ∨ (t = .int64 ∧ kind s = .cell)) ∧ t ≠ .any ∧ t ≠ .null ∧ t ≠ .void := by
    induction h with
    | start => exact ⟨.inl rfl, hs, hn, hv⟩
    | @move t t' how h hm ha hu ih =>
      obtain ⟨ih, i1, i2, i3⟩ := ih
      have hk := kind_step E how hm ha hu i1 i2 i3
      refine ⟨?_, ha, hu, ?_⟩
      · rcases hk with hk | ⟨rfl, rfl⟩
        · rcases ih with ih | ⟨rfl, ih⟩
          · exact .inl (hk.trans ih)
          · refine .inr ⟨?_, ih⟩
            exact kind_int64 hk
        · refine .inr ⟨rfl, ?_⟩
          rcases ih with ih | ⟨h, _⟩
          · exact ih.symm
          · cases h
      · rintro rfl
        rcases hk with hk | ⟨h, _⟩
        · exact i3 (kind_void hk.symm)
        · cases h
    | @choose t x h hm hx hxn ih =>
      obtain ⟨ih, i1, i2, i3⟩ := ih
      have hk := ternary_kind E hm hx i1 hxn i2
      refine ⟨?_, hx, hxn, ?_⟩
      · rcases ih with ih | ⟨rfl, ih⟩
        · exact .inl (hk.trans ih)
        · exact .inr ⟨kind_int64 hk, ih⟩
      · intro hv
        change x = .void at hv
        subst hv
        exact i3 (kind_void hk.symm)
  exact key.1

/-- A variable of an enum or methodmap type gets, without a message, only what belongs in it: values of the type itself, of a methodmap that extends it, `any`, and
`null` if it is nullable. -/
theorem C93_named (E : Env) (how : How) {t s : Ty} (ht : Named t) : messages E how t s = [] ↔ Belongs t s :=
  named E how ht

/-- From methodmap to methodmap, in any number of steps: only upwards. -/
theorem C93_upcast {E : Env} {s t : Map} (h : MapFlow E s t) : Extends s t := by
  induction h with
  | start => exact .refl _
  | move how _ hm ih => exact ih.trans ((map_map E how _ _).mp hm)

/-- Assignments, calls and returns convert the same types without a message, but for `any` (`C93_any_differs`), and numbers as booleans
(`C93_bool_differs`). -/
theorem C93_agree_partial (E : Env) {t s : Ty} (ht : t ≠ .any) (hs : s ≠ .any) (hv : t ≠ .void) (hn : t ≠ .null) (hb : ¬ (t = .bool ∧ (s = .int ∨ s = .char)))
    (hf : E.fits = E.fits') (a b : How) : messages E a t s = [] ↔ messages E b t s = [] :=
  agree E ht hs hv hn hb hf a b

/-- A number is passed as a boolean without a message, and assigned to one with a warning. -/
theorem C93_bool_differs (E : Env) : messages E .pass .bool .int = [] ∧ messages E .assign .bool .int = [213] := by
  simp [messages, pass, assign, checkValue, matchTag, Ty.isStruct, Ty.isFunc, Ty.coercesFromInt, hasTag]

/-- A value of type `any` is assigned to an `int64` or a function without a message, and passed with an error; to return it as an `int64` there is no message.
The other way, a function is passed or returned as `any` without a message, and assigned with an error. -/
theorem C93_any_differs (E : Env) (f : Option Nat) :
    messages E .assign .int64 .any = [] ∧ messages E .pass .int64 .any = [450] ∧ messages E .ret .int64 .any = [] ∧
    messages E .assign (.func f) .any = [] ∧ messages E .pass (.func f) .any = [450] ∧
    messages E .assign .any (.func f) = [130] ∧ messages E .pass .any (.func f) = [] ∧ messages E .ret .any (.func f) = [] := by
  cases f <;> simp [messages, pass, ret, assign, checkValue, matchTag, checkFunction, funcMessage, Ty.isStruct, Ty.isFunc, Ty.coercesFromInt]

/-- What a function without a value gives is never a value, not even `any`, without a message. -/
theorem C93_void (E : Env) (how : How) {t : Ty} (ht : t ≠ .void) (hn : t ≠ .null) : messages E how t .void ≠ [] := by
  cases how <;> cases t <;>
    simp_all [messages, pass, ret, assign, checkValue, matchTag, checkFunction, hasTag, Ty.isStruct, Ty.isFunc, Ty.coercesFromInt]

/-- A variable of a type of functions gets, without a message, `null`, values of that type, functions that fit it (any function, if the type is `Function`), and,
in an assignment only, `any`. -/
theorem C93_functions (E : Env) (how : How) (t : Option Nat) (s : Ty) :
    messages E how (.func t) s = [] ↔
      s = .null ∨ s = .func t ∨ (s = .any ∧ how = .assign) ∨ (∃ f, s = .func f ∧ t = none) ∨
      (∃ a b, t = some a ∧ s = .func (some b) ∧ (if how = .assign then E.fits' a b else E.fits a b) = true) := by
  by_cases hf : ∃ f, s = .func f
  · obtain ⟨f, rfl⟩ := hf
    cases how <;> cases t <;> cases f <;>
      simp [messages, pass, ret, assign, checkValue, matchTag, checkFunction, hasTag, Ty.isStruct, Ty.isFunc, Ty.coercesFromInt] <;> grind
  · cases how <;> cases t <;> cases s <;>
      simp_all [messages, pass, ret, assign, checkValue, matchTag, matchObject, checkFunction, hasTag, Ty.isStruct, Ty.isFunc, Ty.coercesFromInt]

/-- `view_as<t>(e)` has no message exactly if the value of `e` can be viewed as a `t`: it is one already, both are one cell, an `int64` is cut to an `int` or an `int`
made an `int64`, or it is `null` or a function that fits. -/
theorem C93_view (E : Env) {t s : Ty} (hn : t ≠ .null) : viewAs E t s = [] ↔ t ≠ .void ∧ Viewable E t s :=
  ⟨viewable_of_view E hn, fun h => view_of_viewable E h.1 h.2⟩

/-- So not even `view_as` makes a function, an enum struct or an `int64` of something else without a message, but for the two widths of numbers, and `null`. -/
theorem C93_view_kind (E : Env) {t s : Ty} (hn : t ≠ .null) (h : viewAs E t s = []) (hs : s ≠ .null) :
    kind t = kind s ∨ (OneCell t ∧ OneCell s) ∨ (t = .int ∧ s = .int64) ∨ (t = .int64 ∧ (s = .int ∨ s = .any)) := by
  cases (viewable_of_view E hn h).2 with
  | cell h h' => exact .inr (.inl ⟨h, h'⟩)
  | nullMap | nullFunc => exact absurd rfl hs
  | _ => simp [kind]

/-- Without a message, the two values of `c ? x : y` have the same type, which is that of the whole, or are functions of which one fits the type of the other, or one of
them is `any` or `null`. -/
theorem C93_choice_partial (E : Env) {a b : Ty} (h : (ternary E a b).1 = []) (ha : a ≠ .any) (hb : b ≠ .any) (han : a ≠ .null) (hbn : b ≠ .null) :
    (ternary E a b).2 = a ∧ (a = b ∨ ∃ f g, a = .func f ∧ b = .func g ∧
      (f = none ∨ g = none ∨ ∃ i j, f = some i ∧ g = some j ∧ (E.fits i j = true ∨ E.fits j i = true))) := by
  refine ⟨rfl, ?_⟩
  rcases ternary_nil h with h | h
  · rcases plain_nil E h ha hbn with k | ⟨f, g, rfl, rfl, k⟩
    · exact .inl k
    · refine .inr ⟨f, g, rfl, rfl, ?_⟩
      rcases k with k | ⟨i, j, k, k', hf⟩
      · exact .inl k
      · exact .inr (.inr ⟨i, j, k, k', .inl hf⟩)
  · rcases plain_nil E h hb han with k | ⟨f, g, rfl, rfl, k⟩
    · exact .inl k.symm
    · refine .inr ⟨g, f, rfl, rfl, ?_⟩
      rcases k with k | ⟨i, j, k, k', hf⟩
      · exact .inr (.inl k)
      · exact .inr (.inr ⟨j, i, k', k, .inr hf⟩)

/-- With `null` that is not so: the type of `c ? null : h` is that of `null`, so that a handle gets into a variable of a type of functions, or of any other nullable
methodmap, and there is no message. -/
theorem C93_choice_of_null (E : Env) (how : How) {m m' : Map} (hm : m.nullable = true) (hm' : m'.nullable = true) (f : Option Nat) :
    (ternary E .null (.map m)).1 = [] ∧ messages E how (.func f) (ternary E .null (.map m)).2 = [] ∧
    messages E how (.map m') (ternary E .null (.map m)).2 = [] := by
  cases how <;> simp [ternary, checkPlain, messages, pass, ret, assign, checkValue, matchTag, matchObject, Ty.isStruct, hm, hm']

/-! The hypotheses can be met. -/

def handle : Map := .root 1 true
def stringMap : Map := .ext 2 true handle
def myMap : Map := .ext 3 true stringMap
def sampleE : Env := ⟨fun _ _ => false, fun _ _ => false⟩

example : MapFlow sampleE myMap handle := .move .ret (.move .pass .start (by decide +kernel)) (by decide +kernel : messages _ _ (.map handle) (.map stringMap) = [])
example : messages sampleE .assign (.map myMap) (.map handle) = [213] ∧ messages sampleE .pass (.map myMap) (.map handle) = [450] := by decide +kernel
example : Flow sampleE (.map myMap) .int64 :=
  .move .assign (.move (t' := .int) .ret .start (by decide +kernel) nofun nofun) (by decide +kernel) nofun nofun
example : messages sampleE .assign .float .int = [213] ∧ messages sampleE .pass .float .int = [253] ∧ messages sampleE .assign .int .float = [213] ∧
    messages sampleE .pass .int .float = [450] ∧ messages sampleE .assign .any .float = [] ∧ messages sampleE .assign .int .any = [] := by decide +kernel
example : Named (.enum 4) ∧ messages sampleE .ret (.enum 4) (.enum 4) = [] ∧ messages sampleE .ret (.enum 4) (.enum 5) = [450] ∧
    messages sampleE .pass (.enum 4) .int = [253] := ⟨trivial, by decide +kernel⟩
example : messages sampleE .assign .int (.enum 4) = [] ∧ messages sampleE .pass .int (.enum 4) = [] := by decide +kernel
example : messages sampleE .pass (.func (some 1)) (.func (some 2)) = [100] ∧ messages sampleE .pass (.func none) (.func (some 2)) = [] := by decide +kernel
example : viewAs sampleE .float .int = [] ∧ viewAs sampleE (.map myMap) (.map handle) = [] ∧ viewAs sampleE .int .int64 = [] ∧
    viewAs sampleE .int (.func none) = [237] ∧ viewAs sampleE .float .int64 = [460] ∧ viewAs sampleE (.struct 1) .any = [95] := by decide +kernel
example : ternary sampleE .float .float = ([], .float) ∧ ternary sampleE .float .int = ([450], .float) ∧ ternary sampleE .int (.enum 4) = ([253], .int) ∧
    ternary sampleE (.func none) (.func (some 2)) = ([], .func none) ∧ ternary sampleE (.func (some 1)) (.func (some 2)) = ([100], .func (some 1)) ∧
    ternary sampleE .null (.map handle) = ([], .null) := by decide +kernel
example : Flow sampleE (.func (some 2)) (.func none) :=
  .choose (x := .func none) .start (by decide +kernel) nofun nofun

end Verif.Convert

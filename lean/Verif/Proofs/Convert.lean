import Verif.Spec.Convert

/-! Lemmas for C93. -/
namespace Verif.Convert

theorem up_iff : ∀ (m o : Map), up m o = true ↔ Extends m o
  | .root i n, o => by
    simp only [up, decide_eq_true_eq]
    constructor
    · rintro rfl; exact .refl _
    · rintro (_ | _); rfl
  | .ext i n p, o => by
    simp only [up, Bool.or_eq_true, decide_eq_true_eq, up_iff p o]
    constructor
    · rintro (rfl | h)
      · exact .refl _
      · exact .step i n h
    · intro h
      cases h with
      | refl => exact .inl rfl
      | step _ _ h => exact .inr h

theorem Extends.trans {a b c : Map} (h : Extends a b) (h' : Extends b c) : Extends a c := by
  induction h with
  | refl => exact h'
  | step i n _ ih => exact .step i n (ih h')

theorem up_self (m : Map) : up m m = true := (up_iff m m).mpr (.refl m)

theorem map_map (E : Env) (how : How) (a b : Map) : messages E how (.map a) (.map b) = [] ↔ Extends b a := by
  rw [← up_iff]
  by_cases hab : a = b
  · subst hab
    simp only [up_self, iff_true]
    cases how <;> simp [messages, assign, pass, ret, checkValue, matchTag, Ty.isStruct]
  · cases how <;> simp [messages, assign, pass, ret, checkValue, matchTag, Ty.isStruct, Ty.isFunc, hasTag, hab] <;>
      by_cases h : up b a = true <;> simp [h]

/-- One step. -/
theorem kind_step (E : Env) (how : How) {t s : Ty} (h : messages E how t s = []) (ht : t ≠ .any) (htn : t ≠ .null) (hs : s ≠ .any) (hn : s ≠ .null) (hv : s ≠ .void) :
    kind t = kind s ∨ (t = .int64 ∧ s = .int) := by
  cases how <;> cases t <;> cases s <;>
    simp_all [messages, assign, pass, ret, checkValue, matchTag, matchObject, checkFunction, Ty.isStruct, Ty.isFunc, Ty.coercesFromInt, hasTag, kind]

theorem kind_void {t : Ty} (h : kind t = .void) : t = .void := by
  cases t <;> simp [kind] at h ⊢

theorem kind_int64 {t : Ty} (h : kind t = .int64) : t = .int64 := by
  cases t <;> simp [kind] at h ⊢

theorem named (E : Env) (how : How) {t s : Ty} (ht : Named t) : messages E how t s = [] ↔ Belongs t s := by
  cases t with
  | enum i =>
    cases s with
    | enum j =>
      by_cases hij : i = j
      · subst hij
        cases how <;> simp [messages, assign, pass, ret, checkValue, matchTag, Ty.isStruct, Belongs]
      · have hji : ¬ j = i := fun h => hij h.symm
        cases how <;> simp [messages, assign, pass, ret, checkValue, matchTag, Ty.isStruct, Ty.isFunc, Ty.coercesFromInt, hasTag, Belongs, hij, hji]
    | _ =>
      cases how <;> simp [messages, assign, pass, ret, checkValue, matchTag, matchObject, Ty.isStruct, Ty.isFunc, Ty.coercesFromInt, hasTag, Belongs]
  | map a =>
    cases s with
    | map b =>
      rw [map_map]
      simp only [Belongs, reduceCtorEq, Ty.map.injEq, false_or, and_false, exists_false, or_false]
      constructor
      · exact fun h => .inr ⟨a, b, rfl, rfl, h⟩
      · rintro (rfl | ⟨_, _, rfl, rfl, h⟩)
        · exact .refl _
        · exact h
    | _ =>
      cases how <;>
        simp [messages, assign, pass, ret, checkValue, matchTag, matchObject, Ty.isStruct, Ty.isFunc, Ty.coercesFromInt, hasTag, Belongs]
  | _ => exact ht.elim

theorem agree (E : Env) {t s : Ty} (ht : t ≠ .any) (hs : s ≠ .any) (hv : t ≠ .void) (hn : t ≠ .null) (hb : ¬ (t = .bool ∧ (s = .int ∨ s = .char)))
    (hf : E.fits = E.fits') (a b : How) : messages E a t s = [] ↔ messages E b t s = [] := by
  have key : ∀ how, messages E how t s = [] ↔ messages E .pass t s = [] := by
    intro how
    cases how with
    | pass => exact Iff.rfl
    | assign =>
      by_cases hm : ∃ x y, t = .map x ∧ s = .map y
      · obtain ⟨x, y, rfl, rfl⟩ := hm
        rw [map_map, map_map]
      by_cases hm' : ∃ x y, t = .func x ∧ s = .func y
      · obtain ⟨x, y, rfl, rfl⟩ := hm'
        by_cases hxy : x = y
        · subst hxy
          simp [messages, assign, pass, checkValue, matchTag, Ty.isStruct]
        · have hc : checkFunction E.fits' (.func x) (.func y) = checkFunction E.fits (.func x) (.func y) := by rw [hf]
          simp [messages, assign, pass, checkValue, matchTag, Ty.isStruct, Ty.isFunc, Ty.coercesFromInt, hxy, hc]
      cases t <;> cases s <;>
        simp_all [messages, assign, pass, checkValue, matchTag, matchObject, Ty.isStruct, Ty.isFunc, Ty.coercesFromInt, hasTag, checkFunction]
    | ret =>
      cases t <;> cases s <;>
        simp_all [messages, ret, pass, checkValue, matchTag, matchObject, Ty.isStruct, Ty.isFunc, Ty.coercesFromInt, hasTag, checkFunction]
  rw [key a, key b]

theorem view_of_viewable (E : Env) {t s : Ty} (hv : t ≠ .void) (h : Viewable E t s) : viewAs E t s = [] := by
  cases h with
  | same => simp [viewAs, hv]
  | cell ht hs => cases t <;> cases s <;> simp_all [OneCell, viewAs, Ty.isFunc, Ty.isStruct]
  | nullMap h => simp [viewAs, matchTag, matchObject, h]
  | nullFunc f => simp [viewAs, matchTag, matchObject]
  | anyFunc f => cases f <;> simp [viewAs, matchTag, checkFunction, Ty.isFunc, Ty.isStruct]
  | @fits a b h => simp [viewAs, matchTag, checkFunction, Ty.isFunc, Ty.isStruct, h]
  | _ => simp [viewAs, widthChange, Ty.isFunc, Ty.isStruct]

theorem viewable_of_view (E : Env) {t s : Ty} (hn : t ≠ .null) (h : viewAs E t s = []) : t ≠ .void ∧ Viewable E t s := by
  have hv : t ≠ .void := by rintro rfl; simp [viewAs] at h
  refine ⟨hv, ?_⟩
  by_cases hc : OneCell t ∧ OneCell s
  · exact .cell hc.1 hc.2
  by_cases hts : t = s
  · subst hts; exact .same t
  by_cases hf : ∃ a b, t = .func a ∧ s = .func b
  · obtain ⟨a, b, rfl, rfl⟩ := hf
    cases a with
    | none => exact .anyFunc b
    | some a =>
      cases b with
      | none => simp [viewAs, matchTag, checkFunction, Ty.isFunc, Ty.isStruct] at h
      | some b =>
        refine .fits ?_
        simp only [Ty.func.injEq, Option.some.injEq] at hts
        cases hb : E.fits' a b with
        | true => rfl
        | false => simp [viewAs, matchTag, checkFunction, Ty.isFunc, Ty.isStruct, hts, hb] at h
  cases s with
  | null =>
    cases t with
    | func f => exact .nullFunc f
    | map m => exact .nullMap (by simpa [viewAs, matchTag, matchObject] using h)
    | _ => simp_all [viewAs, matchTag, matchObject]
  | int64 =>
    cases t with
    | int => exact .narrow
    | _ => simp_all [viewAs, widthChange, Ty.isFunc, Ty.isStruct]
  | int =>
    cases t with
    | int64 => exact .widen
    | _ => simp_all [viewAs, widthChange, Ty.isFunc, Ty.isStruct, OneCell]
  | any =>
    cases t with
    | int64 => exact .widenAny
    | _ => simp_all [viewAs, widthChange, Ty.isFunc, Ty.isStruct, OneCell]
  | _ => cases t <;> simp_all [viewAs, widthChange, Ty.isFunc, Ty.isStruct, OneCell]

theorem ternary_nil {E : Env} {a b : Ty} (h : (ternary E a b).1 = []) : checkPlain E a b = [] ∨ checkPlain E b a = [] := by
  unfold ternary at h
  dsimp only at h
  split at h
  · exact .inl h
  · split at h
    · exact .inr h
    · exact .inl h

theorem plain_nil (E : Env) {a b : Ty} (h : checkPlain E a b = []) (ha : a ≠ .any) (hbn : b ≠ .null) :
    a = b ∨ ∃ f g, a = .func f ∧ b = .func g ∧ (f = none ∨ ∃ i j, f = some i ∧ g = some j ∧ E.fits i j = true) := by
  by_cases hab : a = b
  · exact .inl hab
  refine .inr ?_
  by_cases hf : ∃ f g, a = .func f ∧ b = .func g
  · obtain ⟨f, g, rfl, rfl⟩ := hf
    refine ⟨f, g, rfl, rfl, ?_⟩
    cases f with
    | none => exact .inl rfl
    | some i =>
      cases g with
      | none => simp [checkPlain, Ty.isStruct, Ty.isFunc, checkFunction] at h
      | some j =>
        refine .inr ⟨i, j, rfl, rfl, ?_⟩
        cases hb : E.fits i j with
        | true => rfl
        | false => simp [checkPlain, Ty.isStruct, Ty.isFunc, checkFunction, hab, hb] at h
  · exfalso
    cases a <;> cases b <;> simp_all [checkPlain, Ty.isStruct, Ty.isFunc, checkFunction]

theorem ternary_kind (E : Env) {a b : Ty} (h : (ternary E a b).1 = []) (ha : a ≠ .any) (hb : b ≠ .any) (han : a ≠ .null) (hbn : b ≠ .null) : kind a = kind b := by
  rcases ternary_nil h with h | h
  · rcases plain_nil E h ha hbn with rfl | ⟨f, g, rfl, rfl, _⟩ <;> rfl
  · rcases plain_nil E h hb han with rfl | ⟨f, g, rfl, rfl, _⟩ <;> rfl

end Verif.Convert

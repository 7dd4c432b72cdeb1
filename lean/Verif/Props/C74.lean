import Verif.Model.Types

/-!
# C74: arrays that are passed and assigned fit

`arrayAssign` and `arrayArgument` are what the compiler accepts (Verif/Model/Types.lean).
-/
namespace Verif.Types

/-! ## Specification -/

/-- The sizes of an array type, outermost first (0: not known). -/
def Ty.dims : Ty → List Nat
  | .array t n => n :: t.dims
  | _ => []

/-- The type of its elements. -/
def Ty.elt : Ty → Ty
  | .array t _ => t.elt
  | t => t

/-- The distance in bytes from one element to the next. -/
def stride (E : Env) : Ty → Nat
  | .builtin .char => 1
  | .builtin .int64 => 8
  | .enumStruct s => 4 * E.cells s
  | _ => 4

/-- The number of cells of a one-dimensional array. -/
def storage (E : Env) : Ty → Nat
  | .array t n => (n * stride E t + 3) / 4
  | _ => 0

/-- An array of type `a` can be used as one of type `f`: it has as many dimensions, it has the size that `f` says where it says one,
and the elements are where `f` says. -/
structure Fits (E : Env) (f a : Ty) : Prop where
  count : f.dims.length = a.dims.length
  sizes : ∀ (i n : Nat), f.dims[i]? = some n → n ≠ 0 → a.dims[i]? = some n
  elements : stride E f.elt = stride E a.elt

/-- The arrays that an expression may turn out to be: its type and its number of cells. -/
inductive AExpr.MayBe : AExpr → Ty → Nat → Prop
  | leaf {t n} : MayBe (.leaf t n) t n
  | left {a b t n} : MayBe a t n → MayBe (.cond a b) t n
  | right {a b t n} : MayBe b t n → MayBe (.cond a b) t n

/-! ## Proofs -/

theorem calcSize_one (E : Env) (t : Ty) (n : Nat) (ht : t.isArray = false) : calcSize E 1 (.array t n) = storage E (.array t n) := by
  unfold calcSize storage stride
  cases t with
  | array => cases ht
  | builtin b => cases b <;> simp [charCells] <;> omega
  | enumStruct s =>
    simp only [Nat.one_mul]
    have : n * (4 * E.cells s) = 4 * (n * E.cells s) := by rw [Nat.mul_left_comm]
    omega
  | _ => simp <;> omega

theorem storage_mono (E : Env) (t : Ty) {n m : Nat} (h : n ≤ m) : storage E (.array t n) ≤ storage E (.array t m) := by
  have := Nat.mul_le_mul_right (stride E t) h
  show (n * stride E t + 3) / 4 ≤ (m * stride E t + 3) / 4
  omega

theorem is_eq {t : Ty} {b : Bt} (h : t.is b = true) : t = .builtin b := by
  unfold Ty.is at h
  exact eq_of_beq h

theorem checkDims_flat {q : Flags} {fi : Ty} (h : fi.isArray = false) (fs : Nat) (ai : Ty) («as» : Nat) :
    checkDims q fs fi ai «as» = if sizesOk q fs «as» ai = true then some (fi, ai) else none := by
  cases fi with
  | array => cases h
  | _ => simp only [checkDims]

theorem sizesOk_eq {q : Flags} {fs «as» : Nat} {ai : Ty} (h : sizesOk q fs «as» ai = true) (hn : fs ≠ 0) (hc : ai ≠ .builtin .char) : fs = «as» := by
  have : ai.is .char = false := by simpa [Ty.is] using hc
  simpa only [sizesOk, ne_eq, hn, not_false_eq_true, if_true, this, Bool.and_false, Bool.false_eq_true, if_false, beq_iff_eq] using h

theorem sizesOk_le {w : Why} {fs «as» : Nat} {ai : Ty} (h : sizesOk ⟨w, true, false, false, false⟩ fs «as» ai = true) (hn : fs ≠ 0) : «as» ≤ fs := by
  by_cases hc : ai = .builtin .char
  · subst hc
    simpa [sizesOk, hn, Ty.is] using h
  · exact Nat.le_of_eq (sizesOk_eq h hn hc).symm

/-- What an array assignment asks of two one-dimensional arrays. -/
theorem assign_sizes {E : Env} {fuel : Nat} {li ri : Ty} {ls rs : Nat} (hr : ri.isArray = false) (hs : (Ty.array li ls).allSized = true)
    (h : coerce E fuel .assignment (.array li ls) (.array ri rs) = some true) : li = ri ∧ rs ≤ ls ∧ (ri ≠ .builtin .char → rs = ls) := by
  cases fuel with
  | zero => cases h
  | succ fuel =>
    have hls : ls ≠ 0 := by
      simp only [Ty.allSized, Bool.and_eq_true, decide_eq_true_eq] at hs
      exact hs.1
    unfold coerce checkImpl at h
    simp only [Option.some.injEq] at h
    unfold checkArrays at h
    simp only at h
    by_cases hli : li.isArray = false
    · rw [checkDims_flat hli] at h
      split at h
      · cases h
      · rename_i fe ae he
        split at he
        · rename_i hok
          simp only [Option.some.injEq, Prod.mk.injEq] at he
          obtain ⟨rfl, rfl⟩ := he
          split at h
          · rename_i heq
            exact ⟨eq_of_beq heq, sizesOk_le hok hls, fun hc => (sizesOk_eq hok hls hc).symm⟩
          · simp at h
        · cases he
    · cases li with
      | array li' ls' =>
        unfold checkDims at h
        cases ri with
        | array => cases hr
        | _ => split at h <;> simp_all
      | _ => exact absurd rfl hli

theorem arrayAssign_parts {E : Env} {fuel : Nat} {left : Ty} {right : AExpr} {n : Nat} (h : arrayAssign E fuel left right = some n) :
    ∃ t ls rs, left = .array t ls ∧ right.typeOf E fuel = some (.array t rs) ∧ t.isArray = false ∧ rs ≠ 0 ∧ rs ≤ ls ∧ (t ≠ .builtin .char → rs = ls) ∧
      n = storage E (.array t rs) := by
  unfold arrayAssign at h
  split at h
  · rename_i li ls r hr
    split at h
    · cases h
    · rename_i hsz
      split at h
      · rename_i hco
        split at h
        · rename_i ri rs
          split at h
          · cases h
          · rename_i hri
            split at h
            · cases h
            · rename_i hrs
              cases h
              have hri' : ri.isArray = false := by simpa using hri
              obtain ⟨h1, h2, h3⟩ := assign_sizes hri' (by simpa using hsz) hco
              subst h1
              exact ⟨li, ls, rs, rfl, hr, hri', hrs, h2, h3, calcSize_one E li rs hri'⟩
        · cases h
      · cases h
  · cases h

/-! ## Assignments -/

/-- **C74**: what an array assignment copies fits into the array on the left, whatever is on the right. -/
theorem C74_copy_fits_left {E : Env} {fuel : Nat} {left : Ty} {right : AExpr} {n : Nat} (h : arrayAssign E fuel left right = some n) :
    n ≤ storage E left := by
  obtain ⟨t, ls, rs, rfl, _, _, _, h1, _, rfl⟩ := arrayAssign_parts h
  exact storage_mono E t h1

/-- The type of an array expression whose arrays all have sizes and no characters is that of each of its arrays. -/
theorem typeOf_leaves {E : Env} {fuel : Nat} : ∀ {e : AExpr} {t : Ty}, e.typeOf E fuel = some t →
    (∀ s n, e.MayBe s n → ∃ i m, s = .array i m ∧ i.isArray = false ∧ i ≠ .builtin .char ∧ m ≠ 0) → ∀ s n, e.MayBe s n → s = t
  | .leaf t n, t', h, _, s, m, hm => by
    cases hm
    simpa [AExpr.typeOf] using h
  | .cond a b, t, h, hl, s, m, hm => by
    unfold AExpr.typeOf at h
    split at h
    · rename_i l r ha hb
      have ea := typeOf_leaves ha fun s n hs => hl s n (.left hs)
      have eb := typeOf_leaves hb fun s n hs => hl s n (.right hs)
      have some_leaf : ∀ e : AExpr, ∃ s n, e.MayBe s n := by
        intro e
        induction e with
        | leaf t n => exact ⟨t, n, .leaf⟩
        | cond a b iha _ => obtain ⟨s, n, h⟩ := iha; exact ⟨s, n, .left h⟩
      obtain ⟨sa, na, hsa⟩ := some_leaf a
      obtain ⟨sb, nb, hsb⟩ := some_leaf b
      obtain ⟨la, ma, h1, h2, h3, h4⟩ := hl sa na (.left hsa)
      obtain ⟨lb, mb, h5, h6, h7, h8⟩ := hl sb nb (.right hsb)
      have hla := ea sa na hsa
      have hlb := eb sb nb hsb
      rw [h1] at hla; rw [h5] at hlb
      subst hla; subst hlb
      split at h
      · rename_i hc
        have key : ∀ (i j : Ty) (x y : Nat), i.isArray = false → j.isArray = false → i ≠ .builtin .char → j ≠ .builtin .char → x ≠ 0 → y ≠ 0 →
            checkImpl E fuel ⟨.generic, false, false, false, true⟩ (.array i x) (.array j y) = some true → i = j ∧ x = y := by
          intro i j x y hi hj hic hjc hx hy hck
          cases fuel with
          | zero => cases hck
          | succ fuel =>
            unfold checkImpl at hck
            simp only [Option.some.injEq] at hck
            unfold checkArrays at hck
            simp only at hck
            rw [checkDims_flat hi] at hck
            split at hck
            · cases hck
            · rename_i fe ae he
              split at he
              · rename_i hok
                simp only [Option.some.injEq, Prod.mk.injEq] at he
                obtain ⟨rfl, rfl⟩ := he
                split at hck
                · rename_i he
                  exact ⟨eq_of_beq he, sizesOk_eq hok hx hjc⟩
                · simp at hck
              · cases he
        have : la = lb ∧ ma = mb := by
          unfold checkBoth at hc
          split at hc
          · have := key lb la mb ma h6 h2 h7 h3 h8 h4 hc
            exact ⟨this.1.symm, this.2.symm⟩
          · exact key la lb ma mb h2 h6 h3 h7 h4 h8 hc
        obtain ⟨rfl, rfl⟩ := this
        have ht : t = .array la ma := by
          simp only [Nat.lt_irrefl, decide_false, Bool.and_false, Bool.false_eq_true, if_false, Option.some.injEq] at h
          exact h.symm
        subst ht
        cases hm with
        | left hm => exact ea s m hm
        | right hm => exact eb s m hm
      · cases h
    · cases h

/-- **C74**: an array assignment reads only what the array on the right has, if the arrays that the right side may turn out to be have
the sizes of their types.  Missing: conditional expressions with character arrays, or arrays without a size (`C74_ternary_char`,
`C74_ternary_unsized`). -/
theorem C74_copy_within_source_partial {E : Env} {fuel : Nat} {left : Ty} {right : AExpr} {n : Nat} (h : arrayAssign E fuel left right = some n)
    (hs : ∀ t m, right.MayBe t m → m = storage E t)
    (hw : (∃ t m, right = .leaf t m) ∨ ∀ t m, right.MayBe t m → ∃ i k, t = .array i k ∧ i.isArray = false ∧ i ≠ .builtin .char ∧ k ≠ 0) :
    ∀ t m, right.MayBe t m → n ≤ m := by
  obtain ⟨t, ls, rs, rfl, ht, _, _, _, _, rfl⟩ := arrayAssign_parts h
  intro s m hm
  rw [hs s m hm]
  rcases hw with ⟨t', m', rfl⟩ | hw
  · cases hm
    simp only [AExpr.typeOf, Option.some.injEq] at ht
    rw [ht]
    exact Nat.le_refl _
  · rw [typeOf_leaves ht hw s m hm]
    exact Nat.le_refl _

/-! ## Arguments -/

theorem checkDims_ok {q : Flags} : ∀ (fi : Ty) (fs : Nat) (ai : Ty) («as» : Nat) {fe ae : Ty}, checkDims q fs fi ai «as» = some (fe, ae) →
    fe = fi.elt ∧ fe.isArray = false ∧ ((Ty.array fi fs).dims.length ≤ (Ty.array ai «as»).dims.length) ∧ ae.elt = ai.elt ∧
    ae.dims.length + (Ty.array fi fs).dims.length = (Ty.array ai «as»).dims.length ∧
    (∀ (i n : Nat), (Ty.array fi fs).dims[i]? = some n → n ≠ 0 → ae.elt ≠ .builtin .char → (Ty.array ai «as»).dims[i]? = some n) := by
  intro fi
  induction fi with
  | array fi' fs' ih =>
    intro fs ai «as» fe ae h
    unfold checkDims at h
    split at h
    · rename_i hok
      cases ai with
      | array ai' as' =>
        obtain ⟨h1, h2, h3, h4, h5, h6⟩ := ih fs' ai' as' h
        refine ⟨h1, h2, ?_, h4, ?_, ?_⟩
        · simp only [Ty.dims, List.length_cons] at h3 ⊢; omega
        · simp only [Ty.dims, List.length_cons] at h5 ⊢; omega
        · intro i n hi hn hc
          cases i with
          | zero =>
            simp only [Ty.dims, List.getElem?_cons_zero, Option.some.injEq] at hi ⊢
            subst hi
            exact (sizesOk_eq hok hn (fun h => nomatch h)).symm
          | succ i =>
            have := h6 i n hi hn hc
            simpa only [Ty.dims, List.getElem?_cons_succ] using this
      | _ => cases h
    · cases h
  | _ =>
    intro fs ai «as» fe ae h
    unfold checkDims at h
    split at h
    · rename_i hok
      cases h
      refine ⟨rfl, rfl, ?_, rfl, ?_, ?_⟩
      · simp [Ty.dims]
      · simp [Ty.dims]
      · intro i n hi hn hc
        cases i with
        | zero =>
          simp only [Ty.dims, List.getElem?_cons_zero, Option.some.injEq] at hi ⊢
          subst hi
          exact (sizesOk_eq hok hn (fun he => hc (by rw [he]; rfl))).symm
        | succ i => simp [Ty.dims] at hi
    · cases h

theorem stride_any (E : Env) : stride E (.builtin .any) = 4 := rfl

theorem elt_idem {t : Ty} (h : t.dims.length = 0) : t.elt = t := by
  cases t <;> simp_all [Ty.dims, Ty.elt]

theorem isArray_dims {t : Ty} (h : t.isArray = false) : t.dims = [] := by
  cases t <;> simp_all [Ty.dims, Ty.isArray]

theorem elt_of_notArray {t : Ty} (h : t.isArray = false) : t.elt = t := by
  cases t <;> simp_all [Ty.elt, Ty.isArray]

/-- **C74**: an array that is accepted for a parameter of an array type fits.  Missing: parameters with a size for arrays of characters
(`C74_char_argument_short`), and, where one side has `any` elements, 64-bit integers and arrays of arrays (`C74_int64_as_any`,
`C74_any_flattens`). -/
theorem C74_argument_fits_partial {E : Env} {fuel : Nat} {f a : Ty} (hf : f.isArray = true) (ha : a.isArray = true) (h : arrayArgument E fuel f a = true)
    (hchar : a.elt = .builtin .char → ∀ n ∈ f.dims, n = 0)
    (hany : (f.elt = .builtin .any ∨ a.elt = .builtin .any) → f.dims.length = a.dims.length ∧ f.elt ≠ .builtin .int64 ∧ a.elt ≠ .builtin .int64) :
    Fits E f a := by
  unfold arrayArgument at h
  have h := eq_of_beq h
  cases f with
  | array fi fs =>
    cases a with
    | array ai «as» =>
      cases fuel with
      | zero => cases h
      | succ fuel =>
        unfold coerce checkImpl at h
        simp only [Option.some.injEq] at h
        unfold checkArrays at h
        simp only at h
        split at h
        · cases h
        · rename_i fe ae hd
          obtain ⟨h1, h2, h3, h4, h5, h6⟩ := checkDims_ok fi fs ai «as» hd
          have hfe : fe.elt = fe := elt_of_notArray h2
          have sizes : ∀ (i n : Nat), (Ty.array fi fs).dims[i]? = some n → n ≠ 0 → (Ty.array ai «as»).dims[i]? = some n := by
            intro i n hi hn
            by_cases hc : ae.elt = .builtin .char
            · exact absurd (hchar (h4 ▸ hc) n (List.mem_of_getElem? hi)) hn
            · exact h6 i n hi hn hc
          have efe : (Ty.array fi fs).elt = fe := by show fi.elt = fe; exact h1.symm
          have eae : (Ty.array ai «as»).elt = ae.elt := by show ai.elt = ae.elt; exact h4.symm
          split at h
          · rename_i he
            have he := eq_of_beq he
            have hd0 : ae.dims = [] := isArray_dims (he ▸ h2)
            rw [hd0] at h5
            refine ⟨by simpa using h5, sizes, ?_⟩
            rw [efe, eae, ← he, hfe]
          · simp only [Bool.false_and, Bool.false_eq_true, if_false, beq_self_eq_true, Bool.and_self, if_true] at h
            split at h
            · rename_i hem
              simp only [Bool.and_eq_true] at hem
              have hfi := is_eq hem.2
              have hae : ae.isArray = false := by cases ae <;> simp_all [Ty.isEnumOrMap, Ty.isArray]
              have hst : stride E ae = 4 := by cases ae <;> simp_all [Ty.isEnumOrMap, stride]
              rw [isArray_dims hae] at h5
              refine ⟨by simpa using h5, sizes, ?_⟩
              rw [efe, eae, elt_of_notArray hae, hst, hfi]
              rfl
            · split at h
              · rename_i hfa
                simp only [Bool.and_eq_true] at hfa
                have hfi := is_eq hfa.1
                obtain ⟨hlen, _, hno⟩ := hany (.inl (efe.trans hfi))
                have h0 : ae.dims.length = 0 := by omega
                refine ⟨hlen, sizes, ?_⟩
                rw [efe, eae, hfi, stride_any]
                rw [eae] at hno
                rw [elt_idem h0] at hno ⊢
                cases ae with
                | builtin b => cases b <;> simp_all [stride, Ty.hasCellSize, Ty.is]
                | enumStruct s => simp_all [Ty.hasCellSize, Ty.isEnumStruct]
                | _ => rfl
              · simp only [Bool.and_eq_true] at h
                have hai := is_eq h.1
                have hca := h.2
                obtain ⟨hlen, hno, _⟩ := hany (.inr (by rw [eae, hai]; rfl))
                refine ⟨hlen, sizes, ?_⟩
                rw [efe] at hno
                rw [efe, eae, hai]
                show stride E fe = 4
                cases fe with
                | builtin b => cases b <;> simp_all [stride, Ty.hasCellSize, Ty.is]
                | enumStruct s => simp_all [Ty.hasCellSize, Ty.isEnumStruct]
                | _ => rfl
    | _ => cases ha
  | _ => cases hf

/-- **C74**: an enum struct is accepted for an array parameter only if this is an array of `any`, without a size or with its size. -/
theorem C74_enum_struct_argument {E : Env} {fuel : Nat} {f : Ty} {s : Nat} (hf : f.isArray = true) (h : arrayArgument E fuel f (.enumStruct s) = true) :
    ∃ n, f = .array (.builtin .any) n ∧ (n = 0 ∨ n = E.cells s) := by
  unfold arrayArgument at h
  have h := eq_of_beq h
  cases f with
  | array fi fs =>
    cases fuel with
    | zero => cases h
    | succ fuel =>
      unfold coerce checkImpl at h
      simp only [Option.some.injEq] at h
      unfold checkArrays at h
      simp at h
      exact ⟨fs, by rw [is_eq h.2.2], h.2.1⟩
  | _ => cases hf

/-! ## Examples, and where the code does not keep it -/

def exampleEnv : Env := ⟨fun _ => [], fun _ => [], fun _ => false, fun _ => 3⟩

def chars (n : Nat) : Ty := .array (.builtin .char) n
def ints (n : Nat) : Ty := .array (.builtin .int) n

/-- `x = c ? a : b` for arrays of five integers: five cells are copied. -/
example : arrayAssign exampleEnv 1 (ints 5) (.cond (.leaf (ints 5) 5) (.leaf (ints 5) 5)) = some 5 ∧
    (∀ t m, (AExpr.cond (.leaf (ints 5) 5) (.leaf (ints 5) 5)).MayBe t m → ∃ i k, t = .array i k ∧ i.isArray = false ∧ i ≠ .builtin .char ∧ k ≠ 0) :=
  ⟨by decide +kernel, fun t m h => by
    rcases h with _ | ⟨⟨⟩⟩ | ⟨⟨⟩⟩ <;> exact ⟨_, _, rfl, rfl, by decide, by decide⟩⟩

/-- `int y[3][4]` for `int x[][4]`. -/
example : arrayArgument exampleEnv 1 (.array (ints 4) 0) (.array (ints 4) 3) = true := by decide +kernel

/-- `char x[10], a[5], b[10]; x = c ? a : b;` copies three cells, also from `a`, which has two. -/
theorem C74_ternary_char : arrayAssign exampleEnv 1 (chars 10) (.cond (.leaf (chars 5) 2) (.leaf (chars 10) 3)) = some 3 ∧
    (∀ t m, (AExpr.cond (.leaf (chars 5) 2) (.leaf (chars 10) 3)).MayBe t m → m = storage exampleEnv t) ∧
    (AExpr.cond (.leaf (chars 5) 2) (.leaf (chars 10) 3)).MayBe (chars 5) 2 :=
  ⟨by decide +kernel, fun t m h => by rcases h with _ | ⟨⟨⟩⟩ | ⟨⟨⟩⟩ <;> decide +kernel, .left .leaf⟩

/-- `int x[5], a[5]; x = c ? a : b;` with a parameter `int[] b` copies five cells, also from `b`, however small it is. -/
theorem C74_ternary_unsized : ∀ cells : Nat, arrayAssign exampleEnv 1 (ints 5) (.cond (.leaf (ints 5) 5) (.leaf (ints 0) cells)) = some 5 ∧
    (AExpr.cond (.leaf (ints 5) 5) (.leaf (ints 0) cells)).MayBe (ints 0) cells :=
  fun _ => ⟨rfl, .right .leaf⟩

/-- `char x[5]` is accepted for a parameter `char buf[10]`. -/
theorem C74_char_argument_short : arrayArgument exampleEnv 1 (chars 10) (chars 5) = true ∧ ¬ Fits exampleEnv (chars 10) (chars 5) :=
  ⟨by decide +kernel, fun h => by have := h.sizes 0 10 rfl (by decide); simp [chars, Ty.dims] at this⟩

/-- `any x[4]` is accepted for `int64 y[4]`, which is twice as large, and the other way round. -/
theorem C74_int64_as_any : arrayArgument exampleEnv 1 (.array (.builtin .int64) 4) (.array (.builtin .any) 4) = true ∧
    arrayArgument exampleEnv 1 (.array (.builtin .any) 4) (.array (.builtin .int64) 4) = true ∧
    ¬ Fits exampleEnv (.array (.builtin .int64) 4) (.array (.builtin .any) 4) :=
  ⟨by decide +kernel, by decide +kernel, fun h => by have := h.elements; simp [Ty.elt, stride] at this⟩

/-- `int x[3][4]` is accepted for `any y[3]`: its elements are then the addresses of the rows. -/
theorem C74_any_flattens : arrayArgument exampleEnv 1 (.array (.builtin .any) 3) (.array (ints 4) 3) = true ∧
    ¬ Fits exampleEnv (.array (.builtin .any) 3) (.array (ints 4) 3) :=
  ⟨by decide +kernel, fun h => by have := h.count; simp [ints, Ty.dims] at this⟩

end Verif.Types

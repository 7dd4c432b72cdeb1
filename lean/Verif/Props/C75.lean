import Verif.Props.C74

/-!
# C75: a callback takes what its type says it is given

`coerce` with `Why.argument` is what the compiler accepts when a function is passed as an argument, `matchFunc` when it is assigned
(Verif/Model/Types.lean).
-/
namespace Verif.Types

/-! ## Specification -/

/-- How an argument of a type is passed. -/
inductive Passing
  /-- a value of this many cells -/
  | value (cells : Nat)
  /-- the address of a value of this many cells -/
  | address (cells : Nat)
  /-- an array with these sizes, whose elements are so many bytes apart -/
  | array (dims : List Nat) (stride : Nat)
  /-- an enum struct, by its address -/
  | struct (cells : Nat)
deriving DecidableEq

/-- The cells of a value. -/
def valueCells (E : Env) : Ty → Nat
  | .builtin .int64 => 2
  | .enumStruct s => E.cells s
  | _ => 1

def passing (E : Env) : Ty → Passing
  | .array i n => .array (n :: i.dims) (stride E i.elt)
  | .ref i => .address (valueCells E i)
  | .enumStruct s => .struct (E.cells s)
  | t => .value (valueCells E t)

/-- A function with the arguments `as` can be called with the arguments that `fs` says: as many, each passed in the same way. -/
def Callable (E : Env) (fs «as» : List Ty) : Prop := fs.map (passing E) = «as».map (passing E)

/-- A plain value of one cell. -/
def Ty.plain : Ty → Bool
  | .array _ _ | .ref _ | .enumStruct _ | .builtin .int64 => false
  | _ => true

/-! ## Proofs -/

theorem passing_plain (E : Env) {t : Ty} (h : t.plain = true) : passing E t = .value 1 := by
  cases t with
  | builtin b => cases b <;> first | rfl | cases h
  | array => cases h
  | ref => cases h
  | enumStruct => cases h
  | _ => rfl

theorem onChain_plain {E : Env} {t u : Ty} (h : onChain E t u = true) : t.plain = true ∧ u.plain = true := by
  unfold onChain at h
  split at h
  · exact ⟨rfl, rfl⟩
  · cases h

theorem enumOrMap_plain {t : Ty} (h : t.isEnumOrMap = true) : t.plain = true := by
  cases t <;> first | rfl | cases h

/-- What `CheckValueType` accepts in a signature is passed in the same way, unless the formal type is `any`. -/
theorem checkValue_passing {E : Env} {fn : Option Bool} {f a : Ty} (h : checkValue E ⟨.generic, false, true, false, false⟩ fn f a = some true)
    (hf : f ≠ .builtin .any) (hfn : f.isFunc = true → fn = some true → a.isFunc = true ∨ a = .builtin .null) : passing E f = passing E a := by
  unfold checkValue at h
  split at h
  · simp only [Option.some.injEq] at h
    rw [eq_of_beq h]
  · split at h
    · rename_i he
      rw [eq_of_beq he]
    · split at h
      · cases h
      · split at h
        · rename_i hn
          rw [is_eq hn]
          split at h
          · rfl
          · rfl
          · cases h
        · split at h
          · cases h
          · split at h
            · rename_i hc
              simp at hc
            · split at h
              · rename_i hfa
                exact absurd (is_eq hfa) hf
              · split at h
                · rename_i hff
                  rcases hfn hff h with ha | ha
                  · cases f <;> cases a <;> simp_all [Ty.isFunc] <;> rfl
                  · subst ha
                    cases f <;> simp_all [Ty.isFunc] <;> rfl
                · split at h
                  · rename_i hc
                    simp only [Bool.or_true, Bool.true_and] at hc
                    obtain ⟨h1, h2⟩ := onChain_plain hc
                    rw [passing_plain E h1, passing_plain E h2]
                  · split at h
                    · rename_i hc
                      simp only [Bool.true_and] at hc
                      obtain ⟨h1, h2⟩ := onChain_plain hc
                      rw [passing_plain E h1, passing_plain E h2]
                    · split at h
                      · rename_i hc
                        simp only [Bool.and_eq_true] at hc
                        rw [passing_plain E (enumOrMap_plain hc.1), is_eq hc.2]
                        rfl
                      · simp at h

theorem checkFunction_actual {E : Env} {chk : Ty → Ty → Option Bool} {f a : Ty} (h : checkFunction E chk f a = some true) :
    a.isFunc = true ∨ a = .builtin .null := by
  unfold checkFunction at h
  split at h
  · rename_i hc
    simp only [Bool.and_eq_true] at hc
    exact .inl hc.2
  · split at h
    · rename_i hc
      exact .inr (is_eq hc)
    · split at h
      · exact .inl rfl
      · cases h

/-- The sizes of an array type that a callback may rely on are those of the formal type. -/
def noNewSizes (f a : Ty) : Prop := ∀ (i n : Nat), a.dims[i]? = some n → n ≠ 0 → f.dims[i]? ≠ some 0

theorem dims_eq {f a : List Nat} (hl : f.length = a.length) (h1 : ∀ (i n : Nat), f[i]? = some n → n ≠ 0 → a[i]? = some n)
    (h2 : ∀ (i n : Nat), a[i]? = some n → n ≠ 0 → f[i]? ≠ some 0) : f = a := by
  apply List.ext_getElem? 
  intro i
  by_cases hi : i < f.length
  · have ha : i < a.length := hl ▸ hi
    rw [List.getElem?_eq_getElem hi, List.getElem?_eq_getElem ha]
    have g1 := h1 i f[i] (List.getElem?_eq_getElem hi)
    have g2 := h2 i a[i] (List.getElem?_eq_getElem ha)
    rw [List.getElem?_eq_getElem ha] at g1
    rw [List.getElem?_eq_getElem hi] at g2
    by_cases hf : f[i] = 0
    · by_cases ha0 : a[i] = 0
      · rw [hf, ha0]
      · exact absurd (by rw [hf]) (g2 ha0)
    · exact (g1 hf).symm
  · rw [List.getElem?_eq_none (by omega), List.getElem?_eq_none (by omega)]

theorem sizesOk_strict {fs «as» : Nat} {ai : Ty} (h : sizesOk ⟨.generic, false, true, false, false⟩ fs «as» ai = true) (hn : fs ≠ 0) : fs = «as» := by
  simpa only [sizesOk, ne_eq, hn, not_false_eq_true, if_true, Bool.or_false, Bool.false_and, Bool.false_eq_true, if_false, beq_iff_eq] using h

theorem checkDims_sizes {fi : Ty} : ∀ {fs : Nat} {ai : Ty} {«as» : Nat} {fe ae : Ty},
    checkDims ⟨.generic, false, true, false, false⟩ fs fi ai «as» = some (fe, ae) →
    ∀ (i n : Nat), (Ty.array fi fs).dims[i]? = some n → n ≠ 0 → (Ty.array ai «as»).dims[i]? = some n := by
  induction fi with
  | array fi' fs' ih =>
    intro fs ai «as» fe ae hd i n hi hn
    unfold checkDims at hd
    split at hd
    · rename_i hok
      cases ai with
      | array ai' as' =>
        cases i with
        | zero =>
          simp only [Ty.dims, List.getElem?_cons_zero, Option.some.injEq] at hi ⊢
          subst hi
          exact (sizesOk_eq hok hn (fun h => nomatch h)).symm
        | succ i =>
          have := ih hd i n hi hn
          simpa only [Ty.dims, List.getElem?_cons_succ] using this
      | _ => cases hd
    · cases hd
  | _ =>
    intro fs ai «as» fe ae hd i n hi hn
    unfold checkDims at hd
    split at hd
    · rename_i hok
      cases i with
      | zero =>
        simp only [Ty.dims, List.getElem?_cons_zero, Option.some.injEq] at hi ⊢
        subst hi
        exact (sizesOk_strict hok hn).symm
      | succ i => simp [Ty.dims] at hi
    · cases hd

/-- What `CheckArrays` accepts in a signature is passed in the same way, unless the elements are `any` or there are sizes that the formal
type does not have. -/
theorem checkArrays_passing {E : Env} {fi : Ty} {fs : Nat} {a : Ty} (h : checkArrays E ⟨.generic, false, true, false, false⟩ fi fs a = true)
    (hf : fi.elt ≠ .builtin .any) (ha : a.elt ≠ .builtin .any) (hs : noNewSizes (.array fi fs) a) : passing E (.array fi fs) = passing E a := by
  unfold checkArrays at h
  split at h
  · rename_i ai «as»
    split at h
    · cases h
    · rename_i fe ae hd
      obtain ⟨h1, h2, h3, h4, h5, _⟩ := checkDims_ok fi fs ai «as» hd
      split at h
      · rename_i he
        have he := eq_of_beq he
        have h0 : ae.dims = [] := isArray_dims (he ▸ h2)
        rw [h0] at h5
        have hsz := checkDims_sizes hd
        have hdims := dims_eq (by simpa using h5) hsz hs
        show Passing.array (Ty.array fi fs).dims (stride E fi.elt) = Passing.array (Ty.array ai «as»).dims (stride E ai.elt)
        rw [hdims]
        congr 2
        show fi.elt = ai.elt
        rw [← h1, ← h4, ← he, elt_of_notArray h2]
      · have hfe : fe.is .any = false := by
          have : fe ≠ .builtin .any := h1 ▸ hf
          simpa [Ty.is] using this
        have hae : ae.is .any = false := by
          have : ae ≠ .builtin .any := fun e => ha (by show ai.elt = _; rw [← h4, e]; rfl)
          simpa [Ty.is] using this
        simp [hfe, hae] at h
  · simp at h

/-- An argument of a signature that is not about `any`. -/
theorem argument_passing {E : Env} {fuel : Nat} {f a : Ty} (h : checkImpl E fuel ⟨.generic, false, true, false, false⟩ f a = some true)
    (hf : f.elt ≠ .builtin .any) (ha : f.isArray = true → a.elt ≠ .builtin .any) (hs : noNewSizes f a) : passing E f = passing E a := by
  cases fuel with
  | zero => cases h
  | succ fuel =>
    unfold checkImpl at h
    split at h
    · simp only [Option.some.injEq] at h
      exact checkArrays_passing h hf (ha rfl) hs
    · rename_i hna
      simp only [Bool.false_eq_true, if_false] at h
      refine checkValue_passing h (fun e => hf (by rw [e]; rfl)) (fun _ hfn => checkFunction_actual hfn)

theorem checkArgs_ok {chk : Ty → Ty → Option Bool} : ∀ {fs as' : List Ty}, checkArgs chk fs as' = some true → as'.length ≤ fs.length →
    fs.length = as'.length ∧ ∀ (i : Nat) (f a : Ty), fs[i]? = some f → as'[i]? = some a → chk f a = some true := by
  intro fs
  induction fs with
  | nil =>
    intro as' _ hl
    cases as' with
    | nil => exact ⟨rfl, fun i f a h => by simp at h⟩
    | cons => cases hl
  | cons f fs ih =>
    intro as' h hl
    cases as' with
    | nil => cases h
    | cons a as' =>
      unfold checkArgs at h
      split at h
      · rename_i hc
        obtain ⟨h1, h2⟩ := ih h (by simpa using hl)
        refine ⟨by simp [h1], fun i f' a' hf ha => ?_⟩
        cases i with
        | zero => simp only [List.getElem?_cons_zero, Option.some.injEq] at hf ha; rw [← hf, ← ha]; exact hc
        | succ i => exact h2 i f' a' hf ha
      · rename_i r hr
        exact absurd h hr

theorem callable_of {E : Env} {fs as' : List Ty} (hl : fs.length = as'.length)
    (h : ∀ (i : Nat) (f a : Ty), fs[i]? = some f → as'[i]? = some a → passing E f = passing E a) : Callable E fs as' := by
  unfold Callable
  apply List.ext_getElem?
  intro i
  rw [List.getElem?_map, List.getElem?_map]
  by_cases hi : i < fs.length
  · have ha : i < as'.length := hl ▸ hi
    rw [List.getElem?_eq_getElem hi, List.getElem?_eq_getElem ha]
    exact congrArg some (h i _ _ (List.getElem?_eq_getElem hi) (List.getElem?_eq_getElem ha))
  · rw [List.getElem?_eq_none (by omega), List.getElem?_eq_none (by omega)]

theorem checkEntries_ok {chk : Ty → Ty → Option Bool} {actual : Sig} : ∀ {l : List Sig}, checkEntries chk actual l = some true →
    ∃ f ∈ l, checkSig chk f actual = some true := by
  intro l
  induction l with
  | nil => intro h; cases h
  | cons f l ih =>
    intro h
    unfold checkEntries at h
    split at h
    · obtain ⟨g, hg, hs⟩ := ih h
      exact ⟨g, List.mem_cons_of_mem _ hg, hs⟩
    · exact ⟨f, List.mem_cons_self, h⟩

theorem compareEntries_ok {cmp : Ty → Ty → Option Bool} {actual : Sig} : ∀ {l : List Sig}, compareEntries cmp actual l = some true →
    ∃ f ∈ l, functagCompare cmp f actual = some true := by
  intro l
  induction l with
  | nil => intro h; cases h
  | cons f l ih =>
    intro h
    unfold compareEntries at h
    split at h
    · obtain ⟨g, hg, hs⟩ := ih h
      exact ⟨g, List.mem_cons_of_mem _ hg, hs⟩
    · exact ⟨f, List.mem_cons_self, h⟩

theorem compareArgs_eq (cmp : Ty → Ty → Option Bool) : ∀ fs as' : List Ty, compareArgs cmp fs as' = checkArgs cmp fs as' := by
  intro fs
  induction fs with
  | nil => intro as'; cases as' <;> rfl
  | cons f fs ih =>
    intro as'
    cases as' with
    | nil => rfl
    | cons a as' =>
      unfold compareArgs checkArgs
      rw [ih]

theorem sameDims_ok : ∀ {f a fe ae : Ty}, sameDims f a = some (fe, ae) → f.dims = a.dims ∧ fe = f.elt ∧ ae = a.elt := by
  intro f
  induction f with
  | array f n ih =>
    intro a fe ae h
    cases a with
    | array a m =>
      unfold sameDims at h
      split at h
      · rename_i hnm
        obtain ⟨h1, h2, h3⟩ := ih h
        exact ⟨by simp [Ty.dims, hnm, h1], h2, h3⟩
      · cases h
    | _ => cases h
  | _ =>
    intro a fe ae h
    cases a with
    | array a m => cases h
    | _ => cases h; exact ⟨rfl, rfl, rfl⟩

theorem isObject_plain {t : Ty} (h : t.isObject = true) : t.plain = true := by
  cases t with
  | builtin b => cases b <;> first | rfl | cases h
  | _ => first | rfl | cases h

theorem isFunc_plain {t : Ty} (h : t.isFunc = true) : t.plain = true := by
  cases t <;> first | rfl | cases h

theorem plain_of {t : Ty} (h1 : t.isArray = false) (h2 : t.isRef = false) (h3 : t.isEnumStruct = false) (h4 : t.is .int64 = false) : t.plain = true := by
  cases t with
  | builtin b => cases b <;> first | rfl | (cases h4; done)
  | _ => first | rfl | (cases h1; done) | (cases h2; done) | (cases h3; done)

/-- What matchtag accepts in a signature: equal types, or plain ones. -/
theorem matchTag_plain {E : Env} {fn : Option Bool} {f a : Ty} (h : matchTag E fn f a = some true) (hr : f.isRef = a.isRef) (hfa : f.isArray = false)
    (haa : f = .builtin .any → a.isArray = false) (hfn : f.isFunc = true → fn = some true → a.plain = true) : f = a ∨ (f.plain = true ∧ a.plain = true) := by
  unfold matchTag at h
  split at h
  · rename_i he; exact .inl (eq_of_beq he)
  · split at h
    · rename_i hc
      simp only [Bool.and_eq_true] at hc
      rw [is_eq hc.1, is_eq hc.2]
      exact .inr ⟨rfl, rfl⟩
    · split at h
      · split at h
        · cases h
        · rename_i hno
          split at h
          · rename_i hn
            rw [is_eq hn]
            split at h
            · rename_i hfo
              simp only [Bool.or_eq_true] at hfo
              rcases hfo with hfo | hfo
              · exact .inr ⟨isFunc_plain hfo, rfl⟩
              · exact .inr ⟨isObject_plain hfo, rfl⟩
            · split at h
              · exact .inr ⟨rfl, rfl⟩
              · cases h
          · simp only [Option.some.injEq] at h
            simp only [h, Bool.true_and, Bool.not_eq_true', Bool.not_eq_false', Bool.not_eq_true, Bool.not_eq_false, Bool.or_eq_true] at hno
            exact .inr ⟨isObject_plain h, hno.elim isObject_plain isFunc_plain⟩
      · split at h
        · cases h
        · split at h
          · cases h
          · rename_i h64
            simp only [Bool.or_eq_true, not_or, Bool.not_eq_true] at h64
            split at h
            · cases h
            · rename_i hes
              simp only [Bool.or_eq_true, not_or, Bool.not_eq_true] at hes
              split at h
              · rename_i ha
                have ha := is_eq ha
                subst ha
                exact .inr ⟨plain_of hfa hr hes.1 h64.2, rfl⟩
              · split at h
                · rename_i hf
                  have hf := is_eq hf
                  subst hf
                  exact .inr ⟨rfl, plain_of (haa rfl) hr.symm hes.2 h64.1⟩
                · split at h
                  · rename_i hff
                    exact .inr ⟨isFunc_plain hff, hfn hff h⟩
                  · simp only [Option.some.injEq, Bool.or_eq_true] at h
                    rcases h with h | h
                    · exact .inr (onChain_plain h).symm
                    · exact .inr (onChain_plain h)

theorem matchFunc_plain {E : Env} {fuel : Nat} {f a : Ty} (h : matchFunc E fuel f a = some true) : a.plain = true := by
  cases fuel with
  | zero => cases h
  | succ fuel =>
    unfold matchFunc at h
    split at h
    · rename_i hc
      simp only [Bool.and_eq_true] at hc
      exact isFunc_plain hc.2
    · split at h
      · rename_i hn; rw [is_eq hn]; rfl
      · split at h
        · rfl
        · cases h

theorem funcarg_passing {E : Env} {fuel : Nat} {f a : Ty} (h : funcargCompare E (matchFunc E fuel) f a = some true) (haa : f = .builtin .any → a.isArray = false) :
    passing E f = passing E a := by
  unfold funcargCompare at h
  split at h
  · rename_i he; rw [eq_of_beq he]
  · simp only at h
    split at h
    · rename_i hfa
      split at h
      · cases h
      · cases h
      · rename_i hv
        split at h
        · cases h
        · rename_i fe ae hd
          obtain ⟨h1, h2, h3⟩ := sameDims_ok hd
          split at h
          · cases h
          · rename_i hr
            have hr' : fe.isRef = ae.isRef := by simpa using hr
            cases f with
            | array fi fs =>
              cases a with
              | array ai «as» =>
                show Passing.array (Ty.array fi fs).dims (stride E fi.elt) = Passing.array (Ty.array ai «as»).dims (stride E ai.elt)
                rw [h1]
                congr 1
                simp only [validCast, Option.some.injEq, Bool.or_eq_true, Bool.and_eq_true, Bool.not_eq_true', beq_iff_eq] at hv
                have hfe : fe = fi.elt := h2
                have hae : ae = ai.elt := h3
                have hlen : fi.dims.length = ai.dims.length := by
                  have := congrArg List.length h1
                  simpa [Ty.dims] using this
                rw [← hfe, ← hae]
                rcases hv with (⟨hv, hc⟩ | ⟨hv, hc⟩) | hv
                · have hv := is_eq hv
                  subst hv
                  have h0 : ai.elt = ai := elt_idem (by rw [← hlen]; rfl)
                  have hfe' : fe = .builtin .any := hfe
                  have hae' : ae = ai := hae.trans h0
                  subst hfe'; subst hae'
                  have h0' : ae.isArray = false := by
                    cases ae with
                    | array => simp [Ty.dims] at hlen
                    | _ => rfl
                  rcases matchTag_plain h hr' rfl (fun _ => h0') (fun hx => nomatch hx) with he | ⟨_, hp⟩
                  · rw [he]
                  · cases ae with
                    | builtin b => cases b <;> first | rfl | (cases hc; done) | (cases hp; done)
                    | array => cases h0'
                    | enumStruct => cases hp
                    | _ => rfl
                · have hv := is_eq hv
                  subst hv
                  have h0 : fi.elt = fi := elt_idem (by rw [hlen]; rfl)
                  have hae' : ae = .builtin .any := hae
                  have hfe' : fe = fi := hfe.trans h0
                  subst hfe'; subst hae'
                  have h0' : fe.isArray = false := by
                    cases fe with
                    | array => simp [Ty.dims] at hlen
                    | _ => rfl
                  rcases matchTag_plain h hr' h0' (fun _ => rfl) (fun _ hx => matchFunc_plain hx) with he | ⟨hp, _⟩
                  · rw [he]
                  · cases fe with
                    | builtin b => cases b <;> first | rfl | (cases hc; done) | (cases hp; done)
                    | array => cases h0'
                    | enumStruct => cases hp
                    | _ => rfl
                · rw [hfe, hae, hv]
              | _ => cases hv
            | _ => cases hfa
    · rename_i hfa
      have hfa : f.isArray = false := by simpa using hfa
      split at h
      · cases h
      · rename_i hr
        have hr' : f.isRef = a.isRef := by simpa using hr
        rcases matchTag_plain h hr' hfa haa (fun _ hx => matchFunc_plain hx) with he | ⟨h1, h2⟩
        · rw [he]
        · rw [passing_plain E h1, passing_plain E h2]

/-! ## The property -/

/-- **C75**, for a function that is passed as an argument: if it is accepted for a function type, one of the signatures of the type says
that it is given exactly what it takes.  Missing: functions that return `int` (`C75_int_return_unchecked`), parameters of type `any` or
with `any` elements (`C75_any_takes_reference`, `C75_any_takes_array`, `C75_any_elements`), and arrays that get a size
(`C75_sizes_appear`). -/
theorem C75_argument_partial {E : Env} {fuel fid aid : Nat} {actual : Sig} (h : coerce E fuel .argument (.func (some fid)) (.func (some aid)) = some true)
    (hlast : (E.sigs aid).getLast? = some actual) (hret : actual.ret ≠ .builtin .int)
    (hargs : ∀ formal ∈ E.sigs fid, ∀ (i : Nat) (f a : Ty), formal.args[i]? = some f → actual.args[i]? = some a →
      f.elt ≠ .builtin .any ∧ (f.isArray = true → a.elt ≠ .builtin .any) ∧ noNewSizes f a) :
    ∃ formal ∈ E.sigs fid, formal.ret = actual.ret ∧ formal.variadic = actual.variadic ∧ Callable E formal.args actual.args := by
  by_cases hid : fid = aid
  · subst hid
    exact ⟨actual, List.mem_of_getLast? hlast, rfl, rfl, rfl⟩
  · cases fuel with
    | zero => cases h
    | succ fuel =>
      unfold coerce checkImpl at h
      simp only [if_true, Ty.strip] at h
      unfold checkValue at h
      have hne : (Ty.func (some fid) == Ty.func (some aid)) = false := by simpa using hid
      simp only [hne] at h
      simp only [Ty.isEnumStruct, Ty.isObject, Bool.false_eq_true, if_false, Ty.is, Ty.isFunc, if_true,
        show (Ty.func (some aid) == Ty.builtin Bt.null) = false from rfl, show (Ty.func (some aid) == Ty.builtin Bt.int64) = false from rfl,
        show (Ty.func (some fid) == Ty.builtin Bt.int64) = false from rfl, show (Ty.func (some fid) == Ty.builtin Bt.int) = false from rfl,
        show (Ty.func (some fid) == Ty.builtin Bt.any) = false from rfl, show (Ty.func (some fid) == Ty.builtin Bt.bool) = false from rfl,
        show (Ty.func (some aid) == Ty.builtin Bt.any) = false from rfl, Bool.or_false, Bool.false_and, Bool.and_false] at h
      unfold checkFunction at h
      simp only [show (Ty.func (some fid) == Ty.func none) = false from rfl, Bool.false_and, Bool.false_eq_true, if_false, Ty.is,
        show (Ty.func (some aid) == Ty.builtin Bt.null) = false from rfl, hlast] at h
      obtain ⟨formal, hm, hs⟩ := checkEntries_ok h
      unfold checkSig at hs
      split at hs
      · simp only [Option.some.injEq, Bool.and_eq_true] at hs
        exact absurd (is_eq hs.2) hret
      · rename_i hr
        split at hs
        · cases hs
        · rename_i hv
          split at hs
          · cases hs
          · rename_i hl
            obtain ⟨h1, h2⟩ := checkArgs_ok hs (by omega)
            refine ⟨formal, hm, Decidable.not_not.1 hr, Decidable.not_not.1 hv, callable_of h1 fun i f a hf ha => ?_⟩
            obtain ⟨g1, g2, g3⟩ := hargs formal hm i f a hf ha
            exact argument_passing (h2 i f a hf ha) g1 g2 g3

/-- **C75**, for a function that is assigned to a variable of a function type: if it is accepted, one of the signatures of the type says that
it is given exactly what it takes.  It may return `int` where nothing is expected.  Missing: arrays for `any` (`C75_any_takes_array`). -/
theorem C75_assignment_partial {E : Env} {fuel fid aid : Nat} {actual : Sig} (h : matchFunc E fuel (.func (some fid)) (.func (some aid)) = some true)
    (hlast : (E.sigs aid).getLast? = some actual)
    (hargs : ∀ formal ∈ E.sigs fid, ∀ (i : Nat) (f a : Ty), formal.args[i]? = some f → actual.args[i]? = some a → f = .builtin .any → a.isArray = false) :
    ∃ formal ∈ E.sigs fid, (formal.ret = actual.ret ∨ formal.ret = .builtin .void ∧ actual.ret = .builtin .int) ∧ formal.variadic = actual.variadic ∧
      Callable E formal.args actual.args := by
  cases fuel with
  | zero => cases h
  | succ fuel =>
    unfold matchFunc at h
    simp only [show (Ty.func (some fid) == Ty.func none) = false from rfl, Bool.false_and, Bool.false_eq_true, if_false, Ty.is,
      show (Ty.func (some aid) == Ty.builtin Bt.null) = false from rfl, hlast] at h
    obtain ⟨formal, hm, hs⟩ := compareEntries_ok h
    unfold functagCompare at hs
    split at hs
    · cases hs
    · rename_i hr
      split at hs
      · cases hs
      · rename_i hl
        split at hs
        · cases hs
        · rename_i hv
          rw [compareArgs_eq] at hs
          obtain ⟨h1, h2⟩ := checkArgs_ok hs (by omega)
          refine ⟨formal, hm, ?_, (Decidable.not_not.1 hv).symm, callable_of h1 fun i f a hf ha => funcarg_passing (h2 i f a hf ha) (hargs formal hm i f a hf ha)⟩
          simp only [Bool.not_eq_true', Bool.not_eq_false, Bool.or_eq_true, Bool.and_eq_true, beq_iff_eq] at hr
          exact hr.imp id fun h => ⟨is_eq h.1, is_eq h.2⟩

/-! ## Examples, and where the code does not keep it -/

def int : Ty := .builtin .int
def void : Ty := .builtin .void
def any : Ty := .builtin .any

/-- A program with one signature for each function type. -/
def sigEnv (l : List Sig) : Env := ⟨fun i => (l[i]?.map fun s => [s]).getD [], fun m => [m], fun _ => false, fun _ => 3⟩

/-- `function void(int[], methodmap)` for `void f(int[], methodmap)`. -/
def okEnv : Env := sigEnv [⟨void, [ints 0, .methodmap 1], false⟩, ⟨void, [ints 0, .methodmap 1], false⟩]

example : coerce okEnv 2 .argument (.func (some 0)) (.func (some 1)) = some true ∧ matchFunc okEnv 2 (.func (some 0)) (.func (some 1)) = some true := by
  constructor <;> decide +kernel

example : ∀ formal ∈ okEnv.sigs 0, ∀ (i : Nat) (f a : Ty), formal.args[i]? = some f → [ints 0, .methodmap 1][i]? = some a →
    f.elt ≠ .builtin .any ∧ (f.isArray = true → a.elt ≠ .builtin .any) ∧ noNewSizes f a := by
  intro formal hm i f a hf ha
  have : formal = ⟨void, [ints 0, .methodmap 1], false⟩ := by simpa [okEnv, sigEnv] using hm
  subst this
  rcases i with _ | _ | i
  · simp only [List.getElem?_cons_zero, Option.some.injEq] at hf ha
    subst hf; subst ha
    refine ⟨by decide, fun _ => by decide, ?_⟩
    rintro (_ | i) n hi hn
    · simp [ints, Ty.dims] at hi; exact absurd hi.symm hn
    · simp [ints, Ty.dims] at hi
  · simp only [List.getElem?_cons_succ, List.getElem?_cons_zero, Option.some.injEq] at hf ha
    subst hf; subst ha
    exact ⟨by decide, fun _ => by decide, fun i n hi => by simp [Ty.dims] at hi⟩
  · simp at hf

/-- `int f(char[] s, int64 x, int y)` is accepted for `function void(int)`: the arguments of a function that returns `int` are not looked
at. -/
theorem C75_int_return_unchecked :
    let E := sigEnv [⟨void, [int], false⟩, ⟨int, [chars 0, .builtin .int64, int], false⟩]
    coerce E 2 .argument (.func (some 0)) (.func (some 1)) = some true ∧ ¬ Callable E [int] [chars 0, .builtin .int64, int] := by
  exact ⟨by decide +kernel, by unfold Callable; decide +kernel⟩

/-- `void f(int &x)` is accepted for `function void(any)` as an argument: it takes what it is given for an address.  In an assignment it is
refused. -/
theorem C75_any_takes_reference :
    let E := sigEnv [⟨void, [any], false⟩, ⟨void, [.ref int], false⟩]
    coerce E 2 .argument (.func (some 0)) (.func (some 1)) = some true ∧ matchFunc E 2 (.func (some 0)) (.func (some 1)) = some false ∧
    ¬ Callable E [any] [.ref int] := by
  exact ⟨by decide +kernel, by decide +kernel, by unfold Callable; decide +kernel⟩

/-- `void f(int[] x)` is accepted for `function void(any)`. -/
theorem C75_any_takes_array :
    let E := sigEnv [⟨void, [any], false⟩, ⟨void, [ints 0], false⟩]
    coerce E 2 .argument (.func (some 0)) (.func (some 1)) = some true ∧ matchFunc E 2 (.func (some 0)) (.func (some 1)) = some true ∧
    ¬ Callable E [any] [ints 0] := by
  exact ⟨by decide +kernel, by decide +kernel, by unfold Callable; decide +kernel⟩

/-- `void f(int64[] x)` is accepted for `function void(any[])` as an argument. -/
theorem C75_any_elements :
    let E := sigEnv [⟨void, [.array any 0], false⟩, ⟨void, [.array (.builtin .int64) 0], false⟩]
    coerce E 2 .argument (.func (some 0)) (.func (some 1)) = some true ∧ ¬ Callable E [.array any 0] [.array (.builtin .int64) 0] := by
  exact ⟨by decide +kernel, by unfold Callable; decide +kernel⟩

/-- `void f(int x[10])` is accepted for `function void(int[])` as an argument. -/
theorem C75_sizes_appear :
    let E := sigEnv [⟨void, [ints 0], false⟩, ⟨void, [ints 10], false⟩]
    coerce E 2 .argument (.func (some 0)) (.func (some 1)) = some true ∧ ¬ Callable E [ints 0] [ints 10] := by
  exact ⟨by decide +kernel, by unfold Callable; decide +kernel⟩

/-- `typedef A = function void(A); typedef B = function void(B);`: the compiler does not come to an answer whether a `B` is an `A`. -/
def loopEnv : Env := sigEnv [⟨void, [.func (some 0)], false⟩, ⟨void, [.func (some 1)], false⟩]

theorem loop_none : ∀ fuel q, checkImpl loopEnv fuel q (.func (some 0)) (.func (some 1)) = none
  | 0, _ => rfl
  | fuel + 1, ⟨w, c, fa, e, t⟩ => by
    have ih := loop_none fuel ⟨.generic, false, true, false, false⟩
    unfold checkImpl
    have h : checkFunction loopEnv (checkImpl loopEnv fuel ⟨.generic, false, true, false, false⟩) (.func (some 0)) (.func (some 1)) = none := by
      show checkEntries (checkImpl loopEnv fuel _) ⟨void, [.func (some 1)], false⟩ [⟨void, [.func (some 0)], false⟩] = none
      unfold checkEntries checkSig
      simp [checkArgs, ih]
    simp only [h]
    cases c <;> rfl

theorem C75_recursive_no_answer : ∀ fuel, coerce loopEnv fuel .argument (.func (some 0)) (.func (some 1)) = none :=
  fun fuel => loop_none fuel _

/-- `void f(int x)` assigned to a variable of type `function void(int[])`: the comparison takes the inner type of `int`, which has none. -/
theorem C75_assignment_inner_of_int :
    ∀ fuel, matchFunc (sigEnv [⟨void, [ints 0], false⟩, ⟨void, [int], false⟩]) fuel (.func (some 0)) (.func (some 1)) = none
  | 0 => rfl
  | _ + 1 => rfl

end Verif.Types

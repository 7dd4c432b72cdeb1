import Verif.Proofs.Binding

/-!
# C78: arguments reach the parameters they are written for

`bind f fits this ws` is what the compiler passes for the call with the arguments `ws` (compiler/parser.cpp parse_call, compiler/semantics.cpp
CheckCallExpr); `Legal` and `passed` (Verif/Spec/Binding.lean) say which calls can be understood, and what they pass.
-/
namespace Verif.Binding

variable {E : Type}

/-- A call is accepted if and only if it can be understood, and then every parameter gets the argument in its position, the argument with its name, or its
own default value, and `...` gets what is left.

Missing: arguments `.name = _` (see `C78_named_default`, `C78_named_default_refused`). -/
theorem C78_arguments_partial {f : Sig} {fits : Nat → E → Bool} {this : Option E} {ws : List (Written E)} (ht : this = none ∨ f.params ≠ [])
    (hv : ∀ w ∈ ws, w.name.isSome = true → w.value.isSome = true) (out : List (Option (Slot E))) :
    bind f fits this ws = some out ↔ Legal f fits this ws ∧ out = (passed f this ws).map some := by
  constructor
  · exact bind_sound ht hv
  · rintro ⟨hl, rfl⟩
    obtain ⟨out, ho⟩ := bind_complete ht hv hl
    rw [ho, (bind_sound ht hv ho).2]

/-- Nothing is checked as one parameter and passed as another. -/
theorem C78_own_parameter_partial {f : Sig} {fits : Nat → E → Bool} {this : Option E} {ws : List (Written E)} (ht : this = none ∨ f.params ≠ [])
    (hv : ∀ w ∈ ws, w.name.isSome = true → w.value.isSome = true) {out : List (Option (Slot E))} (h : bind f fits this ws = some out) (i : Nat) (x : Option (Slot E))
    (hx : out[i]? = some x) :
    (∃ e, x = some (.given e (min i f.params.length)) ∧ fits (min i f.params.length) e = true) ∨
      (x = some (.default i) ∧ ∃ p, f.params[i]? = some p ∧ p.hasDefault = true) := by
  obtain ⟨hl, rfl⟩ := bind_sound ht hv h
  rw [List.getElem?_map] at hx
  obtain ⟨y, hy, rfl⟩ := Option.map_eq_some_iff.1 hx
  unfold passed at hy
  by_cases hi : i < f.params.length
  · rw [List.getElem?_append_left (by simp; exact hi), List.getElem?_map, List.getElem?_range hi] at hy
    simp only [Option.map_some, Option.some.injEq] at hy
    subst hy
    have hea := hl.each i _ (List.getElem?_eq_getElem hi)
    unfold received
    cases ha : argFor f this ws i with
    | some e =>
      rw [ha] at hea
      left
      rw [show min i f.params.length = i by omega]
      exact ⟨e, rfl, hea⟩
    | none =>
      rw [ha] at hea
      exact Or.inr ⟨rfl, _, List.getElem?_eq_getElem hi, hea⟩
  · rw [List.getElem?_append_right (by simp; omega), List.getElem?_map] at hy
    obtain ⟨e, he, rfl⟩ := Option.map_eq_some_iff.1 hy
    have hm := List.mem_iff_getElem?.2 ⟨_, he⟩
    obtain ⟨z, hz, hze⟩ := List.mem_filterMap.1 hm
    obtain ⟨e', rfl, hf⟩ := hl.extras z hz
    cases hze
    left
    rw [show min i f.params.length = f.params.length by omega]
    exact ⟨e, rfl, hf⟩

theorem byName_append {ps ns : List (Written E)} (hp : ∀ w ∈ ps, w.name = none) (hn : ∀ w ∈ ns, w.name.isSome = true) : byName (ps ++ ns) = ns := by
  unfold byName
  rw [List.dropWhile_append_of_pos (fun w hw => by rw [hp w hw]; rfl)]
  cases ns with
  | nil => rfl
  | cons w ns =>
    rw [List.dropWhile_cons_of_neg]
    have := hn w (by simp)
    cases hw : w.name with
    | none => rw [hw] at this; exact absurd this (fun h => nomatch h)
    | some n => simp

theorem positional_append {this : Option E} {ps ns : List (Written E)} (hp : ∀ w ∈ ps, w.name = none) (hn : ∀ w ∈ ns, w.name.isSome = true) :
    positional this (ps ++ ns) = (this.map some).toList ++ ps.map (·.value) := by
  unfold positional
  rw [List.takeWhile_append_of_pos (fun w hw => by rw [hp w hw]; rfl)]
  cases ns with
  | nil => simp
  | cons w ns =>
    rw [List.takeWhile_cons_of_neg]
    · simp
    · have := hn w (by simp)
      cases hw : w.name with
      | none => rw [hw] at this; exact absurd this (fun h => nomatch h)
      | some n => simp

/-- The order in which arguments are named does not matter. -/
theorem C78_order_partial {f : Sig} {fits : Nat → E → Bool} {this : Option E} {ps ns ms : List (Written E)} (ht : this = none ∨ f.params ≠ [])
    (hp : ∀ w ∈ ps, w.name = none) (hn : ∀ w ∈ ns, w.name.isSome = true ∧ w.value.isSome = true) (hperm : ns.Perm ms) :
    bind f fits this (ps ++ ns) = bind f fits this (ps ++ ms) := by
  have key : ∀ {ns ms : List (Written E)}, (∀ w ∈ ns, w.name.isSome = true ∧ w.value.isSome = true) → ns.Perm ms → ∀ out,
      bind f fits this (ps ++ ns) = some out → bind f fits this (ps ++ ms) = some out := by
    intro ns ms hn hperm out h
    have hm : ∀ w ∈ ms, w.name.isSome = true ∧ w.value.isSome = true := fun w hw => hn w (hperm.mem_iff.2 hw)
    have hbn := byName_append hp fun w hw => (hn w hw).1
    have hbm := byName_append hp fun w hw => (hm w hw).1
    have hpn := positional_append (this := this) hp fun w hw => (hn w hw).1
    have hpm := positional_append (this := this) hp fun w hw => (hm w hw).1
    have hv : ∀ {ns : List (Written E)}, (∀ w ∈ ns, w.name.isSome = true ∧ w.value.isSome = true) →
        ∀ w ∈ ps ++ ns, w.name.isSome = true → w.value.isSome = true := by
      intro ns hn w hw hs
      rcases List.mem_append.1 hw with h | h
      · rw [hp w h] at hs; exact absurd hs (fun h => nomatch h)
      · exact (hn w h).2
    rw [C78_arguments_partial ht (hv hn)] at h
    rw [C78_arguments_partial ht (hv hm)]
    obtain ⟨hl, rfl⟩ := h
    have hnd := hl.once
    rw [hbn] at hnd
    have hnd' : (ms.map fun w => w.name.bind f.find).Nodup := (hperm.map _).nodup_iff.1 hnd
    have harg : ∀ i, argFor f this (ps ++ ns) i = argFor f this (ps ++ ms) i := by
      intro i
      unfold argFor
      rw [hpn, hpm, hbn, hbm]
      split
      · rfl
      · congr 1
        cases hc : ns.find? fun w => w.name.bind f.find == some i with
        | some w =>
          have hq := List.find?_some hc
          simp only [beq_iff_eq] at hq
          exact (find_unique hnd' (hperm.mem_iff.1 (List.mem_of_find?_eq_some hc)) hq).symm
        | none =>
          refine (List.find?_eq_none.2 fun w hw => ?_).symm
          exact List.find?_eq_none.1 hc w (hperm.mem_iff.2 hw)
    have hextra : extra f this (ps ++ ns) = extra f this (ps ++ ms) := by unfold extra; rw [hpn, hpm]
    refine ⟨⟨?_, ?_, ?_, ?_, ?_, ?_, ?_⟩, ?_⟩
    · rw [hbm]; exact fun w hw => (hm w hw).1
    · rw [hbm, hpm]
      intro w hw
      have := hl.names w (by rw [hbn]; exact hperm.mem_iff.2 hw)
      rwa [hpn] at this
    · rw [hbm]; exact hnd'
    · rw [hpm]; have := hl.count; rwa [hpn] at this
    · rw [hpm]; have := hl.limit; rwa [hpn] at this
    · rw [← hextra]; exact hl.extras
    · intro i p hi
      have := hl.each i p hi
      rwa [harg] at this
    · congr 1
      unfold passed
      rw [hextra]
      congr 1
      apply List.map_congr_left
      intro i _
      unfold received
      rw [harg]
  have h1 := key hn hperm
  have h2 := key (fun w hw => hn w (hperm.mem_iff.2 hw)) hperm.symm
  cases ha : bind f fits this (ps ++ ns) with
  | some out => exact (h1 out ha).symm
  | none =>
    cases hb : bind f fits this (ps ++ ms) with
    | none => rfl
    | some out => rw [h2 out hb] at ha; exact absurd ha (fun h => nomatch h)

/-- `void f(int a, int b = 2, any ...)` -/
def exF : Sig := { params := [⟨10, false⟩, ⟨11, true⟩], variadic := true }

/-- `f(.b = 5, .a = 6)` and `f(6, _, 7, 8)` -/
example : bind exF (fun _ _ => true) none [⟨some 11, some 5⟩, ⟨some 10, some 6⟩] = some [some (.given 6 0), some (.given 5 1)] := by decide
example : bind exF (fun _ _ => true) none [⟨none, some 6⟩, ⟨none, none⟩, ⟨none, some 7⟩, ⟨none, some 8⟩] =
    some [some (.given 6 0), some (.default 1), some (.given 7 2), some (.given 8 2)] := by decide
/-- `x.f(.b = 5)`, and calls that are refused: `f()`, `f(1, .a = 2)`, `f(.a = 1, 2)`, `f(1, .c = 2)` -/
example : bind exF (fun _ _ => true) (some 6) [⟨some 11, some 5⟩] = some [some (.given 6 0), some (.given 5 1)] := by decide
example : bind (E := Nat) exF (fun _ _ => true) none [] = none ∧ bind exF (fun _ _ => true) none [⟨none, some 1⟩, ⟨some 10, some 2⟩] = none ∧
    bind exF (fun _ _ => true) none [⟨some 10, some 1⟩, ⟨none, some 2⟩] = none ∧
    bind exF (fun _ _ => true) none [⟨none, some 1⟩, ⟨some 12, some 2⟩] = none := by decide
/-- The hypotheses are met. -/
example : bind exF (fun _ _ => true) none ([] ++ [⟨some 11, some 5⟩, ⟨some 10, some 6⟩]) =
    bind exF (fun _ _ => true) none ([] ++ [⟨some 10, some 6⟩, ⟨some 11, some 5⟩]) :=
  C78_order_partial (Or.inl rfl) (by decide) (by decide) (List.Perm.swap _ _ _)

/-- `void g(int a = 1, int b = 2, int c = 3, int d = 4)` -/
def exG : Sig := { params := [⟨10, true⟩, ⟨11, true⟩, ⟨12, true⟩, ⟨13, true⟩], variadic := false }

/-- `g(.c = 9, .a = _)` passes the default value of `d` for `b`. -/
theorem C78_named_default :
    bind exG (fun _ _ => true) none [⟨some 12, some 9⟩, ⟨some 10, none⟩] =
        some [some (.default 0), some (.default 3), some (.given 9 2), some (.default 3)] ∧
      passed exG none [⟨some 12, some 9⟩, ⟨some 10, none⟩] = [.default 0, .default 1, .given 9 2, .default 3] := by decide

/-- `g(.d = 9, .a = _)` is refused: too many arguments. -/
theorem C78_named_default_refused :
    bind exG (fun _ _ => true) none [⟨some 13, some 9⟩, ⟨some 10, none⟩] = none ∧
      Legal exG (fun _ _ => true) none [⟨some 13, some 9⟩, ⟨some 10, none⟩] := by
  refine ⟨by decide, ?_⟩
  refine ⟨by decide, ?_, by decide, Or.inl (by decide), by decide, by simp [extra, positional], ?_⟩
  · intro w hw
    have : w = ⟨some 13, some 9⟩ ∨ w = ⟨some 10, none⟩ := by simpa [byName] using hw
    rcases this with rfl | rfl
    · exact ⟨3, by decide, by decide, by decide⟩
    · exact ⟨0, by decide, by decide, by decide⟩
  · intro i p hi
    match i with
    | 0 => cases hi; rfl
    | 1 => cases hi; rfl
    | 2 => cases hi; rfl
    | 3 => cases hi; rfl
    | n + 4 => exact absurd hi (by simp [exG])

end Verif.Binding

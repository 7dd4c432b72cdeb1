import Verif.Spec.Binding

namespace Verif.Binding

variable {E : Type}

/-- What is in a place. -/
def G (argv : List (Option (Slot E))) (i : Nat) : Option (Slot E) := (argv[i]?).join

theorem put_length (argv : List (Option (Slot E))) (p : Nat) (x : Slot E) : (put argv p x).length = max argv.length (p + 1) := by
  simp only [put, List.length_set, List.length_append, List.length_replicate]; omega

theorem G_put (argv : List (Option (Slot E))) (p : Nat) (x : Slot E) (i : Nat) : G (put argv p x) i = if i = p then some x else G argv i := by
  unfold G put
  rw [List.getElem?_set]
  by_cases h : p = i
  · subst h
    rw [if_pos rfl, if_pos rfl, if_pos]
    · rfl
    · simp only [List.length_append, List.length_replicate]; omega
  · rw [if_neg h, if_neg (fun hh => h hh.symm)]
    rw [List.getElem?_append]
    split
    · rfl
    · rename_i hlt
      rw [List.getElem?_eq_none (by omega : argv.length ≤ i), List.getElem?_replicate]
      split <;> rfl

theorem put_end (argv : List (Option (Slot E))) (x : Slot E) : put argv argv.length x = argv ++ [some x] := by
  unfold put
  rw [show argv.length + 1 - argv.length = 1 by omega]
  simp

theorem place_eq_some {f : Sig} {st st' : St E} {p k : Nat} {x : Option (Slot E)} :
    place f st p k x = some st' ↔ p < maxArgs ∧ G st.argv p = none ∧ ∃ s, x = some s ∧
      st' = { argv := put st.argv p s, nargs := st.nargs + 1, argidx := if k < f.params.length then k + 1 else k } := by
  unfold place
  by_cases h1 : maxArgs ≤ p
  · rw [if_pos h1]
    exact ⟨(fun h => nomatch h), fun h => absurd h.1 (by omega)⟩
  · rw [if_neg h1]
    have h1' : p < maxArgs := by omega
    unfold G
    cases hg : (st.argv[p]?).join with
    | some y => simp
    | none =>
      cases x with
      | none => simp
      | some s => simp [h1', eq_comm]

/-! ### Arguments by position -/

def Written.ofPos (v : Option E) : Arg E := match v with | some e => .expr e | none => .dflt

/-- What an argument at the position `n` passes. -/
def slotOf (f : Sig) (n : Nat) : Option E → Slot E
  | some e => .given e (min n f.params.length)
  | none => .default (min n f.params.length)

/-- When it is accepted. -/
def PosOk (f : Sig) (fits : Nat → E → Bool) (n : Nat) (v : Option E) : Prop :=
  n < maxArgs ∧ (n < f.params.length ∨ f.variadic = true) ∧
    match v with
    | some e => fits (min n f.params.length) e = true
    | none => ∃ p, f.params[n]? = some p ∧ p.hasDefault = true

theorem size_le {f : Sig} {n : Nat} : f.size ≤ min n f.params.length ↔ ¬ (n < f.params.length ∨ f.variadic = true) := by
  unfold Sig.size
  cases f.variadic <;> simp <;> omega

theorem G_end (argv : List (Option (Slot E))) : G argv argv.length = none := by
  unfold G; rw [List.getElem?_eq_none (Nat.le_refl _)]; rfl

theorem next_idx {f : Sig} {n : Nat} : (if min n f.params.length < f.params.length then min n f.params.length + 1 else min n f.params.length) =
    min (n + 1) f.params.length := by
  split <;> omega

theorem checkDefault_eq {f : Sig} {n : Nat} {s : Slot E} :
    checkDefault f (min n f.params.length) = some s ↔ (∃ p, f.params[n]? = some p ∧ p.hasDefault = true) ∧ s = .default (min n f.params.length) := by
  unfold checkDefault
  by_cases h : n < f.params.length
  · rw [show min n f.params.length = n by omega]
    cases hp : f.params[n]? with
    | none => simp
    | some p =>
      constructor
      · intro h
        by_cases hd : p.hasDefault = true
        · simp only [hd, if_true, Option.some.injEq] at h
          exact ⟨⟨p, rfl, hd⟩, h.symm⟩
        · simp only [hd] at h
          exact absurd h (fun h => nomatch h)
      · rintro ⟨⟨q, hq, hd⟩, rfl⟩
        cases hq
        simp only [hd, if_true]
  · rw [show min n f.params.length = f.params.length by omega, List.getElem?_eq_none (Nat.le_refl _), List.getElem?_eq_none (by omega)]
    simp

theorem step_pos {f : Sig} {fits : Nat → E → Bool} {argv : List (Option (Slot E))} {n : Nat} (hn : argv.length = n) (v : Option E) (st' : St E) :
    step f fits { argv := argv, nargs := n, argidx := min n f.params.length } (Written.ofPos v) = some st' ↔
      PosOk f fits n v ∧ st' = { argv := argv ++ [some (slotOf f n v)], nargs := n + 1, argidx := min (n + 1) f.params.length } := by
  subst hn
  cases v with
  | some e =>
    simp only [Written.ofPos, step, PosOk, slotOf]
    by_cases hs : f.size ≤ min argv.length f.params.length
    · rw [if_pos hs]
      exact ⟨(fun h => nomatch h), fun h => absurd h.1.2.1 (size_le.1 hs)⟩
    · rw [if_neg hs, place_eq_some]
      have h2 : argv.length < f.params.length ∨ f.variadic = true := Classical.byContradiction fun h => hs (size_le.2 h)
      simp only [G_end, next_idx, checkGiven, true_and]
      constructor
      · rintro ⟨h1, s, h3, rfl⟩
        by_cases hf : fits (min argv.length f.params.length) e = true
        · rw [if_pos hf] at h3
          cases h3
          exact ⟨⟨h1, h2, hf⟩, by rw [put_end]⟩
        · rw [if_neg hf] at h3
          exact absurd h3 (fun h => nomatch h)
      · rintro ⟨⟨h1, _, h3⟩, rfl⟩
        exact ⟨h1, _, if_pos h3, by rw [put_end]⟩
  | none =>
    simp only [Written.ofPos, step, PosOk, slotOf]
    by_cases hs : f.size ≤ min argv.length f.params.length
    · rw [if_pos hs]
      exact ⟨(fun h => nomatch h), fun h => absurd h.1.2.1 (size_le.1 hs)⟩
    · rw [if_neg hs, place_eq_some]
      have h2 : argv.length < f.params.length ∨ f.variadic = true := Classical.byContradiction fun h => hs (size_le.2 h)
      simp only [G_end, next_idx, true_and, checkDefault_eq]
      constructor
      · rintro ⟨h1, s, ⟨h3, rfl⟩, rfl⟩
        exact ⟨⟨h1, h2, h3⟩, by rw [put_end]⟩
      · rintro ⟨⟨h1, _, h3⟩, rfl⟩
        exact ⟨h1, _, ⟨h3, rfl⟩, by rw [put_end]⟩

/-- What the arguments by position pass, from the position `n`. -/
def slotsOf (f : Sig) : Nat → List (Option E) → List (Slot E)
  | _, [] => []
  | n, v :: vs => slotOf f n v :: slotsOf f (n + 1) vs

theorem slotsOf_length (f : Sig) : ∀ (vs : List (Option E)) (n : Nat), (slotsOf f n vs).length = vs.length
  | [], _ => rfl
  | _ :: vs, n => by simp only [slotsOf, List.length_cons, slotsOf_length f vs]

theorem slotsOf_get (f : Sig) : ∀ (vs : List (Option E)) (n i : Nat), (slotsOf f n vs)[i]? = (vs[i]?).map (slotOf f (n + i))
  | [], _, _ => by simp [slotsOf]
  | v :: vs, n, 0 => by simp [slotsOf]
  | v :: vs, n, i + 1 => by
    simp only [slotsOf, List.getElem?_cons_succ, slotsOf_get f vs, show n + 1 + i = n + (i + 1) by omega]

theorem steps_pos {f : Sig} {fits : Nat → E → Bool} : ∀ (vs : List (Option E)) {argv : List (Option (Slot E))} {n : Nat} (_ : argv.length = n)
    (rest : List (Arg E)) (st' : St E),
    steps f fits { argv := argv, nargs := n, argidx := min n f.params.length } (vs.map Written.ofPos ++ rest) = some st' ↔
      (∀ i v, vs[i]? = some v → PosOk f fits (n + i) v) ∧
        steps f fits { argv := argv ++ (slotsOf f n vs).map some, nargs := n + vs.length, argidx := min (n + vs.length) f.params.length } rest = some st'
  | [], argv, n, _, rest, st' => by simp [slotsOf]
  | v :: vs, argv, n, hn, rest, st' => by
    simp only [List.map_cons, List.cons_append, steps, Option.bind_eq_some_iff]
    constructor
    · rintro ⟨st1, h1, h2⟩
      rw [step_pos hn] at h1
      obtain ⟨hok, rfl⟩ := h1
      rw [steps_pos vs (by simp [hn])] at h2
      refine ⟨?_, ?_⟩
      · intro i w hi
        cases i with
        | zero => simp at hi; subst hi; exact hok
        | succ i =>
          rw [List.getElem?_cons_succ] at hi
          have := h2.1 i w hi
          rwa [show n + 1 + i = n + (i + 1) by omega] at this
      · have := h2.2
        simpa [slotsOf, Nat.add_assoc, Nat.add_comm 1] using this
    · rintro ⟨h1, h2⟩
      refine ⟨_, (step_pos hn v _).2 ⟨h1 0 v rfl, rfl⟩, ?_⟩
      rw [steps_pos vs (by simp [hn])]
      refine ⟨?_, ?_⟩
      · intro i w hi
        have := h1 (i + 1) w (by rw [List.getElem?_cons_succ]; exact hi)
        rwa [show n + (i + 1) = n + 1 + i by omega] at this
      · simpa [slotsOf, Nat.add_assoc, Nat.add_comm 1] using h2

/-! ### Arguments by name -/

theorem find_lt {f : Sig} {n i : Nat} (h : f.find n = some i) : i < f.params.length := by
  unfold Sig.find at h
  rw [List.findIdx?_eq_some_iff_getElem] at h
  exact h.1

/-- All arguments have names and expressions. -/
def AllNamed (ws : List (Written E)) : Prop := ∀ w ∈ ws, w.name.isSome = true ∧ w.value.isSome = true

def named (f : Sig) (ws : List (Written E)) (i : Nat) : Option E := (ws.find? fun w => w.name.bind f.find == some i).bind (·.value)

theorem steps_named {f : Sig} {fits : Nat → E → Bool} : ∀ (ws : List (Written E)) (_ : AllNamed ws) (st st' : St E),
    steps f fits st (ws.map Written.parse) = some st' →
      (∀ w ∈ ws, ∃ i e, w.name.bind f.find = some i ∧ w.value = some e ∧ i < maxArgs ∧ G st.argv i = none ∧ fits i e = true) ∧
      (ws.map fun w => w.name.bind f.find).Nodup ∧
      (∀ i, G st'.argv i = match named f ws i with | some e => some (.given e i) | none => G st.argv i) ∧
      st.argv.length ≤ st'.argv.length ∧ st'.argv.length ≤ max st.argv.length f.params.length
  | [], _, st, st', h => by
    simp only [List.map_nil, steps, Option.some.injEq] at h
    subst h
    refine ⟨by simp, by simp, fun i => rfl, Nat.le_refl _, by omega⟩
  | w :: ws, ha, st, st', h => by
    have hw := ha w (by simp)
    obtain ⟨name, value⟩ := w
    obtain ⟨n, rfl⟩ := Option.isSome_iff_exists.1 hw.1
    obtain ⟨e, rfl⟩ := Option.isSome_iff_exists.1 hw.2
    simp only [List.map_cons, steps, Option.bind_eq_some_iff, Written.parse, step] at h
    obtain ⟨st1, h1, h2⟩ := h
    cases hf : f.find n with
    | none => rw [hf] at h1; exact absurd h1 (fun h => nomatch h)
    | some p =>
      rw [hf] at h1
      simp only [place_eq_some, checkGiven] at h1
      obtain ⟨hp, hg, s, hs, rfl⟩ := h1
      have hfit : fits p e = true := by
        cases hh : fits p e with
        | true => rfl
        | false => rw [hh] at hs; exact absurd hs (fun h => nomatch h)
      rw [if_pos hfit] at hs
      cases hs
      obtain ⟨i1, i2, i3, i4, i5⟩ := steps_named ws (fun w hw => ha w (List.mem_cons_of_mem _ hw)) _ _ h2
      have hlt := find_lt hf
      simp only [put_length] at i4 i5
      have hne : ∀ w ∈ ws, w.name.bind f.find ≠ some p := by
        intro w hw heq
        obtain ⟨i, e', ei, _, _, eg, _⟩ := i1 w hw
        rw [heq] at ei
        cases ei
        rw [G_put, if_pos rfl] at eg
        exact absurd eg (fun h => nomatch h)
      refine ⟨?_, ?_, ?_, by omega, by omega⟩
      · intro w hw
        rcases List.mem_cons.1 hw with rfl | hw
        · exact ⟨p, e, hf, rfl, hp, hg, hfit⟩
        · obtain ⟨i, e', ei, ev, em, eg, ef⟩ := i1 w hw
          refine ⟨i, e', ei, ev, em, ?_, ef⟩
          rw [G_put] at eg
          by_cases hi : i = p
          · rw [if_pos hi] at eg; exact absurd eg (fun h => nomatch h)
          · rwa [if_neg hi] at eg
      · simp only [List.map_cons, List.nodup_cons]
        refine ⟨?_, i2⟩
        intro hm
        obtain ⟨w, hw, he⟩ := List.mem_map.1 hm
        exact hne w hw (he.trans hf)
      · intro i
        rw [i3 i]
        by_cases hi : p = i
        · subst hi
          have h0 : named f ws p = none := by
            unfold named
            rw [List.find?_eq_none.2 (fun w hw => by simpa using hne w hw)]
            rfl
          have h9 : named f (⟨some n, some e⟩ :: ws) p = some e := by
            unfold named
            rw [List.find?_cons_of_pos (by simp [hf])]
            rfl
          rw [h0, h9]
          simp only []
          rw [G_put, if_pos rfl]
        · have h9 : named f (⟨some n, some e⟩ :: ws) i = named f ws i := by
            unfold named
            rw [List.find?_cons_of_neg (by simp [hf, hi])]
          rw [h9, G_put, if_neg (fun hh => hi hh.symm)]

theorem steps_named_ok {f : Sig} {fits : Nat → E → Bool} : ∀ (ws : List (Written E)) (_ : AllNamed ws) (st : St E),
    (∀ w ∈ ws, ∃ i e, w.name.bind f.find = some i ∧ w.value = some e ∧ i < maxArgs ∧ G st.argv i = none ∧ fits i e = true) →
    (ws.map fun w => w.name.bind f.find).Nodup → ∃ st', steps f fits st (ws.map Written.parse) = some st'
  | [], _, st, _, _ => ⟨st, rfl⟩
  | w :: ws, ha, st, h, hn => by
    have hw := ha w (by simp)
    obtain ⟨i, e, hi, he, him, hg, hf⟩ := h w (by simp)
    obtain ⟨name, value⟩ := w
    obtain ⟨n, rfl⟩ := Option.isSome_iff_exists.1 hw.1
    simp only at he
    subst he
    simp only [Option.bind_some] at hi
    simp only [List.map_cons, List.nodup_cons] at hn
    simp only [List.map_cons, steps, Option.bind_eq_some_iff, Written.parse, step, hi]
    have hst := (place_eq_some (f := f) (st := st) (p := i) (k := i) (x := checkGiven fits i e)).2
      ⟨him, hg, .given e i, by simp only [checkGiven, hf, if_true], rfl⟩
    obtain ⟨st', h'⟩ := steps_named_ok ws (fun w hw => ha w (List.mem_cons_of_mem _ hw))
      { argv := put st.argv i (.given e i), nargs := st.nargs + 1, argidx := if i < f.params.length then i + 1 else i } (by
        intro w hw
        obtain ⟨j, e', ej, ev, em, eg, ef⟩ := h w (List.mem_cons_of_mem _ hw)
        refine ⟨j, e', ej, ev, em, ?_, ef⟩
        have : j ≠ i := by
          rintro rfl
          exact hn.1 (List.mem_map.2 ⟨w, hw, ej.trans hi.symm⟩)
        simp only [G_put, if_neg this, eg]) hn.2
    exact ⟨st', _, hst, h'⟩

/-! ### Default values -/

theorem fill_some {f : Sig} : ∀ (n k : Nat) (argv out : List (Option (Slot E))), fill f n k argv = some out →
    (∀ i, k ≤ i → i < k + n → G argv i = none → ∃ p, f.params[i]? = some p ∧ p.hasDefault = true) ∧
    (∀ i, G out i = if k ≤ i ∧ i < k + n ∧ G argv i = none then some (.default i) else G argv i) ∧
    argv.length ≤ out.length ∧ out.length ≤ max argv.length (k + n)
  | 0, k, argv, out, h => by
    simp only [fill, Option.some.injEq] at h
    subst h
    refine ⟨fun i h1 h2 => by omega, fun i => ?_, Nat.le_refl _, by omega⟩
    rw [if_neg (by omega)]
  | n + 1, k, argv, out, h => by
    simp only [fill] at h
    by_cases hg : (argv[k]?).join.isSome = true
    · rw [if_pos hg] at h
      obtain ⟨i1, i2, i3, i4⟩ := fill_some n (k + 1) argv out h
      have hk : G argv k ≠ none := by intro hh; rw [show (argv[k]?).join = none from hh] at hg; exact absurd hg (fun h => nomatch h)
      refine ⟨?_, ?_, i3, by omega⟩
      · intro i h1 h2 h3
        have : i ≠ k := by rintro rfl; exact hk h3
        exact i1 i (by omega) (by omega) h3
      · intro i
        rw [i2 i]
        by_cases hi : i = k
        · subst hi
          rw [if_neg (by omega), if_neg (fun hh => hk hh.2.2)]
        · congr 1
          apply propext
          constructor <;> (rintro ⟨a, b, c⟩; exact ⟨by omega, by omega, c⟩)
    · rw [if_neg hg] at h
      have hk : G argv k = none := by
        unfold G
        cases hh : (argv[k]?).join with
        | none => rfl
        | some x => rw [hh] at hg; exact absurd rfl hg
      cases hc : (checkDefault f k : Option (Slot E)) with
      | none => rw [hc] at h; exact absurd h (fun h => nomatch h)
      | some x =>
        rw [hc] at h
        simp only at h
        obtain ⟨i1, i2, i3, i4⟩ := fill_some n (k + 1) _ out h
        rw [put_length] at i3 i4
        have hcd : (∃ p, f.params[k]? = some p ∧ p.hasDefault = true) ∧ x = .default k := by
          unfold checkDefault at hc
          cases hp : f.params[k]? with
          | none => rw [hp] at hc; exact absurd hc (fun h => nomatch h)
          | some p =>
            rw [hp] at hc
            simp only at hc
            by_cases hd : p.hasDefault = true
            · rw [if_pos hd] at hc; cases hc; exact ⟨⟨p, rfl, hd⟩, rfl⟩
            · rw [if_neg hd] at hc; exact absurd hc (fun h => nomatch h)
        refine ⟨?_, ?_, by omega, by omega⟩
        · intro i h1 h2 h3
          by_cases hi : i = k
          · subst hi; exact hcd.1
          · exact i1 i (by omega) (by omega) (by rw [G_put, if_neg hi]; exact h3)
        · intro i
          rw [i2 i, G_put]
          by_cases hi : i = k
          · subst hi
            rw [if_neg (by omega), if_pos rfl, if_pos ⟨by omega, by omega, hk⟩, hcd.2]
          · rw [if_neg hi]
            congr 1
            apply propext
            constructor <;> (rintro ⟨a, b, c⟩; exact ⟨by omega, by omega, c⟩)

theorem fill_ok {f : Sig} : ∀ (n k : Nat) (argv : List (Option (Slot E))),
    (∀ i, k ≤ i → i < k + n → G argv i = none → ∃ p, f.params[i]? = some p ∧ p.hasDefault = true) → ∃ out, fill f n k argv = some out
  | 0, _, argv, _ => ⟨argv, rfl⟩
  | n + 1, k, argv, h => by
    simp only [fill]
    by_cases hg : (argv[k]?).join.isSome = true
    · rw [if_pos hg]
      exact fill_ok n (k + 1) argv fun i h1 h2 h3 => h i (by omega) (by omega) h3
    · rw [if_neg hg]
      have hk : G argv k = none := by
        unfold G
        cases hh : (argv[k]?).join with
        | none => rfl
        | some x => rw [hh] at hg; exact absurd rfl hg
      obtain ⟨p, hp, hd⟩ := h k (Nat.le_refl _) (by omega) hk
      have hc : (checkDefault f k : Option (Slot E)) = some (.default k) := by unfold checkDefault; rw [hp]; simp only [hd, if_true]
      rw [hc]
      refine fill_ok n (k + 1) _ fun i h1 h2 h3 => ?_
      rw [G_put, if_neg (by omega)] at h3
      exact h i (by omega) (by omega) h3

/-! ### The whole call -/

theorem inOrder_true : ∀ (ws : List (Written E)), inOrder true ws = true ↔ ∀ w ∈ ws, w.name.isSome = true
  | [] => by simp [inOrder]
  | w :: ws => by simp [inOrder, inOrder_true ws]

theorem inOrder_false : ∀ (ws : List (Written E)), inOrder false ws = true ↔ ∀ w ∈ byName ws, w.name.isSome = true
  | [] => by simp [inOrder, byName]
  | w :: ws => by
    unfold byName
    cases hn : w.name with
    | none =>
      rw [List.dropWhile_cons_of_pos (by simp [hn])]
      simp only [inOrder, hn]
      have := inOrder_false ws
      unfold byName at this
      simpa using this
    | some n =>
      rw [List.dropWhile_cons_of_neg (by simp [hn])]
      simp [inOrder, hn, inOrder_true]

theorem parse_pos {ws : List (Written E)} (h : ∀ w ∈ ws, w.name.isNone = true) : ws.map Written.parse = (ws.map (·.value)).map Written.ofPos := by
  rw [List.map_map]
  apply List.map_congr_left
  intro w hw
  have := h w hw
  obtain ⟨name, value⟩ := w
  cases name with
  | some n => exact absurd this (by simp)
  | none => cases value <;> rfl

theorem takeWhile_all {α : Type} (p : α → Bool) : ∀ (l : List α), ∀ x ∈ l.takeWhile p, p x = true
  | [], _, h => absurd h (by simp)
  | a :: l, x, h => by
    by_cases ha : p a = true
    · rw [List.takeWhile_cons_of_pos ha] at h
      rcases List.mem_cons.1 h with rfl | h
      · exact ha
      · exact takeWhile_all p l x h
    · rw [List.takeWhile_cons_of_neg ha] at h
      exact absurd h (by simp)

theorem parse_split (ws : List (Written E)) :
    ws.map Written.parse = ((ws.takeWhile (·.name.isNone)).map (·.value)).map Written.ofPos ++ (byName ws).map Written.parse := by
  rw [← parse_pos (takeWhile_all _ ws), ← List.map_append]
  unfold byName
  rw [List.takeWhile_append_dropWhile]

/-- Starting with `this` is starting with an argument. -/
theorem begin_steps {f : Sig} {fits : Nat → E → Bool} {this : Option E} (ht : this = none ∨ f.params ≠ []) (vs : List (Option E)) (rest : List (Arg E))
    (st' : St E) :
    ((begin f fits this).bind fun st => steps f fits st (vs.map Written.ofPos ++ rest)) = some st' ↔
      steps f fits { argv := [], nargs := 0, argidx := min 0 f.params.length } (((this.map some).toList ++ vs).map Written.ofPos ++ rest) = some st' := by
  cases this with
  | none => simp [begin]
  | some e =>
    have hne : f.params ≠ [] := by
      rcases ht with h | h
      · exact absurd h (fun h => nomatch h)
      · exact h
    have hl : 0 < f.params.length := List.length_pos_iff.2 hne
    have hs : f.size ≠ 0 := by unfold Sig.size; omega
    simp only [begin, if_neg hs, Option.map_some, Option.toList_some, List.cons_append, List.nil_append, List.map_cons, steps, checkGiven,
      Option.bind_eq_some_iff]
    constructor
    · rintro ⟨st, h1, h2⟩
      by_cases hf : fits 0 e = true
      · rw [if_pos hf, Option.map_some, Option.some.injEq] at h1
        subst h1
        refine ⟨_, (step_pos (n := 0) rfl (some e) _).2 ⟨⟨by decide, Or.inl hl, ?_⟩, rfl⟩, ?_⟩
        · simp only [Nat.zero_min]; exact hf
        · simp only [slotOf, List.nil_append, Nat.zero_min, show min (0 + 1) f.params.length = 1 by omega]
          exact h2
      · rw [if_neg hf] at h1; exact absurd h1 (fun h => nomatch h)
    · rintro ⟨st, h1, h2⟩
      rw [step_pos (n := 0) rfl (some e)] at h1
      obtain ⟨⟨_, _, hf⟩, rfl⟩ := h1
      simp only [Nat.zero_min] at hf
      refine ⟨_, by rw [if_pos hf]; rfl, ?_⟩
      simp only [slotOf, List.nil_append, Nat.zero_min, show min (0 + 1) f.params.length = 1 by omega] at h2
      exact h2

theorem G_slots (f : Sig) (vs : List (Option E)) (i : Nat) : G ((slotsOf f 0 vs).map some) i = (vs[i]?).map (slotOf f i) := by
  unfold G
  rw [List.getElem?_map, slotsOf_get, Nat.zero_add]
  cases vs[i]? <;> rfl

/-- What CheckCallExpr does, in terms of the arguments by position and by name. -/
theorem bind_eq {f : Sig} {fits : Nat → E → Bool} {this : Option E} {ws : List (Written E)} (ht : this = none ∨ f.params ≠ [])
    {out : List (Option (Slot E))} :
    bind f fits this ws = some out ↔ (∀ w ∈ byName ws, w.name.isSome = true) ∧
      (∀ i v, (positional this ws)[i]? = some v → PosOk f fits i v) ∧
      ∃ st, steps f fits (St.mk ((slotsOf f 0 (positional this ws)).map some) (positional this ws).length
          (min (positional this ws).length f.params.length)) ((byName ws).map Written.parse) = some st ∧
        fill f f.params.length 0 st.argv = some out := by
  unfold bind
  by_cases ho : inOrder false ws = true
  · rw [if_pos ho]
    have h1 := (inOrder_false ws).1 ho
    rw [← Option.bind_assoc, Option.bind_eq_some_iff]
    constructor
    · rintro ⟨st, hs, hf⟩
      rw [parse_split, begin_steps ht, steps_pos _ (argv := []) (n := 0) rfl] at hs
      refine ⟨h1, ?_, st, ?_, hf⟩
      · intro i v hi
        have := hs.1 i v hi
        rwa [Nat.zero_add] at this
      · have := hs.2
        simp only [List.nil_append, Nat.zero_add] at this
        exact this
    · rintro ⟨_, hp, st, hs, hf⟩
      refine ⟨st, ?_, hf⟩
      rw [parse_split, begin_steps ht, steps_pos _ (argv := []) (n := 0) rfl]
      refine ⟨?_, ?_⟩
      · intro i v hi
        rw [Nat.zero_add]
        exact hp i v hi
      · simp only [List.nil_append, Nat.zero_add]
        exact hs
  · rw [if_neg ho]
    exact ⟨(fun h => nomatch h), fun h => absurd ((inOrder_false ws).2 h.1) ho⟩

theorem find_unique {f : Sig} : ∀ {ws : List (Written E)}, (ws.map fun w => w.name.bind f.find).Nodup → ∀ {w : Written E}, w ∈ ws → ∀ {i : Nat},
    w.name.bind f.find = some i → ws.find? (fun w => w.name.bind f.find == some i) = some w
  | [], _, _, hw, _, _ => absurd hw (by simp)
  | x :: ws, hn, w, hw, i, hi => by
    simp only [List.map_cons, List.nodup_cons] at hn
    rcases List.mem_cons.1 hw with rfl | hw
    · rw [List.find?_cons_of_pos (by simp [hi])]
    · have : x.name.bind f.find ≠ some i := fun hx => hn.1 (List.mem_map.2 ⟨w, hw, hi.trans hx.symm⟩)
      rw [List.find?_cons_of_neg (by simpa using this)]
      exact find_unique hn.2 hw hi

theorem filterMap_all {α : Type} : ∀ {xs : List (Option α)}, (∀ x ∈ xs, ∃ e, x = some e) →
    (xs.filterMap id).length = xs.length ∧ ∀ j : Nat, (xs.filterMap id)[j]? = (xs[j]?).join
  | [], _ => ⟨rfl, fun j => by simp⟩
  | x :: xs, h => by
    obtain ⟨e, rfl⟩ := h x (by simp)
    obtain ⟨h1, h2⟩ := filterMap_all fun y hy => h y (List.mem_cons_of_mem _ hy)
    refine ⟨by simp [h1], fun j => ?_⟩
    cases j with
    | zero => simp
    | succ j => simpa using h2 j

theorem ext_some {out : List (Option (Slot E))} {l : List (Slot E)} (hl : out.length = l.length) (h : ∀ i, i < l.length → G out i = l[i]?) :
    out = l.map some := by
  apply List.ext_getElem?
  intro i
  rw [List.getElem?_map]
  by_cases hi : i < l.length
  · have := h i hi
    rw [List.getElem?_eq_getElem hi] at this ⊢
    unfold G at this
    rw [List.getElem?_eq_getElem (by omega)] at this ⊢
    simp only [Option.join_some] at this
    rw [this]; rfl
  · rw [List.getElem?_eq_none (by omega), List.getElem?_eq_none (by omega)]; rfl

theorem allNamed {ws : List (Written E)} (hv : ∀ w ∈ ws, w.name.isSome = true → w.value.isSome = true) (h : ∀ w ∈ byName ws, w.name.isSome = true) :
    AllNamed (byName ws) := fun w hw => ⟨h w hw, hv w ((List.dropWhile_suffix _).subset hw) (h w hw)⟩

theorem argFor_pos {f : Sig} {this : Option E} {ws : List (Written E)} {i : Nat} {v : Option E} (h : (positional this ws)[i]? = some v) :
    argFor f this ws i = v := by
  unfold argFor
  rw [if_pos (List.getElem?_eq_some_iff.1 h).1, h]; rfl

theorem argFor_named {f : Sig} {this : Option E} {ws : List (Written E)} {i : Nat} (h : (positional this ws)[i]? = none) :
    argFor f this ws i = named f (byName ws) i := by
  unfold argFor named
  rw [if_neg (by have := List.getElem?_eq_none_iff.1 h; omega)]

/-- An accepted call is legal, and passes what it should. -/
theorem bind_sound {f : Sig} {fits : Nat → E → Bool} {this : Option E} {ws : List (Written E)} (ht : this = none ∨ f.params ≠ [])
    (hv : ∀ w ∈ ws, w.name.isSome = true → w.value.isSome = true) {out : List (Option (Slot E))} (h : bind f fits this ws = some out) :
    Legal f fits this ws ∧ out = (passed f this ws).map some := by
  obtain ⟨h1, hp, st, hs, hf⟩ := (bind_eq ht).1 h
  obtain ⟨n1, n2, n3, n4, n5⟩ := steps_named _ (allNamed hv h1) _ _ hs
  obtain ⟨f1, f2, f3, f4⟩ := fill_some _ _ _ _ hf
  simp only [G_slots, List.length_map, slotsOf_length, Nat.zero_le, true_and, Nat.zero_add] at n1 n3 n4 n5 f1 f2 f4
  have hlast : ∀ n, n + 1 = (positional this ws).length → ∃ v, (positional this ws)[n]? = some v := fun n hn =>
    ⟨_, List.getElem?_eq_getElem (by omega)⟩
  have hleg : Legal f fits this ws := by
    refine ⟨h1, ?_, n2, ?_, ?_, ?_, ?_⟩
    · intro w hw
      obtain ⟨i, e, hi, _, hm, hg, _⟩ := n1 w hw
      refine ⟨i, hi, ?_, hm⟩
      rw [Option.map_eq_none_iff] at hg
      exact List.getElem?_eq_none_iff.1 hg
    · cases hn : (positional this ws).length with
      | zero => left; omega
      | succ n =>
        obtain ⟨v, hv'⟩ := hlast n hn.symm
        rcases (hp n v hv').2.1 with h | h
        · left; omega
        · right; exact h
    · cases hn : (positional this ws).length with
      | zero => omega
      | succ n =>
        obtain ⟨v, hv'⟩ := hlast n hn.symm
        have := (hp n v hv').1
        unfold maxArgs at this
        omega
    · intro x hx
      unfold extra at hx
      obtain ⟨j, hj⟩ := List.mem_iff_getElem?.1 hx
      rw [List.getElem?_drop] at hj
      have := (hp _ _ hj).2.2
      cases x with
      | some e =>
        simp only [show min (f.params.length + j) f.params.length = f.params.length by omega] at this
        exact ⟨e, rfl, this⟩
      | none =>
        obtain ⟨p, hp, _⟩ := this
        rw [List.getElem?_eq_none (by omega)] at hp
        exact absurd hp (fun h => nomatch h)
    · intro i p hi
      have hlt := (List.getElem?_eq_some_iff.1 hi).1
      cases hpos : (positional this ws)[i]? with
      | some v =>
        rw [argFor_pos hpos]
        have := (hp i v hpos).2.2
        cases v with
        | some e =>
          simp only [show min i f.params.length = i by omega] at this
          exact this
        | none =>
          obtain ⟨q, hq, hd⟩ := this
          rw [hi] at hq
          cases hq
          exact hd
      | none =>
        rw [argFor_named hpos]
        cases hn : named f (byName ws) i with
        | some e =>
          unfold named at hn
          obtain ⟨w, hw, hwe⟩ := Option.bind_eq_some_iff.1 hn
          have hm := List.mem_of_find?_eq_some hw
          have hq := List.find?_some hw
          obtain ⟨i', e', hi', he', _, _, hfit⟩ := n1 w hm
          simp only [beq_iff_eq] at hq
          rw [hi'] at hq
          cases hq
          rw [he'] at hwe
          cases hwe
          exact hfit
        | none =>
          obtain ⟨q, hq, hd⟩ := f1 i trivial hlt (by rw [n3 i, hn]; simp only [hpos, Option.map_none])
          rw [hi] at hq
          cases hq
          exact hd
  refine ⟨hleg, ?_⟩
  have hex := filterMap_all (xs := extra f this ws) fun x hx => (hleg.extras x hx).imp fun e he => he.1
  have hexl : (extra f this ws).length = (positional this ws).length - f.params.length := by unfold extra; rw [List.length_drop]
  have hpl : (passed f this ws).length = f.params.length + ((positional this ws).length - f.params.length) := by
    unfold passed
    rw [List.length_append, List.length_map, List.length_map, List.length_range, hex.1, hexl]
  have hfull : ∀ i, i < f.params.length → G out i = some (received f this ws i) := by
    intro i hi
    rw [f2 i, n3 i]
    unfold received
    cases hpos : (positional this ws)[i]? with
    | some v =>
      have hnn : named f (byName ws) i = none := by
        cases hn : named f (byName ws) i with
        | none => rfl
        | some e =>
          unfold named at hn
          obtain ⟨w, hw, hwe⟩ := Option.bind_eq_some_iff.1 hn
          have hq := List.find?_some hw
          obtain ⟨i', _, hi', _, _, hg, _⟩ := n1 w (List.mem_of_find?_eq_some hw)
          simp only [beq_iff_eq] at hq
          rw [hi'] at hq
          cases hq
          rw [hpos] at hg
          exact absurd hg (fun h => nomatch h)
      rw [hnn, argFor_pos hpos]
      simp only [Option.map_some]
      rw [if_neg (fun h => nomatch h.2)]
      cases v <;> simp only [slotOf, show min i f.params.length = i by omega]
    | none =>
      rw [argFor_named hpos]
      cases hn : named f (byName ws) i with
      | some e =>
        simp only []
        rw [if_neg (fun h => nomatch h.2)]
      | none =>
        simp only [Option.map_none]
        rw [if_pos ⟨hi, trivial⟩]
  have hlen : out.length = (passed f this ws).length := by
    rw [hpl]
    have : f.params.length ≤ out.length := by
      cases hL : f.params.length with
      | zero => omega
      | succ n =>
        have := hfull n (by omega)
        unfold G at this
        cases ho : out[n]? with
        | none => rw [ho] at this; exact absurd this (fun h => nomatch h)
        | some y => have := (List.getElem?_eq_some_iff.1 ho).1; omega
    omega
  refine ext_some hlen fun i hi => ?_
  by_cases hL : i < f.params.length
  · rw [hfull i hL]
    unfold passed
    rw [List.getElem?_append_left (by simp; exact hL), List.getElem?_map, List.getElem?_range hL]
    rfl
  · rw [f2 i, n3 i, if_neg (fun h => hL h.1)]
    have hnn : named f (byName ws) i = none := by
      cases hn : named f (byName ws) i with
      | none => rfl
      | some e =>
        unfold named at hn
        obtain ⟨w, hw, hwe⟩ := Option.bind_eq_some_iff.1 hn
        have hq := List.find?_some hw
        simp only [beq_iff_eq] at hq
        obtain ⟨n, _, hn⟩ := Option.bind_eq_some_iff.1 hq
        exact absurd (find_lt hn) hL
    rw [hnn]
    simp only []
    unfold passed
    rw [List.getElem?_append_right (by simp; omega), List.getElem?_map, hex.2]
    simp only [List.length_map, List.length_range, extra, List.getElem?_drop, show f.params.length + (i - f.params.length) = i by omega]
    have hipos : i < (positional this ws).length := by omega
    obtain ⟨v, hv'⟩ : ∃ v, (positional this ws)[i]? = some v := ⟨_, List.getElem?_eq_getElem hipos⟩
    obtain ⟨e, rfl, _⟩ := hleg.extras v (by
      unfold extra
      refine List.mem_iff_getElem?.2 ⟨i - f.params.length, ?_⟩
      rw [List.getElem?_drop, show f.params.length + (i - f.params.length) = i by omega]
      exact hv')
    rw [hv']
    simp only [Option.map_some, Option.join_some, slotOf, show min i f.params.length = f.params.length by omega]

/-- A legal call is accepted. -/
theorem bind_complete {f : Sig} {fits : Nat → E → Bool} {this : Option E} {ws : List (Written E)} (ht : this = none ∨ f.params ≠ [])
    (hv : ∀ w ∈ ws, w.name.isSome = true → w.value.isSome = true) (h : Legal f fits this ws) : ∃ out, bind f fits this ws = some out := by
  have hA := allNamed hv h.last
  have hP : ∀ i v, (positional this ws)[i]? = some v → PosOk f fits i v := by
    intro i v hi
    have hlt := (List.getElem?_eq_some_iff.1 hi).1
    have hl := h.limit
    refine ⟨by unfold maxArgs; omega, ?_, ?_⟩
    · rcases h.count with hc | hc
      · left; omega
      · right; exact hc
    · by_cases hL : i < f.params.length
      · have := h.each i _ (List.getElem?_eq_getElem hL)
        rw [argFor_pos hi] at this
        cases v with
        | some e => simp only [show min i f.params.length = i by omega]; exact this
        | none => exact ⟨_, List.getElem?_eq_getElem hL, this⟩
      · obtain ⟨e, rfl, he⟩ := h.extras v (by
          unfold extra
          refine List.mem_iff_getElem?.2 ⟨i - f.params.length, ?_⟩
          rw [List.getElem?_drop, show f.params.length + (i - f.params.length) = i by omega]
          exact hi)
        simp only [show min i f.params.length = f.params.length by omega]
        exact he
  have hN : ∀ w ∈ byName ws, ∃ i e, w.name.bind f.find = some i ∧ w.value = some e ∧ i < maxArgs ∧
      G ((slotsOf f 0 (positional this ws)).map some) i = none ∧ fits i e = true := by
    intro w hw
    obtain ⟨i, hi, hpl, him⟩ := h.names w hw
    obtain ⟨e, he⟩ := Option.isSome_iff_exists.1 (hA w hw).2
    have hnone := List.getElem?_eq_none_iff.2 hpl
    refine ⟨i, e, hi, he, him, ?_, ?_⟩
    · rw [G_slots, hnone]; rfl
    · obtain ⟨n, _, hn⟩ := Option.bind_eq_some_iff.1 hi
      have := h.each i _ (List.getElem?_eq_getElem (find_lt hn))
      rw [argFor_named hnone] at this
      unfold named at this
      rw [find_unique h.once hw hi, Option.bind_some, he] at this
      exact this
  obtain ⟨st, hs⟩ := steps_named_ok (f := f) (fits := fits) (byName ws) hA
    (St.mk ((slotsOf f 0 (positional this ws)).map some) (positional this ws).length (min (positional this ws).length f.params.length)) hN h.once
  obtain ⟨_, _, n3, _, _⟩ := steps_named _ hA _ _ hs
  obtain ⟨out, ho⟩ := fill_ok (f := f) f.params.length 0 st.argv (by
    intro i _ hi hg
    rw [Nat.zero_add] at hi
    refine ⟨_, List.getElem?_eq_getElem hi, ?_⟩
    have := h.each i _ (List.getElem?_eq_getElem hi)
    rw [n3 i] at hg
    cases hn : named f (byName ws) i with
    | some e => rw [hn] at hg; exact absurd hg (fun h => nomatch h)
    | none =>
      rw [hn] at hg
      simp only [G_slots, Option.map_eq_none_iff] at hg
      rw [argFor_named hg, hn] at this
      exact this)
  exact ⟨out, (bind_eq ht).2 ⟨h.last, hP, st, hs, ho⟩⟩

end Verif.Binding

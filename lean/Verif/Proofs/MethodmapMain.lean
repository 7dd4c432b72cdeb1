import Verif.Proofs.Methodmap
/-
Helper lemmas about methodmaps: the names that are entered, and what is found in an accepted
program.
-/
namespace Verif.Methodmap

/-! ### Entering names -/

theorem enterProps_le : ∀ (ns seen : List Atom) (errs : Nat), errs ≤ (enterProps ns seen errs).2
  | [], _, _ => Nat.le_refl _
  | n :: ns, seen, errs => by
    unfold enterProps
    by_cases h : seen.contains n = true
    · rw [if_pos h]
      have := enterProps_le ns seen (errs + 1)
      omega
    · rw [if_neg h]
      exact enterProps_le ns (n :: seen) errs

theorem enterProps_spec : ∀ (ns seen : List Atom) (errs : Nat), (enterProps ns seen errs).2 = errs →
    ns.Nodup ∧ (∀ n ∈ ns, n ∉ seen) ∧ ∀ x, x ∈ (enterProps ns seen errs).1 ↔ x ∈ ns ∨ x ∈ seen
  | [], _, _, _ => ⟨List.nodup_nil, (fun n h => nomatch h), fun x => by simp [enterProps]⟩
  | n :: ns, seen, errs, h => by
    unfold enterProps at h ⊢
    by_cases hc : seen.contains n = true
    · rw [if_pos hc] at h
      have := enterProps_le ns seen (errs + 1)
      omega
    · rw [if_neg hc] at h ⊢
      obtain ⟨h1, h2, h3⟩ := enterProps_spec ns (n :: seen) errs h
      have hn : n ∉ seen := fun hh => hc (List.contains_iff_mem.2 hh)
      refine ⟨List.nodup_cons.2 ⟨fun hh => h2 n hh (List.mem_cons_self ..), h1⟩, ?_, ?_⟩
      · intro x hx
        rcases List.mem_cons.1 hx with rfl | hx
        · exact hn
        · exact fun hh => h2 x hx (List.mem_cons_of_mem _ hh)
      · intro x
        rw [h3 x, List.mem_cons, List.mem_cons]
        constructor
        · rintro (h | h | h)
          · exact .inl (.inr h)
          · exact .inl (.inl h)
          · exact .inr h
        · rintro ((h | h) | h)
          · exact .inr (.inl h)
          · exact .inl h
          · exact .inr (.inr h)

/-- The name a method is found by. -/
def newName (d : Decl) (m : Method) : Atom := if m.isDtor then '~' :: d.name else m.name

theorem enterMethod_le (d : Decl) (e : Entering) (k : Nat) (m : Method) :
    e.errs ≤ (enterMethod d e k m).errs := by
  unfold enterMethod
  repeat' split
  all_goals simp only
  all_goals first | exact Nat.le_refl _ | omega | (split <;> omega)

/-- One method entered without an error. -/
theorem enterMethod_ok {d : Decl} {e : Entering} {k : Nat} {m : Method}
    (h : (enterMethod d e k m).errs = e.errs) :
    m.name ∉ e.seen ∧ (m.isDtor = true → m.name = d.name ∧ e.dtor = none) ∧
      (isCtor d m = true → e.ctor = none) ∧
      enterMethod d e k m = { seen := m.name :: e.seen, names := newName d m :: e.names, errs := e.errs
                              dtor := if m.isDtor then some k else e.dtor
                              ctor := if isCtor d m then some k else e.ctor } := by
  unfold enterMethod at h ⊢
  by_cases hc : e.seen.contains m.name = true
  · rw [if_pos hc] at h
    exact absurd h (Nat.succ_ne_self _)
  rw [if_neg hc] at h ⊢
  have hns : m.name ∉ e.seen := fun hh => hc (List.contains_iff_mem.2 hh)
  by_cases hd : m.isDtor = true
  · rw [if_pos hd] at h ⊢
    have hnc : isCtor d m = false := by simp [isCtor, hd]
    by_cases hs : e.dtor.isSome = true
    · rw [if_pos hs] at h
      exact absurd h (Nat.succ_ne_self _)
    · rw [if_neg hs] at h ⊢
      have hnone : e.dtor = none := by
        cases hx : e.dtor with
        | none => rfl
        | some _ => rw [hx] at hs; exact absurd rfl hs
      by_cases hn : m.name ≠ d.name
      · simp only [if_pos hn] at h
        exact absurd h (Nat.succ_ne_self _)
      · have hn' : m.name = d.name := Classical.byContradiction hn
        refine ⟨hns, fun _ => ⟨hn', hnone⟩, fun hh => ?_, ?_⟩
        · rw [hnc] at hh; exact nomatch hh
        · simp only [if_neg hn, newName, hd, if_true, hnc, Bool.false_eq_true, if_false]
  · rw [if_neg hd] at h ⊢
    have hd' : m.isDtor = false := by simpa using hd
    by_cases hct : isCtor d m = true
    · rw [if_pos hct] at h ⊢
      by_cases hs : e.ctor.isSome = true
      · rw [if_pos hs] at h
        exact absurd h (Nat.succ_ne_self _)
      · rw [if_neg hs] at h ⊢
        have hnone : e.ctor = none := by
          cases hx : e.ctor with
          | none => rfl
          | some _ => rw [hx] at hs; exact absurd rfl hs
        refine ⟨hns, fun hh => absurd hh hd, fun _ => hnone, ?_⟩
        simp only [newName, hd', hct, if_true, Bool.false_eq_true, if_false]
    · rw [if_neg hct] at h ⊢
      refine ⟨hns, fun hh => absurd hh hd, fun hh => absurd hh hct, ?_⟩
      have hct' : isCtor d m = false := by simpa using hct
      simp only [newName, hd', hct', Bool.false_eq_true, if_false]

theorem enterMethods_le (d : Decl) : ∀ (ms : List Method) (k : Nat) (e : Entering),
    e.errs ≤ (enterMethods d ms k e).errs
  | [], _, _ => Nat.le_refl _
  | m :: ms, k, e => by
    unfold enterMethods
    have := enterMethod_le d e k m
    have := enterMethods_le d ms (k + 1) (enterMethod d e k m)
    omega

structure Entered (d : Decl) (ms : List Method) (k : Nat) (e e' : Entering) : Prop where
  names : e'.names = (ms.map (newName d)).reverse ++ e.names
  nodup : (ms.map (·.name)).Nodup
  fresh : ∀ m ∈ ms, m.name ∉ e.seen
  dtorName : ∀ m ∈ ms, m.isDtor = true → m.name = d.name
  dtor : ∀ j, e'.dtor = some j ↔ e.dtor = some j ∨ ∃ i m, j = k + i ∧ ms[i]? = some m ∧ m.isDtor = true
  ctor : ∀ j, e'.ctor = some j ↔ e.ctor = some j ∨ ∃ i m, j = k + i ∧ ms[i]? = some m ∧ isCtor d m = true
  noDtor : ∀ m ∈ ms, m.isDtor = true → e.dtor = none
  noCtor : ∀ m ∈ ms, isCtor d m = true → e.ctor = none

theorem enterMethods_spec (d : Decl) : ∀ (ms : List Method) (k : Nat) (e : Entering),
    (enterMethods d ms k e).errs = e.errs → Entered d ms k e (enterMethods d ms k e)
  | [], k, e, _ => by
    refine ⟨rfl, List.nodup_nil, (fun m h => nomatch h), (fun m h => nomatch h), fun j => ?_, fun j => ?_,
      (fun m h => nomatch h), (fun m h => nomatch h)⟩
    · refine ⟨.inl, ?_⟩
      rintro (h | ⟨i, m, _, h, _⟩)
      · exact h
      · exact nomatch h
    · refine ⟨.inl, ?_⟩
      rintro (h | ⟨i, m, _, h, _⟩)
      · exact h
      · exact nomatch h
  | m :: ms, k, e, h => by
    unfold enterMethods at h ⊢
    have h1 := enterMethod_le d e k m
    have h2 := enterMethods_le d ms (k + 1) (enterMethod d e k m)
    obtain ⟨hs, hd, hc, heq⟩ := enterMethod_ok (d := d) (e := e) (k := k) (m := m) (by omega)
    have ih := enterMethods_spec d ms (k + 1) (enterMethod d e k m) (by omega)
    generalize enterMethods d ms (k + 1) (enterMethod d e k m) = e' at ih ⊢
    rw [heq] at ih
    refine ⟨?_, ?_, ?_, ?_, ?_, ?_, ?_, ?_⟩
    · rw [ih.names]
      simp
    · rw [List.map_cons, List.nodup_cons]
      refine ⟨fun hh => ?_, ih.nodup⟩
      obtain ⟨m', hm', he⟩ := List.mem_map.1 hh
      exact ih.fresh m' hm' (by rw [he]; exact List.mem_cons_self ..)
    · intro m' hm'
      rcases List.mem_cons.1 hm' with rfl | hm'
      · exact hs
      · exact fun hh => ih.fresh m' hm' (List.mem_cons_of_mem _ hh)
    · intro m' hm' hdt
      rcases List.mem_cons.1 hm' with rfl | hm'
      · exact (hd hdt).1
      · exact ih.dtorName m' hm' hdt
    · intro j
      rw [ih.dtor j]
      simp only
      constructor
      · rintro (h | ⟨i, m', hj, hm', hdt⟩)
        · by_cases hdm : m.isDtor = true
          · rw [if_pos hdm] at h
            cases h
            exact .inr ⟨0, m, rfl, rfl, hdm⟩
          · rw [if_neg hdm] at h
            exact .inl h
        · exact .inr ⟨i + 1, m', by omega, hm', hdt⟩
      · rintro (h | ⟨i, m', hj, hm', hdt⟩)
        · by_cases hdm : m.isDtor = true
          · rw [(hd hdm).2] at h
            exact nomatch h
          · rw [if_neg hdm]
            exact .inl h
        · cases i with
          | zero =>
            cases hm'
            rw [if_pos hdt]
            exact .inl (by rw [hj]; rfl)
          | succ i => exact .inr ⟨i, m', by omega, hm', hdt⟩
    · intro j
      rw [ih.ctor j]
      simp only
      constructor
      · rintro (h | ⟨i, m', hj, hm', hdt⟩)
        · by_cases hdm : isCtor d m = true
          · rw [if_pos hdm] at h
            cases h
            exact .inr ⟨0, m, rfl, rfl, hdm⟩
          · rw [if_neg hdm] at h
            exact .inl h
        · exact .inr ⟨i + 1, m', by omega, hm', hdt⟩
      · rintro (h | ⟨i, m', hj, hm', hdt⟩)
        · by_cases hdm : isCtor d m = true
          · rw [hc hdm] at h
            exact nomatch h
          · rw [if_neg hdm]
            exact .inl h
        · cases i with
          | zero =>
            cases hm'
            rw [if_pos hdt]
            exact .inl (by rw [hj]; rfl)
          | succ i => exact .inr ⟨i, m', by omega, hm', hdt⟩
    · intro m' hm' hdt
      rcases List.mem_cons.1 hm' with rfl | hm'
      · exact (hd hdt).2
      · have := ih.noDtor m' hm' hdt
        simp only at this
        by_cases hdm : m.isDtor = true
        · rw [if_pos hdm] at this; exact nomatch this
        · rw [if_neg hdm] at this; exact this
    · intro m' hm' hdt
      rcases List.mem_cons.1 hm' with rfl | hm'
      · exact hc hdt
      · have := ih.noCtor m' hm' hdt
        simp only at this
        by_cases hdm : isCtor d m = true
        · rw [if_pos hdm] at this; exact nomatch this
        · rw [if_neg hdm] at this; exact this

/-- What an accepted map looks like. -/
structure Good (d : Decl) (m : Map) : Prop where
  decl : m.decl = d
  names : m.names = d.methods.map (newName d)
  props : d.properties.Nodup
  nodup : (d.methods.map (·.name)).Nodup
  disjoint : ∀ x ∈ d.methods, x.name ∉ d.properties
  dtorName : ∀ x ∈ d.methods, x.isDtor = true → x.name = d.name
  dtor : ∀ j, m.dtor = some j ↔ ∃ x, d.methods[j]? = some x ∧ x.isDtor = true
  ctor : ∀ j, m.ctor = some j ↔ ∃ x, d.methods[j]? = some x ∧ isCtor d x = true

theorem enterMembers_spec {d : Decl} (h : (enterMembers d).2 = 0) : Good d (enterMembers d).1 := by
  unfold enterMembers at h ⊢
  rcases hp : enterProps d.properties [] 0 with ⟨seen, errs⟩
  rw [hp] at h
  simp only at h ⊢
  have h1 := enterMethods_le d d.methods 0 { seen := seen, errs := errs }
  simp only at h1
  have hz : errs = 0 := by omega
  subst hz
  obtain ⟨p1, p2, p3⟩ := enterProps_spec d.properties [] 0 (by rw [hp])
  rw [hp] at p3
  have E := enterMethods_spec d d.methods 0 { seen := seen, errs := 0 } h
  generalize enterMethods d d.methods 0 { seen := seen, errs := 0 } = e' at E ⊢
  refine ⟨rfl, ?_, p1, E.nodup, ?_, E.dtorName, ?_, ?_⟩
  · simp only [E.names, List.append_nil, List.reverse_reverse]
  · intro x hx hh
    exact E.fresh x hx ((p3 _).2 (.inl hh))
  · intro j
    simp only
    rw [E.dtor j]
    constructor
    · rintro (h | ⟨i, m, hj, hm, hd⟩)
      · exact nomatch h
      · have : j = i := by omega
        subst this
        exact ⟨m, hm, hd⟩
    · rintro ⟨m, hm, hd⟩
      exact .inr ⟨j, m, by omega, hm, hd⟩
  · intro j
    simp only
    rw [E.ctor j]
    constructor
    · rintro (h | ⟨i, m, hj, hm, hd⟩)
      · exact nomatch h
      · have : j = i := by omega
        subst this
        exact ⟨m, hm, hd⟩
    · rintro ⟨m, hm, hd⟩
      exact .inr ⟨j, m, by omega, hm, hd⟩

theorem enterNames_spec : ∀ (ds : List Decl) (taken : List Atom), (enterNames ds taken).2 = 0 →
    (ds.map (·.name)).Nodup ∧ (∀ d ∈ ds, d.name ∉ taken) ∧
      (enterNames ds taken).1.length = ds.length ∧
      ∀ (i : Nat) d, ds[i]? = some d → ∃ m, (enterNames ds taken).1[i]? = some m ∧ Good d m
  | [], _, _ => ⟨List.nodup_nil, (fun d h => nomatch h), rfl, fun i d h => nomatch h⟩
  | d :: ds, taken, h => by
    unfold enterNames at h ⊢
    simp only at h ⊢
    by_cases hc : taken.contains d.name = true
    · rw [if_pos hc] at h
      omega
    rw [if_neg hc] at h
    obtain ⟨i1, i2, i3, i4⟩ := enterNames_spec ds (d.name :: taken) (by omega)
    refine ⟨?_, ?_, by simp [i3], ?_⟩
    · rw [List.map_cons, List.nodup_cons]
      refine ⟨fun hh => ?_, i1⟩
      obtain ⟨d', hd', he⟩ := List.mem_map.1 hh
      exact i2 d' hd' (by rw [he]; exact List.mem_cons_self ..)
    · intro d' hd'
      rcases List.mem_cons.1 hd' with rfl | hd'
      · exact fun hh => hc (List.contains_iff_mem.2 hh)
      · exact fun hh => i2 d' hd' (List.mem_cons_of_mem _ hh)
    · intro i d' hd'
      cases i with
      | zero =>
        cases hd'
        exact ⟨_, rfl, enterMembers_spec (by omega)⟩
      | succ i => exact i4 i d' hd'

/-! ### An accepted program -/

structure Accepted (ds : List Decl) (r : Resolved) : Prop where
  good : ∀ (i : Nat) d, ds[i]? = some d → ∃ m, r.maps[i]? = some m ∧ Good d m
  len : r.maps.length = ds.length
  names : (ds.map (·.name)).Nodup
  tied : ∀ (i : Nat) d, ds[i]? = some d → Tied ds r.state i d
  methods : ∀ d ∈ ds, ∀ m ∈ d.methods, methodErrors d m = 0 ∧ ¬ (d.name = m.name ∧ m.typed = true)
  slen : r.state.length = ds.length
  acyclic : Acyclic r.state

theorem resolve_ends (ds : List Decl) : ∃ r, (∀ fuel, ds.length < fuel → resolve fuel ds = some r) ∧
    r.state.length = ds.length ∧ Acyclic r.state ∧ (r.errs = 0 → Accepted ds r) := by
  obtain ⟨s, e, h1, h2, _, h4⟩ := bindFrom_spec ds ds 0 (start ds) (Inv.start ds) rfl
  refine ⟨{ maps := (enterNames ds []).1, state := s
            errs := (ds.map parseErrors).sum + (enterNames ds []).2 + e },
    fun fuel hf => by simp only [resolve, h1 fuel hf], h2.len, h2.acyclic, fun he => ?_⟩
  simp only at he
  obtain ⟨n1, _, n3, n4⟩ := enterNames_spec ds [] (by omega)
  refine ⟨n4, n3, n1, fun i d hd => (h4 (by omega) i d (Nat.zero_le _) hd).1, ?_, h2.len, h2.acyclic⟩
  intro d hd m hm
  obtain ⟨i, hi⟩ := List.getElem?_of_mem hd
  refine ⟨(h4 (by omega) i d (Nat.zero_le _) hi).2 m hm, ?_⟩
  rintro ⟨ha, hb⟩
  have hz : (ds.map parseErrors).sum = 0 := by omega
  have := List.sum_eq_zero_iff_forall_eq_nat.1 hz _ (List.mem_map_of_mem hd)
  rw [parseErrors, List.countP_eq_zero] at this
  have := this m hm
  simp [ha, hb] at this

theorem lookup_iff {ds : List Decl} (hn : (ds.map (·.name)).Nodup) {j : Nat} {e : Decl}
    (he : ds[j]? = some e) : lookup ds e.name = some j := by
  unfold lookup
  rw [List.findIdx?_eq_some_iff_getElem]
  obtain ⟨hj, rfl⟩ := List.getElem?_eq_some_iff.1 he
  refine ⟨hj, by simp, ?_⟩
  intro k hk
  simp only [beq_iff_eq]
  intro hh
  have := (List.pairwise_iff_getElem.1 hn) k j (by simp; omega) (by simp; omega) hk
  simp only [List.getElem_map] at this
  exact this hh

theorem lookup_some {ds : List Decl} {n : Atom} {p : Nat} (h : lookup ds n = some p) :
    ∃ e, ds[p]? = some e ∧ e.name = n := by
  unfold lookup at h
  rw [List.findIdx?_eq_some_iff_getElem] at h
  obtain ⟨hp, he, _⟩ := h
  exact ⟨ds[p], List.getElem?_eq_getElem hp, by simpa using he⟩

theorem Accepted.parent {ds : List Decl} {r : Resolved} (A : Accepted ds r) {i : Nat} {d : Decl}
    (hd : ds[i]? = some d) (p : Nat) : parentOf r.state i = some p ↔ Extends ds i p := by
  have ht := A.tied i d hd
  unfold Tied at ht
  cases he : d.extends_ with
  | none =>
    rw [he] at ht
    simp only at ht
    simp only [parentOf, ht, Option.bind_some]
    refine ⟨(fun h => nomatch h), ?_⟩
    rintro ⟨d', e, h1, _, h3⟩
    rw [hd] at h1
    cases h1
    rw [he] at h3
    exact nomatch h3
  | some n =>
    rw [he] at ht
    simp only at ht
    obtain ⟨q, b, h1, h2, h3, h4⟩ := ht
    simp only [parentOf, h4, Option.bind_some, Option.some.injEq]
    constructor
    · rintro rfl
      obtain ⟨e, he1, he2⟩ := lookup_some h1
      exact ⟨d, e, hd, he1, by rw [he, he2]⟩
    · rintro ⟨d', e, h5, h6, h7⟩
      rw [hd] at h5
      cases h5
      rw [he] at h7
      cases h7
      rw [lookup_iff A.names h6] at h1
      cases h1
      rfl

theorem Accepted.lt {ds : List Decl} {r : Resolved} (A : Accepted ds r) {i j : Nat}
    (h : Extends ds i j) : j < i := by
  obtain ⟨d, e, h1, h2, h3⟩ := h
  have ht := A.tied i d h1
  unfold Tied at ht
  rw [h3] at ht
  simp only at ht
  obtain ⟨q, b, h4, h5, _⟩ := ht
  rw [lookup_iff A.names h2] at h4
  cases h4
  exact h5

/-- Every declared map has a line. -/
theorem Accepted.line {ds : List Decl} {r : Resolved} (A : Accepted ds r) : ∀ (n i : Nat), i < n →
    i < ds.length → ∃ l, Line ds i l ∧ l.length ≤ i + 1 ∧ ∀ x ∈ l, x ≤ i
  | 0, _, h, _ => absurd h (by omega)
  | n + 1, i, hi, hl => by
    have hd : ds[i]? = some ds[i] := List.getElem?_eq_getElem hl
    have ht := A.tied i _ hd
    unfold Tied at ht
    cases he : ds[i].extends_ with
    | none => exact ⟨[i], .root hd he, by simp, by simp⟩
    | some m =>
      rw [he] at ht
      simp only at ht
      obtain ⟨q, b, h1, h2, _, _⟩ := ht
      obtain ⟨e, h3, h4⟩ := lookup_some h1
      obtain ⟨l, hl1, hl2, hl3⟩ := A.line n q (by omega) (by omega)
      refine ⟨i :: l, .step ⟨_, e, hd, h3, by rw [he, h4]⟩ hl1, by simp; omega, ?_⟩
      intro x hx
      rcases List.mem_cons.1 hx with rfl | hx
      · exact Nat.le_refl _
      · have := hl3 x hx
        omega

theorem extends_unique {ds : List Decl} (hn : (ds.map (·.name)).Nodup) {i j k : Nat}
    (h : Extends ds i j) (h' : Extends ds i k) : j = k := by
  obtain ⟨d, e, h1, h2, h3⟩ := h
  obtain ⟨d', e', h1', h2', h3'⟩ := h'
  rw [h1] at h1'
  cases h1'
  rw [h3] at h3'
  have he : e.name = e'.name := Option.some.inj h3'
  have a := lookup_iff hn h2
  have b := lookup_iff hn h2'
  rw [he, b] at a
  exact (Option.some.inj a).symm

theorem Line.unique {ds : List Decl} (hn : (ds.map (·.name)).Nodup) {i : Nat} {l : List Nat}
    (h : Line ds i l) : ∀ {l'}, Line ds i l' → l = l' := by
  induction h with
  | root hd he =>
    intro l' h'
    cases h' with
    | root => rfl
    | step hx _ =>
      obtain ⟨d, e, h1, _, h3⟩ := hx
      rw [hd] at h1
      cases h1
      rw [he] at h3
      exact nomatch h3
  | @step i j l hx hl ih =>
    intro l' h'
    cases h' with
    | root hd he =>
      obtain ⟨d, e, h1, _, h3⟩ := hx
      rw [hd] at h1
      cases h1
      rw [he] at h3
      exact nomatch h3
    | step hx' hl' =>
      have := extends_unique hn hx hx'
      subst this
      rw [ih hl']

/-- Climbing is looking along the line. -/
theorem Accepted.climb {α} {ds : List Decl} {r : Resolved} (A : Accepted ds r) (f : Nat → Option α)
    {i : Nat} {l : List Nat} (h : Line ds i l) : ∀ {fuel}, l.length ≤ fuel →
    Methodmap.climb r.state f fuel i = some (l.findSome? fun j => (f j).map fun a => (j, a)) := by
  induction h with
  | @root i d hd he =>
    intro fuel hf
    obtain ⟨g, rfl⟩ : ∃ g, fuel = g + 1 := ⟨fuel - 1, by simp at hf; omega⟩
    simp only [Methodmap.climb]
    have hp : parentOf r.state i = none := by
      have ht := A.tied i d hd
      unfold Tied at ht
      rw [he] at ht
      simp only at ht
      simp only [parentOf, ht, Option.bind_some]
    cases hfi : f i with
    | some a => simp [hfi]
    | none => simp [hfi, hp]
  | @step i j l hx hl ih =>
    intro fuel hf
    simp only [List.length_cons] at hf
    obtain ⟨g, rfl⟩ : ∃ g, fuel = g + 1 := ⟨fuel - 1, by omega⟩
    simp only [Methodmap.climb]
    obtain ⟨d, e, h1, h2, h3⟩ := hx
    have hp : parentOf r.state i = some j := (A.parent h1 j).2 ⟨d, e, h1, h2, h3⟩
    cases hfi : f i with
    | some a => simp [hfi]
    | none =>
      simp only [hp, List.findSome?_cons, hfi, Option.map_none]
      exact ih (by omega)

theorem Accepted.line_length {ds : List Decl} {r : Resolved} (A : Accepted ds r) {i : Nat}
    {l : List Nat} (h : Line ds i l) : l.length ≤ ds.length ∧ ∀ x ∈ l, x ≤ i ∧ x < ds.length := by
  have hi : i < ds.length := by
    cases h with
    | root hd _ => exact (List.getElem?_eq_some_iff.1 hd).1
    | step hx _ =>
      obtain ⟨d, e, h1, _, _⟩ := hx
      exact (List.getElem?_eq_some_iff.1 h1).1
  obtain ⟨l', h1, h2, h3⟩ := A.line (i + 1) i (by omega) hi
  have := h.unique A.names h1
  subst this
  exact ⟨by omega, fun x hx => by have := h3 x hx; omega⟩

theorem nearest_iff {α : Type} {l : List Nat} {P : Nat → α → Prop} {f : Nat → Option α}
    (hf : ∀ j ∈ l, ∀ a, f j = some a ↔ P j a) {j : Nat} {a : α} :
    (l.findSome? fun j => (f j).map fun a => (j, a)) = some (j, a) ↔ Nearest l P j a := by
  rw [List.findSome?_eq_some_iff]
  constructor
  · rintro ⟨l1, x, l2, rfl, hx, hb⟩
    rw [Option.map_eq_some_iff] at hx
    obtain ⟨b, hb1, hb2⟩ := hx
    cases hb2
    refine ⟨l1, l2, rfl, (hf j (by simp) a).1 hb1, fun k hk c hc => ?_⟩
    have := hb k hk
    rw [(hf k (by simp [hk]) c).2 hc] at this
    exact nomatch this
  · rintro ⟨l1, l2, rfl, hp, hb⟩
    refine ⟨l1, j, l2, rfl, by rw [(hf j (by simp) a).2 hp]; rfl, fun k hk => ?_⟩
    cases hk' : f k with
    | none => rfl
    | some c => exact absurd ((hf k (by simp [hk]) c).1 hk') (hb k hk c)

theorem none_iff {α : Type} {l : List Nat} {P : Nat → α → Prop} {f : Nat → Option α}
    (hf : ∀ j ∈ l, ∀ a, f j = some a ↔ P j a) :
    (l.findSome? fun j => (f j).map fun a => (j, a)) = none ↔ ∀ j ∈ l, ∀ a, ¬ P j a := by
  rw [List.findSome?_eq_none_iff]
  constructor
  · intro h j hj a ha
    have := h j hj
    rw [(hf j hj a).2 ha] at this
    exact nomatch this
  · intro h j hj
    cases hk' : f j with
    | none => rfl
    | some c => exact absurd ((hf j hj c).1 hk') (h j hj c)

/-! ### Own members -/

theorem findIdx_nodup {l : List Atom} (hn : l.Nodup) {n : Atom} {k : Nat} :
    l.findIdx? (· == n) = some k ↔ l[k]? = some n := by
  rw [List.findIdx?_eq_some_iff_getElem, List.getElem?_eq_some_iff]
  constructor
  · rintro ⟨h, h1, _⟩
    exact ⟨h, by simpa using h1⟩
  · rintro ⟨h, h1⟩
    refine ⟨h, by simpa using h1, fun j hj => ?_⟩
    have := (List.pairwise_iff_getElem.1 hn) j k (by omega) h hj
    rw [h1] at this
    simpa using this

theorem Good.own {d : Decl} {m : Map} (G : Good d m) {n : Atom} (hn : Identifier n) (x : Member) :
    ownMember m n = some x ↔ match x with
      | .property k => d.properties[k]? = some n
      | .method k => ∃ f, d.methods[k]? = some f ∧ f.isDtor = false ∧ f.name = n := by
  have hidx : ∀ k, (m.names.findIdx? (· == n)) = some k ↔
      ∃ f, d.methods[k]? = some f ∧ f.isDtor = false ∧ f.name = n := by
    intro k
    rw [G.names, List.findIdx?_eq_some_iff_getElem]
    constructor
    · rintro ⟨hk, h1, _⟩
      simp only [List.length_map] at hk
      simp only [List.getElem_map, beq_iff_eq] at h1
      refine ⟨d.methods[k], List.getElem?_eq_getElem hk, ?_⟩
      unfold newName at h1
      by_cases hd : d.methods[k].isDtor = true
      · rw [if_pos hd] at h1
        exact absurd (by rw [← h1]; rfl) hn
      · rw [if_neg hd] at h1
        exact ⟨by simpa using hd, h1⟩
    · rintro ⟨f, hf, hd, he⟩
      obtain ⟨hk, rfl⟩ := List.getElem?_eq_some_iff.1 hf
      refine ⟨by simpa using hk, ?_, ?_⟩
      · simp only [List.getElem_map, newName, hd, Bool.false_eq_true, if_false, he, beq_self_eq_true]
      · intro j hj
        simp only [List.getElem_map, beq_iff_eq]
        unfold newName
        by_cases hdj : d.methods[j].isDtor = true
        · rw [if_pos hdj]
          intro hh
          exact hn (by rw [← hh]; rfl)
        · rw [if_neg hdj]
          intro hh
          have := (List.pairwise_iff_getElem.1 G.nodup) j k (by simp; omega) (by simpa using hk) hj
          simp only [List.getElem_map] at this
          exact this (by rw [hh, he])
  unfold ownMember
  rw [G.decl]
  cases hp : d.properties.findIdx? (· == n) with
  | some k =>
    have hk := (findIdx_nodup G.props).1 hp
    simp only
    cases x with
    | property k' =>
      simp only [Option.some.injEq, Member.property.injEq]
      constructor
      · rintro rfl; exact hk
      · intro h
        have := (findIdx_nodup G.props).2 h
        rw [hp] at this
        exact Option.some.inj this
    | method k' =>
      simp only [Option.some.injEq]
      refine ⟨(fun h => nomatch h), ?_⟩
      rintro ⟨f, h1, _, h3⟩
      exact absurd (List.mem_of_getElem? hk) (h3 ▸ G.disjoint f (List.mem_of_getElem? h1))
  | none =>
    simp only
    cases x with
    | property k' =>
      constructor
      · intro h
        rw [Option.map_eq_some_iff] at h
        obtain ⟨_, _, h⟩ := h
        exact nomatch h
      · intro h
        have := (findIdx_nodup G.props).2 h
        rw [hp] at this
        exact nomatch this
    | method k' =>
      show _ ↔ ∃ f, d.methods[k']? = some f ∧ f.isDtor = false ∧ f.name = n
      rw [← hidx k', Option.map_eq_some_iff]
      constructor
      · rintro ⟨a, h1, h2⟩
        cases h2
        exact h1
      · intro h
        exact ⟨k', h, rfl⟩

theorem Accepted.own {ds : List Decl} {r : Resolved} (A : Accepted ds r) {n : Atom}
    (hn : Identifier n) (j : Nat) (x : Member) :
    r.maps[j]?.bind (ownMember · n) = some x ↔ Declares ds j n x := by
  cases hd : ds[j]? with
  | none =>
    have hj : ds.length ≤ j := List.getElem?_eq_none_iff.1 hd
    rw [List.getElem?_eq_none (by rw [A.len]; exact hj)]
    refine ⟨(fun h => nomatch h), ?_⟩
    cases x with
    | property k => rintro ⟨d, h, _⟩; rw [hd] at h; exact nomatch h
    | method k => rintro ⟨d, m, h, _⟩; rw [hd] at h; exact nomatch h
  | some d =>
    obtain ⟨m, hm, G⟩ := A.good j d hd
    rw [hm, Option.bind_some, G.own hn x]
    cases x with
    | property k => exact ⟨fun h => ⟨d, hd, h⟩, fun ⟨d', h, h'⟩ => by rw [hd] at h; cases h; exact h'⟩
    | method k =>
      constructor
      · rintro ⟨f, h1, h2⟩; exact ⟨d, f, hd, h1, h2⟩
      · rintro ⟨d', f, h, h1, h2⟩; rw [hd] at h; cases h; exact ⟨f, h1, h2⟩

theorem Accepted.dtor {ds : List Decl} {r : Resolved} (A : Accepted ds r) (j k : Nat) :
    r.maps[j]?.bind (·.dtor) = some k ↔ Destroys ds j k := by
  cases hd : ds[j]? with
  | none =>
    have hj : ds.length ≤ j := List.getElem?_eq_none_iff.1 hd
    rw [List.getElem?_eq_none (by rw [A.len]; exact hj)]
    refine ⟨(fun h => nomatch h), ?_⟩
    rintro ⟨d, m, h, _⟩; rw [hd] at h; exact nomatch h
  | some d =>
    obtain ⟨m, hm, G⟩ := A.good j d hd
    rw [hm, Option.bind_some, G.dtor k]
    constructor
    · rintro ⟨f, h1, h2⟩; exact ⟨d, f, hd, h1, h2⟩
    · rintro ⟨d', f, h, h1, h2⟩; rw [hd] at h; cases h; exact ⟨f, h1, h2⟩

theorem Accepted.ctor {ds : List Decl} {r : Resolved} (A : Accepted ds r) (j k : Nat) :
    r.maps[j]?.bind (·.ctor) = some k ↔ Constructs ds j k := by
  cases hd : ds[j]? with
  | none =>
    have hj : ds.length ≤ j := List.getElem?_eq_none_iff.1 hd
    rw [List.getElem?_eq_none (by rw [A.len]; exact hj)]
    refine ⟨(fun h => nomatch h), ?_⟩
    rintro ⟨d, m, h, _⟩; rw [hd] at h; exact nomatch h
  | some d =>
    obtain ⟨m, hm, G⟩ := A.good j d hd
    rw [hm, Option.bind_some, G.ctor k]
    have key : ∀ f : Method, isCtor d f = true ↔ f.isDtor = false ∧ f.name = d.name := by
      intro f
      simp only [isCtor, Bool.and_eq_true, Bool.not_eq_true', beq_iff_eq]
      exact ⟨fun ⟨a, b⟩ => ⟨a, b.symm⟩, fun ⟨a, b⟩ => ⟨a, b.symm⟩⟩
    constructor
    · rintro ⟨f, h1, h2⟩; exact ⟨d, f, hd, h1, (key f).1 h2⟩
    · rintro ⟨d', f, h, h1, h2⟩; rw [hd] at h; cases h; exact ⟨f, h1, (key f).2 h2⟩

/-- A map's root decides whether it is nullable. -/
theorem Accepted.nullable {ds : List Decl} {r : Resolved} (A : Accepted ds r) {i : Nat} {l : List Nat}
    (h : Line ds i l) : ∃ root d b, l.getLast? = some root ∧ ds[root]? = some d ∧ d.extends_ = none ∧
      r.state[i]? = some b ∧ b.nullable = d.isNullable := by
  induction h with
  | @root i d hd he =>
    have ht := A.tied i d hd
    unfold Tied at ht
    rw [he] at ht
    exact ⟨i, d, _, rfl, hd, he, ht, rfl⟩
  | @step i j l hx hl ih =>
    obtain ⟨root, d, b, h1, h2, h3, h4, h5⟩ := ih
    obtain ⟨d1, e, h6, h7, h8⟩ := hx
    have ht := A.tied i d1 h6
    unfold Tied at ht
    rw [h8] at ht
    simp only at ht
    obtain ⟨q, b', h9, h10, h11, h12⟩ := ht
    rw [lookup_iff A.names h7] at h9
    cases h9
    rw [h4] at h11
    cases h11
    refine ⟨root, d, _, ?_, h2, h3, h12, h5⟩
    cases l with
    | nil => exact nomatch h1
    | cons x xs => rw [List.getLast?_cons_cons]; exact h1

end Verif.Methodmap

import Verif.Spec.Methodmap
/-
Helper lemmas about methodmaps: climbing from a map to those it extends always ends.
-/
namespace Verif.Methodmap

/-- Climbing from a map until something is found. -/
def climb {α : Type} (s : State) (f : Nat → Option α) : Nat → Nat → Option (Option (Nat × α))
  | 0, _ => none
  | fuel + 1, i =>
    match f i with
    | some a => some (some (i, a))
    | none => match parentOf s i with
      | none => some none
      | some p => climb s f fuel p

theorem findMember_climb (r : Resolved) (n : Atom) : ∀ fuel i,
    findMember r fuel i n = climb r.state (fun i => r.maps[i]?.bind (ownMember · n)) fuel i
  | 0, _ => rfl
  | fuel + 1, i => by
    simp only [findMember, climb, findMember_climb r n fuel]
    cases r.maps[i]?.bind (ownMember · n) with
    | some m => rfl
    | none => cases parentOf r.state i <;> rfl

theorem findDtor_climb (r : Resolved) : ∀ fuel i,
    findDtor r fuel i = climb r.state (fun i => r.maps[i]?.bind (·.dtor)) fuel i
  | 0, _ => rfl
  | fuel + 1, i => by
    simp only [findDtor, climb, findDtor_climb r fuel]
    cases r.maps[i]?.bind (·.dtor) with
    | some m => rfl
    | none => cases parentOf r.state i <;> rfl

theorem reaches_climb (s : State) (t : Nat) : ∀ fuel i,
    reaches s fuel i t = (climb s (fun x => if x = t then some () else none) fuel i).map Option.isSome
  | 0, _ => rfl
  | fuel + 1, i => by
    simp only [reaches, climb]
    by_cases h : i = t
    · simp [h]
    · simp only [h, if_false]
      cases parentOf s i with
      | none => rfl
      | some p => exact reaches_climb s t fuel p

theorem climb_mono {α} {s : State} {f : Nat → Option α} : ∀ {fuel i x}, climb s f fuel i = some x →
    ∀ fuel', fuel ≤ fuel' → climb s f fuel' i = some x
  | 0, _, _, h => nomatch h
  | fuel + 1, i, x, h => by
    intro fuel' hf
    obtain ⟨g, rfl⟩ : ∃ g, fuel' = g + 1 := ⟨fuel' - 1, by omega⟩
    simp only [climb] at h ⊢
    cases hf : f i with
    | some a => rw [hf] at h; exact h
    | none =>
      rw [hf] at h
      simp only at h ⊢
      cases hp : parentOf s i with
      | none => rw [hp] at h; exact h
      | some p => rw [hp] at h; exact climb_mono h _ (by omega)

theorem Above.trans {s : State} {i j k : Nat} (h : Above s i j) (h' : Above s j k) : Above s i k := by
  induction h with
  | one h => exact .more h h'
  | more h _ ih => exact .more h (ih h')

def Acyclic (s : State) : Prop := ∀ i, ¬ Above s i i

/-- The maps passed on the way up. -/
inductive Walk (s : State) : Nat → List Nat → Prop where
  | nil {i} : Walk s i []
  | cons {i j l} : parentOf s i = some j → Walk s j l → Walk s i (i :: l)

theorem climb_none {α} {s : State} {f : Nat → Option α} : ∀ {fuel i}, climb s f fuel i = none →
    ∃ l, l.length = fuel ∧ Walk s i l
  | 0, _, _ => ⟨[], rfl, .nil⟩
  | fuel + 1, i, h => by
    simp only [climb] at h
    cases hf : f i with
    | some a => rw [hf] at h; exact nomatch h
    | none =>
      rw [hf] at h
      simp only at h
      cases hp : parentOf s i with
      | none => rw [hp] at h; exact nomatch h
      | some p =>
        rw [hp] at h
        obtain ⟨l, hl, hw⟩ := climb_none h
        exact ⟨i :: l, by simp [hl], .cons hp hw⟩

theorem Walk.above {s : State} {i : Nat} {l : List Nat} (h : Walk s i l) :
    ∀ x ∈ l, x = i ∨ Above s i x := by
  induction h with
  | nil => intro x hx; exact nomatch hx
  | cons hp _ ih =>
    intro x hx
    rcases List.mem_cons.1 hx with rfl | hx
    · exact .inl rfl
    · rcases ih x hx with rfl | h
      · exact .inr (.one hp)
      · exact .inr (.more hp h)

theorem Walk.nodup {s : State} (ha : Acyclic s) {i : Nat} {l : List Nat} (h : Walk s i l) :
    l.Nodup := by
  induction h with
  | nil => exact List.nodup_nil
  | @cons i j l hp hw ih =>
    rw [List.nodup_cons]
    refine ⟨fun hi => ?_, ih⟩
    rcases hw.above i hi with rfl | h
    · exact ha _ (.one hp)
    · exact ha _ (.more hp h)

theorem parentOf_lt {s : State} {i j : Nat} (h : parentOf s i = some j) : i < s.length := by
  apply Classical.byContradiction
  intro hn
  rw [parentOf, List.getElem?_eq_none (by omega)] at h
  exact nomatch h

theorem Walk.lt {s : State} {i : Nat} {l : List Nat} (h : Walk s i l) : ∀ x ∈ l, x < s.length := by
  induction h with
  | nil => intro x hx; exact nomatch hx
  | cons hp _ ih =>
    intro x hx
    rcases List.mem_cons.1 hx with rfl | hx
    · exact parentOf_lt hp
    · exact ih x hx

theorem length_le : ∀ {l m : List Nat}, l.Nodup → (∀ x ∈ l, x ∈ m) → l.length ≤ m.length
  | [], _, _, _ => Nat.zero_le _
  | a :: l, m, hn, h => by
    rw [List.nodup_cons] at hn
    have ha := h a (List.mem_cons_self ..)
    have := length_le (l := l) (m := m.erase a) hn.2 (by
      intro x hx
      rw [List.mem_erase_of_ne]
      · exact h x (List.mem_cons_of_mem _ hx)
      · intro hh; subst hh; exact hn.1 hx)
    rw [List.length_erase_of_mem ha] at this
    have := List.length_pos_of_mem ha
    rw [List.length_cons]
    omega

theorem climb_ends {α} {s : State} (ha : Acyclic s) (f : Nat → Option α) (i : Nat) :
    ∃ x, ∀ fuel, s.length < fuel → climb s f fuel i = some x := by
  cases hc : climb s f (s.length + 1) i with
  | some x => exact ⟨x, fun fuel h => climb_mono hc _ (by omega)⟩
  | none =>
    obtain ⟨l, hl, hw⟩ := climb_none hc
    have := length_le (m := List.range s.length) (hw.nodup ha) (fun x hx => List.mem_range.2 (hw.lt x hx))
    rw [List.length_range] at this
    omega

theorem reaches_ends {s : State} (ha : Acyclic s) (i t : Nat) :
    ∃ b, ∀ fuel, s.length < fuel → reaches s fuel i t = some b := by
  obtain ⟨x, hx⟩ := climb_ends ha (fun x => if x = t then some () else none) i
  exact ⟨x.isSome, fun fuel h => by rw [reaches_climb, hx fuel h]; rfl⟩

theorem reaches_iff {s : State} {t : Nat} : ∀ {fuel i b}, reaches s fuel i t = some b →
    (b = true ↔ (i = t ∨ Above s i t))
  | 0, _, _, h => nomatch h
  | fuel + 1, i, b, h => by
    simp only [reaches] at h
    by_cases hi : i = t
    · rw [if_pos hi] at h
      cases h
      exact ⟨fun _ => .inl hi, fun _ => rfl⟩
    · rw [if_neg hi] at h
      cases hp : parentOf s i with
      | none =>
        rw [hp] at h
        cases h
        refine ⟨(fun h => nomatch h), fun h => ?_⟩
        rcases h with h | h
        · exact absurd h hi
        · cases h with
          | one h => change parentOf _ _ = _ at h; rw [hp] at h; exact nomatch h
          | more h _ => change parentOf _ _ = _ at h; rw [hp] at h; exact nomatch h
      | some p =>
        rw [hp] at h
        rw [reaches_iff h]
        constructor
        · rintro (rfl | h)
          · exact .inr (.one hp)
          · exact .inr (.more hp h)
        · rintro (h | h)
          · exact absurd h hi
          · cases h with
            | one h => change parentOf _ _ = _ at h; rw [hp] at h; cases h; exact .inl rfl
            | more h h' => change parentOf _ _ = _ at h; rw [hp] at h; cases h; exact .inr h'

theorem parentOf_set (s : State) (i j : Nat) (b : Bound) :
    parentOf (s.set i b) j = if i = j ∧ i < s.length then b.parent else parentOf s j := by
  simp only [parentOf, List.getElem?_set]
  by_cases h : i = j
  · subst h
    by_cases hl : i < s.length
    · simp [hl]
    · simp [hl]
  · simp [h]

theorem reaches_set (s : State) (i : Nat) (b : Bound) : ∀ fuel x,
    reaches (s.set i b) fuel x i = reaches s fuel x i
  | 0, _ => rfl
  | fuel + 1, x => by
    simp only [reaches]
    by_cases h : x = i
    · rw [if_pos h, if_pos h]
    · rw [if_neg h, if_neg h, parentOf_set, if_neg (fun hh => h hh.1.symm)]
      cases parentOf s x with
      | none => rfl
      | some p => exact reaches_set s i b fuel p

theorem above_congr {s s' : State} (h : ∀ i, parentOf s' i = parentOf s i) {i j} (ha : Above s' i j) :
    Above s i j := by
  induction ha with
  | one h' => exact .one (by change parentOf _ _ = _; rw [← h]; exact h')
  | more h' _ ih => exact .more (by change parentOf _ _ = _; rw [← h]; exact h') ih

/-- A step more at `i`: what is above in the new state was above in the old, or passes `i`. -/
theorem above_set {s s' : State} {i : Nat} (h : ∀ j, j ≠ i → parentOf s' j = parentOf s j) {x y}
    (ha : Above s' x y) : Above s x y ∨ ((x = i ∨ Above s' x i) ∧ Above s' i y) := by
  induction ha with
  | @one x y hp =>
    by_cases hx : x = i
    · subst hx
      exact .inr ⟨.inl rfl, .one hp⟩
    · exact .inl (.one (by change parentOf _ _ = _; rw [← h x hx]; exact hp))
  | @more x y z hp hyz ih =>
    by_cases hx : x = i
    · subst hx
      exact .inr ⟨.inl rfl, .more hp hyz⟩
    · rcases ih with ih | ⟨ih, ih'⟩
      · exact .inl (.more (by change parentOf _ _ = _; rw [← h x hx]; exact hp) ih)
      · refine .inr ⟨.inr ?_, ih'⟩
        rcases ih with rfl | ih
        · exact .one hp
        · exact .more hp ih

theorem acyclic_tie {s s' : State} {i p : Nat} (ha : Acyclic s)
    (h : ∀ j, j ≠ i → parentOf s' j = parentOf s j) (hi : parentOf s' i = some p)
    (hne : p ≠ i) (hp : ¬ Above s' p i) : Acyclic s' := by
  have hii : ¬ Above s' i i := by
    intro hh
    cases hh with
    | one h' => change parentOf _ _ = _ at h'; rw [hi] at h'; cases h'; exact hne rfl
    | more h' h'' => change parentOf _ _ = _ at h'; rw [hi] at h'; cases h'; exact hp h''
  intro x hx
  rcases above_set h hx with hx | ⟨rfl | hx, hx'⟩
  · exact ha x hx
  · exact hii hx'
  · exact hii (hx'.trans hx)

/-! ### Binding never makes a cycle -/

structure Inv (ds : List Decl) (i : Nat) (s : State) : Prop where
  len : s.length = ds.length
  acyclic : Acyclic s
  later : ∀ k b, i ≤ k → s[k]? = some b →
    b.parent = none ∧ b.isBound = false ∧ ∃ d, ds[k]? = some d ∧ b.nullable = d.isNullable
  bound : ∀ k b, k < i → s[k]? = some b → b.isBound = true

theorem Inv.start (ds : List Decl) : Inv ds 0 (start ds) := by
  refine ⟨by simp [Methodmap.start], ?_, ?_, fun k b h => absurd h (by omega)⟩
  · intro i h
    have : ∀ j, parentOf (Methodmap.start ds) j = none := by
      intro j
      simp only [parentOf, Methodmap.start, List.getElem?_map]
      cases ds[j]? <;> rfl
    cases h with
    | one h => change parentOf _ _ = _ at h; rw [this] at h; exact nomatch h
    | more h _ => change parentOf _ _ = _ at h; rw [this] at h; exact nomatch h
  · intro k b _ hb
    simp only [Methodmap.start, List.getElem?_map, Option.map_eq_some_iff] at hb
    obtain ⟨d, hd, rfl⟩ := hb
    exact ⟨rfl, rfl, d, hd, rfl⟩

theorem Inv.set {ds : List Decl} {i : Nat} {s : State} (h : Inv ds i s) {b : Bound}
    (hb : b.isBound = true) (ha : Acyclic (s.set i b)) : Inv ds (i + 1) (s.set i b) := by
  refine ⟨by rw [List.length_set]; exact h.len, ha, ?_, ?_⟩
  · intro k c hk hc
    rw [List.getElem?_set_ne (by omega)] at hc
    exact h.later k c (by omega) hc
  · intro k c hk hc
    by_cases hki : k = i
    · subst hki
      rw [List.getElem?_set] at hc
      by_cases hl : k < s.length
      · simp [hl] at hc; subst hc; exact hb
      · simp [hl] at hc
    · rw [List.getElem?_set_ne (by omega)] at hc
      exact h.bound k c (by omega) hc

theorem acyclic_same {s : State} (ha : Acyclic s) {i : Nat} {b c : Bound} (hc : s[i]? = some c)
    (hb : b.parent = c.parent) : Acyclic (s.set i b) := by
  intro x hx
  refine ha x (above_congr (fun j => ?_) hx)
  rw [parentOf_set]
  by_cases h : i = j ∧ i < s.length
  · obtain ⟨rfl, hl⟩ := h
    rw [if_pos ⟨rfl, hl⟩, parentOf, hc, hb]
    rfl
  · rw [if_neg h]

/-- What tying one map comes to, whatever the fuel. -/
theorem tie_spec {ds : List Decl} {i : Nat} {s : State} {d : Decl} (h : Inv ds i s)
    (hd : ds[i]? = some d) : ∃ s' e, (∀ fuel, ds.length < fuel → tie fuel ds s i d = some (s', e)) ∧
      Inv ds (i + 1) s' ∧ (∀ k, k ≠ i → s'[k]? = s[k]?) ∧
      (e = 0 → match d.extends_ with
        | none => s'[i]? = some { parent := none, isBound := true, nullable := d.isNullable }
        | some n => ∃ p b, lookup ds n = some p ∧ p < i ∧ s[p]? = some b ∧
            s'[i]? = some { parent := some p, isBound := true, nullable := b.nullable }) := by
  have hil : i < s.length := by
    rw [h.len]
    exact (List.getElem?_eq_some_iff.1 hd).1
  obtain ⟨c, hc⟩ : ∃ c, s[i]? = some c := ⟨s[i], List.getElem?_eq_getElem hil⟩
  obtain ⟨hcp, hcb, d', hd', hcn⟩ := h.later i c (Nat.le_refl _) hc
  rw [hd] at hd'
  cases hd'
  have hset : ∀ b : Bound, (s.set i b)[i]? = some b := by
    intro b
    rw [List.getElem?_set]
    simp [hil]
  have hother : ∀ b : Bound, ∀ k, k ≠ i → (s.set i b)[k]? = s[k]? := by
    intro b k hk
    rw [List.getElem?_set_ne (fun hh => hk hh.symm)]
  unfold tie
  simp only [hc, Option.getD_some]
  cases he : d.extends_ with
  | none =>
    refine ⟨_, _, fun _ _ => rfl, h.set rfl (acyclic_same h.acyclic hc rfl), hother _, fun _ => ?_⟩
    simp only [hset, hcp, hcn]
  | some n =>
    simp only
    cases hl : lookup ds n with
    | none =>
      exact ⟨_, _, fun _ _ => rfl, h.set rfl (acyclic_same h.acyclic hc rfl), hother _,
        fun hh => nomatch hh⟩
    | some p =>
      simp only
      obtain ⟨r, hr⟩ := reaches_ends h.acyclic p i
      have hr' : ∀ b : Bound, ∀ fuel, ds.length < fuel → reaches (s.set i b) fuel p i = some r := by
        intro b fuel hf
        rw [reaches_set]
        exact hr fuel (by rw [h.len]; exact hf)
      cases r with
      | true =>
        refine ⟨s.set i { c with isBound := true },
          (if ((s.set i ⟨some p, true, c.nullable⟩)[p]?.getD {}).isBound then 0 else 1) + 1,
          fun fuel hf => by rw [hr' _ fuel hf], h.set rfl (acyclic_same h.acyclic hc rfl),
          hother _, fun hh => absurd hh (Nat.succ_ne_zero _)⟩
      | false =>
        have hno := hr' { parent := some p, isBound := true, nullable := c.nullable } (ds.length + 1)
          (by omega)
        have hno' := reaches_iff hno
        have hne : p ≠ i := fun hh => nomatch hno'.2 (.inl hh)
        refine ⟨_, _, fun fuel hf => by rw [hr' _ fuel hf], h.set rfl ?_, hother _, fun hh => ?_⟩
        · have hno2 := hr' { parent := some p, isBound := true, nullable := (((s.set i { parent := some p, isBound := true, nullable := c.nullable })[p]?).getD {}).nullable } (ds.length + 1) (by omega)
          have hno2' := reaches_iff hno2
          refine acyclic_tie h.acyclic (i := i) (p := p) (fun j hj => ?_) ?_ hne
            (fun hh => nomatch hno2'.2 (.inr hh))
          · rw [parentOf_set, if_neg (fun hh => hj hh.1.symm)]
          · rw [parentOf_set, if_pos ⟨rfl, hil⟩]
        · rw [hother _ p hne] at hh
          cases hb : s[p]? with
          | none =>
            rw [hb] at hh
            exact nomatch hh
          | some b =>
            rw [hb] at hh
            have hbb : b.isBound = true := by
              apply Classical.byContradiction
              intro hn
              simp only [Option.getD_some, hn] at hh
              exact nomatch hh
            have hpi : p < i := by
              apply Classical.byContradiction
              intro hn
              have := (h.later p b (by omega) hb).2.1
              rw [hbb] at this
              exact nomatch this
            refine ⟨p, b, rfl, hpi, hb, ?_⟩
            rw [hset, hother _ p hne, hb]
            rfl

/-- What a map has become once it is bound without an error. -/
def Tied (ds : List Decl) (s : State) (i : Nat) (d : Decl) : Prop :=
  match d.extends_ with
  | none => s[i]? = some { parent := none, isBound := true, nullable := d.isNullable }
  | some n => ∃ p b, lookup ds n = some p ∧ p < i ∧ s[p]? = some b ∧
      s[i]? = some { parent := some p, isBound := true, nullable := b.nullable }

theorem bindFrom_spec (ds : List Decl) : ∀ (rest : List Decl) (i : Nat) (s : State),
    Inv ds i s → rest = ds.drop i → ∃ s' e,
      (∀ fuel, ds.length < fuel → bindFrom fuel ds rest i s = some (s', e)) ∧
      Inv ds (i + rest.length) s' ∧ (∀ k, k < i → s'[k]? = s[k]?) ∧
      (e = 0 → (∀ k d, i ≤ k → ds[k]? = some d → Tied ds s' k d ∧ ∀ m ∈ d.methods, methodErrors d m = 0))
  | [], i, s, h, hr => by
    refine ⟨s, 0, fun _ _ => rfl, h, fun _ _ => rfl, fun _ k d hk hd => ?_⟩
    have := (List.getElem?_eq_some_iff.1 hd).1
    have hz := congrArg List.length hr
    rw [List.length_drop] at hz
    simp only [List.length_nil] at hz
    omega
  | d :: rest, i, s, h, hr => by
    have hd : ds[i]? = some d := by
      have := congrArg (·[0]?) hr
      simp only [List.getElem?_cons_zero, List.getElem?_drop, Nat.add_zero] at this
      exact this.symm
    have hrest : rest = ds.drop (i + 1) := by
      have := congrArg List.tail hr
      simpa using this
    obtain ⟨s1, e1, h1, hinv1, hk1, ht1⟩ := tie_spec h hd
    obtain ⟨s2, e2, h2, hinv2, hk2, ht2⟩ := bindFrom_spec ds rest (i + 1) s1 hinv1 hrest
    refine ⟨s2, e1 + (d.methods.map (methodErrors d)).sum + e2, fun fuel hf => ?_, ?_, ?_, ?_⟩
    · simp only [bindFrom, bindMap, h1 fuel hf, h2 fuel hf]
    · rw [List.length_cons]
      have : i + (rest.length + 1) = i + 1 + rest.length := by omega
      rw [this]
      exact hinv2
    · intro k hk
      rw [hk2 k (by omega), hk1 k (by omega)]
    · intro he k d' hk hd'
      by_cases hki : k = i
      · subst hki
        rw [hd] at hd'
        cases hd'
        have ht := ht1 (by omega)
        refine ⟨?_, ?_⟩
        · unfold Tied
          cases hx : d.extends_ with
          | none =>
            rw [hx] at ht
            simp only at ht ⊢
            rw [hk2 k (by omega)]
            exact ht
          | some n =>
            rw [hx] at ht
            simp only at ht ⊢
            obtain ⟨p, b, h3, h4, h5, h6⟩ := ht
            refine ⟨p, b, h3, h4, ?_, ?_⟩
            · rw [hk2 p (by omega), hk1 p (by omega)]
              exact h5
            · rw [hk2 k (by omega)]
              exact h6
        · intro m hm
          have hz : (d.methods.map (methodErrors d)).sum = 0 := by omega
          exact List.sum_eq_zero_iff_forall_eq_nat.1 hz _ (List.mem_map_of_mem hm)
      · exact ht2 (by omega) k d' (by omega) hd'

end Verif.Methodmap

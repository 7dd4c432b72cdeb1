import Verif.Proofs.MethodmapMain
/-
C86: a methodmap has the members of the maps it extends, nearest first.
-/
namespace Verif.Methodmap

/-- The compiler resolves the names of these methodmaps without an error. -/
def Accepts (ds : List Decl) (r : Resolved) : Prop :=
  resolve (ds.length + 1) ds = some r ∧ r.errs = 0

theorem Accepts.acc {ds : List Decl} {r : Resolved} (h : Accepts ds r) : Accepted ds r := by
  obtain ⟨r', h1, _, _, h2⟩ := resolve_ends ds
  have := h1 (ds.length + 1) (by omega)
  rw [h.1] at this
  cases this
  exact h2 h.2

/-- A program for the examples: `Handle` with a destructor, `Menu < Handle` with a constructor and
a property, `Panel < Menu` with a method of its own and one that hides a base's. -/
def sample : List Decl :=
  [ { name := "Handle".toList, isNullable := true
      methods := [{ name := "Handle".toList, isDtor := true, isNative := true, typed := false },
                  { name := "Clone".toList }] },
    { name := "Menu".toList, extends_ := some "Handle".toList, properties := ["Title".toList]
      methods := [{ name := "Menu".toList, typed := false }, { name := "Show".toList },
                  { name := "Max".toList, isStatic := true }] },
    { name := "Panel".toList, extends_ := some "Menu".toList
      methods := [{ name := "Show".toList }] } ]

def sampleResolved : Resolved := (resolve 4 sample).getD ⟨[], [], 1⟩

theorem sample_accepted : Accepts sample sampleResolved :=
  ⟨by decide +kernel, by decide +kernel⟩

theorem sample_line : Line sample 2 [2, 1, 0] :=
  .step ⟨_, _, rfl, rfl, rfl⟩ (.step ⟨_, _, rfl, rfl, rfl⟩ (.root rfl rfl))

/-- Whatever the declarations, right or wrong (a map may name itself, one that names it, or one
declared later), resolving them ends with no map above itself, and every search through the maps
that one extends ends. -/
theorem C86_ends (ds : List Decl) : ∃ r, (∀ fuel, ds.length < fuel → resolve fuel ds = some r) ∧
    (∀ i, ¬ Above r.state i i) ∧
    (∀ i n, ∃ x, ∀ fuel, ds.length < fuel → findMember r fuel i n = some x) ∧
    (∀ i, ∃ x, ∀ fuel, ds.length < fuel → findDtor r fuel i = some x) ∧
    (∀ i j, ∃ b, ∀ fuel, ds.length < fuel → onChain r fuel i j = some b ∧
      (b = true ↔ i = j ∨ Above r.state i j)) := by
  obtain ⟨r, h1, h2, h3, _⟩ := resolve_ends ds
  refine ⟨r, h1, h3, fun i n => ?_, fun i => ?_, fun i j => ?_⟩
  · obtain ⟨x, hx⟩ := climb_ends h3 (fun i => r.maps[i]?.bind (ownMember · n)) i
    exact ⟨x, fun fuel hf => by rw [findMember_climb]; exact hx fuel (by omega)⟩
  · obtain ⟨x, hx⟩ := climb_ends h3 (fun i => r.maps[i]?.bind (·.dtor)) i
    exact ⟨x, fun fuel hf => by rw [findDtor_climb]; exact hx fuel (by omega)⟩
  · obtain ⟨b, hb⟩ := reaches_ends h3 i j
    exact ⟨b, fun fuel hf => ⟨hb fuel (by omega), reaches_iff (hb fuel (by omega))⟩⟩

/-- Three maps in a circle: resolved, with an error, and no circle is left. -/
example : ∃ r, resolve 4 [ { name := ['A'], extends_ := some ['C'] },
    { name := ['B'], extends_ := some ['A'] }, { name := ['C'], extends_ := some ['B'] } ] = some r ∧
    r.errs = 2 ∧ r.state.map (·.parent) = [some 2, some 0, none] :=
  ⟨_, rfl, by decide +kernel, by decide +kernel⟩

/-- In an accepted program every map has one line, each map of which is declared before the one
that extends it. -/
theorem C86_line {ds : List Decl} {r : Resolved} (h : Accepts ds r) {i : Nat} (hi : i < ds.length) :
    ∃ l, Line ds i l ∧ (∀ l', Line ds i l' → l' = l) ∧ l.Pairwise (· > ·) := by
  have A := h.acc
  obtain ⟨l, h1, h2, h3⟩ := A.line (i + 1) i (by omega) hi
  refine ⟨l, h1, fun l' h' => h'.unique A.names h1, ?_⟩
  clear hi h2 h3
  induction h1 with
  | root => exact List.pairwise_singleton ..
  | @step i j l hx hl ih =>
    refine List.pairwise_cons.2 ⟨fun x hx' => ?_, ih⟩
    have := (A.line_length hl).2 x hx'
    have := A.lt hx
    omega

/-- A name is looked up nearest first: what is found is a member declared under that name in a map
of the line before which no map of the line declares it. -/
theorem C86_member {ds : List Decl} {r : Resolved} (h : Accepts ds r) {i : Nat} {l : List Nat}
    (hl : Line ds i l) {n : Atom} (hn : Identifier n) {fuel : Nat} (hf : ds.length ≤ fuel)
    (j : Nat) (m : Member) :
    findMember r fuel i n = some (some (j, m)) ↔ Nearest l (fun j m => Declares ds j n m) j m := by
  have A := h.acc
  rw [findMember_climb, A.climb _ hl (by have := (A.line_length hl).1; omega), Option.some.injEq]
  exact nearest_iff (fun j _ a => A.own hn j a)

/-- Nothing is found exactly when no map of the line declares the name. -/
theorem C86_no_member {ds : List Decl} {r : Resolved} (h : Accepts ds r) {i : Nat} {l : List Nat}
    (hl : Line ds i l) {n : Atom} (hn : Identifier n) {fuel : Nat} (hf : ds.length ≤ fuel) :
    findMember r fuel i n = some none ↔ ∀ j ∈ l, ∀ m, ¬ Declares ds j n m := by
  have A := h.acc
  rw [findMember_climb, A.climb _ hl (by have := (A.line_length hl).1; omega), Option.some.injEq]
  exact none_iff (fun j _ a => A.own hn j a)

/-- No map of an accepted program declares a name twice. -/
theorem C86_once {ds : List Decl} {r : Resolved} (h : Accepts ds r) {j : Nat} {n : Atom}
    (hn : Identifier n) {m m' : Member} (h1 : Declares ds j n m) (h2 : Declares ds j n m') : m = m' := by
  have A := h.acc
  have a := (A.own hn j m).2 h1
  have b := (A.own hn j m').2 h2
  rw [a] at b
  exact Option.some.inj b

/-- `delete` calls the destructor of the nearest map of the line that has one. -/
theorem C86_delete {ds : List Decl} {r : Resolved} (h : Accepts ds r) {i : Nat} {l : List Nat}
    (hl : Line ds i l) {fuel : Nat} (hf : ds.length ≤ fuel) (j k : Nat) :
    findDtor r fuel i = some (some (j, k)) ↔ Nearest l (Destroys ds) j k := by
  have A := h.acc
  rw [findDtor_climb, A.climb _ hl (by have := (A.line_length hl).1; omega), Option.some.injEq]
  exact nearest_iff (fun j _ a => A.dtor j a)

/-- A value of a map's type is taken where the type of another is asked for, on account of the maps
it extends, exactly when the other is on its line. -/
theorem C86_base {ds : List Decl} {r : Resolved} (h : Accepts ds r) {i : Nat} {l : List Nat}
    (hl : Line ds i l) {fuel : Nat} (hf : ds.length ≤ fuel) (j : Nat) :
    onChain r fuel i j = some (decide (j ∈ l)) := by
  have A := h.acc
  unfold onChain
  rw [reaches_climb, A.climb _ hl (by have := (A.line_length hl).1; omega), Option.map_some]
  congr 1
  rw [Bool.eq_iff_iff, decide_eq_true_eq, Option.isSome_iff_exists]
  constructor
  · rintro ⟨⟨x, a⟩, hx⟩
    obtain ⟨y, hy, hy'⟩ := List.exists_of_findSome?_eq_some hx
    by_cases he : y = j
    · exact he ▸ hy
    · rw [if_neg he] at hy'
      exact nomatch hy'
  · intro hj
    cases hx : l.findSome? (fun x => (if x = j then some () else none).map fun a => (x, a)) with
    | some y => exact ⟨y, rfl⟩
    | none =>
      have := List.findSome?_eq_none_iff.1 hx j hj
      simp at this

/-- A map is nullable exactly when the last map of its line is declared so. -/
theorem C86_nullable {ds : List Decl} {r : Resolved} (h : Accepts ds r) {i : Nat} {l : List Nat}
    (hl : Line ds i l) {root : Nat} {d : Decl} (hr : l.getLast? = some root) (hd : ds[root]? = some d) :
    ∃ b, r.state[i]? = some b ∧ b.nullable = d.isNullable := by
  obtain ⟨root', d', b, h1, h2, _, h4, h5⟩ := h.acc.nullable hl
  rw [hr] at h1
  cases h1
  rw [hd] at h2
  cases h2
  exact ⟨b, h4, h5⟩

/-- `new X(...)` is accepted for a nullable map, `X(...)` for one that is not, and each calls the
map's own constructor, never an inherited one. -/
theorem C86_construct {ds : List Decl} {r : Resolved} (h : Accepts ds r) {i : Nat} {l : List Nat}
    (hl : Line ds i l) {root : Nat} {d : Decl} (hr : l.getLast? = some root) (hd : ds[root]? = some d)
    (withNew : Bool) (k : Nat) :
    construct r i withNew = .ok k ↔ withNew = d.isNullable ∧ Constructs ds i k := by
  obtain ⟨b, h1, h2⟩ := C86_nullable h hl hr hd
  rw [← h.acc.ctor i k]
  unfold construct
  simp only [h1, Option.getD_some, h2]
  cases withNew <;> cases d.isNullable <;> cases r.maps[i]?.bind (·.ctor) <;>
    simp

/-- `x.n(...)`, for a value of a map, calls the nearest member of that name, if it is a method that
is neither static nor a constructor.  The object is passed, and the method takes it. -/
theorem C86_call {ds : List Decl} {r : Resolved} (h : Accepts ds r) {i : Nat} {l : List Nat}
    (hl : Line ds i l) {n : Atom} (hn : Identifier n) {fuel : Nat} (hf : ds.length ≤ fuel)
    (j k : Nat) (t : Bool) :
    accessValue r fuel i n true = some (.call j k t) ↔
      t = true ∧ ¬ Constructs ds j k ∧ Nearest l (fun j m => Declares ds j n m) j (.method k) ∧
      ∃ d m, ds[j]? = some d ∧ d.methods[k]? = some m ∧ m.isStatic = false ∧ hasThis m = true := by
  have A := h.acc
  have key : ∀ j k, Nearest l (fun j m => Declares ds j n m) j (.method k) →
      ∃ d m, ds[j]? = some d ∧ d.methods[k]? = some m ∧ methodAt r j k = some m ∧ m.isDtor = false := by
    rintro j k ⟨_, _, _, ⟨d, m, h1, h2, h3, _⟩, _⟩
    obtain ⟨mm, g1, G⟩ := A.good j d h1
    refine ⟨d, m, h1, h2, ?_, h3⟩
    simp only [methodAt, g1, Option.bind_some, G.decl, h2]
  unfold accessValue
  constructor
  · intro ha
    split at ha
    · exact nomatch ha
    · exact nomatch ha
    · exact nomatch ha
    · rename_i j' k' hfm
      have hne := (C86_member h hl hn hf j' (.method k')).1 hfm
      obtain ⟨d, m, h1, h2, h3, h4⟩ := key j' k' hne
      rw [h3] at ha
      simp only [Bool.not_true, Bool.false_eq_true, if_false] at ha
      by_cases hs : m.isStatic = true
      · rw [if_pos hs] at ha; exact nomatch ha
      · rw [if_neg hs] at ha
        have hs' : m.isStatic = false := by simpa using hs
        by_cases hc : (r.maps[j']?.bind (·.ctor)) = some k'
        · rw [if_pos hc] at ha; exact nomatch ha
        · rw [if_neg hc, hs'] at ha
          cases ha
          have hnc : ¬ Constructs ds j k := fun hh => hc ((A.ctor j k).2 hh)
          refine ⟨rfl, hnc, hne, d, m, h1, h2, hs', ?_⟩
          have hme := (A.methods d (List.mem_of_getElem? h1) m (List.mem_of_getElem? h2)).1
          have hct : isCtor d m = false := by
            apply Classical.byContradiction
            intro hh
            have hh' : isCtor d m = true := by simpa using hh
            simp only [isCtor, Bool.and_eq_true, beq_iff_eq] at hh'
            exact hnc ⟨d, m, h1, h2, h4, hh'.2.symm⟩
          unfold methodErrors at hme
          rw [hct, h4] at hme
          simp only [Bool.false_eq_true, if_false] at hme
          have ht : m.typed = true := by
            apply Classical.byContradiction
            intro hh
            rw [if_neg hh] at hme
            exact nomatch hme
          simp [hasThis, ht, hs']
  · rintro ⟨rfl, hnc, hne, d, m, h1, h2, h3, h4⟩
    obtain ⟨d', m', h1', h2', h3', _⟩ := key j k hne
    rw [h1] at h1'
    cases h1'
    rw [h2] at h2'
    cases h2'
    rw [(C86_member h hl hn hf j (.method k)).2 hne]
    simp only [h3', h3, Bool.false_eq_true, if_false, Bool.not_true, Bool.not_false]
    rw [if_neg (fun hh => hnc ((A.ctor j k).1 hh))]

/-- `X.n(...)`, for the name of a map, calls the nearest member of that name, if it is a static
method.  No object is passed, and the method takes none. -/
theorem C86_static_call {ds : List Decl} {r : Resolved} (h : Accepts ds r) {i : Nat} {l : List Nat}
    (hl : Line ds i l) {n : Atom} (hn : Identifier n) {fuel : Nat} (hf : ds.length ≤ fuel)
    (j k : Nat) (t : Bool) :
    accessType r fuel i n = some (.call j k t) ↔
      t = false ∧ Nearest l (fun j m => Declares ds j n m) j (.method k) ∧
      ∃ d m, ds[j]? = some d ∧ d.methods[k]? = some m ∧ m.isStatic = true ∧ hasThis m = false := by
  have A := h.acc
  have key : ∀ j k, Nearest l (fun j m => Declares ds j n m) j (.method k) →
      ∃ d m, ds[j]? = some d ∧ d.methods[k]? = some m ∧ methodAt r j k = some m ∧ m.isDtor = false := by
    rintro j k ⟨_, _, _, ⟨d, m, h1, h2, h3, _⟩, _⟩
    obtain ⟨mm, g1, G⟩ := A.good j d h1
    refine ⟨d, m, h1, h2, ?_, h3⟩
    simp only [methodAt, g1, Option.bind_some, G.decl, h2]
  unfold accessType
  constructor
  · intro ha
    split at ha
    · exact nomatch ha
    · exact nomatch ha
    · exact nomatch ha
    · rename_i j' k' hfm
      have hne := (C86_member h hl hn hf j' (.method k')).1 hfm
      obtain ⟨d, m, h1, h2, h3, h4⟩ := key j' k' hne
      rw [h3] at ha
      simp only at ha
      by_cases hs : m.isStatic = true
      · rw [hs] at ha
        simp only [Bool.not_true, Bool.false_eq_true, if_false] at ha
        by_cases hc : (r.maps[j']?.bind (·.ctor)) = some k'
        · rw [if_pos hc] at ha; exact nomatch ha
        · rw [if_neg hc] at ha
          cases ha
          exact ⟨rfl, hne, d, m, h1, h2, hs, by simp [hasThis, h4, hs]⟩
      · have hs' : m.isStatic = false := by simpa using hs
        rw [hs'] at ha
        exact nomatch ha
  · rintro ⟨rfl, hne, d, m, h1, h2, h3, h4⟩
    obtain ⟨d', m', h1', h2', h3', h5'⟩ := key j k hne
    rw [h1] at h1'
    cases h1'
    rw [h2] at h2'
    cases h2'
    rw [(C86_member h hl hn hf j (.method k)).2 hne]
    simp only [h3', h3, Bool.false_eq_true, if_false, Bool.not_true]
    rw [if_neg]
    intro hh
    obtain ⟨d', m', g1, g2, _, g4⟩ := (A.ctor j k).1 hh
    rw [h1] at g1
    cases g1
    rw [h2] at g2
    cases g2
    have hme := (A.methods d (List.mem_of_getElem? h1) m (List.mem_of_getElem? h2)).1
    have hct : isCtor d m = true := by simp [isCtor, h5', g4]
    unfold methodErrors at hme
    rw [hct, h3] at hme
    exact nomatch hme

/-- A map cannot have both a constructor and a destructor: they are written with the same name, and
the second is reported as a duplicate (error 103), although one creates and the other frees. -/
theorem C86_constructor_and_destructor_rejected {ds : List Decl} {r : Resolved} (h : Accepts ds r)
    (j k k' : Nat) : ¬ (Constructs ds j k ∧ Destroys ds j k') := by
  rintro ⟨⟨d, m, h1, h2, h3, h4⟩, ⟨d', m', g1, g2, g3⟩⟩
  rw [h1] at g1
  cases g1
  obtain ⟨mm, _, G⟩ := h.acc.good j d h1
  have he := G.dtorName m' (List.mem_of_getElem? g2) g3
  obtain ⟨a1, a2⟩ := List.getElem?_eq_some_iff.1 h2
  obtain ⟨b1, b2⟩ := List.getElem?_eq_some_iff.1 g2
  have hkk : k ≠ k' := by
    rintro rfl
    rw [a2] at b2
    subst b2
    rw [h3] at g3
    exact nomatch g3
  have key := List.pairwise_iff_getElem.1 G.nodup
  rcases Nat.lt_or_gt_of_ne hkk with hlt | hlt
  · have := key k k' (by simpa using a1) (by simpa using b1) hlt
    simp only [List.getElem_map, a2, b2] at this
    exact this (by rw [h4, he])
  · have := key k' k (by simpa using b1) (by simpa using a1) hlt
    simp only [List.getElem_map, a2, b2] at this
    exact this (by rw [h4, he])

/-! ### The hypotheses are met -/

/-- `Clone` is found two maps up, `Show` in the map itself, which hides its base's. -/
example : findMember sampleResolved 3 2 "Clone".toList = some (some (0, .method 1)) ∧
    findMember sampleResolved 3 2 "Show".toList = some (some (2, .method 0)) ∧
    findMember sampleResolved 3 2 "Title".toList = some (some (1, .property 0)) ∧
    findMember sampleResolved 3 2 "Handle".toList = some none := by decide +kernel

example : Nearest [2, 1, 0] (fun j m => Declares sample j "Clone".toList m) 0 (.method 1) :=
  (C86_member sample_accepted sample_line (by unfold Identifier; decide) (by decide : sample.length ≤ 3) 0 (.method 1)).1
    (by decide +kernel)

example : Nearest [2, 1, 0] (Destroys sample) 0 0 :=
  (C86_delete sample_accepted sample_line (by decide : sample.length ≤ 3) 0 0).1 (by decide +kernel)

example : onChain sampleResolved 3 2 0 = some true := by
  rw [C86_base sample_accepted sample_line (by decide : sample.length ≤ 3)]; rfl

example : construct sampleResolved 1 true = .ok 0 ∧ construct sampleResolved 2 true = .error 172 ∧
    construct sampleResolved 1 false = .error 170 := ⟨rfl, rfl, rfl⟩

example : accessValue sampleResolved 3 2 "Clone".toList true = some (.call 0 1 true) ∧
    accessType sampleResolved 3 2 "Max".toList = some (.call 1 2 false) ∧
    accessValue sampleResolved 3 2 "Max".toList true = some (.error 177) ∧
    accessValue sampleResolved 3 2 "Menu".toList true = some (.error 84) := by decide +kernel

/-- The map with a constructor and a destructor, and its error. -/
def both : List Decl :=
  [ { name := ['A'], isNullable := true
      methods := [{ name := ['A'], typed := false },
                  { name := ['A'], isDtor := true, isNative := true, typed := false }] } ]

example : (resolve 2 both).map (·.errs) = some 1 ∧ Constructs both 0 0 ∧ Destroys both 0 1 :=
  ⟨by decide +kernel, ⟨_, _, rfl, rfl, rfl, rfl⟩, ⟨_, _, rfl, rfl, rfl⟩⟩

end Verif.Methodmap

import Verif.Spec.DataSection
import Verif.Props.C40

/-! Lemmas for C80. -/
namespace Verif.DataSection
open Verif.Labels (Asm Cell useLabel bindLabel toOffset upd Inv inv_cell inv_use inv_bind bindTo refs)
open Verif.Text (Byte stringToCells)
open Verif.ArrayInit (Base FieldTy Init Em buildArray buildStruct)

theorem emit_length (a b : Cell) (x : Value) : (x.emit a).length = (x.emit b).length := by
  cases x with
  | cell i => cases i <;> rfl
  | int64 i => cases i <;> rfl
  | struct f i => rfl
  | array bs dims init => simp [Value.emit, Verif.ArrayInit.Em.cells, buildArray]

theorem snoc {α : Type} {Q : List α} {i x : α} {k : Nat} (h : (Q ++ [i])[k]? = some x) :
    (k < Q.length ∧ Q[k]? = some x) ∨ (k = Q.length ∧ x = i) := by
  rw [List.getElem?_append] at h
  split at h
  · rename_i hk; exact Or.inl ⟨hk, h⟩
  · rename_i hk
    right
    have := (List.getElem?_eq_some_iff.1 h).1
    simp at this
    have h0 : k - Q.length = 0 := by omega
    rw [h0] at h
    simp at h
    exact ⟨by omega, h.symm⟩

theorem start_snoc {Q : List Item} {i : Item} {k : Nat} (h : k ≤ Q.length) : start (Q ++ [i]) k = start Q k := by
  unfold start; rw [List.take_append_of_le_length h]

theorem place_snoc {Q : List Item} {i : Item} {k : Nat} (h : k ≤ Q.length) : place (Q ++ [i]) k = place Q k := by
  unfold place; rw [List.take_append_of_le_length h]

theorem start_all (Q : List Item) : start Q Q.length = (Q.map Item.size).sum := by
  unfold start; rw [List.take_length]

theorem place_all (Q : List Item) : place Q Q.length = Q.countP Item.isCode := by
  unfold place; rw [List.take_length]

theorem sum_take_le : ∀ (l : List Nat) (k : Nat), (l.take k).sum ≤ l.sum
  | [], k => by simp
  | a :: l, 0 => by simp
  | a :: l, k + 1 => by simp only [List.take_succ_cons, List.sum_cons]; have := sum_take_le l k; omega

theorem start_le (P : List Item) (k : Nat) : start P k ≤ (P.map Item.size).sum := by
  unfold start; rw [List.map_take] ; exact sum_take_le _ _

theorem start_next {P : List Item} {k : Nat} {x : Item} (h : P[k]? = some x) : start P (k + 1) = start P k + x.size := by
  unfold start
  rw [List.take_add_one, h]
  simp

theorem start_mono {P : List Item} {j k : Nat} (h : j ≤ k) : start P j ≤ start P k := by
  unfold start
  have hq : (P.take j) = (P.take k).take j := by rw [List.take_take, Nat.min_eq_left h]
  rw [hq, List.map_take]
  exact sum_take_le _ _

theorem holds_append {d e cells : List Cell} {a : Nat} (h : Holds d a cells) : Holds (d ++ e) a cells := by
  intro i c hc
  have := h i c hc
  rw [List.getElem?_append_left (List.getElem?_eq_some_iff.1 this).1]
  exact this

theorem holds_new {d cells : List Cell} : Holds (d ++ cells) d.length cells := by
  intro i c hc
  rw [List.getElem?_append_right (by omega)]
  rw [show d.length + i - d.length = i by omega]
  exact hc

/-! ### The fields of a `struct` -/

/-- The cells of the strings of the fields. -/
def strings (fields : List (Nat × PValue)) : List Cell :=
  fields.flatMap fun f => match f.2 with | .str s => stringToCells s | _ => []

theorem strings_length (fields : List (Nat × PValue)) :
    (strings fields).length = (fields.map fun f => match f.2 with | .str s => (stringToCells s).length | _ => 0).sum := by
  induction fields with
  | nil => rfl
  | cons f fs ih =>
    obtain ⟨o, v⟩ := f
    unfold strings at *
    rw [List.flatMap_cons, List.length_append, ih]
    cases v <;> simp

/-- What the field `f` holds. -/
def FieldOk (S : St) (data : List Cell) (lo hi : Nat) (c : Cell) : PValue → Prop
  | .num v => c = v
  | .sym w => c = S.addrOf w
  | .str s => ∃ a, c = address a ∧ lo ≤ a ∧ a + (stringToCells s).length ≤ hi ∧ Holds data a (stringToCells s)

theorem fieldOk_append {S : St} {d e : List Cell} {lo hi hi' : Nat} {c : Cell} {v : PValue} (h : FieldOk S d lo hi c v) (hh : hi ≤ hi') :
    FieldOk S (d ++ e) lo hi' c v := by
  cases v with
  | num _ => exact h
  | sym _ => exact h
  | str s =>
    obtain ⟨a, h1, h2, h3, h4⟩ := h
    exact ⟨a, h1, h2, by omega, holds_append h4⟩

theorem lastGiven_cons (g : Nat × PValue) (fs : List (Nat × PValue)) (f : Nat) :
    lastGiven (g :: fs) f = match lastGiven fs f with | some v => some v | none => if g.1 = f then some g.2 else none := by
  unfold lastGiven
  rw [List.reverse_cons, List.find?_append]
  cases h : fs.reverse.find? (·.1 == f) with
  | some v => simp
  | none =>
    simp only [Option.none_or, Option.map_none]
    by_cases hg : g.1 = f
    · rw [if_pos hg]; simp [hg]
    · rw [if_neg hg]; simp [hg]

theorem fold_fields (S : St) : ∀ (fields : List (Nat × PValue)) (d vals : List Cell),
    (fields.foldl (emitField S) (d, vals)).1 = d ++ strings fields ∧
    (fields.foldl (emitField S) (d, vals)).2.length = vals.length ∧
    ∀ f, f < vals.length → match lastGiven fields f with
      | none => (fields.foldl (emitField S) (d, vals)).2[f]? = vals[f]?
      | some v => ∃ c, (fields.foldl (emitField S) (d, vals)).2[f]? = some c ∧
          FieldOk S (d ++ strings fields) d.length (d ++ strings fields).length c v
  | [], d, vals => by simp [strings, lastGiven]
  | g :: fs, d, vals => by
    rw [List.foldl_cons]
    obtain ⟨o, pv⟩ := g
    have hstr : strings ((o, pv) :: fs) = (match pv with | .str s => stringToCells s | _ => []) ++ strings fs := by
      simp only [strings, List.flatMap_cons]
    -- the values after the first field
    have key : ∀ (d' vals' : List Cell) (cell : Cell), emitField S (d, vals) (o, pv) = (d', vals') → vals' = vals.set o cell →
        d ++ strings ((o, pv) :: fs) = d' ++ strings fs → d.length ≤ d'.length → FieldOk S d' d.length d'.length cell pv →
        (fs.foldl (emitField S) (emitField S (d, vals) (o, pv))).1 = d ++ strings ((o, pv) :: fs) ∧
        (fs.foldl (emitField S) (emitField S (d, vals) (o, pv))).2.length = vals.length ∧
        ∀ f, f < vals.length → match lastGiven ((o, pv) :: fs) f with
          | none => (fs.foldl (emitField S) (emitField S (d, vals) (o, pv))).2[f]? = vals[f]?
          | some v => ∃ c, (fs.foldl (emitField S) (emitField S (d, vals) (o, pv))).2[f]? = some c ∧
              FieldOk S (d ++ strings ((o, pv) :: fs)) d.length (d ++ strings ((o, pv) :: fs)).length c v := by
      intro d' vals' cell he hv hd hle hok
      obtain ⟨h1, h2, h3⟩ := fold_fields S fs d' vals'
      rw [he, hd]
      have hlen : vals'.length = vals.length := by rw [hv, List.length_set]
      refine ⟨h1, by rw [h2, hlen], ?_⟩
      intro f hf
      have h3 := h3 f (by rw [hlen]; exact hf)
      rw [lastGiven_cons]
      cases hg : lastGiven fs f with
      | some v =>
        rw [hg] at h3
        obtain ⟨c, hc, hfo⟩ := h3
        refine ⟨c, hc, ?_⟩
        cases v with
        | num _ => exact hfo
        | sym _ => exact hfo
        | str s => obtain ⟨a, q1, q2, q3, q4⟩ := hfo; exact ⟨a, q1, by omega, q3, q4⟩
      | none =>
        rw [hg] at h3
        dsimp only at h3 ⊢
        by_cases ho : o = f
        · rw [if_pos ho]
          refine ⟨cell, ?_, fieldOk_append hok (by simp)⟩
          rw [h3, hv, ho, List.getElem?_set_self hf]
        · rw [if_neg ho]
          dsimp only
          rw [h3, hv, List.getElem?_set_ne ho]
    cases pv with
    | str s =>
      refine key (d ++ stringToCells s) (vals.set o (datAddress d)) (datAddress d) rfl rfl ?_ (by simp) ?_
      · rw [hstr, List.append_assoc]
      · exact ⟨d.length, rfl, Nat.le_refl _, by simp, holds_new⟩
    | num c => exact key d (vals.set o c) c rfl rfl (by rw [hstr]; rfl) (Nat.le_refl _) rfl
    | sym w => exact key d (vals.set o (S.addrOf w)) (S.addrOf w) rfl rfl (by rw [hstr]; rfl) (Nat.le_refl _) rfl

/-! ### The state after some items -/

theorem fieldsAt_eq (a : Nat) (fields : List (Nat × PValue)) : fieldsAt a fields = a + (strings fields).length := by
  unfold fieldsAt; rw [strings_length]; rfl

/-- What is there of one item, with its data at `a` and its code at `p`.  `r` are the cells of code, the last first. -/
def Ok (data : List Cell) (r : List Verif.Labels.Item) (lv : Nat → Option Cell) (pubs : List (Nat × Cell)) (a p : Nat) : Item → Prop
  | .other c => r.reverse[p]? = some (.cell c)
  | .load v | .addr v => r.reverse[p]? = some (.ref v)
  | .store _ => True
  | .blob cells => r.reverse[p]? = some (.cell (address a)) ∧ Holds data a cells
  | .var v x pub => lv v = some (address a) ∧ Holds data a (x.emit (address a)) ∧ (pub = true → (v, address a) ∈ pubs)
  | .pstruct _ _ none _ => True
  | .pstruct v n (some fields) pub => lv v = some (address (fieldsAt a fields)) ∧ (pub = true → (v, address (fieldsAt a fields)) ∈ pubs) ∧
      ∀ f, f < n → match lastGiven fields f with
        | none => data[fieldsAt a fields + f]? = some 0
        | some (.num c) => data[fieldsAt a fields + f]? = some c
        | some (.str s) => ∃ b, data[fieldsAt a fields + f]? = some (address b) ∧ a ≤ b ∧ b + (stringToCells s).length ≤ fieldsAt a fields ∧
            Holds data b (stringToCells s)
        | some (.sym _) => True

theorem get_append {α : Type} {l e : List α} {i : Nat} {x : α} (h : l[i]? = some x) : (l ++ e)[i]? = some x := by
  rw [List.getElem?_append_left (List.getElem?_eq_some_iff.1 h).1]; exact h

theorem rev_append {α : Type} {n r : List α} {i : Nat} {x : α} (h : r.reverse[i]? = some x) : (n ++ r).reverse[i]? = some x := by
  rw [List.reverse_append]; exact get_append h

theorem Ok.mono {data e : List Cell} {r n : List Verif.Labels.Item} {lv lv' : Nat → Option Cell} {pubs q : List (Nat × Cell)} {a p : Nat}
    (hlv : ∀ v c, lv v = some c → lv' v = some c) : ∀ {x : Item}, Ok data r lv pubs a p x → Ok (data ++ e) (n ++ r) lv' (pubs ++ q) a p x
  | .other _, h => rev_append h
  | .load _, h => rev_append h
  | .addr _, h => rev_append h
  | .store _, _ => trivial
  | .blob _, h => ⟨rev_append h.1, holds_append h.2⟩
  | .var _ _ _, h => ⟨hlv _ _ h.1, holds_append h.2.1, fun hp => List.mem_append_left _ (h.2.2 hp)⟩
  | .pstruct _ _ none _, _ => trivial
  | .pstruct _ _ (some fields) _, h => by
    refine ⟨hlv _ _ h.1, fun hp => List.mem_append_left _ (h.2.1 hp), fun f hf => ?_⟩
    have h3 := h.2.2 f hf
    cases hg : lastGiven fields f with
    | none => rw [hg] at h3; exact get_append h3
    | some pv =>
      rw [hg] at h3
      cases pv with
      | num c => exact get_append h3
      | str s => obtain ⟨b, h1, h2, h4, h5⟩ := h3; exact ⟨b, get_append h1, h2, h4, holds_append h5⟩
      | sym w => trivial

/-- The state after the items `Q`. -/
structure After (Q : List Item) (S : St) (r : List Verif.Labels.Item) (lv : Nat → Option Cell) : Prop where
  inv : Inv S.asm r lv (fun _ => none) (fun _ => False)
  code : r.length = Q.countP Item.isCode
  data : S.data.length = (Q.map Item.size).sum
  ok : ∀ (k : Nat) x, Q[k]? = some x → Ok S.data r lv S.pubs (start Q k) (place Q k) x
  undeclared : ∀ v, (∀ (k : Nat) x, Q[k]? = some x → x.declares ≠ some v) → lv v = none
  pubs : S.pubs.map (·.1) = Q.filterMap Item.publishes
  linked : ∀ (i : Nat) v, r.reverse[i]? = some (.ref v) → ∃ (k : Nat) (x : Item), Q[k]? = some x ∧ x.links = some v
  stores : ∀ (j k : Nat) v x pub, j < k → Q[j]? = some (.var v x pub) → Q[k]? = some (.store v) →
    r.reverse[place Q k]? = some (.cell (address (start Q j)))
  syms : ∀ (j k : Nat) w y pub' v n fields pub f, j < k → Q[j]? = some (.var w y pub') → Q[k]? = some (.pstruct v n (some fields) pub) →
    f < n → lastGiven fields f = some (.sym w) → S.data[fieldsAt (start Q k) fields + f]? = some (address (start Q j))

theorem place_snoc_lt {Q : List Item} {i : Item} {k : Nat} {x : Item} (h : Q[k]? = some x) :
    start (Q ++ [i]) k = start Q k ∧ place (Q ++ [i]) k = place Q k := by
  have := (List.getElem?_eq_some_iff.1 h).1
  exact ⟨start_snoc (by omega), place_snoc (by omega)⟩

theorem place_last (Q : List Item) (i : Item) : start (Q ++ [i]) Q.length = (Q.map Item.size).sum ∧
    place (Q ++ [i]) Q.length = Q.countP Item.isCode := by
  rw [start_snoc (Nat.le_refl _), place_snoc (Nat.le_refl _), start_all, place_all]
  exact ⟨rfl, rfl⟩

/-- From the state after `Q` to that after one item more. -/
theorem After.snoc {Q : List Item} {i : Item} {S S' : St} {r n : List Verif.Labels.Item} {lv lv' : Nat → Option Cell} {e : List Cell}
    {q : List (Nat × Cell)} (h : After Q S r lv) (hinv : Inv S'.asm (n ++ r) lv' (fun _ => none) (fun _ => False))
    (hn : n.length = if i.isCode then 1 else 0) (hd : S'.data = S.data ++ e) (he : e.length = i.size) (hp : S'.pubs = S.pubs ++ q)
    (hq : q.map (·.1) = (i.publishes).toList)
    (hlv : ∀ v c, lv v = some c → lv' v = some c) (hlv' : ∀ v, lv v = none → i.declares ≠ some v → lv' v = none)
    (hok : Ok S'.data (n ++ r) lv' S'.pubs ((Q.map Item.size).sum) (Q.countP Item.isCode) i)
    (hl : ∀ v, Verif.Labels.Item.ref v ∈ n → i.links = some v)
    (hs : ∀ (j : Nat) v x pub, Q[j]? = some (.var v x pub) → i = .store v →
      (n ++ r).reverse[Q.countP Item.isCode]? = some (.cell (address (start Q j))))
    (hy : ∀ (j : Nat) w y pub' v n fields pub f, Q[j]? = some (.var w y pub') → i = .pstruct v n (some fields) pub → f < n →
      lastGiven fields f = some (.sym w) → S'.data[fieldsAt ((Q.map Item.size).sum) fields + f]? = some (address (start Q j))) :
    After (Q ++ [i]) S' (n ++ r) lv' where
  inv := hinv
  code := by
    rw [List.length_append, h.code, List.countP_append, hn]
    simp only [List.countP_cons, List.countP_nil]
    omega
  data := by rw [hd, List.length_append, h.data, he]; simp
  ok := by
    intro k x hk
    rcases Verif.DataSection.snoc hk with ⟨_, hk⟩ | ⟨hk', rfl⟩
    · rw [(place_snoc_lt hk).1, (place_snoc_lt hk).2, hd, hp]
      exact (h.ok k x hk).mono hlv
    · rw [hk', (place_last Q x).1, (place_last Q x).2]; exact hok
  undeclared := by
    intro v hv
    refine hlv' v (h.undeclared v fun k x hk => hv k x (get_append hk)) (hv Q.length i (by simp))
  pubs := by
    rw [hp, List.map_append, h.pubs, hq, List.filterMap_append]
    congr 1
  linked := by
    intro k v hk
    rw [List.reverse_append] at hk
    rw [List.getElem?_append] at hk
    split at hk
    · obtain ⟨k', x, h1, h2⟩ := h.linked k v hk
      exact ⟨k', x, get_append h1, h2⟩
    · have := List.mem_of_getElem? hk
      exact ⟨Q.length, i, by simp, hl v (List.mem_reverse.1 this)⟩
  stores := by
    intro j k v x pub hjk hj hk
    rcases Verif.DataSection.snoc hk with ⟨hlt, hk⟩ | ⟨hk, hi⟩
    · rcases Verif.DataSection.snoc hj with ⟨_, hj⟩ | ⟨hj, _⟩
      · rw [(place_snoc_lt hj).1, (place_snoc_lt hk).2]
        exact rev_append (h.stores j k v x pub hjk hj hk)
      · omega
    · rcases Verif.DataSection.snoc hj with ⟨_, hj⟩ | ⟨hj, _⟩
      · rw [(place_snoc_lt hj).1, hk, (place_last Q i).2]
        exact hs j v x pub hj hi.symm
      · omega
  syms := by
    intro j k w y pub' v n fields pub f hjk hj hk hf hg
    rcases Verif.DataSection.snoc hk with ⟨hlt, hk⟩ | ⟨hk, hi⟩
    · rcases Verif.DataSection.snoc hj with ⟨_, hj⟩ | ⟨hj, _⟩
      · rw [(place_snoc_lt hj).1, (place_snoc_lt hk).1, hd]
        exact get_append (h.syms j k w y pub' v n fields pub f hjk hj hk hf hg)
      · omega
    · rcases Verif.DataSection.snoc hj with ⟨_, hj⟩ | ⟨hj, _⟩
      · rw [(place_snoc_lt hj).1, hk, (place_last Q i).1]
        exact hy j w y pub' v n fields pub f hj hi.symm hf hg
      · omega

/-- The address of a variable that has been declared. -/
theorem addrOf_declared {Q : List Item} {S : St} {r : List Verif.Labels.Item} {lv : Nat → Option Cell} (h : After Q S r lv) {v : Nat} {c : Cell}
    (hv : lv v = some c) : S.addrOf v = c := by
  obtain ⟨h1, h2, _⟩ := h.inv.closed v c hv
  unfold St.addrOf
  rw [h2]
  exact (Verif.Labels.bound_status h1).2

theorem datAddress_eq {Q : List Item} {S : St} {r : List Verif.Labels.Item} {lv : Nat → Option Cell} (h : After Q S r lv) :
    datAddress S.data = address ((Q.map Item.size).sum) := by unfold datAddress address; rw [h.data]

theorem publish_asm (b : Bool) (v : Nat) (S : St) : (publish b v S).asm = S.asm ∧ (publish b v S).data = S.data ∧
    (publish b v S).pubs = S.pubs ++ if b then [(v, S.addrOf v)] else [] := by
  cases b <;> simp [publish]

theorem address_lt {k : Nat} (h : 4 * k < 1073741824) : (address k).toNat < 1073741824 := by
  unfold address; rw [BitVec.toNat_ofNat]; omega

theorem label_value {Q : List Item} {S : St} {r : List Verif.Labels.Item} {lv : Nat → Option Cell} (h : After Q S r lv) {j : Nat} {v : Nat}
    {x : Value} {pub : Bool} (hj : Q[j]? = some (.var v x pub)) : lv v = some (address (start Q j)) := (h.ok j _ hj).1

/-- Binding a label that nothing uses. -/
theorem inv_address {A : Asm} {r : List Verif.Labels.Item} {lv : Nat → Option Cell} (I : Inv A r lv (fun _ => none) (fun _ => False)) (l : Nat)
    (v : Cell) (hv : v.toNat < 1073741824) (hr : ∀ i : Nat, r.reverse[i]? ≠ some (.ref l)) :
    Inv { A with lab := upd A.lab l ((v <<< 1) ||| 1) } r (bindTo lv l v) (fun _ => none) (fun _ => False) where
  len := I.len
  cell := I.cell
  open_ := by
    intro k hk
    unfold bindTo at hk
    split at hk
    · cases hk
    · rename_i hkl
      have : upd A.lab l ((v <<< 1) ||| 1) k = A.lab k := by unfold upd; rw [if_neg hkl]
      show Verif.Labels.Chain A.buf (upd A.lab l ((v <<< 1) ||| 1) k) (refs k r)
      rw [this]
      exact I.open_ k hk
  closed := by
    intro k c hk
    unfold bindTo at hk
    split at hk
    · rename_i hkl
      cases hk
      subst hkl
      exact ⟨hv, by simp [upd], fun i h => absurd h (hr i)⟩
    · rename_i hkl
      obtain ⟨h1, h2, h3⟩ := I.closed k c hk
      exact ⟨h1, by simp [upd, hkl, h2], h3⟩
  dOpen := I.dOpen
  dOnce := I.dOnce
  dUsed := I.dUsed
  dClosed := I.dClosed

theorem bindTo_some {lv : Nat → Option Cell} {l : Nat} {a : Cell} (hl : lv l = none) : ∀ v c, lv v = some c → bindTo lv l a v = some c := by
  intro v c h
  unfold bindTo
  split
  · rename_i hv; subst hv; rw [hl] at h; cases h
  · exact h

theorem bindTo_none {lv : Nat → Option Cell} {l : Nat} {a : Cell} : ∀ v, lv v = none → some l ≠ some v → bindTo lv l a v = none := by
  intro v h hne
  unfold bindTo
  rw [if_neg (fun hv => hne (by rw [hv]))]
  exact h

theorem code_inv {Q : List Item} {S : St} {r : List Verif.Labels.Item} {lv : Nat → Option Cell} (h : After Q S r lv) (c : Cell) :
    Inv (S.code c).asm ([.cell c] ++ r) lv (fun _ => none) (fun _ => False) := inv_cell h.inv c

theorem last_get {α : Type} {r : List α} {x : α} {n : Nat} (h : r.length = n) : ([x] ++ r).reverse[n]? = some x := by
  subst h; simp

theorem step_ok {Q : List Item} {i : Item} {S : St} {r : List Verif.Labels.Item} {lv : Nat → Option Cell} (h : After Q S r lv)
    (once : ∀ v, i.declares = some v → ∀ (k : Nat) x, Q[k]? = some x → x.declares ≠ some v)
    (structs : ∀ v n init pub, i = .pstruct v n init pub → ∀ (k : Nat) x, Q[k]? = some x → x.links ≠ some v)
    (hc : 4 * (Q.countP Item.isCode) + 4 < 1073741824) (hd : 4 * ((Q.map Item.size).sum + i.size) < 1073741824) :
    ∃ S' r' lv', step S i = some S' ∧ After (Q ++ [i]) S' r' lv' := by
  have hda := datAddress_eq h
  cases i with
  | other c =>
    exact ⟨_, _, lv, rfl, h.snoc (e := []) (q := []) (code_inv h c) rfl (by simp [St.code]) rfl (by simp [St.code]) rfl (fun _ _ x => x)
      (fun _ x _ => x) (last_get h.code) (by simp) (fun _ _ _ _ _ x => by cases x) (fun _ _ _ _ _ _ _ _ _ _ x => by cases x)⟩
  | load v =>
    exact ⟨_, _, lv, rfl, h.snoc (e := []) (q := []) (n := [.ref v]) (inv_use h.inv v (by rw [h.code]; exact hc)) rfl (by simp) rfl (by simp) rfl
      (fun _ _ x => x) (fun _ x _ => x) (last_get h.code) (fun w hw => by simp at hw; rw [hw]; rfl) (fun _ _ _ _ _ x => by cases x)
      (fun _ _ _ _ _ _ _ _ _ _ x => by cases x)⟩
  | addr v =>
    exact ⟨_, _, lv, rfl, h.snoc (e := []) (q := []) (n := [.ref v]) (inv_use h.inv v (by rw [h.code]; exact hc)) rfl (by simp) rfl (by simp) rfl
      (fun _ _ x => x) (fun _ x _ => x) (last_get h.code) (fun w hw => by simp at hw; rw [hw]; rfl) (fun _ _ _ _ _ x => by cases x)
      (fun _ _ _ _ _ _ _ _ _ _ x => by cases x)⟩
  | store v =>
    refine ⟨_, _, lv, rfl, h.snoc (e := []) (q := []) (code_inv h _) rfl (by simp [St.code]) rfl (by simp [St.code]) rfl (fun _ _ x => x)
      (fun _ x _ => x) trivial (by simp) ?_ (fun _ _ _ _ _ _ _ _ _ _ x => by cases x)⟩
    intro j w x pub hj hw
    cases hw
    rw [last_get h.code, addrOf_declared h (label_value h hj)]
  | blob cells =>
    refine ⟨_, _, lv, rfl, h.snoc (e := cells) (q := []) (code_inv h _) rfl rfl rfl (by simp [St.code]) rfl (fun _ _ x => x)
      (fun _ x _ => x) ⟨?_, ?_⟩ (by simp) (fun _ _ _ _ _ x => by cases x) (fun _ _ _ _ _ _ _ _ _ _ x => by cases x)⟩
    · rw [last_get h.code, hda]
    · rw [← h.data]; exact holds_new
  | var v x pub =>
    have hv : lv v = none := h.undeclared v (once v rfl)
    have hsz : (x.emit (datAddress S.data)).length = Item.size (.var v x pub) := emit_length _ _ x
    obtain ⟨A, hA, hI⟩ := inv_bind h.inv v (datAddress S.data) hv (by rw [hda]; exact address_lt (by omega)) (by rw [h.code]; omega)
    obtain ⟨p1, p2, p3⟩ := publish_asm pub v { S with asm := A, data := S.data ++ x.emit (datAddress S.data) }
    have hself : bindTo lv v (datAddress S.data) v = some (address ((Q.map Item.size).sum)) := by unfold bindTo; rw [if_pos rfl, hda]
    refine ⟨_, _, _, by simp only [step, hA, Option.map_some], h.snoc (n := []) (e := x.emit (datAddress S.data)) (by rw [p1]; exact hI) rfl p2 hsz p3
      (by cases pub <;> rfl) (bindTo_some hv) bindTo_none ?_ (by simp) (fun _ _ _ _ _ x => by cases x) (fun _ _ _ _ _ _ _ _ _ _ x => by cases x)⟩
    refine ⟨hself, ?_, ?_⟩
    · rw [p2, ← h.data, show address S.data.length = datAddress S.data from rfl]; exact holds_new
    · intro hp
      rw [p3, hp]
      have hadr : St.addrOf { S with asm := A, data := S.data ++ x.emit (datAddress S.data) } v = address ((Q.map Item.size).sum) := by
        obtain ⟨h1, h2, _⟩ := hI.closed v _ hself
        show toOffset (A.lab v) = _
        rw [h2]; exact (Verif.Labels.bound_status h1).2
      simp [hadr]
  | pstruct v n init pub =>
    cases init with
    | none =>
      obtain ⟨p1, p2, p3⟩ := publish_asm pub v S
      exact ⟨_, _, lv, rfl, h.snoc (n := []) (e := []) (by rw [p1]; exact h.inv) rfl (by rw [p2]; simp) rfl p3 (by cases pub <;> rfl) (fun _ _ x => x) (fun _ x _ => x) trivial
        (by simp) (fun _ _ _ _ _ x => by cases x) (fun _ _ _ _ _ _ _ _ _ _ x => by cases x)⟩
    | some fields =>
      have hv : lv v = none := h.undeclared v (once v rfl)
      obtain ⟨f1, f2, f3⟩ := fold_fields S fields S.data (List.replicate n 0)
      have hlen : (S.data ++ strings fields).length = fieldsAt ((Q.map Item.size).sum) fields := by
        rw [List.length_append, h.data, fieldsAt_eq]
      have hsize : Item.size (.pstruct v n (some fields) pub) = (strings fields).length + n := by rw [strings_length]; rfl
      have hda' : datAddress (S.data ++ strings fields) = address (fieldsAt ((Q.map Item.size).sum) fields) := by
        unfold datAddress; rw [hlen]; rfl
      have hlt : (datAddress (S.data ++ strings fields)).toNat < 1073741824 := by
        rw [hda']
        apply address_lt
        rw [hsize] at hd
        rw [fieldsAt_eq]
        omega
      have hI := inv_address h.inv v (datAddress (S.data ++ strings fields)) hlt (fun k hk => by
        obtain ⟨k', x, h1, h2⟩ := h.linked k v hk
        exact structs v n _ pub rfl k' x h1 h2)
      have hself : bindTo lv v (datAddress (S.data ++ strings fields)) v = some (address (fieldsAt ((Q.map Item.size).sum) fields)) := by
        unfold bindTo; rw [if_pos rfl, hda']
      generalize hr : fields.foldl (emitField S) (S.data, List.replicate n 0) = R at f1 f2 f3
      obtain ⟨R1, R2⟩ := R
      dsimp only at f1 f2 f3
      subst f1
      rw [List.length_replicate] at f2 f3
      obtain ⟨p1, p2, p3⟩ := publish_asm pub v
        (St.mk { S.asm with lab := upd S.asm.lab v ((datAddress (S.data ++ strings fields) <<< 1) ||| 1) } ((S.data ++ strings fields) ++ R2) S.pubs)
      refine ⟨_, _, _, by simp only [step, hr], h.snoc (n := []) (e := strings fields ++ R2) (by rw [p1]; exact hI) rfl
        (by rw [p2, List.append_assoc]) (by rw [List.length_append, f2, hsize]) p3 (by cases pub <;> rfl) (bindTo_some hv) bindTo_none ?_ (by simp)
        (fun _ _ _ _ _ x => by cases x) ?_⟩
      · refine ⟨hself, ?_, ?_⟩
        · intro hp
          rw [p3, hp]
          have hadr : St.addrOf (St.mk { S.asm with lab := upd S.asm.lab v ((datAddress (S.data ++ strings fields) <<< 1) ||| 1) }
              ((S.data ++ strings fields) ++ R2) S.pubs) v = address (fieldsAt ((Q.map Item.size).sum) fields) := by
            obtain ⟨h1, h2, _⟩ := hI.closed v _ hself
            show toOffset (upd S.asm.lab v ((datAddress (S.data ++ strings fields) <<< 1) ||| 1) v) = _
            rw [show upd S.asm.lab v ((datAddress (S.data ++ strings fields) <<< 1) ||| 1) v = _ from h2]
            exact (Verif.Labels.bound_status h1).2
          rw [if_pos rfl, hadr]
          simp
        · intro f hf
          have h3 := f3 f hf
          rw [p2]
          dsimp only
          have hget : ∀ c, R2[f]? = some c → ((S.data ++ strings fields) ++ R2)[fieldsAt ((Q.map Item.size).sum) fields + f]? = some c := by
            intro c hc
            rw [← hlen, List.getElem?_append_right (by omega), show (S.data ++ strings fields).length + f - (S.data ++ strings fields).length = f by omega]
            exact hc
          cases hg : lastGiven fields f with
          | none =>
            rw [hg] at h3
            apply hget
            rw [h3, List.getElem?_replicate, if_pos hf]
          | some pv =>
            rw [hg] at h3
            obtain ⟨c, hc, hok⟩ := h3
            cases pv with
            | num w => rw [show c = w from hok] at hc; exact hget _ hc
            | sym w => trivial
            | str s =>
              obtain ⟨b, q1, q2, q3, q4⟩ := hok
              refine ⟨b, by rw [← q1]; exact hget _ hc, by rw [← h.data]; exact q2, by rw [← hlen]; exact q3, holds_append q4⟩
      · intro j w y pub' v' n' fields' pub'' f hj hi hf hg
        cases hi
        rw [p2]
        dsimp only
        have h3 := f3 f hf
        rw [hg] at h3
        obtain ⟨c, hc, hok⟩ := h3
        have hcw : c = address (start Q j) := by rw [show c = S.addrOf w from hok]; exact addrOf_declared h (label_value h hj)
        rw [← hlen, List.getElem?_append_right (by omega), show (S.data ++ strings fields).length + f - (S.data ++ strings fields).length = f by omega,
          hc, hcw]

theorem run_ok : ∀ (is Q : List Item) (S : St) (r : List Verif.Labels.Item) (lv : Nat → Option Cell), After Q S r lv → Legal (Q ++ is) →
    ∃ S' r' lv', run S is = some S' ∧ After (Q ++ is) S' r' lv'
  | [], Q, S, r, lv, h, _ => ⟨S, r, lv, rfl, by rw [List.append_nil]; exact h⟩
  | i :: is, Q, S, r, lv, h, hL => by
    have hi : (Q ++ i :: is)[Q.length]? = some i := by simp
    have hcode := hL.code
    have hdata := hL.data
    simp only [List.countP_append, List.map_append, List.sum_append, List.map_cons, List.sum_cons] at hcode hdata
    obtain ⟨S1, r1, lv1, h1, h2⟩ := step_ok (i := i) h
      (fun v hv k x hk hx => by
        have := hL.once k Q.length x i v (get_append hk) hi hx hv
        have := (List.getElem?_eq_some_iff.1 hk).1
        omega)
      (fun v n init pub he k x hk => by subst he; exact hL.structs Q.length k v n init pub x hi (get_append hk))
      (by omega) (by omega)
    obtain ⟨S', r', lv', h3, h4⟩ := run_ok is (Q ++ [i]) S1 r1 lv1 h2 (by rw [List.append_assoc]; exact hL)
    refine ⟨S', r', lv', ?_, by rw [List.append_assoc] at h4; exact h4⟩
    simp only [run, h1]
    exact h3

theorem run_all {P : List Item} (hL : Legal P) : ∃ S r lv, run .init P = some S ∧ After P S r lv := by
  refine run_ok P [] .init [] (fun _ => none) ?_ hL
  exact ⟨⟨rfl, by simp, fun _ _ => rfl, by simp, by simp, by simp, by simp, by simp⟩, rfl, rfl, by simp, fun _ _ => rfl, rfl, by simp, by simp, by simp⟩

/-! ### For examples -/

/-- The variable of an item, if its type is a `struct`. -/
def structName : Item → Option Nat
  | .pstruct v .. => some v
  | _ => none

theorem legal_of {P : List Item}
    (h1 : ∀ j < P.length, ∀ k < P.length, ((P[j]?).bind Item.declares).isSome → (P[j]?).bind Item.declares = (P[k]?).bind Item.declares → j = k)
    (h2 : ∀ j < P.length, ∀ k < P.length, ((P[j]?).bind structName).isSome → (P[j]?).bind structName ≠ (P[k]?).bind Item.links)
    (h3 : 4 * P.countP Item.isCode + 4 < 1073741824) (h4 : 4 * (P.map Item.size).sum < 1073741824) : Legal P where
  once := by
    intro j k x y v hj hk hx hy
    exact h1 j (List.getElem?_eq_some_iff.1 hj).1 k (List.getElem?_eq_some_iff.1 hk).1 (by rw [hj]; simp [hx]) (by rw [hj, hk]; simp [hx, hy])
  structs := by
    intro j k v n init pub x hj hk hx
    exact h2 j (List.getElem?_eq_some_iff.1 hj).1 k (List.getElem?_eq_some_iff.1 hk).1 (by rw [hj]; rfl) (by rw [hj, hk]; exact hx.symm)
  code := h3
  data := h4

end Verif.DataSection

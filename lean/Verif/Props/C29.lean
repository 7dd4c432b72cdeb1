import Verif.Proofs.Lookup

/-! C29: debug table lookups.  C30: name lookups. -/
namespace Verif.Image

/-- The table is sorted by address. -/
def Sorted (t : List DbgEntry) : Prop := t.Pairwise fun a b => a.addr ≤ b.addr

/-- `i` is the last entry at or before `addr`. -/
def LastAtOrBefore (t : List DbgEntry) (addr i : Nat) (e : DbgEntry) : Prop :=
  t[i]? = some e ∧ e.addr ≤ addr ∧ ∀ j e', t[j]? = some e' → e'.addr ≤ addr → j ≤ i ∧ e'.addr ≤ e.addr

theorem search_spec {addrs : List Nat} {addr : Nat} (hs : addrs.Pairwise (· ≤ ·)) :
    ∀ (k : Nat) (low high : Int), (high - low).toNat ≤ k → -1 ≤ low → low < high → high ≤ addrs.length →
    (∀ (j : Nat) (a : Nat), addrs[j]? = some a → (j : Int) ≤ low → a ≤ addr) →
    (∀ (j : Nat) (a : Nat), addrs[j]? = some a → high ≤ (j : Int) → addr < a) →
    ∃ r : Int, search addrs addr low high = some r ∧ -1 ≤ r ∧ r < addrs.length ∧
      (∀ (j : Nat) (a : Nat), addrs[j]? = some a → (a ≤ addr ↔ (j : Int) ≤ r)) := by
  intro k
  induction k with
  | zero => intro low high hk hl hlh; omega
  | succ k ih =>
    intro low high hk hl hlh hlen hlo hhi
    unfold search
    split
    · rename_i hgt
      simp only
      rw [if_neg (by omega)]
      have hm : ((low + high) / 2).toNat < addrs.length := by omega
      rw [List.getElem?_eq_getElem hm]
      simp only
      split
      · rename_i hle
        apply ih _ _ (by omega) (by omega) (by omega) hlen _ hhi
        intro j a hj hjl
        have hj' := List.getElem?_eq_some_iff.1 hj
        obtain ⟨hjl', hja⟩ := hj'
        rcases Nat.lt_or_ge j ((low + high) / 2).toNat with h | h
        · have := List.pairwise_iff_getElem.1 hs j _ hjl' hm h
          omega
        · have : j = ((low + high) / 2).toNat := by omega
          subst this
          omega
      · rename_i hle
        apply ih _ _ (by omega) hl (by omega) (by omega) hlo
        intro j a hj hjl
        obtain ⟨hjl', hja⟩ := List.getElem?_eq_some_iff.1 hj
        rcases Nat.lt_or_ge ((low + high) / 2).toNat j with h | h
        · have := List.pairwise_iff_getElem.1 hs _ j hm hjl' h
          omega
        · have : j = ((low + high) / 2).toNat := by omega
          subst this
          omega
    · rename_i hgt
      refine ⟨low, rfl, hl, by omega, fun j a hj => ⟨fun ha => ?_, hlo j a hj⟩⟩
      apply Decidable.byContradiction
      intro hc
      have := hhi j a hj (by omega)
      omega

theorem search_table {t : List DbgEntry} (hs : Sorted t) (addr : Nat) :
    ∃ r : Int, search (t.map (·.addr)) addr (-1) t.length = some r ∧ -1 ≤ r ∧ r < t.length ∧
      (∀ (j : Nat) (e : DbgEntry), t[j]? = some e → (e.addr ≤ addr ↔ (j : Int) ≤ r)) := by
  have hs' : (t.map (·.addr)).Pairwise (· ≤ ·) := List.pairwise_map.2 hs
  obtain ⟨r, h1, h2, h3, h4⟩ := search_spec (addr := addr) hs' _ (-1) t.length (Nat.le_refl _) (by omega)
    (by omega) (by simp) (by intro j a _ h; omega)
    (by
      intro j a hj h
      obtain ⟨hl, _⟩ := List.getElem?_eq_some_iff.1 hj
      rw [List.length_map] at hl
      omega)
  refine ⟨r, h1, h2, by simpa using h3, fun j e hj => ?_⟩
  exact h4 j e.addr (by rw [List.getElem?_map, hj]; rfl)

/-- What both lookups do with the entry found. -/
theorem lookup_cases {t : List DbgEntry} (hs : Sorted t) (addr : Nat) :
    ((∀ e ∈ t, addr < e.addr) ∧ search (t.map (·.addr)) addr (-1) t.length = some (-1)) ∨
    ∃ i e, LastAtOrBefore t addr i e ∧ search (t.map (·.addr)) addr (-1) t.length = some (i : Int) := by
  obtain ⟨r, h1, h2, h3, h4⟩ := search_table hs addr
  rcases Int.lt_or_le r 0 with hr | hr
  · left
    have : r = -1 := by omega
    subst this
    refine ⟨fun e he => ?_, h1⟩
    obtain ⟨j, hj⟩ := List.getElem?_of_mem he
    have := h4 j e hj
    omega
  · right
    obtain ⟨i, rfl⟩ := Int.eq_ofNat_of_zero_le hr
    have hi : i < t.length := by omega
    refine ⟨i, t[i], ⟨by rw [List.getElem?_eq_getElem hi], ?_, ?_⟩, h1⟩
    · exact (h4 i _ (List.getElem?_eq_getElem hi)).2 (by omega)
    · intro j e' hj hle
      have hji := (h4 j e' hj).1 hle
      refine ⟨by omega, ?_⟩
      obtain ⟨hjl, hje⟩ := List.getElem?_eq_some_iff.1 hj
      rcases Nat.lt_or_ge j i with h | h
      · rw [← hje]; exact List.pairwise_iff_getElem.1 hs j i hjl hi h
      · have : j = i := by omega
        subst this; subst hje; exact Nat.le_refl _

/-- C29: in a sorted table the line lookup fails exactly when every entry lies after the address, and otherwise
reports the (one-based) line of the last entry at or before it. -/
theorem C29_line (t : List DbgEntry) (hs : Sorted t) (addr : Nat) :
    ((∀ e ∈ t, addr < e.addr) ∧ lookupLine t addr = .missing) ∨
    ∃ i e, LastAtOrBefore t addr i e ∧ lookupLine t addr = .found ((e.val + 1) % 4294967296) := by
  rcases lookup_cases hs addr with ⟨h, hsr⟩ | ⟨i, e, h, hsr⟩
  · left
    refine ⟨h, ?_⟩
    unfold lookupLine
    rw [hsr]; rfl
  · right
    refine ⟨i, e, h, ?_⟩
    unfold lookupLine
    rw [hsr]
    simp only
    rw [if_neg (by omega), Int.toNat_natCast, h.1]

/-- C29: the file lookup, whose only further test is that the name offset lies in the names section. -/
theorem C29_file (namesSize : Nat) (t : List DbgEntry) (hs : Sorted t) (addr : Nat) :
    ((∀ e ∈ t, addr < e.addr) ∧ lookupFile namesSize t addr = .missing) ∨
    ∃ i e, LastAtOrBefore t addr i e ∧
      lookupFile namesSize t addr = if e.val < namesSize then .found e.val else .missing := by
  rcases lookup_cases hs addr with ⟨h, hsr⟩ | ⟨i, e, h, hsr⟩
  · left
    refine ⟨h, ?_⟩
    unfold lookupFile
    rw [hsr]; rfl
  · right
    refine ⟨i, e, h, ?_⟩
    unfold lookupFile
    rw [hsr]
    simp only
    rw [if_neg (by omega), Int.toNat_natCast, h.1]
    simp only
    by_cases hv : e.val < namesSize
    · rw [if_pos hv, if_neg (by omega)]
    · rw [if_neg hv, if_pos (by omega)]

example : lookupLine [⟨8, 0⟩, ⟨20, 4⟩, ⟨20, 5⟩, ⟨40, 9⟩] 39 = .found 6 := by decide +kernel
example : lookupLine [⟨8, 0⟩, ⟨20, 4⟩, ⟨40, 9⟩] 7 = .missing := by decide +kernel

/-! ### The compiler's tables

The compiler records lines and files as it emits code, at non-decreasing addresses; the tables are then sorted with an
unstable sort, here: any sorted permutation. -/

/-- The last event at or before an address. -/
def lastEvent {α : Type} (evs : List (Nat × α)) (addr : Nat) : Option α :=
  (evs.filter fun ev => ev.1 ≤ addr).getLast?.map (·.2)

/-- Table whose lookup answers are those of the events `evs`: strictly increasing and, per address, the last
event. -/
structure Mirrors {α : Type} (enc : α → Nat) (t : List DbgEntry) (evs : List (Nat × α)) : Prop where
  strict : t.Pairwise fun a b => a.addr < b.addr
  last : ∀ addr, ((t.filter fun e => e.addr ≤ addr).getLast?.map (·.val)) = (lastEvent evs addr).map enc
  top : t.getLast?.map (·.addr) = evs.getLast?.map (·.1)

theorem perm_strict_eq : ∀ {t u : List DbgEntry}, t.Pairwise (fun a b => a.addr < b.addr) → Sorted u → u.Perm t →
    u = t
  | [], u, _, _, hp => hp.eq_nil
  | a :: t, [], _, _, hp => absurd hp.length_eq (by simp)
  | a :: t, b :: u, hst, hso, hp => by
    have hst' := List.pairwise_cons.1 hst
    have hso' := List.pairwise_cons.1 hso
    have hb : b ∈ a :: t := hp.mem_iff.1 (List.mem_cons_self ..)
    have ha : a ∈ b :: u := hp.mem_iff.2 (List.mem_cons_self ..)
    have hab : a = b := by
      rcases List.mem_cons.1 hb with h | h
      · exact h.symm
      · rcases List.mem_cons.1 ha with h' | h'
        · exact h'
        · have h1 := hst'.1 b h
          have h2 := hso'.1 a h'
          omega
    subst hab
    have := perm_strict_eq hst'.2 hso'.2 (hp.cons_inv)
    rw [this]

/-- Lookup in a strictly sorted table, in terms of the filtered prefix. -/
theorem lastAt_filter {t : List DbgEntry} {addr i : Nat} {e : DbgEntry}
    (h : LastAtOrBefore t addr i e) :
    (t.filter fun e => e.addr ≤ addr).getLast? = some e := by
  obtain ⟨h1, h2, h3⟩ := h
  obtain ⟨hi, he⟩ := List.getElem?_eq_some_iff.1 h1
  have hsplit : t = t.take (i+1) ++ t.drop (i+1) := (List.take_append_drop ..).symm
  have hafter : (t.drop (i+1)).filter (fun e => e.addr ≤ addr) = [] := by
    rw [List.filter_eq_nil_iff]
    intro x hx hle
    obtain ⟨j, hj⟩ := List.getElem?_of_mem hx
    rw [List.getElem?_drop] at hj
    have := h3 _ x hj (by simpa using hle)
    omega
  rw [hsplit, List.filter_append, hafter, List.append_nil, List.take_add_one, h1]
  simp only [Option.toList_some, List.filter_append]
  have : [e].filter (fun e => decide (e.addr ≤ addr)) = [e] := by simp [h2]
  rw [this, List.getLast?_append]
  simp

theorem mirrors_lookup {α : Type} {enc : α → Nat} {t u : List DbgEntry} {evs : List (Nat × α)} (M : Mirrors enc t evs)
    (hu : Sorted u) (hp : u.Perm t) (addr : Nat) :
    (lastEvent evs addr = none ∧ ∀ e ∈ u, addr < e.addr) ∨
    ∃ a i e, lastEvent evs addr = some a ∧ LastAtOrBefore u addr i e ∧ e.val = enc a := by
  have := perm_strict_eq M.strict hu hp
  subst this
  have hl := M.last addr
  rcases lookup_cases hu addr with ⟨h, _⟩ | ⟨i, e, h, _⟩
  · left
    have : u.filter (fun e => decide (e.addr ≤ addr)) = [] := by
      rw [List.filter_eq_nil_iff]
      intro x hx hle
      have := h x hx
      simp at hle
      omega
    rw [this] at hl
    simp only [List.getLast?_nil, Option.map_none] at hl
    refine ⟨?_, h⟩
    cases hx : lastEvent evs addr with
    | none => rfl
    | some a => rw [hx] at hl; cases hl
  · right
    rw [lastAt_filter h] at hl
    simp only [Option.map_some] at hl
    cases hx : lastEvent evs addr with
    | none => rw [hx] at hl; cases hl
    | some a =>
      rw [hx] at hl
      simp only [Option.map_some, Option.some.injEq] at hl
      exact ⟨a, i, e, rfl, h, hl⟩

/-- Appending a new entry at a later address, or replacing the one at the same address, mirrors one more event. -/
theorem Mirrors.step {α : Type} {enc : α → Nat} {t : List DbgEntry} {evs : List (Nat × α)} (M : Mirrors enc t evs)
    (addr : Nat) (a : α) (hmono : ∀ ev ∈ evs, ev.1 ≤ addr) :
    Mirrors enc
      (match t.getLast? with
        | some last => if last.addr = addr then t.dropLast ++ [⟨addr, enc a⟩] else t ++ [⟨addr, enc a⟩]
        | none => t ++ [⟨addr, enc a⟩]) (evs ++ [(addr, a)]) := by
  have hev : ∀ q, lastEvent (evs ++ [(addr, a)]) q = if addr ≤ q then some a else lastEvent evs q := by
    intro q
    unfold lastEvent
    rw [List.filter_append]
    by_cases hq : addr ≤ q
    · simp [hq, List.getLast?_append]
    · simp [hq]
  cases hg : t.getLast? with
  | none =>
    have : t = [] := List.getLast?_eq_none_iff.1 hg
    subst this
    simp only [List.nil_append]
    refine ⟨by simp, fun q => ?_, by simp [List.getLast?_append]⟩
    rw [hev]
    have := M.last q
    simp only [List.filter_nil, List.getLast?_nil, Option.map_none] at this
    by_cases hq : addr ≤ q
    · simp [hq]
    · simp [hq, ← this]
  | some last =>
    have htop : last.addr ≤ addr := by
      have h1 := M.top
      rw [hg] at h1
      simp only [Option.map_some] at h1
      cases he : evs.getLast? with
      | none => rw [he] at h1; cases h1
      | some ev =>
        rw [he] at h1
        simp only [Option.map_some, Option.some.injEq] at h1
        rw [h1]
        exact hmono ev (List.mem_of_getLast? he)
    obtain ⟨pre, rfl⟩ : ∃ pre, t = pre ++ [last] := by
      refine ⟨t.dropLast, ?_⟩
      have hne : t ≠ [] := by intro hc; subst hc; cases hg
      have hg' : t.getLast hne = last := by
        rw [List.getLast?_eq_some_getLast hne] at hg
        simpa using hg
      have := List.dropLast_concat_getLast hne
      rw [hg'] at this
      exact this.symm
    have hpw := List.pairwise_append.1 M.strict
    simp only
    split
    · rename_i heq
      rw [List.dropLast_concat]
      refine ⟨?_, fun q => ?_, by simp [List.getLast?_append]⟩
      · rw [List.pairwise_append]
        refine ⟨hpw.1, by simp, fun x hx y hy => ?_⟩
        have := hpw.2.2 x hx last (by simp)
        simp only [List.mem_singleton] at hy
        subst hy
        show x.addr < addr
        omega
      · rw [hev]
        by_cases hq : addr ≤ q
        · simp [hq, List.filter_append, List.getLast?_append]
        · have := M.last q
          rw [List.filter_append] at this ⊢
          simp only [show ¬ (last.addr ≤ q) by omega, hq, decide_false, Bool.false_eq_true, not_false_eq_true,
            List.filter_cons_of_neg, List.filter_nil, List.append_nil, if_false] at this ⊢
          exact this
    · rename_i hne
      refine ⟨?_, fun q => ?_, by simp [List.getLast?_append]⟩
      · rw [List.pairwise_append]
        refine ⟨M.strict, by simp, fun x hx y hy => ?_⟩
        simp only [List.mem_singleton] at hy
        subst hy
        show x.addr < addr
        rcases List.mem_append.1 hx with hx | hx
        · have := hpw.2.2 x hx last (by simp)
          omega
        · simp only [List.mem_singleton] at hx
          subst hx
          omega
      · rw [hev]
        rw [List.filter_append]
        by_cases hq : addr ≤ q
        · simp [hq, List.getLast?_append]
        · have := M.last q
          simp only [hq, decide_false, Bool.false_eq_true, not_false_eq_true,
            List.filter_cons_of_neg, List.filter_nil, List.append_nil, if_false]
          exact this

/-- Events are recorded at non-decreasing addresses. -/
def Mono {α : Type} (evs : List (Nat × α)) : Prop := evs.Pairwise fun a b => a.1 ≤ b.1

theorem Mono.snoc {α : Type} {evs : List (Nat × α)} {ev : Nat × α} (h : Mono (evs ++ [ev])) :
    Mono evs ∧ ∀ e ∈ evs, e.1 ≤ ev.1 := by
  have := List.pairwise_append.1 h
  exact ⟨this.1, fun e he => this.2.2 e he ev (by simp)⟩

theorem snoc_induction {α : Type} {P : List α → Prop} (h0 : P []) (hs : ∀ l a, P l → P (l ++ [a])) :
    ∀ l, P l := by
  intro l
  have : ∀ l : List α, P l.reverse := by
    intro l
    induction l with
    | nil => exact h0
    | cons a l ih => rw [List.reverse_cons]; exact hs _ _ ih
  simpa using this l.reverse

/-- The stored value of a line number. -/
def lineEnc (line : Int) : Nat := ((if line > 0 then line - 1 else line) % 4294967296).toNat

theorem lines_mirror (evs : List (Nat × Int)) : Mono evs →
    Mirrors lineEnc (evs.foldl (fun t ev => addDebugLine t ev.1 ev.2) []) evs := by
  induction evs using snoc_induction with
  | h0 => intro _; exact ⟨by simp, fun q => by simp [lastEvent], rfl⟩
  | hs evs ev ih =>
    intro hm
    obtain ⟨hm1, hm2⟩ := hm.snoc
    rw [List.foldl_append]
    exact (ih hm1).step ev.1 ev.2 hm2

/-- C29 (compiler to VM): if the compiler recorded lines `evs` at non-decreasing code addresses, the VM looking up an
address in the sorted table finds exactly the line recorded last at or before that address, and nothing when all
were recorded later. -/
theorem C29_compiled_line (evs : List (Nat × Int)) (hm : Mono evs)
    (hl : ∀ ev ∈ evs, 1 ≤ ev.2 ∧ ev.2 < 2147483648) (t : List DbgEntry) (hs : Sorted t)
    (hp : t.Perm (evs.foldl (fun t ev => addDebugLine t ev.1 ev.2) [])) (addr : Nat) :
    lookupLine t addr = match lastEvent evs addr with
      | none => .missing
      | some line => .found line.toNat := by
  have M := lines_mirror evs hm
  rcases mirrors_lookup M hs hp addr with ⟨h1, h2⟩ | ⟨a, i, e, h1, h2, h3⟩
  · rw [h1]
    rcases C29_line t hs addr with ⟨_, h⟩ | ⟨i, e, h, _⟩
    · exact h
    · have := h2 e (List.mem_of_getElem? h.1)
      have := h.2.1
      omega
  · rw [h1]
    rcases C29_line t hs addr with ⟨h, _⟩ | ⟨i', e', h, h'⟩
    · have := h e (List.mem_of_getElem? h2.1)
      have := h2.2.1
      omega
    · have : i' = i := Nat.le_antisymm (h2.2.2 _ _ h.1 h.2.1).1 (h.2.2 _ _ h2.1 h2.2.1).1
      subst this
      have : e' = e := by
        have h1 := h.1
        have h4 := h2.1
        rw [h1] at h4
        simpa using h4
      subst this
      rw [h', h3]
      have ha : ∃ ev ∈ evs, ev.2 = a := by
        unfold lastEvent at h1
        obtain ⟨ev, hev, rfl⟩ := Option.map_eq_some_iff.1 h1
        exact ⟨ev, (List.mem_filter.1 (List.mem_of_getLast? hev)).1, rfl⟩
      obtain ⟨ev, hev, rfl⟩ := ha
      have := hl ev hev
      unfold lineEnc
      rw [if_pos (by omega)]
      simp only [Found.found.injEq]
      omega

theorem files_mirror (nameOff : Bytes → Nat) (evs : List (Nat × Bytes)) : Mono evs → (∀ ev ∈ evs, ev.2 ≠ []) →
    let F := evs.foldl (fun F ev => addDebugFile nameOff F ev.1 ev.2) FileTable.init
    Mirrors nameOff (F.flush nameOff) evs ∧
      (evs ≠ [] → F.lastName ≠ [] ∧ evs.getLast?.map (·.1) = some F.lastAddr) ∧
      (evs = [] → F.lastName = [] ∧ F.entries = []) := by
  induction evs using snoc_induction with
  | h0 => intro _ _; exact ⟨⟨by simp [FileTable.flush, FileTable.init], fun q => by
      simp [lastEvent, FileTable.flush, FileTable.init], rfl⟩, by simp, by simp [FileTable.init]⟩
  | hs evs ev ih =>
    intro hm hne
    obtain ⟨hm1, hm2⟩ := hm.snoc
    have ih := ih hm1 (fun e he => hne e (List.mem_append_left _ he))
    have hev : ev.2 ≠ [] := hne ev (by simp)
    simp only [List.foldl_append, List.foldl_cons, List.foldl_nil] at ih ⊢
    generalize hF : evs.foldl (fun F ev => addDebugFile nameOff F ev.1 ev.2) FileTable.init = F at ih
    obtain ⟨M, h1, h2⟩ := ih
    have S := M.step ev.1 ev.2 hm2
    refine ⟨?_, ?_, by simp⟩
    · have : (addDebugFile nameOff F ev.1 ev.2).flush nameOff =
        (match (F.flush nameOff).getLast? with
        | some last => if last.addr = ev.1 then (F.flush nameOff).dropLast ++ [⟨ev.1, nameOff ev.2⟩]
            else F.flush nameOff ++ [⟨ev.1, nameOff ev.2⟩]
        | none => F.flush nameOff ++ [⟨ev.1, nameOff ev.2⟩]) := by
        rcases Classical.em (evs = []) with he | he
        · obtain ⟨h3, h4⟩ := h2 he
          have hfl : F.flush nameOff = [] := by unfold FileTable.flush; rw [h3, h4]; simp
          rw [hfl]
          simp only [List.getLast?_nil, List.nil_append]
          unfold addDebugFile
          split
          · simp [FileTable.flush, hev, h3, h4]
          · rename_i heq
            simp only [ne_eq, Decidable.not_not] at heq
            simp [FileTable.flush, hev, h4, heq]
        · obtain ⟨h3, h4⟩ := h1 he
          have hfl : F.flush nameOff = F.entries ++ [⟨F.lastAddr, nameOff F.lastName⟩] := by
            unfold FileTable.flush; rw [if_pos h3]
          rw [hfl]
          simp only [List.getLast?_append, List.getLast?_singleton, Option.some_or, List.dropLast_concat]
          unfold addDebugFile
          by_cases heq : ev.1 = F.lastAddr
          · rw [if_neg (by simpa using heq), if_pos heq.symm]
            unfold FileTable.flush
            simp [hev, heq]
          · rw [if_pos heq, if_neg (fun hc => heq hc.symm)]
            show FileTable.flush nameOff ⟨F.flush nameOff, ev.1, ev.2⟩ = _
            rw [hfl]
            unfold FileTable.flush
            simp [hev]
      rw [this]
      exact S
    · intro _
      unfold addDebugFile
      split
      · exact ⟨hev, by simp [List.getLast?_append]⟩
      · rename_i heq
        simp only [ne_eq, Decidable.not_not] at heq
        exact ⟨hev, by simp [List.getLast?_append, heq]⟩

/-- C29 (compiler to VM): the same for file names, `nameOff` giving each name its offset in a names section of
`namesSize` bytes. -/
theorem C29_compiled_file (nameOff : Bytes → Nat) (namesSize : Nat) (evs : List (Nat × Bytes)) (hm : Mono evs)
    (hl : ∀ ev ∈ evs, ev.2 ≠ [] ∧ nameOff ev.2 < namesSize) (t : List DbgEntry) (hs : Sorted t)
    (hp : t.Perm ((evs.foldl (fun F ev => addDebugFile nameOff F ev.1 ev.2) FileTable.init).flush nameOff))
    (addr : Nat) :
    lookupFile namesSize t addr = match lastEvent evs addr with
      | none => .missing
      | some name => .found (nameOff name) := by
  have M := (files_mirror nameOff evs hm (fun ev he => (hl ev he).1)).1
  rcases mirrors_lookup M hs hp addr with ⟨h1, h2⟩ | ⟨a, i, e, h1, h2, h3⟩
  · rw [h1]
    rcases C29_file namesSize t hs addr with ⟨_, h⟩ | ⟨i, e, h, _⟩
    · exact h
    · have := h2 e (List.mem_of_getElem? h.1)
      have := h.2.1
      omega
  · rw [h1]
    rcases C29_file namesSize t hs addr with ⟨h, _⟩ | ⟨i', e', h, h'⟩
    · have := h e (List.mem_of_getElem? h2.1)
      have := h2.2.1
      omega
    · have : i' = i := Nat.le_antisymm (h2.2.2 _ _ h.1 h.2.1).1 (h.2.2 _ _ h2.1 h2.2.1).1
      subst this
      have : e' = e := by
        have h1 := h.1
        have h4 := h2.1
        rw [h1] at h4
        simpa using h4
      subst this
      rw [h', h3]
      have ha : ∃ ev ∈ evs, ev.2 = a := by
        unfold lastEvent at h1
        obtain ⟨ev, hev, rfl⟩ := Option.map_eq_some_iff.1 h1
        exact ⟨ev, (List.mem_filter.1 (List.mem_of_getLast? hev)).1, rfl⟩
      obtain ⟨ev, hev, rfl⟩ := ha
      rw [if_pos (hl ev hev).2]

example : lookupLine ([(8, 1), (16, 3), (16, 4), (40, 2)].foldl (fun t ev => addDebugLine t ev.1 ev.2) []) 20 =
    .found 4 := by decide +kernel

/-! ## C30 -/

/-- Entry `i` of a table with name offsets `offs` has the (NUL-terminated) name `name`. -/
def Named (names : Bytes) (offs : List Nat) (i : Nat) (name : Bytes) : Prop :=
  ∃ off rest, offs[i]? = some off ∧ names.drop off = name ++ 0 :: rest ∧ (0 : BitVec 8) ∉ name

theorem named_iff {names : Bytes} {offs : List Nat} {i : Nat} {name : Bytes} :
    Named names offs i name ↔ ∃ off, offs[i]? = some off ∧ cstr names off = some name := by
  unfold Named
  constructor
  · rintro ⟨off, rest, h1, h2, h3⟩; exact ⟨off, h1, cstr_some.2 ⟨rest, h2, h3⟩⟩
  · rintro ⟨off, h1, h2⟩
    obtain ⟨rest, h3, h4⟩ := cstr_some.1 h2
    exact ⟨off, rest, h1, h3, h4⟩

theorem findNativeFrom_spec {names name : Bytes} : ∀ {offs : List Nat} {k : Nat},
    (∀ off ∈ offs, ∃ c, cstr names off = some c) →
    ∃ r, findNativeFrom names name offs k = some r ∧
      (∀ i, r = some i → ∃ j, i = k + j ∧ Named names offs j name ∧ ∀ j' < j, ¬ Named names offs j' name) ∧
      (r = none → ∀ j, ¬ Named names offs j name)
  | [], k, _ => ⟨none, rfl, by simp, fun _ j hj => by rw [named_iff] at hj; obtain ⟨off, h, _⟩ := hj; simp at h⟩
  | off :: offs, k, hv => by
    obtain ⟨c, hc⟩ := hv off (List.mem_cons_self ..)
    unfold findNativeFrom
    rw [hc]
    simp only
    by_cases hcn : c = name
    · subst hcn
      rw [if_pos rfl]
      refine ⟨_, rfl, ?_, by simp⟩
      intro i hi
      simp only [Option.some.injEq] at hi
      exact ⟨0, by omega, named_iff.2 ⟨off, rfl, hc⟩, by omega⟩
    · rw [if_neg hcn]
      obtain ⟨r, h1, h2, h3⟩ := findNativeFrom_spec (offs := offs) (k := k + 1) (name := name)
        (fun o ho => hv o (List.mem_cons_of_mem _ ho))
      have h0 : ¬ Named names (off :: offs) 0 name := by
        rw [named_iff]
        rintro ⟨o, ho, hc'⟩
        simp only [List.getElem?_cons_zero, Option.some.injEq] at ho
        subst ho
        rw [hc] at hc'
        simp only [Option.some.injEq] at hc'
        exact hcn hc'
      have hs : ∀ j, Named names (off :: offs) (j+1) name ↔ Named names offs j name := by
        intro j; rw [named_iff, named_iff]; simp
      refine ⟨r, h1, ?_, ?_⟩
      · intro i hi
        obtain ⟨j, hj1, hj2, hj3⟩ := h2 i hi
        refine ⟨j + 1, by omega, (hs j).2 hj2, fun j' hj' => ?_⟩
        match j' with
        | 0 => exact h0
        | j'+1 => rw [hs]; exact hj3 j' (by omega)
      · intro hr j
        match j with
        | 0 => exact h0
        | j+1 => rw [hs]; exact h3 hr j

/-- C30: native lookup finds the first entry with the name, and fails exactly when there is none; it never reads
outside the names section of a validated image. -/
theorem C30_native (names : Bytes) (offs : List Nat) (hv : namesValidated names offs) (name : Bytes) :
    (∃ i, findNative names offs name = some (some i) ∧ Named names offs i name ∧
      ∀ j < i, ¬ Named names offs j name) ∨
    (findNative names offs name = some none ∧ ∀ j, ¬ Named names offs j name) := by
  obtain ⟨r, h1, h2, h3⟩ := findNativeFrom_spec (names := names) (name := name) (offs := offs) (k := 0)
    (fun o ho => validated_cstr hv ho)
  cases r with
  | none => right; exact ⟨h1, h3 rfl⟩
  | some i =>
    left
    obtain ⟨j, hj, h4, h5⟩ := h2 i rfl
    have : i = j := by omega
    subst this
    exact ⟨i, h1, h4, h5⟩

/-- What a filled cache answers. -/
def Answers (names : Bytes) (offs : List Nat) (c : Cache) : Prop :=
  ∀ name, match (c.find? (·.1 = name)).map (·.2) with
    | some i => Named names offs i name ∧ ∀ j, Named names offs j name → j ≤ i
    | none => ∀ j, ¬ Named names offs j name

theorem find_assign (c : Cache) (key : Bytes) (i : Nat) (name : Bytes) :
    ((c.assign key i).find? (·.1 = name)).map (·.2) =
      if key = name then some i else (c.find? (·.1 = name)).map (·.2) := by
  unfold Cache.assign
  by_cases h : key = name
  · simp [h]
  · rw [List.find?_cons_of_neg (by simpa using h), if_neg h]
    congr 1
    rw [List.find?_filter]
    congr 1
    funext x
    by_cases hx : x.1 = name
    · have : ¬ name = key := fun hc => h hc.symm
      simp [hx, this]
    · simp [hx]

theorem fillFrom_spec {names : Bytes} {all : List Nat} : ∀ {offs : List Nat} {pre : List Nat} {c : Cache},
    all = pre ++ offs → (∀ off ∈ offs, ∃ c, cstr names off = some c) → Answers names pre c →
    ∃ c', fillFrom names offs pre.length c = some c' ∧ Answers names all c'
  | [], pre, c, hall, _, hc => ⟨c, rfl, by rw [hall, List.append_nil]; exact hc⟩
  | off :: offs, pre, c, hall, hv, hc => by
    obtain ⟨key, hk⟩ := hv off (List.mem_cons_self ..)
    unfold fillFrom
    rw [hk]
    simp only
    have hall' : all = (pre ++ [off]) ++ offs := by rw [hall]; simp
    have hpre : Answers names (pre ++ [off]) (c.assign key pre.length) := by
      intro name
      rw [find_assign]
      have hold : ∀ j, Named names (pre ++ [off]) j name → Named names pre j name ∨ (j = pre.length ∧ key = name) := by
        intro j hj
        rw [named_iff] at hj
        obtain ⟨o, ho, hc'⟩ := hj
        rcases Nat.lt_or_ge j pre.length with h | h
        · left; rw [named_iff]
          rw [List.getElem?_append_left h] at ho
          exact ⟨o, ho, hc'⟩
        · right
          rw [List.getElem?_append_right h] at ho
          obtain ⟨hl, he⟩ := List.getElem?_eq_some_iff.1 ho
          simp only [List.length_singleton] at hl
          have hj0 : j - pre.length = 0 := by omega
          simp only [hj0, List.getElem_singleton] at he
          subst he
          rw [hk] at hc'
          exact ⟨by omega, by simpa using hc'⟩
      have hnew : ∀ j, Named names pre j name → Named names (pre ++ [off]) j name := by
        intro j hj
        rw [named_iff] at hj ⊢
        obtain ⟨o, ho, hc'⟩ := hj
        have hl := (List.getElem?_eq_some_iff.1 ho).1
        exact ⟨o, by rw [List.getElem?_append_left hl]; exact ho, hc'⟩
      have hlt : ∀ j, Named names pre j name → j < pre.length := by
        intro j hj
        rw [named_iff] at hj
        obtain ⟨o, ho, _⟩ := hj
        exact (List.getElem?_eq_some_iff.1 ho).1
      by_cases hkn : key = name
      · rw [if_pos hkn]
        refine ⟨named_iff.2 ⟨off, by simp, by rw [hk, hkn]⟩, fun j hj => ?_⟩
        rcases hold j hj with h | h
        · exact Nat.le_of_lt (hlt j h)
        · omega
      · rw [if_neg hkn]
        have := hc name
        split at this
        · rename_i i hi
          refine ⟨hnew _ this.1, fun j hj => ?_⟩
          rcases hold j hj with h | h
          · exact this.2 j h
          · exact absurd h.2 hkn
        · rename_i hi
          intro j hj
          rcases hold j hj with h | h
          · exact this j h
          · exact hkn h.2
    have := fillFrom_spec (names := names) (all := all) (offs := offs) (pre := pre ++ [off])
      (c := c.assign key pre.length) hall' (fun o ho => hv o (List.mem_cons_of_mem _ ho)) hpre
    simpa using this

/-- A history of lookups, each using the cache the previous one left. `none` when one of them reads outside the
names section. -/
def lookups (names : Bytes) (offs : List Nat) (cache : Cache) : List Bytes → Option Cache
  | [] => some cache
  | name :: rest =>
    match findCached names offs cache name with
    | none => none
    | some (c, _) => lookups names offs c rest

theorem findCached_spec {names : Bytes} {offs : List Nat} (hv : namesValidated names offs) {c : Cache}
    (hc : c = [] ∨ Answers names offs c) (name : Bytes) :
    ∃ c' r, findCached names offs c name = some (c', r) ∧ Answers names offs c' ∧
      r = (c'.find? (·.1 = name)).map (·.2) := by
  unfold findCached
  have hempty : Answers names [] [] := by
    intro name
    simp only [List.find?_nil, Option.map_none]
    intro j hj
    rw [named_iff] at hj
    obtain ⟨o, ho, _⟩ := hj
    simp at ho
  by_cases he : c.isEmpty = true
  · have hce : c = [] := List.isEmpty_iff.1 he
    rw [if_pos he]
    obtain ⟨c', h1, h2⟩ := fillFrom_spec (names := names) (all := offs) (offs := offs) (pre := []) (c := c) rfl
      (fun o ho => validated_cstr hv ho) (by rw [hce]; exact hempty)
    rw [List.length_nil] at h1
    rw [h1]
    exact ⟨c', _, rfl, h2, rfl⟩
  · rw [if_neg he]
    rcases hc with hc | hc
    · subst hc; simp at he
    · exact ⟨c, _, rfl, hc, rfl⟩

theorem lookups_spec {names : Bytes} {offs : List Nat} (hv : namesValidated names offs) : ∀ (h : List Bytes)
    {c : Cache}, (c = [] ∨ Answers names offs c) →
    ∃ c', lookups names offs c h = some c' ∧ (c' = [] ∨ Answers names offs c')
  | [], c, hc => ⟨c, rfl, hc⟩
  | name :: h, c, hc => by
    obtain ⟨c', r, h1, h2, _⟩ := findCached_spec hv hc name
    unfold lookups
    rw [h1]
    exact lookups_spec hv h (Or.inr h2)

/-- C30: after any history of lookups, looking up a public function or variable by name finds the last entry with
that name, and fails exactly when there is none; it never reads outside the names section. -/
theorem C30_public (names : Bytes) (offs : List Nat) (hv : namesValidated names offs) (h : List Bytes)
    (name : Bytes) :
    ∃ c c' r, lookups names offs [] h = some c ∧ findCached names offs c name = some (c', r) ∧
      ((∃ i, r = some i ∧ Named names offs i name ∧ ∀ j, Named names offs j name → j ≤ i) ∨
       (r = none ∧ ∀ j, ¬ Named names offs j name)) := by
  obtain ⟨c, h1, h2⟩ := lookups_spec hv h (c := []) (Or.inl rfl)
  obtain ⟨c', r, h3, h4, h5⟩ := findCached_spec hv h2 name
  refine ⟨c, c', r, h1, h3, ?_⟩
  have := h4 name
  rw [← h5] at this
  cases r with
  | none => right; exact ⟨rfl, this⟩
  | some i => left; exact ⟨i, rfl, this⟩

/-- Names "a", "bc", "" in a section, with a duplicate. -/
def c30Names : Bytes := [97, 0, 98, 99, 0, 0]
def c30Offs : List Nat := [2, 0, 5, 2]
example : namesValidated c30Names c30Offs := ⟨fun _ => rfl, by decide⟩
example : findNative c30Names c30Offs [98, 99] = some (some 0) ∧ findNative c30Names c30Offs [98] = some none := by
  decide +kernel
example : (findCached c30Names c30Offs [] [98, 99]).map (·.2) = some (some 3) ∧
    (findCached c30Names c30Offs [] [99]).map (·.2) = some (none) := by decide +kernel

end Verif.Image

import Verif.Model.Smx

/-! C33: interning of names and type data. -/
namespace Verif.Smx
open Verif.Image (Bytes)

/-! ## Names -/

/-- Add a sequence of strings; the offsets handed out and the final table (`none` when one addition aborts). -/
def addNames (T : NameTable) : List Bytes → Option (List Nat × NameTable)
  | [] => some ([], T)
  | s :: ss =>
    match T.add s with
    | none => none
    | some (o, T) => (addNames T ss).map fun (os, T) => (o :: os, T)

structure NameInv (T : NameTable) : Prop where
  size : T.size = T.write.length
  entry : ∀ s o, (s, o) ∈ T.table → ∃ post, T.write.drop o = s ++ 0 :: post
  inj : ∀ s o s' o', (s, o) ∈ T.table → (s', o') ∈ T.table → o = o' → s = s'
  below : ∀ s o, (s, o) ∈ T.table → o < T.size

theorem NameInv.empty : NameInv NameTable.empty :=
  ⟨rfl, by simp [NameTable.empty], by simp [NameTable.empty], by simp [NameTable.empty]⟩

/-- The final bytes only ever grow at the end. -/
def Extends (T T' : NameTable) : Prop :=
  (∃ post, T'.write = T.write ++ post) ∧ ∀ e ∈ T.table, e ∈ T'.table

theorem add_spec {T : NameTable} (I : NameInv T) {s : Bytes} {o : Nat} {T' : NameTable} (h : T.add s = some (o, T')) :
    NameInv T' ∧ Extends T T' ∧ (s, o) ∈ T'.table := by
  unfold NameTable.add at h
  split at h
  · rename_i e he
    simp only [Option.some.injEq, Prod.mk.injEq] at h
    obtain ⟨rfl, rfl⟩ := h
    have h1 := List.mem_of_find?_eq_some he
    have h2 := List.find?_some he
    simp only [decide_eq_true_eq] at h2
    subst h2
    exact ⟨I, ⟨⟨[], by simp⟩, fun _ h => h⟩, h1⟩
  · rename_i hnone
    split at h
    · cases h
    · simp only [Option.some.injEq, Prod.mk.injEq] at h
      obtain ⟨rfl, rfl⟩ := h
      have hw : (⟨(s, T.size) :: T.table, T.names ++ [s], T.size + (s.length + 1)⟩ : NameTable).write
          = T.write ++ (s ++ [0]) := by
        simp [NameTable.write]
      refine ⟨⟨?_, ?_, ?_, ?_⟩, ⟨⟨s ++ [0], hw⟩, fun e he => List.mem_cons_of_mem _ he⟩, List.mem_cons_self ..⟩
      · rw [hw]; simp [I.size]
      · intro s' o' hm
        rw [hw]
        rcases List.mem_cons.1 hm with h | h
        · simp only [Prod.mk.injEq] at h
          obtain ⟨rfl, rfl⟩ := h
          refine ⟨[], ?_⟩
          rw [I.size, List.drop_left]
        · obtain ⟨post, hp⟩ := I.entry s' o' h
          have hlt := I.below s' o' h
          rw [I.size] at hlt
          refine ⟨post ++ (s ++ [0]), ?_⟩
          rw [List.drop_append_of_le_length (by omega), hp]
          simp
      · intro s1 o1 s2 o2 h1 h2 ho
        rcases List.mem_cons.1 h1 with h | h <;> rcases List.mem_cons.1 h2 with h' | h'
        · simp only [Prod.mk.injEq] at h h'; rw [h.1, h'.1]
        · simp only [Prod.mk.injEq] at h
          have := I.below s2 o2 h'
          omega
        · simp only [Prod.mk.injEq] at h'
          have := I.below s1 o1 h
          omega
        · exact I.inj s1 o1 s2 o2 h h' ho
      · intro s' o' hm
        show o' < T.size + (s.length + 1)
        rcases List.mem_cons.1 hm with h | h
        · simp only [Prod.mk.injEq] at h; omega
        · have := I.below s' o' h; omega

theorem addNames_spec : ∀ {ss : List Bytes} {T : NameTable}, NameInv T → ∀ {os : List Nat} {T' : NameTable},
    addNames T ss = some (os, T') →
    NameInv T' ∧ Extends T T' ∧ os.length = ss.length ∧
      ∀ (i : Nat) s o, ss[i]? = some s → os[i]? = some o → (s, o) ∈ T'.table
  | [], T, I, os, T', h => by
    simp only [addNames, Option.some.injEq, Prod.mk.injEq] at h
    obtain ⟨rfl, rfl⟩ := h
    exact ⟨I, ⟨⟨[], by simp⟩, fun _ h => h⟩, rfl, by simp⟩
  | s :: ss, T, I, os, T', h => by
    unfold addNames at h
    split at h
    · cases h
    · rename_i o T1 ha
      obtain ⟨I1, E1, hm⟩ := add_spec I ha
      obtain ⟨⟨os', T2⟩, h2, h3⟩ := Option.map_eq_some_iff.1 h
      simp only [Prod.mk.injEq] at h3
      obtain ⟨rfl, rfl⟩ := h3
      obtain ⟨I2, E2, hl, hall⟩ := addNames_spec I1 h2
      refine ⟨I2, ⟨?_, fun e he => E2.2 e (E1.2 e he)⟩, by simp [hl], ?_⟩
      · obtain ⟨p1, h1⟩ := E1.1
        obtain ⟨p2, h2⟩ := E2.1
        exact ⟨p1 ++ p2, by rw [h2, h1, List.append_assoc]⟩
      · intro i s' o' hs ho
        match i with
        | 0 =>
          simp only [List.getElem?_cons_zero, Option.some.injEq] at hs ho
          subst hs; subst ho
          exact E2.2 _ hm
        | i+1 =>
          simp only [List.getElem?_cons_succ] at hs ho
          exact hall i s' o' hs ho

/-- Whether a string is already in the table, only depends on earlier additions. -/
theorem table_key_unique {T : NameTable} {s : Bytes} {o : Nat} {T' : NameTable} (h : T.add s = some (o, T'))
    (hu : ∀ s o o', (s, o) ∈ T.table → (s, o') ∈ T.table → o = o') :
    ∀ s o o', (s, o) ∈ T'.table → (s, o') ∈ T'.table → o = o' := by
  unfold NameTable.add at h
  split at h
  · simp only [Option.some.injEq, Prod.mk.injEq] at h
    obtain ⟨rfl, rfl⟩ := h
    exact hu
  · rename_i hnone
    split at h
    · cases h
    · simp only [Option.some.injEq, Prod.mk.injEq] at h
      obtain ⟨rfl, rfl⟩ := h
      have hfresh : ∀ o, (s, o) ∉ T.table := by
        intro o hm
        have := List.find?_eq_none.1 hnone (s, o) hm
        simp at this
      intro s1 o1 o2 h1 h2
      rcases List.mem_cons.1 h1 with h | h <;> rcases List.mem_cons.1 h2 with h' | h'
      · simp only [Prod.mk.injEq] at h h'; rw [h.2, h'.2]
      · simp only [Prod.mk.injEq] at h; rw [h.1] at h'; exact absurd h' (hfresh _)
      · simp only [Prod.mk.injEq] at h'; rw [h'.1] at h; exact absurd h (hfresh _)
      · exact hu s1 o1 o2 h h'

theorem addNames_unique : ∀ {ss : List Bytes} {T : NameTable},
    (∀ s o o', (s, o) ∈ T.table → (s, o') ∈ T.table → o = o') → ∀ {os : List Nat} {T' : NameTable},
    addNames T ss = some (os, T') → ∀ s o o', (s, o) ∈ T'.table → (s, o') ∈ T'.table → o = o'
  | [], T, hu, os, T', h => by
    simp only [addNames, Option.some.injEq, Prod.mk.injEq] at h
    obtain ⟨rfl, rfl⟩ := h
    exact hu
  | s :: ss, T, hu, os, T', h => by
    unfold addNames at h
    split at h
    · cases h
    · rename_i o T1 ha
      obtain ⟨⟨os', T2⟩, h2, h3⟩ := Option.map_eq_some_iff.1 h
      simp only [Prod.mk.injEq] at h3
      obtain ⟨rfl, rfl⟩ := h3
      exact addNames_unique (table_key_unique ha hu) h2

/-- C33: after any sequence of additions, the written table holds at each offset handed out exactly the string it was
handed out for, followed by its terminator; equal strings got equal offsets and different strings different
ones. -/
theorem C33_names (ss : List Bytes) (os : List Nat) (T : NameTable) (h : addNames .empty ss = some (os, T)) :
    os.length = ss.length ∧ T.size = T.write.length ∧
    ∀ (i : Nat) s o, ss[i]? = some s → os[i]? = some o →
      (∃ post, T.write.drop o = s ++ 0 :: post) ∧
      ∀ (j : Nat) s' o', ss[j]? = some s' → os[j]? = some o' → (o = o' ↔ s = s') := by
  obtain ⟨I, _, hl, hall⟩ := addNames_spec NameInv.empty h
  have hu := addNames_unique (T := .empty) (by simp [NameTable.empty]) h
  refine ⟨hl, I.size, fun i s o hs ho => ⟨I.entry s o (hall i s o hs ho), fun j s' o' hs' ho' => ?_⟩⟩
  have h1 := hall i s o hs ho
  have h2 := hall j s' o' hs' ho'
  constructor
  · exact I.inj s o s' o' h1 h2
  · rintro rfl; exact hu s o o' h1 h2

/-- C33: offsets handed out earlier stay valid, whatever is added later. -/
theorem C33_names_stable (ss ss' : List Bytes) (os os' : List Nat) (T T' : NameTable)
    (h : addNames .empty ss = some (os, T)) (h' : addNames T ss' = some (os', T')) :
    ∃ post, T'.write = T.write ++ post := by
  obtain ⟨I, _, _, _⟩ := addNames_spec NameInv.empty h
  exact (addNames_spec I h').2.1.1

/-- C33: an addition only aborts when the table would reach 4 GiB. -/
theorem C33_names_total (T : NameTable) (s : Bytes) (h : T.size + s.length + 1 < 4294967296) :
    ∃ r, T.add s = some r := by
  unfold NameTable.add
  split
  · exact ⟨_, rfl⟩
  · rw [if_neg (by omega)]; exact ⟨_, rfl⟩

example : addNames .empty [[97], [98, 99], [97], []] =
    some ([0, 2, 0, 5], ⟨[([], 5), ([98, 99], 2), ([97], 0)], [[97], [98, 99], []], 6⟩) := by decide +kernel

/-! ## Type data -/

/-- Add a sequence of byte runs. -/
def addRuns (P : Pool) : List Bytes → List Nat × Pool
  | [] => ([], P)
  | r :: rs =>
    let (o, P) := P.add r
    let (os, P) := addRuns P rs
    (o :: os, P)

structure PoolInv (P : Pool) : Prop where
  pos : 1 ≤ P.buffer.length
  entry : ∀ r o, (r, o) ∈ P.map → 1 ≤ o ∧ o + r.length ≤ P.buffer.length ∧ (P.buffer.drop o).take r.length = r
  key : ∀ r o o', (r, o) ∈ P.map → (r, o') ∈ P.map → o = o'
  disjoint : ∀ r o r' o', (r, o) ∈ P.map → (r', o') ∈ P.map → r ≠ r' →
    o + r.length ≤ o' ∨ o' + r'.length ≤ o

theorem PoolInv.empty : PoolInv Pool.empty :=
  ⟨Nat.le_refl 1, by simp [Pool.empty], by simp [Pool.empty], by simp [Pool.empty]⟩

theorem pool_add_spec {P : Pool} (I : PoolInv P) (r : Bytes) :
    PoolInv (P.add r).2 ∧ (∃ post, (P.add r).2.buffer = P.buffer ++ post) ∧ (∀ e ∈ P.map, e ∈ (P.add r).2.map) ∧
      ((P.add r).1 ≠ 0 → (r, (P.add r).1) ∈ (P.add r).2.map) ∧
      ((P.add r).2.buffer.length ≤ P.buffer.length + r.length) ∧
      (P.buffer.length + r.length ≤ 2147483647 → (P.add r).1 ≠ 0) := by
  unfold Pool.add
  split
  · rename_i e he
    have h1 := List.mem_of_find?_eq_some he
    have h2 := List.find?_some he
    simp only [decide_eq_true_eq] at h2
    subst h2
    refine ⟨I, ⟨[], by simp⟩, fun _ h => h, fun _ => h1, by simp, fun _ => ?_⟩
    have := (I.entry _ _ h1).1
    show e.2 ≠ 0
    omega
  · rename_i hnone
    split
    · exact ⟨I, ⟨[], by simp⟩, fun _ h => h, fun h => absurd rfl h, by simp, fun h => by omega⟩
    · have hfresh : ∀ o, (r, o) ∉ P.map := by
        intro o hm
        have := List.find?_eq_none.1 hnone (r, o) hm
        simp at this
      refine ⟨⟨?_, ?_, ?_, ?_⟩, ⟨r, rfl⟩, fun e he => List.mem_cons_of_mem _ he, fun _ => List.mem_cons_self ..,
        by simp, fun _ => ?_⟩
      · show 1 ≤ (P.buffer ++ r).length
        have := I.pos
        simp; omega
      · intro r' o' hm
        show 1 ≤ o' ∧ o' + r'.length ≤ (P.buffer ++ r).length ∧ ((P.buffer ++ r).drop o').take r'.length = r'
        rcases List.mem_cons.1 hm with h | h
        · simp only [Prod.mk.injEq] at h
          obtain ⟨rfl, rfl⟩ := h
          refine ⟨I.pos, by simp, ?_⟩
          rw [List.drop_left, List.take_length]
        · obtain ⟨h1, h2, h3⟩ := I.entry r' o' h
          refine ⟨h1, by simp; omega, ?_⟩
          rw [List.drop_append_of_le_length (by omega), List.take_append_of_le_length (by simp; omega), h3]
      · intro r1 o1 o2 h1 h2
        rcases List.mem_cons.1 h1 with h | h <;> rcases List.mem_cons.1 h2 with h' | h'
        · simp only [Prod.mk.injEq] at h h'; rw [h.2, h'.2]
        · simp only [Prod.mk.injEq] at h; rw [h.1] at h'; exact absurd h' (hfresh _)
        · simp only [Prod.mk.injEq] at h'; rw [h'.1] at h; exact absurd h (hfresh _)
        · exact I.key r1 o1 o2 h h'
      · intro r1 o1 r2 o2 h1 h2 hne
        rcases List.mem_cons.1 h1 with h | h <;> rcases List.mem_cons.1 h2 with h' | h'
        · simp only [Prod.mk.injEq] at h h'; exact absurd (h.1.trans h'.1.symm) hne
        · simp only [Prod.mk.injEq] at h
          have := (I.entry r2 o2 h').2.1
          omega
        · simp only [Prod.mk.injEq] at h'
          have := (I.entry r1 o1 h).2.1
          omega
        · exact I.disjoint r1 o1 r2 o2 h h' hne
      · have := I.pos
        show P.buffer.length ≠ 0
        omega

theorem addRuns_spec : ∀ (rs : List Bytes) {P : Pool}, PoolInv P →
    PoolInv (addRuns P rs).2 ∧ (∃ post, (addRuns P rs).2.buffer = P.buffer ++ post) ∧
      (∀ e ∈ P.map, e ∈ (addRuns P rs).2.map) ∧ (addRuns P rs).1.length = rs.length ∧
      (∀ (i : Nat) r o, rs[i]? = some r → (addRuns P rs).1[i]? = some o → o ≠ 0 → (r, o) ∈ (addRuns P rs).2.map) ∧
      (P.buffer.length + (rs.map List.length).sum ≤ 2147483647 → ∀ o ∈ (addRuns P rs).1, o ≠ 0)
  | [], P, I => ⟨I, ⟨[], by simp [addRuns]⟩, fun _ h => h, rfl, by simp, by simp [addRuns]⟩
  | r :: rs, P, I => by
    obtain ⟨I1, ⟨p1, e1⟩, k1, m1, l1, z1⟩ := pool_add_spec I r
    obtain ⟨I2, ⟨p2, e2⟩, k2, len2, m2, z2⟩ := addRuns_spec rs I1
    refine ⟨I2, ⟨p1 ++ p2, ?_⟩, fun e he => k2 e (k1 e he), by simp [addRuns, len2], ?_, ?_⟩
    · show (addRuns (P.add r).2 rs).2.buffer = _
      rw [e2, e1, List.append_assoc]
    · intro i r' o' hr ho hz
      match i with
      | 0 =>
        simp only [List.getElem?_cons_zero, Option.some.injEq] at hr
        have ho' : (P.add r).1 = o' := by simpa [addRuns] using ho
        subst hr; subst ho'
        exact k2 _ (m1 hz)
      | i+1 =>
        simp only [List.getElem?_cons_succ] at hr
        have ho' : (addRuns (P.add r).2 rs).1[i]? = some o' := by simpa [addRuns] using ho
        exact m2 i r' o' hr ho' hz
    · intro hs o ho
      simp only [List.map_cons, List.sum_cons] at hs
      have : o = (P.add r).1 ∨ o ∈ (addRuns (P.add r).2 rs).1 := by simpa [addRuns] using ho
      rcases this with rfl | h
      · exact z1 (by omega)
      · exact z2 (by omega) o h

/-- C33: the type data pool, as long as it stays below 2 GiB: after any sequence of additions the final bytes
hold each run at the offset handed out for it, equal runs got equal offsets, different runs occupy disjoint ranges, and
no run is at offset zero (which stands for "nothing"). -/
theorem C33_pool (rs : List Bytes) (hfit : 1 + (rs.map List.length).sum ≤ 2147483647) :
    let os := (addRuns .empty rs).1
    let P := (addRuns .empty rs).2
    os.length = rs.length ∧
    ∀ (i : Nat) r o, rs[i]? = some r → os[i]? = some o →
      o ≠ 0 ∧ o + r.length ≤ P.buffer.length ∧ (P.buffer.drop o).take r.length = r ∧
      ∀ (j : Nat) r' o', rs[j]? = some r' → os[j]? = some o' →
        (r = r' → o = o') ∧ (r ≠ r' → o + r.length ≤ o' ∨ o' + r'.length ≤ o) := by
  intro os P
  obtain ⟨I, _, _, hl, hm, hz⟩ := addRuns_spec rs PoolInv.empty
  refine ⟨hl, fun i r o hr ho => ?_⟩
  have hz' : ∀ (i : Nat) o, os[i]? = some o → o ≠ 0 := fun i o ho => hz hfit o (List.mem_of_getElem? ho)
  have h1 := hm i r o hr ho (hz' i o ho)
  refine ⟨hz' i o ho, (I.entry r o h1).2.1, (I.entry r o h1).2.2, fun j r' o' hr' ho' => ?_⟩
  have h2 := hm j r' o' hr' ho' (hz' j o' ho')
  exact ⟨fun e => by subst e; exact I.key r o o' h1 h2, fun e => I.disjoint r o r' o' h1 h2 e⟩

/-- C33: offsets handed out earlier stay valid. -/
theorem C33_pool_stable (rs rs' : List Bytes) :
    ∃ post, (addRuns (addRuns .empty rs).2 rs').2.buffer = (addRuns .empty rs).2.buffer ++ post :=
  (addRuns_spec rs' (addRuns_spec rs PoolInv.empty).1).2.1

example : (addRuns .empty [[1, 2], [3], [1, 2], [2]]).1 = [1, 3, 1, 4] ∧
    (addRuns .empty [[1, 2], [3], [1, 2], [2]]).2.buffer = [0, 1, 2, 3, 2] := by decide +kernel

end Verif.Smx

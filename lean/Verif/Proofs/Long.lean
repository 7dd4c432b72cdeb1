import Verif.Spec.Long
import Verif.Props.C15

/-! Lemmas for C81: slots, memory and single instructions. -/
namespace Verif.Long
open Verif.VM

/-! ### Slots -/

theorem bytes_pos (k : Kind) : 4 ≤ k.bytes ∧ k.bytes ≤ 8 := by cases k <;> decide

theorem size_nonneg : ∀ K : List Kind, 0 ≤ size K
  | [] => Int.le_refl 0
  | k :: ks => by
    have := size_nonneg ks
    have := bytes_pos k
    simp only [size]
    omega

theorem size_append : ∀ K L : List Kind, size (K ++ L) = size K + size L
  | [], L => by simp [size]
  | k :: ks, L => by
    simp only [List.cons_append, size, size_append ks L]
    omega

theorem size_take_le (K : List Kind) (i : Nat) : size (K.take i) ≤ size K := by
  have h := size_append (K.take i) (K.drop i)
  rw [List.take_append_drop] at h
  have := size_nonneg (K.drop i)
  omega

theorem size_take_mono (K : List Kind) {i j : Nat} (h : i ≤ j) : size (K.take i) ≤ size (K.take j) := by
  have : K.take i = (K.take j).take i := by rw [List.take_take]; congr 1; omega
  rw [this]
  exact size_take_le _ _

theorem size_take_succ {K : List Kind} {i : Nat} {k : Kind} (h : K[i]? = some k) : size (K.take (i + 1)) = size (K.take i) + k.bytes := by
  rw [List.take_add_one, h, size_append]
  simp [size]

theorem offsets_get : ∀ (K : List Kind) (off : Int) (i : Nat), i < K.length → (offsets off K)[i]? = some (off - size (K.take (i + 1)))
  | [], _, _, h => absurd h (by simp)
  | k :: ks, off, 0, _ => by simp [offsets, size]
  | k :: ks, off, i + 1, h => by
    simp only [offsets, List.getElem?_cons_succ, List.take_succ_cons, size]
    rw [offsets_get ks (off - k.bytes) i (by simpa using h)]
    congr 1
    omega

theorem slot_end {K : List Kind} {i : Nat} {k : Kind} (h : K[i]? = some k) (frm : Int) :
    slotAddr K frm i + k.bytes = frm - size (K.take i) := by
  unfold slotAddr
  rw [size_take_succ h]
  omega

theorem slot_range {K : List Kind} {i : Nat} {k : Kind} (h : K[i]? = some k) (frm : Int) :
    frm - size K ≤ slotAddr K frm i ∧ slotAddr K frm i + k.bytes ≤ frm := by
  have h1 := size_take_le K (i + 1)
  have h2 := size_nonneg (K.take i)
  have h3 := slot_end h frm
  unfold slotAddr at *
  omega

theorem slot_apart {K : List Kind} {i j : Nat} {k l : Kind} (hi : K[i]? = some k) (hj : K[j]? = some l) (hn : i ≠ j) (frm : Int) :
    slotAddr K frm i + k.bytes ≤ slotAddr K frm j ∨ slotAddr K frm j + l.bytes ≤ slotAddr K frm i := by
  have h1 := slot_end hi frm
  have h2 := slot_end hj frm
  rcases Nat.lt_or_gt_of_ne hn with h | h
  · have := size_take_mono K (show i + 1 ≤ j by omega)
    right
    unfold slotAddr at *
    omega
  · have := size_take_mono K (show j + 1 ≤ i by omega)
    left
    unfold slotAddr at *
    omega

/-! ### Memory -/

theorem wr64_far {m : Int → BitVec 8} {a x : Int} {v : BitVec 64} (h : x < a ∨ a + 8 ≤ x) : wr64 m a v x = m x := by
  unfold wr64
  rw [wr32_far (by omega), wr32_far (by omega)]

theorem rd64_congr {m m' : Int → BitVec 8} {a : Int} (h : ∀ x, a ≤ x → x < a + 8 → m' x = m x) : rd64 m' a = rd64 m a := by
  unfold rd64
  rw [rd32_congr (m := m) (m' := m') fun x h1 h2 => h x (by omega) (by omega),
    rd32_congr (m := m) (m' := m') (a := a) fun x h1 h2 => h x (by omega) (by omega)]

theorem rd64_far {m : Int → BitVec 8} {a b : Int} {v : BitVec 64} (h : a + 8 ≤ b ∨ b + 8 ≤ a) : rd64 (wr64 m a v) b = rd64 m b :=
  rd64_congr fun x h1 h2 => wr64_far (by omega)

theorem rd32_far64 {m : Int → BitVec 8} {a b : Int} {v : BitVec 64} (h : a + 8 ≤ b ∨ b + 4 ≤ a) : rd32 (wr64 m a v) b = rd32 m b :=
  rd32_congr fun x h1 h2 => wr64_far (by omega)

theorem rd64_far32 {m : Int → BitVec 8} {a b : Int} {v : Cell} (h : a + 4 ≤ b ∨ b + 8 ≤ a) : rd64 (wr32 m a v) b = rd64 m b :=
  rd64_congr fun x h1 h2 => wr32_far (by omega)

theorem halves (v : BitVec 64) : v.extractLsb' 32 32 ++ v.extractLsb' 0 32 = v := by
  apply BitVec.eq_of_getLsbD_eq
  intro i hi
  simp only [BitVec.getLsbD_append, BitVec.getLsbD_extractLsb']
  by_cases h : i < 32
  · simp [h]
  · simp [h, show i - 32 < 32 by omega, show 32 + (i - 32) = i by omega]

/-! ### Slots that have been given out -/

structure WF (t : Slots) : Prop where
  kind : ∀ x, x ∈ t.free ++ t.used → t.kinds[x.1]? = some x.2
  nodup : ((t.free ++ t.used).map (·.1)).Nodup
  k64 : ∀ n i, t.v64 n = some i → t.kinds[i]? = some .int64 ∧ i ∉ (t.free ++ t.used).map (·.1)
  k32 : ∀ n i, t.v32 n = some i → t.kinds[i]? = some .int ∧ i ∉ (t.free ++ t.used).map (·.1)
  inj64 : ∀ n n' i, t.v64 n = some i → t.v64 n' = some i → n = n'
  inj32 : ∀ n n' i, t.v32 n = some i → t.v32 n' = some i → n = n'

/-- What happens to the slots in an expression. -/
structure Grows (t t' : Slots) : Prop where
  kinds : ∃ L, t'.kinds = t.kinds ++ L
  used : ∃ L, t'.used = t.used ++ L
  v64 : t'.v64 = t.v64
  v32 : t'.v32 = t.v32

theorem Grows.rfl' {t : Slots} : Grows t t := ⟨⟨[], by simp⟩, ⟨[], by simp⟩, rfl, rfl⟩

theorem Grows.trans {t u w : Slots} (h : Grows t u) (k : Grows u w) : Grows t w := by
  obtain ⟨⟨L, hL⟩, ⟨M, hM⟩, h3, h4⟩ := h
  obtain ⟨⟨L', hL'⟩, ⟨M', hM'⟩, k3, k4⟩ := k
  exact ⟨⟨L ++ L', by rw [hL', hL, List.append_assoc]⟩, ⟨M ++ M', by rw [hM', hM, List.append_assoc]⟩, k3.trans h3, k4.trans h4⟩

theorem takeFree_some {k : Kind} {i : Nat} : ∀ {l r : List (Nat × Kind)}, takeFree k l = some (i, r) → ∃ a c, l = a ++ (i, k) :: c ∧ r = a ++ c
  | [], r, h => by simp [takeFree] at h
  | x :: xs, r, h => by
    simp only [takeFree] at h
    split at h
    · rename_i hx
      cases h
      exact ⟨[], xs, by rw [← hx]; rfl, rfl⟩
    · cases hq : takeFree k xs with
      | none => rw [hq] at h; cases h
      | some q =>
        rw [hq] at h
        cases h
        obtain ⟨a, c, h1, h2⟩ := takeFree_some (i := q.1) (r := q.2) (l := xs) (by rw [hq])
        exact ⟨x :: a, c, by rw [h1]; rfl, by rw [h2]; rfl⟩

theorem acquire_grows (t : Slots) (k : Kind) : Grows t (t.acquire k).2 := by
  unfold Slots.acquire
  split
  · exact ⟨⟨[], by simp⟩, ⟨_, rfl⟩, rfl, rfl⟩
  · exact ⟨⟨_, rfl⟩, ⟨_, rfl⟩, rfl, rfl⟩

theorem get_append {α : Type} {l m : List α} {i : Nat} {x : α} (h : l[i]? = some x) : (l ++ m)[i]? = some x := by
  have := (List.getElem?_eq_some_iff.mp h).1
  rw [List.getElem?_append_left this, h]

theorem acquire_ok {t : Slots} (h : WF t) (k : Kind) : let i := (t.acquire k).1; let t' := (t.acquire k).2
    WF t' ∧ t'.kinds[i]? = some k ∧ (i, k) ∈ t'.used ∧ i ∉ t.used.map (·.1) ∧ (∀ n, t.v64 n ≠ some i) ∧ (∀ n, t.v32 n ≠ some i) := by
  unfold Slots.acquire
  cases hq : takeFree k t.free with
  | some q =>
    obtain ⟨i, r⟩ := q
    obtain ⟨a, c, hl, hr⟩ := takeFree_some hq
    have hmem : ∀ x, x ∈ r ++ (t.used ++ [(i, k)]) ↔ x ∈ t.free ++ t.used := by
      intro x
      rw [hl, hr]
      simp only [List.mem_append, List.mem_cons, List.not_mem_nil, or_false]
      constructor
      · rintro ((h | h) | h | h) <;> simp [h]
      · rintro ((h | h | h) | h) <;> simp [h]
    have hmm : ∀ j, j ∈ (r ++ (t.used ++ [(i, k)])).map (·.1) ↔ j ∈ (t.free ++ t.used).map (·.1) := by
      intro j
      simp only [List.mem_map]
      constructor
      · rintro ⟨x, h1, h2⟩; exact ⟨x, (hmem x).mp h1, h2⟩
      · rintro ⟨x, h1, h2⟩; exact ⟨x, (hmem x).mpr h1, h2⟩
    have hii : (i, k) ∈ t.free ++ t.used := by rw [hl]; simp
    have hnd : ((a ++ (i, k) :: c) ++ t.used).map (·.1) |>.Nodup := by have := h.nodup; rwa [hl] at this
    refine ⟨⟨fun x hx => h.kind x ((hmem x).mp hx), ?_, fun n j hj => ?_, fun n j hj => ?_, h.inj64, h.inj32⟩, h.kind _ hii, by simp, ?_, ?_, ?_⟩
    · have hp : ((a ++ (i, k) :: c) ++ t.used).Perm (r ++ (t.used ++ [(i, k)])) := by
        rw [hr]
        have h1 : (a ++ (i, k) :: c).Perm ((a ++ c) ++ [(i, k)]) := by
          rw [List.append_assoc]
          exact List.Perm.append_left a (List.perm_append_comm (l₁ := [(i, k)]) (l₂ := c))
        refine (List.Perm.append_right t.used h1).trans ?_
        rw [List.append_assoc]
        exact List.Perm.append_left _ List.perm_append_comm
      exact (hp.map (·.1)).nodup_iff.mp hnd
    · exact ⟨(h.k64 n j hj).1, fun hc => (h.k64 n j hj).2 ((hmm j).mp hc)⟩
    · exact ⟨(h.k32 n j hj).1, fun hc => (h.k32 n j hj).2 ((hmm j).mp hc)⟩
    · intro hc
      rw [List.map_append, List.nodup_append] at hnd
      exact hnd.2.2 i (by simp) i hc rfl
    · intro n hn
      exact (h.k64 n i hn).2 (List.mem_map.mpr ⟨_, hii, rfl⟩)
    · intro n hn
      exact (h.k32 n i hn).2 (List.mem_map.mpr ⟨_, hii, rfl⟩)
  | none =>
    have hlt : ∀ x, x ∈ t.free ++ t.used → x.1 < t.kinds.length := fun x hx => (List.getElem?_eq_some_iff.mp (h.kind x hx)).1
    have hnew : t.kinds.length ∉ (t.free ++ t.used).map (·.1) := by
      intro hc
      obtain ⟨x, h1, h2⟩ := List.mem_map.mp hc
      have := hlt x h1
      omega
    have hlast : (t.kinds ++ [k])[t.kinds.length]? = some k := by simp
    refine ⟨⟨?_, ?_, fun n j hj => ?_, fun n j hj => ?_, h.inj64, h.inj32⟩, hlast, by simp, ?_, ?_, ?_⟩
    · intro x hx
      rw [← List.append_assoc, List.mem_append] at hx
      rcases hx with hx | hx
      · exact get_append (h.kind x hx)
      · simp only [List.mem_singleton] at hx
        subst hx
        exact hlast
    · rw [← List.append_assoc, List.map_append, List.nodup_append]
      refine ⟨h.nodup, by simp, ?_⟩
      intro a ha c hc heq
      simp only [List.map_cons, List.map_nil, List.mem_singleton] at hc
      subst hc
      subst heq
      exact hnew ha
    · have hj' := h.k64 n j hj
      refine ⟨get_append hj'.1, ?_⟩
      rw [← List.append_assoc, List.map_append, List.mem_append]
      rintro (hc | hc)
      · exact hj'.2 hc
      · simp only [List.map_cons, List.map_nil, List.mem_singleton] at hc
        have := (List.getElem?_eq_some_iff.mp hj'.1).1
        omega
    · have hj' := h.k32 n j hj
      refine ⟨get_append hj'.1, ?_⟩
      rw [← List.append_assoc, List.map_append, List.mem_append]
      rintro (hc | hc)
      · exact hj'.2 hc
      · simp only [List.map_cons, List.map_nil, List.mem_singleton] at hc
        have := (List.getElem?_eq_some_iff.mp hj'.1).1
        omega
    · intro hc
      exact hnew (by rw [List.map_append]; exact List.mem_append_right _ hc)
    · intro n hn
      exact absurd (List.getElem?_eq_some_iff.mp (h.k64 n _ hn).1).1 (Nat.lt_irrefl _)
    · intro n hn
      exact absurd (List.getElem?_eq_some_iff.mp (h.k32 n _ hn).1).1 (Nat.lt_irrefl _)

/-! ### Growth of all expressions -/

mutual
theorem gen64_grows (t : Slots) : ∀ e : E64, Grows t (gen64 t e).2
  | .num v => by simp only [gen64, emitNum]; exact acquire_grows t _
  | .var _ => by simp only [gen64]; exact Grows.rfl'
  | .inv e => by simp only [gen64]; exact (gen64_grows t e).trans (acquire_grows _ _)
  | .neg e => by simp only [gen64]; exact (gen64_grows t e).trans (acquire_grows _ _)
  | .bin op a b => by
    simp only [gen64, emitOp]
    exact ((gen64_grows t a).trans (gen64_grows _ b)).trans (acquire_grows _ _)
  | .set _ e => by simp only [gen64]; exact gen64_grows t e
  | .opset op x e => by simp only [gen64, emitOp]; exact (gen64_grows t e).trans (acquire_grows _ _)
  | .inc up pre x => by
    simp only [gen64, emitInc]
    split
    · exact acquire_grows _ _
    · exact (acquire_grows _ _).trans (acquire_grows _ _)
  | .ofInt e => by simp only [gen64]; exact (gen32_grows t e).trans (acquire_grows _ _)
  | .comma a b => by simp only [gen64]; exact (gen64_grows t a).trans (gen64_grows _ b)
theorem gen32_grows (t : Slots) : ∀ e : E32, Grows t (gen32 t e).2
  | .num _ | .var _ => by simp only [gen32]; exact Grows.rfl'
  | .set _ e => by simp only [gen32]; exact gen32_grows t e
  | .trunc e => by simp only [gen32]; exact gen64_grows t e
  | .rel op a b => by simp only [gen32]; exact (gen64_grows t a).trans (gen64_grows _ b)
  | .not e => by simp only [gen32]; exact gen64_grows t e
  | .truth e => by simp only [gen32]; exact gen64_grows t e
end

end Verif.Long

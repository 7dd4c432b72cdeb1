import Verif.Proofs.ArrayInit

/-! Lemmas for C41: row vectors. -/
namespace Verif.ArrayInit

theorem child_part (init : Option Init) (i : Nat) : child init i = part init i := by
  cases init with
  | none => rfl
  | some x => cases x <;> rfl

theorem accepted_part {b : Base} {n d : Nat} {ds : List Nat} {init : Option Init} (h : Accepted b (n :: d :: ds) init) (i : Nat) :
    Accepted b (d :: ds) (part init i) := by
  intro x hx
  unfold part at hx
  split at hx
  · rename_i items ell
    have hv := h _ rfl
    simp only [validRank, Bool.and_eq_true, List.all_eq_true] at hv
    exact hv.2 ⟨x, List.mem_of_getElem? hx⟩ (List.mem_attach _ _)
  · cases hx

/-- `R` holds `blk` from position `i`. -/
def Slice (R : List Cell) (i : Nat) (blk : List Cell) : Prop := ∀ j < blk.length, R[i + j]? = blk[j]?

theorem Slice.left {R : List Cell} {i : Nat} {a b : List Cell} (h : Slice R i (a ++ b)) : Slice R i a := by
  intro j hj
  rw [h j (by rw [List.length_append]; omega), List.getElem?_append_left hj]

theorem Slice.right {R : List Cell} {i : Nat} {a b : List Cell} (h : Slice R i (a ++ b)) : Slice R (i + a.length) b := by
  intro j hj
  rw [Nat.add_assoc, h (a.length + j) (by rw [List.length_append]; omega), List.getElem?_append_right (by omega)]
  congr 1
  omega

/-- Following row vectors before addresses are adjusted. -/
def followRaw (R : List Cell) : Cell → List Nat → Option Cell
  | a, [] => some a
  | a, i :: idx =>
    if a.toNat % 4 = 0 ∧ a.toNat < 2147483648 then
      match R[a.toNat / 4 + i]? with
      | some a' => followRaw R a' idx
      | none => none
    else none

/-- A leaf address. -/
def leafPtr (p : Nat) : Cell := BitVec.ofNat 32 (4 * p) ||| dataFlag

/-- What a rank leaves behind. -/
def RankOk (b : Base) (dims : List Nat) (init : Option Init) (e : Em) (r : Em × Cell) : Prop :=
  ∃ blk, r.1.iv = e.iv ++ blk ∧ blk.length = vectorCells dims ∧ content r.1 = content e ++ (rows b dims init).flatten ∧
    ∀ R, R.length < 536870912 → Slice R e.iv.length blk → ∀ idx, Path dims idx →
      followRaw R r.2 idx = some (leafPtr ((content e).length + ((rows b dims init).take (linear dims idx)).flatten.length))

theorem flatMap_length_const {f : Nat → List (List Cell)} {c : Nat} (h : ∀ i, (f i).length = c) (k : Nat) :
    ((List.range k).flatMap f).length = k * c := by
  induction k with
  | zero => simp
  | succ k ih => rw [List.range_succ, List.flatMap_append, List.length_append, ih, List.flatMap_singleton, h, Nat.add_mul, Nat.one_mul]

theorem rows_length (b : Base) : ∀ (dims : List Nat) (init : Option Init), (rows b dims init).length = rowCount dims
  | [], _ => rfl
  | [_], _ => rfl
  | n :: d :: ds, init => by
    have ih := rows_length b (d :: ds)
    rw [rows, rowCount, flatMap_length_const (fun i => ih (part init i))]

theorem take_rows {f : Nat → List (List Cell)} {c : Nat} (h : ∀ i, (f i).length = c) {n i l : Nat} (hi : i < n) (hl : l ≤ c) :
    ((List.range n).flatMap f).take (i * c + l) = (List.range i).flatMap f ++ (f i).take l := by
  have : n = i + (1 + (n - i - 1)) := by omega
  rw [this, List.range_add, List.flatMap_append, List.take_append, flatMap_length_const h]
  have e1 : ((List.range i).flatMap f).take (i * c + l) = (List.range i).flatMap f := by
    apply List.take_of_length_le
    rw [flatMap_length_const h]
    omega
  rw [e1]
  congr 1
  have e2 : i * c + l - i * c = l := by omega
  rw [e2, List.range_add, List.map_append, List.flatMap_append, List.take_append]
  have e3 : ((List.map (fun x => i + x) (List.range 1)).flatMap f) = f i := by
    simp [List.range_succ]
  rw [e3, h i]
  have e4 : l - c = 0 := by omega
  rw [e4]
  simp

theorem linear_lt : ∀ (dims idx : List Nat), Path dims idx → linear dims idx < rowCount dims
  | [], [], h => h.elim
  | [], _ :: _, h => h.elim
  | [_], [], _ => Nat.one_pos
  | [_], _ :: _, h => h.elim
  | _ :: _ :: _, [], h => h.elim
  | n :: d :: ds, i :: idx, h => by
    have ih := linear_lt (d :: ds) idx h.2
    rw [linear, rowCount]
    have : (i + 1) * rowCount (d :: ds) ≤ n * rowCount (d :: ds) := Nat.mul_le_mul_right _ h.1
    rw [Nat.add_mul] at this
    omega

theorem emitEach_ok {b : Base} {n d : Nat} {ds : List Nat} {init : Option Init} {inner : Option Init → Em → Em × Cell} {start : Nat}
    (hin : ∀ i < n, ∀ e, RankOk b (d :: ds) (part init i) e (inner (part init i) e)) :
    ∀ (k i : Nat) (e : Em) (A done blks : List Cell), i + k = n →
      e.iv = A ++ done ++ List.replicate k 0 ++ blks → A.length = start → done.length = i →
      ∃ news blk', (emitEach inner init start k i e).iv = A ++ (done ++ news) ++ (blks ++ blk') ∧ news.length = k ∧
        blk'.length = k * vectorCells (d :: ds) ∧
        content (emitEach inner init start k i e) =
          content e ++ ((List.range k).flatMap fun j => rows b (d :: ds) (part init (i + j))).flatten ∧
        ∀ R, R.length < 536870912 → Slice R (start + i + k + blks.length) blk' → ∀ j < k, ∀ idx, Path (d :: ds) idx →
          ∃ a, news[j]? = some a ∧ followRaw R a idx = some (leafPtr ((content e).length +
            ((List.range j).flatMap fun j => rows b (d :: ds) (part init (i + j))).flatten.length +
            ((rows b (d :: ds) (part init (i + j))).take (linear (d :: ds) idx)).flatten.length))
  | 0, i, e, A, done, blks, hk, hiv, hA, hd => by
    refine ⟨[], [], ?_, rfl, by simp, by simp [emitEach], fun R _ _ j hj => absurd hj (by omega)⟩
    simp [emitEach, hiv]
  | k+1, i, e, A, done, blks, hk, hiv, hA, hd => by
    obtain ⟨blk, h1, h2, h3, h4⟩ := hin i (by omega) e
    unfold emitEach
    rw [child_part]
    generalize inner (part init i) e = r at h1 h3 h4
    have hiv' : r.1.iv.set (start + i) r.2 = A ++ (done ++ [r.2]) ++ List.replicate k 0 ++ (blks ++ blk) := by
      rw [h1, hiv, List.replicate_succ]
      have e1 : A ++ done ++ 0 :: List.replicate k 0 ++ blks ++ blk = (A ++ done) ++ (0 :: (List.replicate k 0 ++ blks ++ blk)) := by simp
      rw [e1, List.set_append_right _ _ (by rw [List.length_append]; omega)]
      have e2 : start + i - (A ++ done).length = 0 := by rw [List.length_append]; omega
      rw [e2, List.set_cons_zero]
      simp
    obtain ⟨news, blk', g1, g2, g3, g4, g5⟩ := emitEach_ok hin k (i + 1) { r.1 with iv := r.1.iv.set (start + i) r.2 } A (done ++ [r.2])
      (blks ++ blk) (by omega) hiv' hA (by rw [List.length_append, hd]; rfl)
    have hc : content { r.1 with iv := r.1.iv.set (start + i) r.2 } = content r.1 := rfl
    have hr (k : Nat) : ((List.range (k + 1)).flatMap fun j => rows b (d :: ds) (part init (i + j))) =
        rows b (d :: ds) (part init i) ++ (List.range k).flatMap fun j => rows b (d :: ds) (part init (i + 1 + j)) := by
      rw [List.range_succ_eq_map, List.flatMap_cons, List.flatMap_map]
      congr 1
      congr 1
      funext j
      have : i + (j + 1) = i + 1 + j := by omega
      rw [← this]
    refine ⟨r.2 :: news, blk ++ blk', ?_, by rw [List.length_cons, g2], ?_, ?_, ?_⟩
    · rw [g1]
      simp
    · rw [List.length_append, h2, g3, Nat.add_mul, Nat.one_mul, Nat.add_comm]
    · rw [g4, hc, h3, hr, List.flatten_append, List.append_assoc]
    · intro R hR hs j hj idx hp
      cases j with
      | zero =>
        refine ⟨r.2, rfl, ?_⟩
        have hl : e.iv.length = start + i + (k + 1) + blks.length := by
          rw [hiv]
          simp only [List.length_append, List.length_replicate]
          omega
        have := h4 R hR (by rw [hl]; exact hs.left) idx hp
        rw [this]
        simp
      | succ j =>
        have hs2 : Slice R (start + (i + 1) + k + (blks ++ blk).length) blk' := by
          have := hs.right
          rw [List.length_append]
          have e : start + i + (k + 1) + blks.length + blk.length = start + (i + 1) + k + (blks.length + blk.length) := by omega
          rw [← e]
          exact this
        obtain ⟨a, ha1, ha2⟩ := g5 R hR hs2 j (by omega) idx hp
        refine ⟨a, ha1, ?_⟩
        rw [ha2, hc, h3, hr]
        have ej : i + (j + 1) = i + 1 + j := by omega
        rw [ej, List.flatten_append, List.length_append, List.length_append, Nat.add_assoc (content e).length]

theorem emitRank_ok (b : Base) : ∀ (dims : List Nat) (init : Option Init), Accepted b dims init → Supported b dims init → ∀ e,
    RankOk b dims init e (emitRank b dims init e)
  | [], _, _, hs, _ => hs.elim
  | [n], init, hv, hs, e => by
    obtain ⟨h1, h2, h3⟩ := emitRow_ok hv hs e
    refine ⟨[], ?_, rfl, ?_, ?_⟩
    · show (emitRow b n init e).iv = _
      rw [h2]
      simp
    · show content (emitRow b n init e) = _
      rw [h1]
      simp [rows]
    · intro R _ _ idx hp
      cases idx with
      | cons i idx => exact hp.elim
      | nil =>
        show some (BitVec.ofNat 32 (4 * e.size) ||| dataFlag) = _
        rw [size_content]
        simp [leafPtr, linear]
  | n :: d :: ds, init, hv, hs, e => by
    have ih := fun i (hi : i < n) => emitRank_ok b (d :: ds) (part init i) (accepted_part hv i) (hs i hi)
    obtain ⟨news, blk', g1, g2, g3, g4, g5⟩ := emitEach_ok (b := b) (n := n) (d := d) (ds := ds) (init := init)
      (inner := fun i e => emitRank b (d :: ds) i e) (start := e.iv.length) (fun i hi e => ih i hi e) n 0
      { e with iv := e.iv ++ List.replicate n 0 } e.iv [] [] (by omega) (by simp) rfl rfl
    simp only [Nat.zero_add] at g4 g5
    have hc : content { e with iv := e.iv ++ List.replicate n 0 } = content e := rfl
    refine ⟨news ++ blk', ?_, ?_, ?_, ?_⟩
    · show (emitEach _ _ _ _ _ _).iv = _
      rw [g1]
      simp
    · rw [List.length_append, g2, g3]
      rfl
    · exact g4
    · intro R hR hsl idx hp
      cases idx with
      | nil => exact hp.elim
      | cons i idx =>
        obtain ⟨hi, hp⟩ := hp
        obtain ⟨a, ha1, ha2⟩ := g5 R hR (by
          have := hsl.right
          rw [g2] at this
          simpa using this) i hi idx hp
        have hR1 : R[e.iv.length + i]? = some a := by
          rw [hsl i (by rw [List.length_append]; omega), List.getElem?_append_left (by omega), ha1]
        obtain ⟨hlt, _⟩ := List.getElem?_eq_some_iff.mp hR1
        have hpos : (BitVec.ofNat 32 (4 * e.iv.length)).toNat / 4 + i = e.iv.length + i := by
          rw [BitVec.toNat_ofNat]
          omega
        show followRaw R (BitVec.ofNat 32 (4 * e.iv.length)) (i :: idx) = _
        rw [followRaw, if_pos (by rw [BitVec.toNat_ofNat]; omega), hpos, hR1]
        show followRaw R a idx = _
        rw [ha2, rows, linear, take_rows (fun i => rows_length b (d :: ds) (part init i)) hi (Nat.le_of_lt (linear_lt _ _ hp)),
          List.flatten_append, List.length_append, Nat.add_assoc, hc]

/-! ### Addresses -/

/-- A vector of `iv` before and after adjustment. -/
theorem adjust_leaf {count p : Nat} (h : p < 536870912) : adjust count (leafPtr p) = BitVec.ofNat 32 (4 * (count + p)) := by
  have hf : ∀ x : Nat, x < 2147483648 → (BitVec.ofNat 32 x ||| dataFlag) &&& dataFlag ≠ 0 ∧
      (BitVec.ofNat 32 x ||| dataFlag) &&& ~~~ dataFlag = BitVec.ofNat 32 x := by
    intro x hx
    have hlt : (BitVec.ofNat 32 x).toNat < 2 ^ 31 := by rw [BitVec.toNat_ofNat]; omega
    generalize BitVec.ofNat 32 x = y at hlt
    have h31 : y.getLsbD 31 = false := by
      unfold BitVec.getLsbD
      exact Nat.testBit_lt_two_pow hlt
    constructor
    · intro hc
      have := congrArg (fun v : BitVec 32 => v.getLsbD 31) hc
      simp [dataFlag] at this
    · apply BitVec.eq_of_getLsbD_eq
      intro i hi
      have hd : dataFlag.getLsbD i = decide (i = 31) := by
        unfold dataFlag
        revert i
        decide
      rw [BitVec.getLsbD_and, BitVec.getLsbD_or, BitVec.getLsbD_not, hd]
      by_cases h : i = 31
      · subst h
        rw [h31]
        rfl
      · simp [h, hi]
  obtain ⟨h1, h2⟩ := hf (4 * p) (by omega)
  unfold adjust leafPtr
  rw [if_pos h1, h2, ← BitVec.ofNat_add]
  congr 1
  omega

theorem adjust_vector {count p : Nat} (h : p < 536870912) : adjust count (BitVec.ofNat 32 (4 * p)) = BitVec.ofNat 32 (4 * p) := by
  have hlt : (BitVec.ofNat 32 (4 * p)).toNat < 2 ^ 31 := by rw [BitVec.toNat_ofNat]; omega
  unfold adjust
  rw [if_neg]
  generalize BitVec.ofNat 32 (4 * p) = y at hlt
  intro hc
  apply hc
  apply BitVec.eq_of_getLsbD_eq
  intro i hi
  have hd : dataFlag.getLsbD i = decide (i = 31) := by
    unfold dataFlag
    revert i
    decide
  rw [BitVec.getLsbD_and, hd]
  by_cases h : i = 31
  · subst h
    have h31 : y.getLsbD 31 = false := by
      unfold BitVec.getLsbD
      exact Nat.testBit_lt_two_pow hlt
    rw [h31]
    rfl
  · simp [h]

theorem follow_raw {R img : List Cell} {base : Cell} (hR : ∀ (i : Nat) (v : Cell), R[i]? = some v → img[i]? = some (adjust R.length v + base)) :
    ∀ (idx : List Nat) (a z : Cell), followRaw R a idx = some z →
      follow img base (adjust R.length a + base) idx = some (adjust R.length z + base)
  | [], a, z, h => by
    cases h
    rfl
  | i :: idx, a, z, h => by
    unfold followRaw at h
    split at h
    · rename_i hc
      cases hr : R[a.toNat / 4 + i]? with
      | none => rw [hr] at h; cases h
      | some v =>
        rw [hr] at h
        have ih := follow_raw hR idx v z h
        have ha : adjust R.length a = a := by
          have : a = BitVec.ofNat 32 (4 * (a.toNat / 4)) := by
            apply BitVec.eq_of_toNat_eq
            rw [BitVec.toNat_ofNat]
            omega
          rw [this]
          exact adjust_vector (by omega)
        have e1 : a + base - base = a := BitVec.add_sub_cancel a base
        unfold follow
        rw [ha, e1]
        have e2 : (a.toNat + 4 * i) / 4 = a.toNat / 4 + i := by omega
        simp only [e2, hR _ _ hr]
        rw [if_pos (by omega)]
        exact ih
    · cases h

/-! ### Rows at their positions -/

/-- The initialiser of the row at `idx`. -/
theorem rows_get (b : Base) : ∀ (dims : List Nat) (init : Option Init) (idx : List Nat), Path dims idx →
    (rows b dims init)[linear dims idx]? = some (row b (dims.getLastD 0) (idx.foldl part init))
  | [], _, [], h => h.elim
  | [], _, _ :: _, h => h.elim
  | [n], init, [], _ => rfl
  | [_], _, _ :: _, h => h.elim
  | _ :: _ :: _, _, [], h => h.elim
  | n :: d :: ds, init, i :: idx, h => by
    obtain ⟨hi, hp⟩ := h
    have ih := rows_get b (d :: ds) (part init i) idx hp
    have hl := linear_lt _ _ hp
    have ht := take_rows (f := fun i => rows b (d :: ds) (part init i)) (fun i => rows_length b (d :: ds) (part init i)) hi
      (show linear (d :: ds) idx + 1 ≤ _ from hl)
    rw [rows, linear]
    have hlt : i * rowCount (d :: ds) + linear (d :: ds) idx < i * rowCount (d :: ds) + (linear (d :: ds) idx + 1) := by omega
    have e : ∀ (l : List (List Cell)) (m k : Nat), m < k → l[m]? = (l.take k)[m]? := fun l m k h => by
      rw [List.getElem?_take, if_pos h]
    rw [e _ _ _ hlt, ht, List.getElem?_append_right (by rw [flatMap_length_const (fun i => rows_length b (d :: ds) (part init i))]; omega),
      flatMap_length_const (fun i => rows_length b (d :: ds) (part init i)), Nat.add_sub_cancel_left, List.getElem?_take, if_pos (by omega), ih]
    simp [List.getLastD]

theorem flatten_at {l : List (List Cell)} {k : Nat} {r : List Cell} (h : l[k]? = some r) :
    (l.flatten.drop (l.take k).flatten.length).take r.length = r := by
  obtain ⟨hk, hr⟩ := List.getElem?_eq_some_iff.mp h
  have e : l = l.take k ++ r :: l.drop (k + 1) := by
    rw [← hr, List.getElem_cons_drop, List.take_append_drop]
  have e2 : l.flatten = (l.take k).flatten ++ (r ++ (l.drop (k + 1)).flatten) := by
    conv => lhs; rw [e]
    rw [List.flatten_append, List.flatten_cons]
  rw [e2, List.drop_left, List.take_left]

theorem rows_lengths {b : Base} : ∀ (dims : List Nat) (init : Option Init), Accepted b dims init → Supported b dims init →
    dims.getLastD 0 ≠ 0 → ∀ r ∈ rows b dims init, r.length = rowSize b (dims.getLastD 0)
  | [], _, _, hs, _, _, _ => hs.elim
  | [n], init, hv, hs, hn, r, hr => by
    have : r = row b n init := by simpa [rows] using hr
    subst this
    exact (emitRow_ok hv hs ⟨[], [], 0⟩).2.2 hn
  | n :: d :: ds, init, hv, hs, hn, r, hr => by
    rw [rows, List.mem_flatMap] at hr
    obtain ⟨i, hi, hr⟩ := hr
    have e : (n :: d :: ds).getLastD 0 = (d :: ds).getLastD 0 := by simp [List.getLastD]
    rw [e] at hn ⊢
    exact rows_lengths (d :: ds) (part init i) (accepted_part hv i) (hs i (List.mem_range.mp hi)) hn r hr

theorem flatten_const {l : List (List Cell)} {c : Nat} (h : ∀ r ∈ l, r.length = c) : l.flatten.length = l.length * c := by
  induction l with
  | nil => simp
  | cons r l ih =>
    rw [List.flatten_cons, List.length_append, ih (fun r hr => h r (List.mem_cons_of_mem _ hr)), h r List.mem_cons_self, List.length_cons,
      Nat.add_mul, Nat.one_mul, Nat.add_comm]

/-! ### Storage -/

theorem calcLoop_eq (b : Base) : ∀ (n : Nat) (ds : List Nat) (size last : Cell),
    calcLoop b (n :: ds) size last = size + last * BitVec.ofNat 32 (storage b (n :: ds))
  | n, [], size, last => by
    rw [calcLoop]
    have : leafLength b n = BitVec.ofNat 32 (storage b [n]) := by
      have e : storage b [n] = rowSize b n := by simp [storage, vectorCells, rowCount]
      rw [e]
      cases b with
      | es fs => simp [leafLength, rowSize, BitVec.ofNat_mul, structCells_eq]
      | elem el =>
        cases el with
        | cell => rfl
        | char => rfl
        | int64 =>
          show BitVec.ofNat 32 n * 2 = BitVec.ofNat 32 (2 * n)
          rw [Nat.mul_comm, BitVec.ofNat_mul]
          rfl
    rw [this]
  | n, d :: ds, size, last => by
    rw [calcLoop, calcLoop_eq b d ds]
    have e : storage b (n :: d :: ds) = n + n * storage b (d :: ds) := by
      have e1 : (n :: d :: ds).getLastD 0 = (d :: ds).getLastD 0 := by simp [List.getLastD]
      unfold storage
      rw [vectorCells, rowCount, e1, Nat.mul_add, Nat.mul_assoc, Nat.add_assoc]
    rw [e, BitVec.ofNat_add, BitVec.ofNat_mul, BitVec.mul_add, BitVec.add_assoc, BitVec.mul_assoc]

end Verif.ArrayInit

import Verif.Model.Labels

/-! C40: labels. -/
namespace Verif.Labels

/-! ## Specification: what the code stream should be -/

/-- What was asked for at one cell of the stream. -/
inductive Item where
  | cell (c : Cell)
  | ref (l : Nat)
  | data (d : Nat)

/-- The items asked for by a sequence of operations, in order. -/
def items : List Op → List Item
  | [] => []
  | .cell c :: os => .cell c :: items os
  | .use l :: os => .ref l :: items os
  | .useData d :: os => .data d :: items os
  | .bind _ _ :: os => items os
  | .bindData _ _ :: os => items os

/-- The discipline of the code generator (checked by the assertions in compiler/label.h): a label is bound at most once, to a value that
fits; a data label is used once, then bound once; the buffer stays below 1 GiB.  `lb`, `du`, `db` are the labels bound,
the data labels used and bound so far, `n` the cells written so far. -/
def Legal (lb du db : Nat → Prop) (n : Nat) : List Op → Prop
  | [] => 4 * n ≤ 1073741823
  | .cell _ :: os => Legal lb du db (n + 1) os
  | .use _ :: os => Legal lb du db (n + 1) os
  | .bind l v :: os => ¬ lb l ∧ v.toNat < 1073741824 ∧ Legal (fun k => k = l ∨ lb k) du db n os
  | .useData d :: os => ¬ du d ∧ Legal lb (fun k => k = d ∨ du k) db (n + 1) os
  | .bindData d _ :: os => du d ∧ ¬ db d ∧ Legal lb du (fun k => k = d ∨ db k) n os

/-! ## Invariant -/

/-- The list of pending uses hanging off a status word, latest first. -/
def Chain (buf : List Cell) : Cell → List Nat → Prop
  | st, [] => st = 0
  | st, p :: ps => st = BitVec.ofNat 32 (8 * p + 8) ∧ ∃ c, buf[p]? = some c ∧ Chain buf c ps

/-- Positions of the uses of `l`, latest first; the items are given latest first. -/
def refs (l : Nat) : List Item → List Nat
  | [] => []
  | .ref l' :: r => if l' = l then r.length :: refs l r else refs l r
  | _ :: r => refs l r

theorem refs_lt {l : Nat} : ∀ {r : List Item} {p : Nat}, p ∈ refs l r → p < r.length
  | [], p, h => by simp [refs] at h
  | .ref l' :: r, p, h => by
    unfold refs at h
    split at h
    · rcases List.mem_cons.1 h with rfl | h
      · simp
      · have := refs_lt h; simp; omega
    · have := refs_lt h; simp; omega
  | .cell _ :: r, p, h => by have := refs_lt (r := r) h; simp; omega
  | .data _ :: r, p, h => by have := refs_lt (r := r) h; simp; omega

theorem refs_sorted {l : Nat} : ∀ {r : List Item}, (refs l r).Pairwise (· > ·)
  | [] => List.Pairwise.nil
  | .ref l' :: r => by
    unfold refs
    split
    · exact List.Pairwise.cons (fun p hp => refs_lt hp) refs_sorted
    · exact refs_sorted
  | .cell _ :: r => refs_sorted (r := r)
  | .data _ :: r => refs_sorted (r := r)

theorem mem_refs {l : Nat} : ∀ {r : List Item} {p : Nat}, p ∈ refs l r ↔ r.reverse[p]? = some (.ref l)
  | [], p => by simp [refs]
  | it :: r, p => by
    rw [List.reverse_cons, List.getElem?_append]
    have ih := @mem_refs l r p
    have hlen := @refs_lt l r p
    simp only [List.length_reverse]
    by_cases hp : p < r.length
    · rw [if_pos hp, ← ih]
      cases it with
      | ref l' =>
        show p ∈ (if l' = l then r.length :: refs l r else refs l r) ↔ p ∈ refs l r
        split
        · simp only [List.mem_cons]
          constructor
          · rintro (rfl | h)
            · omega
            · exact h
          · exact Or.inr
        · exact Iff.rfl
      | cell c => exact Iff.rfl
      | data d => exact Iff.rfl
    · rw [if_neg hp]
      have hn : p ∉ refs l r := fun h => hp (hlen h)
      cases it with
      | ref l' =>
        show p ∈ (if l' = l then r.length :: refs l r else refs l r) ↔ _
        by_cases hq : p - r.length = 0
        · have hpe : p = r.length := by omega
          rw [hq]
          simp only [List.getElem?_cons_zero, Option.some.injEq, Item.ref.injEq]
          split
          · rename_i h; simp [hpe, h]
          · rename_i h; exact ⟨fun hm => absurd hm hn, fun he => absurd he h⟩
        · obtain ⟨k, hk⟩ : ∃ k, p - r.length = k + 1 := ⟨p - r.length - 1, by omega⟩
          rw [hk]
          simp only [List.getElem?_cons_succ, List.getElem?_nil, reduceCtorEq, iff_false]
          split
          · simp only [List.mem_cons, not_or]; exact ⟨by omega, hn⟩
          · exact hn
      | cell c =>
        show p ∈ refs l r ↔ _
        refine ⟨fun h => absurd h hn, fun h => ?_⟩
        cases hq : p - r.length with
        | zero => rw [hq] at h; simp at h
        | succ k => rw [hq] at h; simp at h
      | data c =>
        show p ∈ refs l r ↔ _
        refine ⟨fun h => absurd h hn, fun h => ?_⟩
        cases hq : p - r.length with
        | zero => rw [hq] at h; simp at h
        | succ k => rw [hq] at h; simp at h

theorem chain_congr {buf buf' : List Cell} : ∀ {ps : List Nat} {st : Cell},
    (∀ p ∈ ps, buf'[p]? = buf[p]?) → Chain buf st ps → Chain buf' st ps
  | [], _, _, h => h
  | p :: ps, st, he, h => by
    obtain ⟨h1, c, h2, h3⟩ := h
    exact ⟨h1, c, by rw [he p (List.mem_cons_self ..)]; exact h2,
      chain_congr (fun q hq => he q (List.mem_cons_of_mem _ hq)) h3⟩

theorem toOffset_eq {n : Nat} (h : n < 1073741824) : (toOffset (BitVec.ofNat 32 (2 * n))).toNat = n := by
  unfold toOffset
  rw [BitVec.sshiftRight_eq_of_msb_false (by
    rw [BitVec.msb_eq_decide]; simp only [BitVec.toNat_ofNat]; simp; omega)]
  simp only [BitVec.toNat_ushiftRight, BitVec.toNat_ofNat, Nat.shiftRight_eq_div_pow]
  omega

theorem dataOffset_eq {n : Nat} (h : n < 1073741824) : (dataOffset (BitVec.ofNat 32 (2 * n))).toNat = n := by
  unfold dataOffset
  simp only [BitVec.toNat_ushiftRight, BitVec.toNat_ofNat, Nat.shiftRight_eq_div_pow]
  omega

theorem pending_status {n : Nat} : BitVec.ofNat 32 n <<< 1 = BitVec.ofNat 32 (2 * n) := by
  apply BitVec.eq_of_toNat_eq
  simp only [BitVec.toNat_shiftLeft, BitVec.toNat_ofNat, Nat.shiftLeft_eq]
  omega

theorem bound_pending (n : Nat) : bound (BitVec.ofNat 32 (2 * n)) = false := by
  unfold bound
  have : BitVec.ofNat 32 (2 * n) &&& 1 = 0 := by
    apply BitVec.eq_of_toNat_eq
    rw [BitVec.toNat_and, BitVec.toNat_ofNat]
    show _ &&& 1 = 0
    rw [Nat.and_one_is_mod]
    omega
  rw [this]; decide

theorem bound_status {v : Cell} (h : v.toNat < 1073741824) :
    bound ((v <<< 1) ||| 1) = true ∧ toOffset ((v <<< 1) ||| 1) = v := by
  have he : (v <<< 1) ||| 1 = BitVec.ofNat 32 (2 * v.toNat + 1) := by
    apply BitVec.eq_of_toNat_eq
    simp only [BitVec.toNat_or, BitVec.toNat_shiftLeft, BitVec.toNat_ofNat]
    have h1 : v.toNat <<< 1 % 2 ^ 32 = 2 * v.toNat := by rw [Nat.shiftLeft_eq]; omega
    rw [h1]
    have h2 : (2 * v.toNat) ||| 1 = 2 * v.toNat + 1 := by
      have := Nat.two_pow_add_eq_or_of_lt (i := 1) (b := 1) (by omega) v.toNat
      simpa using this.symm
    show _ ||| 1 = _
    rw [h2]
    omega
  rw [he]
  constructor
  · unfold bound
    have : BitVec.ofNat 32 (2 * v.toNat + 1) &&& 1 = 1 := by
      apply BitVec.eq_of_toNat_eq
      rw [BitVec.toNat_and, BitVec.toNat_ofNat]
      show _ &&& 1 = 1
      rw [Nat.and_one_is_mod]
      omega
    rw [this]; decide
  · unfold toOffset
    rw [BitVec.sshiftRight_eq_of_msb_false (by
      rw [BitVec.msb_eq_decide]; simp only [BitVec.toNat_ofNat]; simp; omega)]
    apply BitVec.eq_of_toNat_eq
    simp only [BitVec.toNat_ushiftRight, BitVec.toNat_ofNat, Nat.shiftRight_eq_div_pow]
    omega

theorem patch_spec {value : Cell} : ∀ (ps : List Nat) (fuel : Nat) (buf : List Cell) (st : Cell),
    ps.length < fuel → Chain buf st ps → ps.Pairwise (· > ·) → (∀ p ∈ ps, p < buf.length) → 4 * buf.length ≤ 1073741823 →
    ∃ buf', patch fuel buf st value = some buf' ∧ buf'.length = buf.length ∧
      ∀ i : Nat, buf'[i]? = if i ∈ ps then some value else buf[i]?
  | [], fuel+1, buf, st, _, hc, _, _, _ => by
    refine ⟨buf, ?_, rfl, by simp⟩
    unfold patch
    rw [if_pos (show st = 0 from hc)]
  | p :: ps, fuel+1, buf, st, hf, hc, hs, hl, hb => by
    obtain ⟨h1, c, h2, h3⟩ := hc
    have hp := hl p (List.mem_cons_self ..)
    have hst : st = BitVec.ofNat 32 (2 * (4 * p + 4)) := by rw [h1]; congr 1; omega
    have hne : st ≠ 0 := by
      rw [h1]; intro h
      have := congrArg BitVec.toNat h
      rw [BitVec.toNat_ofNat] at this
      have h0 : (0 : Cell).toNat = 0 := rfl
      rw [h0] at this
      omega
    have hat : cellAt buf (toOffset st).toNat = some p := by
      rw [hst, toOffset_eq (by omega)]
      unfold cellAt
      rw [if_pos (by omega)]
      congr 1; omega
    have hs' := List.pairwise_cons.1 hs
    obtain ⟨buf', e1, e2, e3⟩ := patch_spec ps fuel (buf.set p value) c (by simp at hf; omega)
      (chain_congr (fun q hq => by
        have := hs'.1 q hq
        rw [List.getElem?_set_ne (by omega)]) h3) hs'.2
      (fun q hq => by rw [List.length_set]; exact hl q (List.mem_cons_of_mem _ hq)) (by rw [List.length_set]; exact hb)
    refine ⟨buf', ?_, by rw [e2, List.length_set], ?_⟩
    · unfold patch
      rw [if_neg hne, hat]
      simp only [h2]
      exact e1
    · intro i
      rw [e3]
      by_cases hi : i ∈ ps
      · rw [if_pos hi, if_pos (List.mem_cons_of_mem _ hi)]
      · rw [if_neg hi]
        by_cases hip : i = p
        · subst hip
          rw [if_pos (List.mem_cons_self ..), List.getElem?_set_self hp]
        · rw [if_neg (by simp [hi, hip]), List.getElem?_set_ne (by omega)]

/-- The state after some operations, against the items asked for (latest first) and the bindings made. -/
structure Inv (A : Asm) (r : List Item) (lv dv : Nat → Option Cell) (du : Nat → Prop) : Prop where
  len : A.buf.length = r.length
  cell : ∀ (i : Nat) c, r.reverse[i]? = some (.cell c) → A.buf[i]? = some c
  open_ : ∀ l, lv l = none → Chain A.buf (A.lab l) (refs l r)
  closed : ∀ l v, lv l = some v → v.toNat < 1073741824 ∧ A.lab l = (v <<< 1) ||| 1 ∧
    ∀ i : Nat, r.reverse[i]? = some (.ref l) → A.buf[i]? = some v
  dOpen : ∀ d, du d → dv d = none → ∃ p : Nat, r.reverse[p]? = some (.data d) ∧ A.dat d = BitVec.ofNat 32 (8 * p + 8)
  dOnce : ∀ d (i j : Nat), r.reverse[i]? = some (.data d) → r.reverse[j]? = some (.data d) → i = j
  dUsed : ∀ d (i : Nat), r.reverse[i]? = some (.data d) → du d
  dClosed : ∀ d v, dv d = some v → ∀ i : Nat, r.reverse[i]? = some (.data d) → A.buf[i]? = some v

theorem snoc_get {r : List Item} {it : Item} {i : Nat} {x : Item} (h : (it :: r).reverse[i]? = some x) :
    (i < r.length ∧ r.reverse[i]? = some x) ∨ (i = r.length ∧ x = it) := by
  rw [List.reverse_cons, List.getElem?_append] at h
  simp only [List.length_reverse] at h
  split at h
  · rename_i hi; exact Or.inl ⟨hi, h⟩
  · rename_i hi
    right
    have := (List.getElem?_eq_some_iff.1 h).1
    simp at this
    have h0 : i - r.length = 0 := by omega
    rw [h0] at h
    simp at h
    exact ⟨by omega, h.symm⟩

theorem snoc_get_old {r : List Item} {it : Item} {i : Nat} {x : Item} (h : r.reverse[i]? = some x) :
    (it :: r).reverse[i]? = some x := by
  rw [List.reverse_cons, List.getElem?_append_left (by simpa using (List.getElem?_eq_some_iff.1 h).1)]
  exact h

theorem append_get {buf : List Cell} {c : Cell} {i : Nat} {x : Cell} (h : buf[i]? = some x) : (buf ++ [c])[i]? = some x := by
  rw [List.getElem?_append_left (List.getElem?_eq_some_iff.1 h).1]; exact h

theorem append_last {buf : List Cell} {c : Cell} {n : Nat} (h : buf.length = n) : (buf ++ [c])[n]? = some c := by
  subst h; simp

theorem chain_append {buf : List Cell} {c : Cell} {n : Nat} (hn : buf.length = n) {st : Cell} {ps : List Nat}
    (hl : ∀ p ∈ ps, p < n) (h : Chain buf st ps) : Chain (buf ++ [c]) st ps :=
  chain_congr (fun p hp => List.getElem?_append_left (by have := hl p hp; omega)) h

/-- The label values after a binding. -/
def bindTo (f : Nat → Option Cell) (l : Nat) (v : Cell) : Nat → Option Cell := fun k => if k = l then some v else f k

theorem refs_length {l : Nat} {r : List Item} : (refs l r).length ≤ r.length := by
  induction r with
  | nil => simp [refs]
  | cons it r ih =>
    cases it with
    | ref l' => unfold refs; split <;> simp <;> omega
    | cell c => show (refs l r).length ≤ _; simp; omega
    | data c => show (refs l r).length ≤ _; simp; omega

theorem inv_cell {A : Asm} {r : List Item} {lv dv : Nat → Option Cell} {du : Nat → Prop} (I : Inv A r lv dv du) (c : Cell) :
    Inv { A with buf := A.buf ++ [c] } (.cell c :: r) lv dv du where
  len := by simp [I.len]
  cell := by
    intro i c' h
    rcases snoc_get h with ⟨_, h⟩ | ⟨he', h⟩
    · exact append_get (I.cell i c' h)
    · cases h; rw [he']; exact append_last I.len
  open_ := fun l hl => chain_append I.len (fun p hp => refs_lt (r := r) hp) (I.open_ l hl)
  closed := by
    intro l v hv
    obtain ⟨h1, h2, h3⟩ := I.closed l v hv
    refine ⟨h1, h2, fun i h => ?_⟩
    rcases snoc_get h with ⟨_, h⟩ | ⟨_, h⟩
    · exact append_get (h3 i h)
    · cases h
  dOpen := by
    intro d hd hv
    obtain ⟨p, h1, h2⟩ := I.dOpen d hd hv
    exact ⟨p, snoc_get_old h1, h2⟩
  dOnce := by
    intro d i j hi hj
    rcases snoc_get hi with ⟨_, hi⟩ | ⟨_, h⟩
    · rcases snoc_get hj with ⟨_, hj⟩ | ⟨_, h⟩
      · exact I.dOnce d i j hi hj
      · cases h
    · cases h
  dUsed := by
    intro d i hi
    rcases snoc_get hi with ⟨_, hi⟩ | ⟨_, h⟩
    · exact I.dUsed d i hi
    · cases h
  dClosed := by
    intro d v hv i hi
    rcases snoc_get hi with ⟨_, hi⟩ | ⟨_, h⟩
    · exact append_get (I.dClosed d v hv i hi)
    · cases h

theorem chain_zero_or {buf : List Cell} {st : Cell} {ps : List Nat} (h : Chain buf st ps) : bound st = false := by
  cases ps with
  | nil => rw [show st = 0 from h]; decide
  | cons p ps => rw [h.1, show 8 * p + 8 = 2 * (4 * p + 4) by omega]; exact bound_pending _

theorem inv_use {A : Asm} {r : List Item} {lv dv : Nat → Option Cell} {du : Nat → Prop} (I : Inv A r lv dv du) (l : Nat)
    (hn : 4 * r.length + 4 < 1073741824) : Inv (useLabel A l) (.ref l :: r) lv dv du := by
  cases hv : lv l with
  | some v =>
    obtain ⟨h1, h2, h3⟩ := I.closed l v hv
    have hb := bound_status h1
    have he : useLabel A l = { A with buf := A.buf ++ [v] } := by
      unfold useLabel
      rw [h2, hb.1, if_pos rfl, hb.2]
    rw [he]
    refine ⟨by simp [I.len], ?_, ?_, ?_, ?_, ?_, ?_, ?_⟩
    · intro i c' h
      rcases snoc_get h with ⟨_, h⟩ | ⟨he', h⟩
      · exact append_get (I.cell i c' h)
      · cases h
    · intro l' hl'
      have hne : l ≠ l' := by intro he; subst he; rw [hv] at hl'; cases hl'
      show Chain (A.buf ++ [v]) (A.lab l') (refs l' (.ref l :: r))
      unfold refs
      rw [if_neg hne]
      exact chain_append I.len (fun p hp => refs_lt hp) (I.open_ l' hl')
    · intro l' v' hv'
      obtain ⟨g1, g2, g3⟩ := I.closed l' v' hv'
      refine ⟨g1, g2, fun i h => ?_⟩
      rcases snoc_get h with ⟨_, h⟩ | ⟨he', h⟩
      · exact append_get (g3 i h)
      · cases h
        rw [hv] at hv'
        cases hv'
        rw [he']; exact append_last I.len
    · intro d hd hv
      obtain ⟨p, h1, h2⟩ := I.dOpen d hd hv
      exact ⟨p, snoc_get_old h1, h2⟩
    · intro d i j hi hj
      rcases snoc_get hi with ⟨_, hi⟩ | ⟨_, h⟩
      · rcases snoc_get hj with ⟨_, hj⟩ | ⟨_, h⟩
        · exact I.dOnce d i j hi hj
        · cases h
      · cases h
    · intro d i hi
      rcases snoc_get hi with ⟨_, hi⟩ | ⟨_, h⟩
      · exact I.dUsed d i hi
      · cases h
    · intro d v hv i hi
      rcases snoc_get hi with ⟨_, hi⟩ | ⟨_, h⟩
      · exact append_get (I.dClosed d v hv i hi)
      · cases h
  | none =>
    have hc := I.open_ l hv
    have hb := chain_zero_or hc
    have hpc : BitVec.ofNat 32 (A.pc + 4) <<< 1 = BitVec.ofNat 32 (8 * r.length + 8) := by
      unfold Asm.pc
      rw [I.len, pending_status]
      congr 1; omega
    have he : useLabel A l = ⟨A.buf ++ [A.lab l], upd A.lab l (BitVec.ofNat 32 (8 * r.length + 8)), A.dat⟩ := by
      unfold useLabel
      rw [hb, if_neg (by simp), hpc]
    rw [he]
    refine ⟨by simp [I.len], ?_, ?_, ?_, ?_, ?_, ?_, ?_⟩
    · intro i c' h
      rcases snoc_get h with ⟨_, h⟩ | ⟨he', h⟩
      · exact append_get (I.cell i c' h)
      · cases h
    · intro l' hl'
      show Chain (A.buf ++ [A.lab l]) (upd A.lab l _ l') (refs l' (.ref l :: r))
      unfold refs upd
      by_cases hne : l = l'
      · subst hne
        rw [if_pos rfl, if_pos rfl]
        exact ⟨rfl, A.lab l, append_last I.len, chain_append I.len (fun p hp => refs_lt hp) hc⟩
      · rw [if_neg hne, if_neg (fun h => hne h.symm)]
        exact chain_append I.len (fun p hp => refs_lt hp) (I.open_ l' hl')
    · intro l' v' hv'
      obtain ⟨g1, g2, g3⟩ := I.closed l' v' hv'
      have hne : l' ≠ l := by intro he; subst he; rw [hv] at hv'; cases hv'
      refine ⟨g1, ?_, fun i h => ?_⟩
      · show upd A.lab l _ l' = _
        unfold upd
        rw [if_neg hne]; exact g2
      rcases snoc_get h with ⟨_, h⟩ | ⟨he', h⟩
      · exact append_get (g3 i h)
      · cases h; exact absurd rfl hne
    · intro d hd hv
      obtain ⟨p, h1, h2⟩ := I.dOpen d hd hv
      exact ⟨p, snoc_get_old h1, h2⟩
    · intro d i j hi hj
      rcases snoc_get hi with ⟨_, hi⟩ | ⟨_, h⟩
      · rcases snoc_get hj with ⟨_, hj⟩ | ⟨_, h⟩
        · exact I.dOnce d i j hi hj
        · cases h
      · cases h
    · intro d i hi
      rcases snoc_get hi with ⟨_, hi⟩ | ⟨_, h⟩
      · exact I.dUsed d i hi
      · cases h
    · intro d v hv i hi
      rcases snoc_get hi with ⟨_, hi⟩ | ⟨_, h⟩
      · exact append_get (I.dClosed d v hv i hi)
      · cases h

theorem inv_bind {A : Asm} {r : List Item} {lv dv : Nat → Option Cell} {du : Nat → Prop} (I : Inv A r lv dv du) (l : Nat)
    (v : Cell) (hl : lv l = none) (hv : v.toNat < 1073741824) (hn : 4 * r.length ≤ 1073741823) :
    ∃ A', bindLabel A l v = some A' ∧ Inv A' r (bindTo lv l v) dv du := by
  have hc := I.open_ l hl
  have hlen : A.buf.length = r.length := I.len
  obtain ⟨buf', e1, e2, e3⟩ := patch_spec (value := v) (refs l r) (A.buf.length + 1) A.buf (A.lab l)
    (by have := @refs_length l r; omega) hc refs_sorted (fun p hp => by have := refs_lt hp; omega) (by omega)
  refine ⟨⟨buf', upd A.lab l ((v <<< 1) ||| 1), A.dat⟩, by unfold bindLabel; rw [e1], ?_⟩
  have keep : ∀ (i : Nat) x, r.reverse[i]? = some x → x ≠ .ref l → buf'[i]? = A.buf[i]? := by
    intro i x h hx
    rw [e3, if_neg]
    rw [mem_refs, h]
    intro he
    cases he
    exact hx rfl
  refine ⟨by show buf'.length = _; omega, ?_, ?_, ?_, I.dOpen, I.dOnce, I.dUsed, ?_⟩
  · intro i c h
    show buf'[i]? = _
    rw [keep i _ h (by intro h; cases h)]
    exact I.cell i c h
  · intro l' hl'
    show Chain buf' (upd A.lab l _ l') (refs l' r)
    unfold bindTo at hl'
    split at hl'
    · cases hl'
    · rename_i hne
      unfold upd
      rw [if_neg hne]
      refine chain_congr (fun p hp => ?_) (I.open_ l' hl')
      exact keep p _ (mem_refs.1 hp) (by intro h; cases h; exact hne rfl)
  · intro l' v' hv'
    unfold bindTo at hv'
    show _ ∧ upd A.lab l _ l' = _ ∧ _
    unfold upd
    split at hv'
    · rename_i he
      cases hv'
      rw [if_pos he]
      refine ⟨hv, rfl, fun i hi => ?_⟩
      show buf'[i]? = _
      rw [e3, if_pos (mem_refs.2 (by rw [hi, he]))]
    · rename_i hne
      obtain ⟨g1, g2, g3⟩ := I.closed l' v' hv'
      rw [if_neg hne]
      refine ⟨g1, g2, fun i hi => ?_⟩
      show buf'[i]? = _
      rw [keep i _ hi (by intro h; cases h; exact hne rfl)]
      exact g3 i hi
  · intro d v' hv' i hi
    show buf'[i]? = _
    rw [keep i _ hi (by intro h; cases h)]
    exact I.dClosed d v' hv' i hi

theorem inv_useData {A : Asm} {r : List Item} {lv dv : Nat → Option Cell} {du : Nat → Prop} (I : Inv A r lv dv du) (d : Nat)
    (hd : ¬ du d) (hdv : ∀ d, dv d ≠ none → du d) (hn : 4 * r.length + 4 < 1073741824) :
    Inv (useData A d) (.data d :: r) lv dv (fun k => k = d ∨ du k) := by
  have hpc : BitVec.ofNat 32 (A.pc + 4) <<< 1 = BitVec.ofNat 32 (8 * r.length + 8) := by
    unfold Asm.pc
    rw [I.len, pending_status]
    congr 1; omega
  unfold useData
  rw [hpc]
  refine ⟨by simp [I.len], ?_, fun l hl => chain_append I.len (fun p hp => refs_lt (r := r) hp) (I.open_ l hl), ?_, ?_, ?_, ?_, ?_⟩
  · intro i c' h
    rcases snoc_get h with ⟨_, h⟩ | ⟨he', h⟩
    · exact append_get (I.cell i c' h)
    · cases h
  · intro l v hv
    obtain ⟨h1, h2, h3⟩ := I.closed l v hv
    refine ⟨h1, h2, fun i h => ?_⟩
    rcases snoc_get h with ⟨_, h⟩ | ⟨_, h⟩
    · exact append_get (h3 i h)
    · cases h
  · intro d' hd' hv'
    show ∃ p, _ ∧ upd A.dat d _ d' = _
    unfold upd
    by_cases he : d' = d
    · subst he
      exact ⟨r.length, by simp, by simp⟩
    · obtain ⟨p, h1, h2⟩ := I.dOpen d' (hd'.resolve_left he) hv'
      rw [if_neg he]
      exact ⟨p, snoc_get_old h1, h2⟩
  · intro d' i j hi hj
    rcases snoc_get hi with ⟨_, hi⟩ | ⟨hi', h⟩
    · rcases snoc_get hj with ⟨_, hj⟩ | ⟨_, h⟩
      · exact I.dOnce d' i j hi hj
      · cases h; exact absurd (I.dUsed _ i hi) hd
    · cases h
      rcases snoc_get hj with ⟨_, hj⟩ | ⟨hj', h⟩
      · exact absurd (I.dUsed _ j hj) hd
      · omega
  · intro d' i hi
    rcases snoc_get hi with ⟨_, hi⟩ | ⟨_, h⟩
    · exact Or.inr (I.dUsed d' i hi)
    · cases h; exact Or.inl rfl
  · intro d' v hv i hi
    rcases snoc_get hi with ⟨_, hi⟩ | ⟨_, h⟩
    · exact append_get (I.dClosed d' v hv i hi)
    · cases h
      exact absurd (hdv _ (by rw [hv]; simp)) hd

theorem inv_bindData {A : Asm} {r : List Item} {lv dv : Nat → Option Cell} {du : Nat → Prop} (I : Inv A r lv dv du) (d : Nat)
    (v : Cell) (hd : du d) (hv : dv d = none) (hn : 4 * r.length ≤ 1073741823) :
    ∃ A', bindData A d v = some A' ∧ Inv A' r lv (bindTo dv d v) du := by
  obtain ⟨p, h1, h2⟩ := I.dOpen d hd hv
  have hp : p < r.length := by simpa using (List.getElem?_eq_some_iff.1 h1).1
  have hlen : A.buf.length = r.length := I.len
  have hat : cellAt A.buf (dataOffset (A.dat d)).toNat = some p := by
    rw [h2, show 8 * p + 8 = 2 * (4 * p + 4) by omega, dataOffset_eq (by omega)]
    unfold cellAt
    rw [if_pos (by omega)]
    congr 1; omega
  refine ⟨⟨A.buf.set p v, A.lab, upd A.dat d (A.dat d ||| 1)⟩, by unfold bindData; rw [hat], ?_⟩
  have keep : ∀ (i : Nat) x, r.reverse[i]? = some x → x ≠ .data d → (A.buf.set p v)[i]? = A.buf[i]? := by
    intro i x h hx
    rw [List.getElem?_set_ne]
    intro he
    subst he
    rw [h1] at h
    cases h
    exact hx rfl
  refine ⟨by show (A.buf.set p v).length = _; rw [List.length_set]; exact hlen, ?_, ?_, ?_, ?_, I.dOnce, I.dUsed, ?_⟩
  · intro i c h
    show (A.buf.set p v)[i]? = _
    rw [keep i _ h (by intro h; cases h)]
    exact I.cell i c h
  · intro l hl
    exact chain_congr (fun q hq => keep q _ (mem_refs.1 hq) (by intro h; cases h)) (I.open_ l hl)
  · intro l v' hv'
    obtain ⟨g1, g2, g3⟩ := I.closed l v' hv'
    refine ⟨g1, g2, fun i hi => ?_⟩
    show (A.buf.set p v)[i]? = _
    rw [keep i _ hi (by intro h; cases h)]
    exact g3 i hi
  · intro d' hd' hv'
    unfold bindTo at hv'
    split at hv'
    · cases hv'
    · rename_i hne
      obtain ⟨q, g1, g2⟩ := I.dOpen d' hd' hv'
      refine ⟨q, g1, ?_⟩
      show upd A.dat d _ d' = _
      unfold upd
      rw [if_neg hne]; exact g2
  · intro d' v' hv' i hi
    show (A.buf.set p v)[i]? = _
    unfold bindTo at hv'
    split at hv'
    · rename_i he
      cases hv'
      subst he
      have : i = p := I.dOnce d' i p hi h1
      subst this
      exact List.getElem?_set_self (by omega)
    · rename_i hne
      rw [keep i _ hi (by intro h; cases h; exact hne rfl)]
      exact I.dClosed d' v' hv' i hi

/-- The value a label is bound to by a sequence of operations. -/
def labelValue (l : Nat) : List Op → Option Cell
  | [] => none
  | .bind l' v :: os => if l' = l then some v else labelValue l os
  | _ :: os => labelValue l os

/-- The value a data label is bound to. -/
def dataValue (d : Nat) : List Op → Option Cell
  | [] => none
  | .bindData d' v :: os => if d' = d then some v else dataValue d os
  | _ :: os => dataValue d os

theorem legal_size : ∀ (os : List Op) {lb du db : Nat → Prop} {n : Nat}, Legal lb du db n os →
    4 * (n + (items os).length) ≤ 1073741823
  | [], _, _, _, n, h => by simpa [Legal, items] using h
  | .cell c :: os, _, _, _, n, h => by have := legal_size os h; simp only [items, List.length_cons]; omega
  | .use l :: os, _, _, _, n, h => by have := legal_size os h; simp only [items, List.length_cons]; omega
  | .bind l v :: os, _, _, _, n, h => by have := legal_size os h.2.2; simpa only [items]
  | .useData l :: os, _, _, _, n, h => by have := legal_size os h.2; simp only [items, List.length_cons]; omega
  | .bindData l v :: os, _, _, _, n, h => by have := legal_size os h.2.2; simpa only [items]

theorem run_spec : ∀ (os : List Op) {A : Asm} {r : List Item} {lv dv : Nat → Option Cell} {lb du db : Nat → Prop},
    Inv A r lv dv du → (∀ l, lb l ↔ lv l ≠ none) → (∀ d, db d ↔ dv d ≠ none) → (∀ d, dv d ≠ none → du d) →
    Legal lb du db r.length os →
    ∃ A' du', run A os = some A' ∧ Inv A' ((items os).reverse ++ r) (fun l => (lv l).or (labelValue l os))
      (fun d => (dv d).or (dataValue d os)) du'
  | [], A, r, lv, dv, lb, du, db, I, _, _, _, _ => by
    refine ⟨A, du, rfl, ?_⟩
    have h1 : (fun l => (lv l).or (labelValue l [])) = lv := by funext l; simp [labelValue]
    have h2 : (fun l => (dv l).or (dataValue l [])) = dv := by funext l; simp [dataValue]
    rw [h1, h2]
    exact I
  | .cell c :: os, A, r, lv, dv, lb, du, db, I, hl, hd, hdu, hL => by
    obtain ⟨A', du', h1, h2⟩ := run_spec os (inv_cell I c) hl hd hdu hL
    refine ⟨A', du', h1, ?_⟩
    simpa [items, labelValue, dataValue] using h2
  | .use l :: os, A, r, lv, dv, lb, du, db, I, hl, hd, hdu, hL => by
    have hsz := legal_size _ hL
    simp only [items, List.length_cons] at hsz
    obtain ⟨A', du', h1, h2⟩ := run_spec os (inv_use I l (by omega)) hl hd hdu hL
    refine ⟨A', du', h1, ?_⟩
    simpa [items, labelValue, dataValue] using h2
  | .bind l v :: os, A, r, lv, dv, lb, du, db, I, hl, hd, hdu, hL => by
    have hsz := legal_size _ hL
    have hnone : lv l = none := by
      have := hL.1
      rw [hl] at this
      simpa using this
    obtain ⟨A1, e1, I1⟩ := inv_bind I l v hnone hL.2.1 (by omega)
    obtain ⟨A', du', h1, h2⟩ := run_spec os I1 (lb := fun k => k = l ∨ lb k) (by
      intro k
      unfold bindTo
      split
      · rename_i h; simp [h]
      · rename_i h; simp [h, hl]) hd hdu hL.2.2
    refine ⟨A', du', by simp only [run, step, e1]; exact h1, ?_⟩
    have e : (fun k => ((bindTo lv l v) k).or (labelValue k os)) = fun k => (lv k).or (labelValue k (.bind l v :: os)) := by
      funext k
      show (if k = l then some v else lv k).or _ = (lv k).or (if l = k then some v else labelValue k os)
      by_cases hk : k = l
      · subst hk; simp [hnone]
      · rw [if_neg hk, if_neg (fun h => hk h.symm)]
    rw [e] at h2
    exact h2
  | .useData d :: os, A, r, lv, dv, lb, du, db, I, hl, hd, hdu, hL => by
    have hsz := legal_size _ hL
    simp only [items, List.length_cons] at hsz
    obtain ⟨A', du', h1, h2⟩ := run_spec os (inv_useData I d hL.1 hdu (by omega)) hl hd
      (fun d h => Or.inr (hdu d h)) hL.2
    refine ⟨A', du', h1, ?_⟩
    simpa [items, labelValue, dataValue] using h2
  | .bindData d v :: os, A, r, lv, dv, lb, du, db, I, hl, hd, hdu, hL => by
    have hsz := legal_size _ hL
    have hnone : dv d = none := by
      have := hL.2.1
      rw [hd] at this
      simpa using this
    obtain ⟨A1, e1, I1⟩ := inv_bindData I d v hL.1 hnone (by omega)
    obtain ⟨A', du', h1, h2⟩ := run_spec os I1 (db := fun k => k = d ∨ db k) hl (by
      intro k
      unfold bindTo
      split
      · rename_i h; simp [h]
      · rename_i h; simp [h, hd]) (by
      intro k hk
      unfold bindTo at hk
      split at hk
      · rename_i h; subst h; exact hL.1
      · exact hdu k hk) hL.2.2
    refine ⟨A', du', by simp only [run, step, e1]; exact h1, ?_⟩
    have e : (fun k => ((bindTo dv d v) k).or (dataValue k os)) = fun k => (dv k).or (dataValue k (.bindData d v :: os)) := by
      funext k
      show (if k = d then some v else dv k).or _ = (dv k).or (if d = k then some v else dataValue k os)
      by_cases hk : k = d
      · subst hk; simp [hnone]
      · rw [if_neg hk, if_neg (fun h => hk h.symm)]
    rw [e] at h2
    exact h2

/-- C40: whatever the interleaving of emits, uses and bindings of any number of labels, no access leaves the buffer, the
stream has one cell per cell asked for, and in the end every cell emitted literally is unchanged, every use of a bound label,
made before or after the binding, holds the bound value, and so does the operand of every bound data label. -/
theorem C40_linking (os : List Op) (hL : Legal (fun _ => False) (fun _ => False) (fun _ => False) 0 os) :
    ∃ A, run .init os = some A ∧ A.buf.length = (items os).length ∧
      (∀ (i : Nat) c, (items os)[i]? = some (.cell c) → A.buf[i]? = some c) ∧
      (∀ (i : Nat) l v, (items os)[i]? = some (.ref l) → labelValue l os = some v → A.buf[i]? = some v) ∧
      (∀ (i : Nat) d v, (items os)[i]? = some (.data d) → dataValue d os = some v → A.buf[i]? = some v) := by
  have I0 : Inv .init [] (fun _ => none) (fun _ => none) (fun _ => False) :=
    ⟨rfl, by simp, fun _ _ => rfl, by simp, by simp, by simp, by simp, by simp⟩
  obtain ⟨A, du', h1, h2⟩ := run_spec os I0 (by simp) (by simp) (by simp) hL
  rw [List.append_nil] at h2
  refine ⟨A, h1, by rw [h2.len]; simp, ?_, ?_, ?_⟩
  · intro i c h; exact h2.cell i c (by rw [List.reverse_reverse]; exact h)
  · intro i l v h hv
    exact (h2.closed l v (by simpa using hv)).2.2 i (by rw [List.reverse_reverse]; exact h)
  · intro i d v h hv
    exact h2.dClosed d v (by simpa using hv) i (by rw [List.reverse_reverse]; exact h)

/-- A sequence with a forward use, a backward use, two labels, a data label and plain cells. -/
def sampleOps : List Op :=
  [.cell 7, .use 0, .cell 8, .use 1, .use 0, .useData 5, .bind 0 28, .cell 9, .use 0, .bind 1 40, .bindData 5 99, .use 1]

example : Legal (fun _ => False) (fun _ => False) (fun _ => False) 0 sampleOps := by
  simp [sampleOps, Legal]

example : (run .init sampleOps).map (·.buf) = some [7, 28, 8, 40, 28, 99, 9, 28, 40] := by decide +kernel

end Verif.Labels

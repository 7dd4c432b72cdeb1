import Verif.Model.Arrays
import Verif.Spec.Arrays
import Verif.Proofs.Mem

namespace Verif.VM

/-- All dimensions are positive. -/
abbrev Pos (ds : List Int) : Prop := ∀ d ∈ ds, 0 < d

theorem dataCells_pos {ds : List Int} (h : Pos ds) : 0 < dataCells ds := by
  induction ds with
  | nil => decide
  | cons d ds ih =>
    have h1 := h d (by simp)
    have h2 := ih (fun x hx => h x (by simp [hx]))
    exact Int.mul_pos h1 h2

theorem ptrCells_nonneg {ds : List Int} (h : Pos ds) : 0 ≤ ptrCells ds := by
  induction ds with
  | nil => decide
  | cons d ds ih =>
    cases ds with
    | nil => exact Int.le_refl _
    | cons d' ds =>
      have h1 := h d (by simp)
      have h2 := ih (fun x hx => h x (by simp [hx]))
      have := Int.mul_nonneg (Int.le_of_lt h1) h2
      simp only [ptrCells]; omega

theorem flat_bounds {ds is : List Int} (hp : Pos ds) (h : ValidIx ds is) :
    0 ≤ flat ds is ∧ flat ds is < dataCells ds := by
  induction ds generalizing is with
  | nil =>
    cases is with
    | nil => simp [flat, dataCells]
    | cons => exact h.elim
  | cons d ds ih =>
    cases is with
    | nil => exact h.elim
    | cons i is =>
      obtain ⟨⟨h0, h1⟩, h2⟩ := h
      have hp' : Pos ds := fun x hx => hp x (by simp [hx])
      obtain ⟨k0, k1⟩ := ih hp' h2
      have hd := dataCells_pos hp'
      simp only [flat, dataCells]
      have e : (i + 1) * dataCells ds ≤ d * dataCells ds :=
        Int.mul_le_mul_of_nonneg_right (by omega) (by omega)
      have e2 := Int.mul_nonneg h0 (Int.le_of_lt hd)
      rw [Int.add_mul, Int.one_mul] at e
      omega

theorem flat_inj {ds is js : List Int} (hp : Pos ds) (hi : ValidIx ds is) (hj : ValidIx ds js)
    (h : flat ds is = flat ds js) : is = js := by
  induction ds generalizing is js with
  | nil =>
    cases is with
    | nil => cases js with
      | nil => rfl
      | cons => exact hj.elim
    | cons => exact hi.elim
  | cons d ds ih =>
    cases is with
    | nil => exact hi.elim
    | cons i is =>
      cases js with
      | nil => exact hj.elim
      | cons j js =>
        obtain ⟨⟨i0, i1⟩, hi⟩ := hi
        obtain ⟨⟨j0, j1⟩, hj⟩ := hj
        have hp' : Pos ds := fun x hx => hp x (by simp [hx])
        have hd := dataCells_pos hp'
        have bi := flat_bounds hp' hi
        have bj := flat_bounds hp' hj
        simp only [flat] at h
        have hij : i = j := by
          rcases Int.lt_trichotomy i j with hl | he | hl
          · have e : (i + 1) * dataCells ds ≤ j * dataCells ds :=
              Int.mul_le_mul_of_nonneg_right (by omega) (by omega)
            rw [Int.add_mul, Int.one_mul] at e
            omega
          · exact he
          · have e : (j + 1) * dataCells ds ≤ i * dataCells ds :=
              Int.mul_le_mul_of_nonneg_right (by omega) (by omega)
            rw [Int.add_mul, Int.one_mul] at e
            omega
        subst hij
        rw [ih hp' hi hj (by omega)]

/-! ### Sizes -/

theorem wrap32_add_mul (x k : Int) : wrap32 (x + 4294967296 * k) = wrap32 x := by
  unfold wrap32
  omega

theorem wrap32_eq (x : Int) : ∃ k, wrap32 x = x + 4294967296 * k :=
  ⟨- ((x + 2147483648) / 4294967296), by unfold wrap32; omega⟩

theorem wrap32_mul (a d e : Int) : wrap32 (wrap32 (wrap32 a * d) + e) = wrap32 (a * d + e) := by
  obtain ⟨k, hk⟩ := wrap32_eq a
  obtain ⟨k', hk'⟩ := wrap32_eq (wrap32 a * d)
  rw [hk', hk, Int.add_mul, Int.mul_assoc]
  have : a * d + 4294967296 * (k * d) + 4294967296 * k' + e
      = a * d + e + 4294967296 * (k * d + k') := by omega
  rw [this, wrap32_add_mul]

/-- Total number of cells. -/
def totalCells (ds : List Int) : Int := dataCells ds + ptrCells ds

theorem totalCells_cons {d : Int} {ds : List Int} (h : ds ≠ []) :
    totalCells (d :: ds) = totalCells ds * d + d := by
  cases ds with
  | nil => exact (h rfl).elim
  | cons d' ds =>
    simp only [totalCells, ptrCells]
    rw [dataCells, Int.add_mul, Int.mul_comm d, Int.mul_comm d]; omega

theorem sizeLoop_spec : ∀ {ds L : List Int} {cells' iv' : Int}, L ≠ [] →
    sizeLoop ds (totalCells L) (wrap32 (ptrCells L * 4)) = some (cells', iv') →
    Pos ds ∧ cells' = totalCells (ds.reverse ++ L) ∧ iv' = wrap32 (ptrCells (ds.reverse ++ L) * 4)
  | [], L, cells', iv', hL, h => by
      simp only [sizeLoop, Option.some.injEq, Prod.mk.injEq] at h
      obtain ⟨rfl, rfl⟩ := h
      exact ⟨(fun _ h => by cases h), by simp, by simp⟩
  | d :: ds, L, cells', iv', hL, h => by
      unfold sizeLoop at h
      split at h
      · cases h
      split at h
      · cases h
      split at h
      · cases h
      rename_i h1 h2 h3
      have e : wrap32 (wrap32 (wrap32 (ptrCells L * 4) * d) + d * 4)
          = wrap32 (ptrCells (d :: L) * 4) := by
        rw [wrap32_mul]
        cases L with
        | nil => exact (hL rfl).elim
        | cons x L => rw [ptrCells]; congr 1; grind
      rw [e, ← totalCells_cons hL] at h
      obtain ⟨k1, k2, k3⟩ := sizeLoop_spec (by simp) h
      refine ⟨?_, by simpa using k2, by simpa using k3⟩
      intro x hx
      rcases List.mem_cons.1 hx with rfl | hx
      · omega
      · exact k1 x hx

/-- What a successful size computation means. -/
theorem arraySizes_spec {argv : List Int} {cells iv : Int} (h : arraySizes argv = some (cells, iv)) :
    argv ≠ [] ∧ Pos argv.reverse ∧ cells = totalCells argv.reverse ∧
      iv = wrap32 (ptrCells argv.reverse * 4) ∧ cells * 4 ≤ 4294967295 := by
  unfold arraySizes at h
  split at h
  · cases h
  · rename_i d0 ds
    split at h
    · cases h
    · rename_i h0
      split at h
      · cases h
      · rename_i c i hs
        split at h
        · rename_i hm
          simp only [Option.some.injEq, Prod.mk.injEq] at h
          obtain ⟨rfl, rfl⟩ := h
          have e : totalCells [d0] = d0 := by simp [totalCells, dataCells, ptrCells]
          have := sizeLoop_spec (ds := ds) (L := [d0]) (cells' := c) (iv' := i) (by simp)
            (by rw [e]; simpa [ptrCells, wrap32] using hs)
          obtain ⟨k1, k2, k3⟩ := this
          refine ⟨by simp, ?_, by simpa using k2, by simpa using k3, by simpa [mulSafe] using hm⟩
          intro x hx
          simp only [List.mem_reverse, List.mem_cons] at hx
          rcases hx with rfl | hx
          · omega
          · exact k1 x hx
        · cases h

/-! ### Absolute indirection vectors -/

theorem walkAbs_cons {m : Int → BitVec 8} {a i : Int} {is : List Int} (h : is ≠ []) :
    walkAbs m a (i :: is) = walkAbs m (rd32 m (a + 4 * i)).toInt is := by
  cases is with
  | nil => exact (h rfl).elim
  | cons j is => rfl

theorem ValidIx.ne_nil {ds is : List Int} (h : ValidIx ds is) (hd : ds ≠ []) : is ≠ [] := by
  cases ds with
  | nil => exact (hd rfl).elim
  | cons d ds => cases is with
    | nil => exact h.elim
    | cons => simp

/-- What one run of the generator establishes: `st` before, `st'` after, `off` the returned offset. -/
structure AbsPost (addr : Int) (ds : List Int) (st st' : IvState) (off : Int) : Prop where
  iv : st'.iv = st.iv + 4 * ptrCells ds
  data : st'.data = st.data + 4 * dataCells ds
  frame : ∀ x, ¬ (addr + st.iv ≤ x ∧ x < addr + st.iv + 4 * ptrCells ds) → st'.mem x = st.mem x
  offR : (st.iv ≤ off ∧ off ≤ st.iv + 4 * ptrCells ds) ∨ off = st.data
  walk : 0 ≤ addr → 0 ≤ st.iv → 0 ≤ st.data → addr + st.iv + 4 * ptrCells ds < 2147483648 →
    addr + st.data + 4 * dataCells ds < 2147483648 →
    ∀ m', (∀ x, addr + st.iv ≤ x → x < addr + st.iv + 4 * ptrCells ds → m' x = st'.mem x) →
    ∀ is, ValidIx ds is → walkAbs m' (addr + off) is = addr + st.data + 4 * flat ds is

/-- Invariant of the loop over the sub-arrays, after `n` rounds. -/
structure AbsLoop (addr d : Int) (ds : List Int) (st : IvState) (n : Int) (t : IvState) : Prop where
  iv : t.iv = st.iv + 4 * d + 4 * (n * ptrCells ds)
  data : t.data = st.data + 4 * (n * dataCells ds)
  frame : ∀ x, ¬ (addr + st.iv ≤ x ∧ x < addr + st.iv + 4 * d + 4 * (n * ptrCells ds)) →
    t.mem x = st.mem x
  walk : 0 ≤ addr → 0 ≤ st.iv → 0 ≤ st.data →
    addr + st.iv + 4 * d + 4 * (n * ptrCells ds) < 2147483648 →
    addr + st.data + 4 * (n * dataCells ds) < 2147483648 →
    ∀ m', (∀ x, addr + st.iv ≤ x → x < addr + st.iv + 4 * d + 4 * (n * ptrCells ds) →
        (x < addr + st.iv + 4 * n ∨ addr + st.iv + 4 * d ≤ x) → m' x = t.mem x) →
    ∀ k : Int, 0 ≤ k → k < n → ∀ is, ValidIx ds is →
      walkAbs m' (rd32 m' (addr + st.iv + 4 * k)).toInt is
        = addr + st.data + 4 * (k * dataCells ds) + 4 * flat ds is

theorem genAbs_spec (addr : Int) : ∀ (ds : List Int), ds ≠ [] → Pos ds → ∀ st : IvState,
    AbsPost addr ds st (genAbs addr ds st).1 (genAbs addr ds st).2
  | [], h, _, _ => (h rfl).elim
  | [d0], _, hp, st => by
      refine ⟨by simp [genAbs, ptrCells], by simp [genAbs, dataCells]; omega, ?_, Or.inr rfl, ?_⟩
      · intro x _; rfl
      · intro _ _ _ _ _ m' _ is hi
        match is, hi with
        | [i], _ => simp only [walkAbs, flat, dataCells, genAbs]; omega
        | _ :: _ :: _, hi => exact hi.2.elim
  | d :: d' :: ds, _, hp, st => by
      have hd : 0 < d := hp d (by simp)
      have hp' : Pos (d' :: ds) := fun x hx => hp x (by simp [hx])
      have ih := genAbs_spec addr (d' :: ds) (by simp) hp'
      have hP := ptrCells_nonneg hp'
      have hD := dataCells_pos hp'
      -- the loop
      let f : Int → IvState → IvState := fun i st' =>
        { (genAbs addr (d' :: ds) st').1 with
          mem := wr32 (genAbs addr (d' :: ds) st').1.mem (addr + (st.iv + i * 4))
            (BitVec.ofInt 32 (addr + (genAbs addr (d' :: ds) st').2)) }
      have hg : genAbs addr (d :: d' :: ds) st
          = (forUpTo d.toNat f { st with iv := st.iv + d * 4 }, st.iv) := rfl
      have loop : ∀ n : Nat, (n : Int) ≤ d →
          AbsLoop addr d (d' :: ds) st n (forUpTo n f { st with iv := st.iv + d * 4 }) := by
        intro n
        induction n with
        | zero =>
          intro _
          refine ⟨by simp [forUpTo]; omega, by simp [forUpTo], fun x _ => rfl, ?_⟩
          intro _ _ _ _ _ m' _ k k0 k1
          omega
        | succ n ihn =>
          intro hn
          obtain ⟨t1, t2, t3, t4⟩ := ihn (by omega)
          have p := ih (forUpTo n f { st with iv := st.iv + d * 4 })
          show AbsLoop _ _ _ _ _ (f n (forUpTo n f { st with iv := st.iv + d * 4 }))
          generalize forUpTo n f { st with iv := st.iv + d * 4 } = t at *
          have en : ((n + 1 : Nat) : Int) * ptrCells (d' :: ds)
              = n * ptrCells (d' :: ds) + ptrCells (d' :: ds) := by grind
          have en' : ((n + 1 : Nat) : Int) * dataCells (d' :: ds)
              = n * dataCells (d' :: ds) + dataCells (d' :: ds) := by grind
          have nP : 0 ≤ (n : Int) * ptrCells (d' :: ds) := Int.mul_nonneg (by omega) hP
          have nD : 0 ≤ (n : Int) * dataCells (d' :: ds) := Int.mul_nonneg (by omega) (by omega)
          obtain ⟨p1, p2, p3, p4, p5⟩ := p
          dsimp only [f]
          generalize hr : genAbs addr (d' :: ds) t = r at *
          refine ⟨by rw [en]; dsimp only; omega, by rw [en']; dsimp only; omega, ?_, ?_⟩
          · intro x hx
            rw [en] at hx
            dsimp only
            rw [wr32_far (by omega), p3 x (by omega), t3 x (by omega)]
          · intro ha hi hda hb1 hb2 m' hm' k k0 k1 is his
            rw [en] at hb1 hm'
            rw [en'] at hb2
            dsimp only at hm'
            by_cases hk : k = n
            · subst hk
              have hrd : rd32 m' (addr + st.iv + 4 * (n : Int))
                  = BitVec.ofInt 32 (addr + r.2) := by
                rw [rd32_congr (m := wr32 r.1.mem (addr + (st.iv + n * 4))
                  (BitVec.ofInt 32 (addr + r.2))) (fun x hx1 hx2 => hm' x (by omega) (by omega) (by omega))]
                rw [show addr + st.iv + 4 * (n : Int) = addr + (st.iv + n * 4) by omega,
                  rd32_wr32_same]
              rw [hrd, ofInt_toInt (by omega) (by omega)]
              have := p5 ha (by omega) (by omega) (by omega) (by omega) m' ?_ is his
              · rw [this]; omega
              · intro x hx1 hx2
                rw [hm' x (by omega) (by omega) (by omega), wr32_far (by omega)]
            · refine t4 ha hi hda (by omega) (by omega) m' ?_ k k0 (by omega) is his
              intro x hx1 hx2 hx3
              rw [hm' x (by omega) (by omega) (by omega), wr32_far (by omega), p3 x (by omega)]
      obtain ⟨l1, l2, l3, l4⟩ := loop d.toNat (by omega)
      have dn : ((d.toNat : Nat) : Int) = d := by omega
      rw [dn] at l1 l2 l3 l4
      rw [hg]
      have e1 : ptrCells (d :: d' :: ds) = d + d * ptrCells (d' :: ds) := rfl
      have e2 : dataCells (d :: d' :: ds) = d * dataCells (d' :: ds) := rfl
      have dP : 0 ≤ d * ptrCells (d' :: ds) := Int.mul_nonneg (by omega) hP
      refine ⟨?_, ?_, ?_, ?_, ?_⟩
      · rw [e1]; dsimp only; omega
      · rw [e2]; exact l2
      · intro x hx; rw [e1] at hx; exact l3 x (by omega)
      · left; rw [e1]; dsimp only; omega
      · intro ha hi hda hb1 hb2 m' hm' is his
        rw [e1] at hb1 hm'
        rw [e2] at hb2
        match is, his with
        | i :: is, his =>
          obtain ⟨⟨i0, i1⟩, his⟩ := his
          rw [walkAbs_cons (ValidIx.ne_nil his (by simp))]
          dsimp only
          rw [l4 ha hi hda (by omega) hb2 m' (fun x h1 h2 _ => hm' x h1 (by omega)) i i0 i1 is his]
          simp only [flat]; omega

/-! ### Relative indirection vectors -/

theorem walkRel_cons {m : Int → BitVec 8} {a i : Int} {is : List Int} (h : is ≠ []) :
    walkRel m a (i :: is) = walkRel m (a + 4 * i + (rd32 m (a + 4 * i)).toInt) is := by
  cases is with
  | nil => exact (h rfl).elim
  | cons j is => rfl

/-- What one run of the relative generator establishes. -/
structure RelPost (base : Int) (ds : List Int) (st st' : RelState) : Prop where
  cur : st'.cur = st.cur + ptrCells ds
  data : st'.data = st.data + dataCells ds
  frame : ∀ x, ¬ (base + 4 * st.cur ≤ x ∧ x < base + 4 * (st.cur + ptrCells ds)) → st'.mem x = st.mem x
  walk : 0 ≤ st.cur → 0 ≤ st.data → 4 * (st.cur + ptrCells ds) < 2147483648 →
    4 * (st.data + dataCells ds) < 2147483648 →
    ∀ m', (∀ x, base + 4 * st.cur ≤ x → x < base + 4 * (st.cur + ptrCells ds) → m' x = st'.mem x) →
    ∀ is, ValidIx ds is → walkRel m' (base + 4 * st.cur) is = base + 4 * st.data + 4 * flat ds is

/-- Invariant of the loop over the sub-arrays, after `n` rounds. -/
structure RelLoop (base d : Int) (ds : List Int) (st : RelState) (n : Int) (t : RelState) : Prop where
  cur : t.cur = st.cur + d + n * ptrCells ds
  data : t.data = st.data + n * dataCells ds
  frame : ∀ x, ¬ (base + 4 * st.cur ≤ x ∧ x < base + 4 * (st.cur + d + n * ptrCells ds)) →
    t.mem x = st.mem x
  walk : 0 ≤ st.cur → 0 ≤ st.data → 4 * (st.cur + d + n * ptrCells ds) < 2147483648 →
    4 * (st.data + n * dataCells ds) < 2147483648 →
    ∀ m', (∀ x, base + 4 * st.cur ≤ x → x < base + 4 * (st.cur + d + n * ptrCells ds) →
        (x < base + 4 * (st.cur + n) ∨ base + 4 * (st.cur + d) ≤ x) → m' x = t.mem x) →
    ∀ k : Int, 0 ≤ k → k < n → ∀ is, ValidIx ds is →
      walkRel m' (base + 4 * st.cur + 4 * k + (rd32 m' (base + 4 * st.cur + 4 * k)).toInt) is
        = base + 4 * st.data + 4 * (k * dataCells ds) + 4 * flat ds is

theorem RelLoop.zero (base d : Int) (ds : List Int) (st : RelState) :
    RelLoop base d ds st ((0 : Nat) : Int) { st with cur := st.cur + d } := by
  refine ⟨by simp, by simp, fun x _ => rfl, ?_⟩
  intro _ _ _ _ m' _ k k0 k1
  omega

/-- After `d` rounds the loop has done all the work. -/
theorem RelLoop.done {base d : Int} {ds : List Int} {st t : RelState} (hd : 0 < d) (hne : ds ≠ [])
    (hp : Pos ds) (h : RelLoop base d ds st d t) : RelPost base (d :: ds) st t := by
  obtain ⟨l1, l2, l3, l4⟩ := h
  have e1 : ptrCells (d :: ds) = d + d * ptrCells ds := by
    cases ds with
    | nil => exact (hne rfl).elim
    | cons => rfl
  have e2 : dataCells (d :: ds) = d * dataCells ds := rfl
  have dP : 0 ≤ d * ptrCells ds := Int.mul_nonneg (by omega) (ptrCells_nonneg hp)
  refine ⟨by rw [e1]; omega, by rw [e2]; exact l2, ?_, ?_⟩
  · intro x hx; rw [e1] at hx; exact l3 x (by omega)
  · intro hc hda hb1 hb2 m' hm' is his
    rw [e1] at hb1 hm'
    rw [e2] at hb2
    match is, his with
    | i :: is, his =>
      obtain ⟨⟨i0, i1⟩, his⟩ := his
      rw [walkRel_cons (ValidIx.ne_nil his hne)]
      rw [l4 hc hda (by omega) hb2 m' (fun x h1 h2 _ => hm' x h1 (by omega)) i i0 i1 is his]
      simp only [flat]; omega

theorem genRel_spec (base : Int) : ∀ (ds : List Int), 2 ≤ ds.length → Pos ds → ∀ st : RelState,
    RelPost base ds st (genRel base ds st)
  | [], h, _, _ => by simp at h
  | [_], h, _, _ => by simp at h
  | [d, d0], _, hp, st => by
      have hd : 0 < d := hp d (by simp)
      have hd0 : 0 < d0 := hp d0 (by simp)
      let f : Int → RelState → RelState := fun i st' =>
        { st' with
          mem := wr32 st'.mem (base + (st.cur + i) * 4)
            (BitVec.ofInt 32 ((st'.data - (st.cur + i)) * 4)),
          data := st'.data + d0 }
      have hg : genRel base [d, d0] st = forUpTo d.toNat f { st with cur := st.cur + d } := rfl
      have loop : ∀ n : Nat, (n : Int) ≤ d →
          RelLoop base d [d0] st n (forUpTo n f { st with cur := st.cur + d }) := by
        intro n
        induction n with
        | zero => intro _; exact RelLoop.zero ..
        | succ n ihn =>
          intro hn
          obtain ⟨t1, t2, t3, t4⟩ := ihn (by omega)
          show RelLoop _ _ _ _ _ (f n (forUpTo n f { st with cur := st.cur + d }))
          generalize forUpTo n f { st with cur := st.cur + d } = t at *
          have en : ((n + 1 : Nat) : Int) * d0 = n * d0 + d0 := by grind
          have nD : 0 ≤ (n : Int) * d0 := Int.mul_nonneg (by omega) (by omega)
          dsimp only [f]
          simp only [ptrCells, dataCells, Int.mul_one, Int.mul_zero, Int.add_zero] at *
          refine ⟨by simp [ptrCells]; omega, by simp only [dataCells, Int.mul_one]; rw [en]; omega, ?_, ?_⟩
          · intro x hx
            simp only [ptrCells, Int.mul_zero, Int.add_zero] at hx
            dsimp only
            rw [wr32_far (by omega), t3 x (by omega)]
          · intro hi hda hb1 hb2 m' hm' k k0 k1 is his
            simp only [ptrCells, dataCells, Int.mul_one, Int.mul_zero, Int.add_zero] at hb1 hb2 hm' ⊢
            rw [en] at hb2
            by_cases hk : k = n
            · subst hk
              have hrd : rd32 m' (base + 4 * st.cur + 4 * (n : Int))
                  = BitVec.ofInt 32 ((t.data - (st.cur + n)) * 4) := by
                rw [rd32_congr (m := wr32 t.mem (base + (st.cur + n) * 4)
                  (BitVec.ofInt 32 ((t.data - (st.cur + n)) * 4)))
                  (fun x hx1 hx2 => hm' x (by omega) (by omega) (by omega))]
                rw [show base + 4 * st.cur + 4 * (n : Int) = base + (st.cur + n) * 4 by omega,
                  rd32_wr32_same]
              rw [hrd, ofInt_toInt (by omega) (by omega)]
              match is, his with
              | [i], _ => simp only [walkRel, flat, dataCells]; omega
              | _ :: _ :: _, hi => exact hi.2.elim
            · refine t4 hi hda (by omega) (by omega) m' ?_ k k0 (by omega) is his
              intro x hx1 hx2 hx3
              rw [hm' x (by omega) (by omega) (by omega), wr32_far (by omega)]
      have l := loop d.toNat (by omega)
      rw [show ((d.toNat : Nat) : Int) = d by omega] at l
      rw [hg]
      exact l.done hd (by simp) (fun x hx => hp x (by simp_all))
  | d :: d' :: d'' :: ds, _, hp, st => by
      have hd : 0 < d := hp d (by simp)
      have hp' : Pos (d' :: d'' :: ds) := fun x hx => hp x (by simp [hx])
      have ih := genRel_spec base (d' :: d'' :: ds) (by simp) hp'
      have hP := ptrCells_nonneg hp'
      have hD := dataCells_pos hp'
      let f : Int → RelState → RelState := fun i st' =>
        genRel base (d' :: d'' :: ds)
          { st' with
            mem := wr32 st'.mem (base + (st.cur + i) * 4)
              (BitVec.ofInt 32 ((st'.cur - (st.cur + i)) * 4)) }
      have hg : genRel base (d :: d' :: d'' :: ds) st
          = forUpTo d.toNat f { st with cur := st.cur + d } := rfl
      have loop : ∀ n : Nat, (n : Int) ≤ d →
          RelLoop base d (d' :: d'' :: ds) st n (forUpTo n f { st with cur := st.cur + d }) := by
        intro n
        induction n with
        | zero => intro _; exact RelLoop.zero ..
        | succ n ihn =>
          intro hn
          obtain ⟨t1, t2, t3, t4⟩ := ihn (by omega)
          show RelLoop _ _ _ _ _ (f n (forUpTo n f { st with cur := st.cur + d }))
          generalize forUpTo n f { st with cur := st.cur + d } = t at *
          dsimp only [f]
          have p := ih { t with
            mem := wr32 t.mem (base + (st.cur + n) * 4)
              (BitVec.ofInt 32 ((t.cur - (st.cur + n)) * 4)) }
          obtain ⟨p1, p2, p3, p5⟩ := p
          dsimp only at p1 p2 p3 p5
          generalize genRel base (d' :: d'' :: ds) _ = r at *
          have en : ((n + 1 : Nat) : Int) * ptrCells (d' :: d'' :: ds)
              = n * ptrCells (d' :: d'' :: ds) + ptrCells (d' :: d'' :: ds) := by grind
          have en' : ((n + 1 : Nat) : Int) * dataCells (d' :: d'' :: ds)
              = n * dataCells (d' :: d'' :: ds) + dataCells (d' :: d'' :: ds) := by grind
          have nP : 0 ≤ (n : Int) * ptrCells (d' :: d'' :: ds) := Int.mul_nonneg (by omega) hP
          have nD : 0 ≤ (n : Int) * dataCells (d' :: d'' :: ds) := Int.mul_nonneg (by omega) (by omega)
          refine ⟨by rw [en]; omega, by rw [en']; omega, ?_, ?_⟩
          · intro x hx
            rw [en] at hx
            rw [p3 x (by omega), wr32_far (by omega), t3 x (by omega)]
          · intro hi hda hb1 hb2 m' hm' k k0 k1 is his
            rw [en] at hb1 hm'
            rw [en'] at hb2
            by_cases hk : k = n
            · subst hk
              have hrd : rd32 m' (base + 4 * st.cur + 4 * (n : Int))
                  = BitVec.ofInt 32 ((t.cur - (st.cur + n)) * 4) := by
                rw [rd32_congr (m := wr32 t.mem (base + (st.cur + n) * 4)
                  (BitVec.ofInt 32 ((t.cur - (st.cur + n)) * 4)))
                  (fun x hx1 hx2 => by
                    rw [hm' x (by omega) (by omega) (by omega), p3 x (by omega)])]
                rw [show base + 4 * st.cur + 4 * (n : Int) = base + (st.cur + n) * 4 by omega,
                  rd32_wr32_same]
              rw [hrd, ofInt_toInt (by omega) (by omega)]
              have := p5 (by omega) (by omega) (by omega) (by omega) m' ?_ is his
              · rw [show base + 4 * st.cur + 4 * (n : Int) + (t.cur - (st.cur + n)) * 4
                  = base + 4 * t.cur by omega, this]; omega
              · intro x hx1 hx2
                rw [hm' x (by omega) (by omega) (by omega)]
            · refine t4 hi hda (by omega) (by omega) m' ?_ k k0 (by omega) is his
              intro x hx1 hx2 hx3
              rw [hm' x (by omega) (by omega) (by omega), p3 x (by omega), wr32_far (by omega)]
      have l := loop d.toNat (by omega)
      rw [show ((d.toNat : Nat) : Int) = d by omega] at l
      rw [hg]
      exact l.done hd (by simp) hp'

theorem calcIndirection_eq : ∀ ds : List Int, calcIndirection ds = ptrCells ds
  | [] => rfl
  | [_] => rfl
  | [d, d'] => by simp [calcIndirection, ptrCells]
  | d :: d' :: d'' :: ds => by
    simp only [calcIndirection, ptrCells, calcIndirection_eq (d' :: d'' :: ds)]

end Verif.VM

import Verif.Model.Interp
import Verif.Proofs.Mem

/-! C15, C16, C17: division, bounds check and switch instructions. -/
namespace Verif.VM

/-- `q` and `r` are the quotient and remainder of `n` by `d`, rounding towards zero. -/
def TruncDiv (n d q r : Int) : Prop :=
  n = q * d + r ∧ r.natAbs < d.natAbs ∧ (0 ≤ n → 0 ≤ r) ∧ (n ≤ 0 → r ≤ 0)

/-- Rounding towards zero determines quotient and remainder. -/
theorem TruncDiv.unique {n d q r q' r' : Int} (h : TruncDiv n d q r) (k : TruncDiv n d q' r') :
    q = q' ∧ r = r' := by
  obtain ⟨h1, h2, h3, h4⟩ := h
  obtain ⟨k1, k2, k3, k4⟩ := k
  have hd : (q - q') * d = r' - r := by grind
  have hn : q - q' = 0 := by
    have hlt : (r' - r).natAbs < d.natAbs := by omega
    rw [← hd, Int.natAbs_mul] at hlt
    have : (q - q').natAbs = 0 := by
      rcases Nat.eq_zero_or_pos (q - q').natAbs with h | h
      · exact h
      · have := Nat.mul_le_mul_right d.natAbs h
        omega
    omega
  constructor
  · omega
  · rw [hn] at hd; omega

theorem truncDiv_tdiv (n d : Int) (hd : d ≠ 0) : TruncDiv n d (n.tdiv d) (n.tmod d) := by
  refine ⟨(Int.tdiv_mul_add_tmod n d).symm, ?_, ?_, ?_⟩
  · rw [Int.natAbs_tmod]; exact Nat.mod_lt _ (by omega)
  · intro h; exact Int.tmod_nonneg _ (by omega)
  · intro h
    have := Int.tmod_nonneg d (a := -n) (by omega)
    rw [Int.neg_tmod] at this
    omega

theorem divCheck_spec {w : Nat} (hw : 1 < w) (n d : BitVec w) :
    (d.toInt = 0 ∧ divCheck n d = some .divideByZero) ∨
    (d.toInt = -1 ∧ n.toInt = -2 ^ (w - 1) ∧ divCheck n d = some .integerOverflow) ∨
    (d.toInt ≠ 0 ∧ ¬ (d.toInt = -1 ∧ n.toInt = -2 ^ (w - 1)) ∧ divCheck n d = none ∧
      TruncDiv n.toInt d.toInt (n.sdiv d).toInt (n.srem d).toInt) := by
  have hm1 : (-1 : BitVec w).toInt = -1 := by
    rw [show (-1 : BitVec w) = BitVec.allOnes w from BitVec.neg_one_eq_allOnes, BitVec.toInt_allOnes,
      if_pos (by omega)]
  have hmin : (BitVec.intMin w).toInt = -2 ^ (w - 1) := BitVec.toInt_intMin_of_pos (by omega)
  unfold divCheck
  by_cases h0 : d = 0
  · left; subst h0; simp
  have h0' : d.toInt ≠ 0 := fun h => h0 (BitVec.eq_of_toInt_eq (by simpa using h))
  rw [if_neg h0]
  by_cases h1 : d = -1 ∧ n = BitVec.intMin w
  · right; left
    rw [if_pos h1]
    exact ⟨by rw [h1.1, hm1], by rw [h1.2, hmin], rfl⟩
  · right; right
    rw [if_neg h1]
    refine ⟨h0', ?_, rfl, ?_⟩
    · rintro ⟨ha, hb⟩
      exact h1 ⟨BitVec.eq_of_toInt_eq (by rw [ha, hm1]), BitVec.eq_of_toInt_eq (by rw [hb, hmin])⟩
    · rw [BitVec.toInt_srem, BitVec.toInt_sdiv_of_ne_or_ne]
      · exact truncDiv_tdiv _ _ h0'
      · by_cases hn : n = BitVec.intMin w
        · right; intro hd; exact h1 ⟨by rw [hd]; simp, hn⟩
        · exact Or.inl hn

/-- What a division instruction that reads `dividend` and `divisor` in state `s` must do: exactly two
kinds of operands are refused, leaving the state alone; otherwise the state after it satisfies `post`
for the truncating quotient and remainder. -/
def DivSpec (s : IState) (dividend divisor : Cell) (r : Res IState Ctl)
    (post : Int → Int → IState → Prop) : Prop :=
  (divisor.toInt = 0 → r = .fail s .divideByZero) ∧
  (divisor.toInt = -1 ∧ dividend.toInt = -2147483648 → r = .fail s .integerOverflow) ∧
  (divisor.toInt ≠ 0 → ¬ (divisor.toInt = -1 ∧ dividend.toInt = -2147483648) →
    ∃ s' q m, r = .ok s' .next ∧ TruncDiv dividend.toInt divisor.toInt q m ∧ post q m s')

theorem divSpec_of {s : IState} {n d : Cell} {k : IState} {r : Res IState Ctl}
    {post : Int → Int → IState → Prop}
    (hr : r = match divCheck n d with | some e => .fail s e | none => .ok k .next)
    (hp : post (n.sdiv d).toInt (n.srem d).toInt k) : DivSpec s n d r post := by
  rcases divCheck_spec (w := 32) (by omega) n d with ⟨h, e⟩ | ⟨h, h', e⟩ | ⟨h, h', e, t⟩ <;> rw [e] at hr <;>
    dsimp only at hr
  · exact ⟨fun _ => hr, fun h' => by omega, fun h' => absurd h h'⟩
  · exact ⟨fun h' => by omega, fun _ => hr, fun _ h'' => absurd ⟨h, h'⟩ h''⟩
  · exact ⟨fun h' => absurd h' h, fun h'' => absurd h'' h', fun _ _ => ⟨k, _, _, hr, t, hp⟩⟩

/-- **C15 (32-bit, quotient and remainder).** SDIV and SDIV_ALT. -/
theorem C15_sdiv (E : Env) (m : Nat) (here : Int) (s : IState) :
    DivSpec s s.pri s.alt (visit E m here (.sdiv .pri) s)
      (fun q r s' => s'.pri.toInt = q ∧ s'.alt.toInt = r ∧ s'.vm = s.vm) ∧
    DivSpec s s.alt s.pri (visit E m here (.sdiv .alt) s)
      (fun q r s' => s'.pri.toInt = q ∧ s'.alt.toInt = r ∧ s'.vm = s.vm) := by
  constructor
  · refine divSpec_of (k := { s with pri := s.pri.sdiv s.alt, alt := s.pri.srem s.alt }) ?_ ⟨rfl, rfl, rfl⟩
    simp only [visit, bind, IM.bind, getR, IState.reg]
    cases h : divCheck s.pri s.alt <;> rfl
  · refine divSpec_of (k := { s with pri := s.alt.sdiv s.pri, alt := s.alt.srem s.pri }) ?_ ⟨rfl, rfl, rfl⟩
    simp only [visit, bind, IM.bind, getR, IState.reg]
    cases h : divCheck s.alt s.pri <;> rfl

/-- **C15 (32-bit, single result).** SDIV_ALT_I32 and SMOD_ALT_I32. -/
theorem C15_sdiv_i32 (E : Env) (m : Nat) (here : Int) (s : IState) :
    DivSpec s s.alt s.pri (visit E m here .sdivAltI32 s)
      (fun q _ s' => s'.pri.toInt = q ∧ s'.alt = s.alt ∧ s'.vm = s.vm) ∧
    DivSpec s s.alt s.pri (visit E m here .smodAltI32 s)
      (fun _ r s' => s'.pri.toInt = r ∧ s'.alt = s.alt ∧ s'.vm = s.vm) := by
  constructor
  · refine divSpec_of (k := { s with pri := s.alt.sdiv s.pri }) ?_ ⟨rfl, rfl, rfl⟩
    simp only [visit, bind, IM.bind, getR, IState.reg]
    cases h : divCheck s.alt s.pri <;> rfl
  · refine divSpec_of (k := { s with pri := s.alt.srem s.pri }) ?_ ⟨rfl, rfl, rfl⟩
    simp only [visit, bind, IM.bind, getR, IState.reg]
    cases h : divCheck s.alt s.pri <;> rfl

/-- An eight byte operand that is entirely accessible. -/
def Wide (s : State) (a : Int) : Prop :=
  0 ≤ a ∧ a + 8 ≤ s.stp ∧ (a + 8 ≤ s.hp ∨ s.sp ≤ a)

theorem acquire8_ok {s : State} {a : Int} (hr : s.stp < 2147483648) (h : Wide s a) :
    acquireInt64Addr a s = .ok s a := by
  obtain ⟨h1, h2, h3⟩ := h
  simp only [acquireInt64Addr, acquireAddrRange, bind, VMM.bind, throwIfBadAddress]
  rw [if_neg (by omega)]
  dsimp only
  rw [if_pos (by omega)]
  simp only [VMM.bind]
  rw [wrap32_id (by omega) (by omega)]
  simp only [throwIfBadAddress]
  rw [if_neg (by omega)]
  rfl

theorem slot8_ok {s : State} {o : Int} (hr : s.stp < 2147483648) (h : Wide s (s.frm + o)) :
    acquireInt64Slot o s = .ok s (s.frm + o) := by
  obtain ⟨h1, h2, h3⟩ := h
  simp only [acquireInt64Slot, throwIfBadAddress]
  rw [wrap32_id (by omega) (by omega), if_neg (by omega)]

theorem rd64_wr64_same (m : Int → BitVec 8) (a : Int) (v : BitVec 64) : rd64 (wr64 m a v) a = v := by
  unfold rd64 wr64
  rw [rd32_wr32_same, rd32_wr32_disj (by omega), rd32_wr32_same]
  apply BitVec.eq_of_getLsbD_eq
  intro i hi
  simp only [BitVec.getLsbD_append, BitVec.getLsbD_extractLsb']
  by_cases h : i < 32
  · simp [h]
  · simp [h, show i - 32 < 32 by omega, show 32 + (i - 32) = i by omega]

/-- The int64 instruction `op` on accessible operands and destination slot computes `op64`. -/
theorem visit_bin64 {E : Env} {m : Nat} {here : Int} {s : IState} {op : Op64} {slot off : Int}
    (hr : s.vm.stp < 2147483648) (hmem : s.vm.stp ≤ s.vm.memSize)
    (hp : Wide s.vm s.pri.toInt) (ha : Wide s.vm s.alt.toInt) (hd : Wide s.vm (s.vm.frm + off))
    (hslot : stackOffset E m slot s = .ok s off) :
    visit E m here (.bin64 op slot) s =
      match op64 op (rd64 s.vm.mem s.pri.toInt) (rd64 s.vm.mem s.alt.toInt) with
      | none => .ub
      | some (.error e) => .fail s e
      | some (.ok v) => .ok { s with vm := { s.vm with mem := wr64 s.vm.mem (s.vm.frm + off) v },
                                     pri := BitVec.ofInt 32 (s.vm.frm + off) } .next := by
  have e1 := acquire8_ok hr hp
  have e2 := acquire8_ok hr ha
  have e3 := slot8_ok hr hd
  have l1 : loadRaw64 s.pri.toInt s.vm = .ok s.vm (rd64 s.vm.mem s.pri.toInt) := by
    unfold loadRaw64; obtain ⟨h1, h2, h3⟩ := hp; rw [if_pos ⟨by omega, by omega⟩]
  have l2 : loadRaw64 s.alt.toInt s.vm = .ok s.vm (rd64 s.vm.mem s.alt.toInt) := by
    unfold loadRaw64; obtain ⟨h1, h2, h3⟩ := ha; rw [if_pos ⟨by omega, by omega⟩]
  simp only [visit, bind, IM.bind, getR, IState.reg, vmOp, e1, e2, hslot, e3, l1, l2]
  cases h : op64 op (rd64 s.vm.mem s.pri.toInt) (rd64 s.vm.mem s.alt.toInt) with
  | none => rfl
  | some r =>
    cases r with
    | error e => rfl
    | ok v =>
      obtain ⟨h1, h2, h3⟩ := hd
      simp only [finish64, bind, IM.bind, vmOp, e3, storeRaw64, getFrm, setR, IState.setReg, pure, IM.pure]
      rw [if_pos ⟨by omega, by omega⟩]
      dsimp only
      rw [wrap32_id (by omega) (by omega)]

/-- **C15 (64-bit).** SDIV_ALT_I64 and SMOD_ALT_I64 on accessible operands: dividend at ALT, divisor at
PRI, result in the destination slot. -/
theorem C15_sdiv_i64 (E : Env) (m : Nat) (here slot off : Int) (s : IState) (isMod : Bool)
    (hr : s.vm.stp < 2147483648) (hmem : s.vm.stp ≤ s.vm.memSize)
    (hp : Wide s.vm s.pri.toInt) (ha : Wide s.vm s.alt.toInt) (hd : Wide s.vm (s.vm.frm + off))
    (hslot : stackOffset E m slot s = .ok s off) :
    let dividend := (rd64 s.vm.mem s.alt.toInt).toInt
    let divisor := (rd64 s.vm.mem s.pri.toInt).toInt
    let r := visit E m here (.bin64 (if isMod then .smodAlt else .sdivAlt) slot) s
    (divisor = 0 → r = .fail s .divideByZero) ∧
    (divisor = -1 ∧ dividend = -9223372036854775808 → r = .fail s .integerOverflow) ∧
    (divisor ≠ 0 → ¬ (divisor = -1 ∧ dividend = -9223372036854775808) →
      ∃ s' q t, r = .ok s' .next ∧ TruncDiv dividend divisor q t ∧
        s'.pri.toInt = s.vm.frm + off ∧
        (rd64 s'.vm.mem s'.pri.toInt).toInt = (if isMod then t else q) ∧
        s'.vm.sp = s.vm.sp ∧ s'.vm.hp = s.vm.hp) := by
  intro dividend divisor r
  have hv := visit_bin64 (here := here) (op := if isMod then .smodAlt else .sdivAlt) hr hmem hp ha hd hslot
  have ho : op64 (if isMod then .smodAlt else .sdivAlt) (rd64 s.vm.mem s.pri.toInt) (rd64 s.vm.mem s.alt.toInt) =
      match divCheck (rd64 s.vm.mem s.alt.toInt) (rd64 s.vm.mem s.pri.toInt) with
      | some e => some (.error e)
      | none => some (.ok (if isMod then (rd64 s.vm.mem s.alt.toInt).srem (rd64 s.vm.mem s.pri.toInt)
          else (rd64 s.vm.mem s.alt.toInt).sdiv (rd64 s.vm.mem s.pri.toInt))) := by
    cases isMod <;> rfl
  rw [ho] at hv
  have hfo : (BitVec.ofInt 32 (s.vm.frm + off)).toInt = s.vm.frm + off := by
    obtain ⟨h1, h2, h3⟩ := hd; exact ofInt_toInt (by omega) (by omega)
  rcases divCheck_spec (w := 64) (by omega) (rd64 s.vm.mem s.alt.toInt) (rd64 s.vm.mem s.pri.toInt) with
    ⟨h, e⟩ | ⟨h, h', e⟩ | ⟨h, h', e, t⟩ <;> rw [e] at hv <;> dsimp only at hv
  · exact ⟨fun _ => hv, fun h' => absurd (h.symm.trans h'.1) (by decide), fun h' => absurd h h'⟩
  · exact ⟨fun h' => absurd (h.symm.trans h') (by decide), fun _ => hv, fun _ h'' => absurd ⟨h, h'⟩ h''⟩
  · refine ⟨fun h' => absurd h' h, fun h'' => absurd h'' h', fun _ _ => ⟨_, _, _, hv, t, hfo, ?_, rfl, rfl⟩⟩
    dsimp only
    rw [hfo, rd64_wr64_same]
    cases isMod <;> rfl

/-- **C16.** BOUNDS passes exactly the indices from 0 to the limit (an unsigned cell), unchanged, and
refuses every other one, in particular every negative one. -/
theorem C16_bounds (E : Env) (m : Nat) (here : Int) (limit : Cell) (s : IState) :
    (0 ≤ s.pri.toInt ∧ s.pri.toInt ≤ limit.toNat ↔ visit E m here (.bounds limit.toInt) s = .ok s .next) ∧
    (s.pri.toInt < 0 ∨ (limit.toNat : Int) < s.pri.toInt ↔
      visit E m here (.bounds limit.toInt) s = .fail s .arrayBounds) := by
  have hl : limit.toInt % 4294967296 = limit.toNat := by
    rw [BitVec.toInt_eq_toNat_bmod]
    have := limit.isLt
    rw [Int.bmod_def]; omega
  simp only [visit, hl]
  by_cases h : s.pri.toInt < 0 ∨ s.pri.toInt > (limit.toNat : Int)
  · rw [if_pos h]
    exact ⟨⟨fun h' => by omega, fun h' => by cases h'⟩, ⟨fun _ => rfl, fun _ => h⟩⟩
  · rw [if_neg h]
    exact ⟨⟨fun _ => rfl, fun _ => by omega⟩, ⟨fun h' => absurd h' h, fun h' => by cases h'⟩⟩

/-- `a` is the right target for value `v`: the address of the first entry with that value, or the
default address when no entry has it. -/
def IsSwitchTarget (d : Cell) (cases : List (Cell × Cell)) (v a : Cell) : Prop :=
  (∃ pre post, cases = pre ++ (v, a) :: post ∧ ∀ e ∈ pre, e.1 ≠ v) ∨
  (a = d ∧ ∀ e ∈ cases, e.1 ≠ v)

theorem switchTarget_spec (d : Cell) (v : Cell) : ∀ cases, IsSwitchTarget d cases v (switchTarget d cases v)
  | [] => Or.inr ⟨rfl, by simp⟩
  | (k, a) :: rest => by
    unfold switchTarget
    by_cases h : k = v
    · rw [if_pos h]; exact Or.inl ⟨[], rest, by rw [h]; rfl, by simp⟩
    · rw [if_neg h]
      rcases switchTarget_spec d v rest with ⟨pre, post, e, hp⟩ | ⟨e, hp⟩
      · refine Or.inl ⟨(k, a) :: pre, post, congrArg ((k, a) :: ·) e, ?_⟩
        intro x hx
        rcases List.mem_cons.1 hx with rfl | hx
        · exact h
        · exact hp x hx
      · refine Or.inr ⟨e, ?_⟩
        intro x hx
        rcases List.mem_cons.1 hx with rfl | hx
        · exact h
        · exact hp x hx

/-- **C17.** If the case table at `tbl` in the code has default `d` and entries `cases`, SWITCH goes to the
address of the first entry whose value is in PRI, or to the default; nothing else changes. -/
theorem C17_switch (E : Env) (m : Nat) (here : Int) (pre post : List Cell) (d : Cell)
    (cases : List (Cell × Cell)) (hn : cases.length < 2147483648)
    (hcode : E.code = pre ++ [130, BitVec.ofNat 32 cases.length, d] ++ (cases.flatMap fun e => [e.1, e.2]) ++ post)
    (s : IState) :
    ∃ a, visit E m here (.switch (4 * (pre.length : Int))) s = .ok s (.goto a.toInt) ∧
      IsSwitchTarget d cases s.pri a := by
  have hflat : ∀ cs : List (Cell × Cell), (cs.flatMap fun e => [e.1, e.2]).length = 2 * cs.length := by
    intro cs; induction cs with
    | nil => rfl
    | cons x xs ih => simp only [List.flatMap_cons, List.length_append, ih, List.length_cons, List.length_nil]; omega
  have hget : ∀ (cs : List (Cell × Cell)) (rest : List Cell) (k : Nat), k < cs.length →
      ((cs.flatMap fun e => [e.1, e.2]) ++ rest)[2 * k]? = some (cs.getD k (0, 0)).1 ∧
      ((cs.flatMap fun e => [e.1, e.2]) ++ rest)[2 * k + 1]? = some (cs.getD k (0, 0)).2 := by
    intro cs; induction cs with
    | nil => intro rest k hk; cases hk
    | cons x xs ih =>
      intro rest k hk
      cases k with
      | zero => exact ⟨rfl, rfl⟩
      | succ k =>
        have := ih rest k (by simpa using hk)
        simp only [List.flatMap_cons, List.cons_append, List.nil_append]
        rw [show 2 * (k + 1) = (2 * k + 1) + 1 by omega, List.getElem?_cons_succ, List.getElem?_cons_succ,
          show 2 * k + 1 + 1 + 1 = (2 * k + 1 + 1) + 1 by omega, List.getElem?_cons_succ, List.getElem?_cons_succ]
        exact this
  have hlen : E.code.length = pre.length + 3 + 2 * cases.length + post.length := by
    rw [hcode]; simp only [List.length_append, hflat, List.length_cons, List.length_nil]
  have hat : ∀ j, E.code[pre.length + j]? =
      ([130, BitVec.ofNat 32 cases.length, d] ++ ((cases.flatMap fun e => [e.1, e.2]) ++ post))[j]? := by
    intro j
    rw [hcode, List.append_assoc, List.append_assoc, List.getElem?_append_right (by omega)]
    congr 1; omega
  have hnn : (BitVec.ofNat 32 cases.length).toNat = cases.length := by
    rw [BitVec.toNat_ofNat]; omega
  have hni : (BitVec.ofNat 32 cases.length).toInt = cases.length := by
    rw [BitVec.toInt_eq_toNat_of_lt (by rw [hnn]; omega), hnn]
  have htbl : caseTable E.code (4 * (pre.length : Int)) = some (d, cases) := by
    unfold caseTable
    rw [if_neg (by omega)]
    have hi : ((4 * (pre.length : Int)) / 4).toNat = pre.length := by omega
    dsimp only
    rw [hi]
    have h0 := hat 0; have h1 := hat 1; have h2 := hat 2
    simp only [Nat.add_zero, List.cons_append, List.getElem?_cons_zero, List.getElem?_cons_succ] at h0 h1 h2
    rw [h0, h1, h2]
    dsimp only
    rw [hnn, hni, if_pos ⟨rfl, by omega, by omega⟩]
    congr 2
    apply List.ext_getElem
    · simp
    intro k hk1 hk2
    simp only [List.getElem_map, List.getElem_range]
    have hk : k < cases.length := by simpa using hk1
    obtain ⟨g1, g2⟩ := hget cases post k hk
    have e1 : E.code[pre.length + 3 + 2 * k]? = some (cases.getD k (0,0)).1 := by
      rw [show pre.length + 3 + 2 * k = pre.length + (2 * k + 3) by omega, hat]
      exact g1
    have e2 : E.code[pre.length + 4 + 2 * k]? = some (cases.getD k (0,0)).2 := by
      rw [show pre.length + 4 + 2 * k = pre.length + (2 * k + 1 + 3) by omega, hat]
      exact g2
    rw [List.getD_eq_getElem?_getD, List.getD_eq_getElem?_getD, e1, e2]
    simp [List.getD_eq_getElem?_getD, List.getElem?_eq_getElem hk]
  refine ⟨switchTarget d cases s.pri, ?_, switchTarget_spec d s.pri cases⟩
  simp only [visit, htbl]

/-- **C17 (order independence).** With distinct case values the target does not depend on the order of
the table. -/
theorem C17_order_independent (d v : Cell) {c₁ c₂ : List (Cell × Cell)} (hp : c₁.Perm c₂)
    (hnd : (c₁.map (·.1)).Nodup) {a₁ a₂ : Cell} (h₁ : IsSwitchTarget d c₁ v a₁) (h₂ : IsSwitchTarget d c₂ v a₂) :
    a₁ = a₂ := by
  have hmem : ∀ {c : List (Cell × Cell)} {a}, IsSwitchTarget d c v a →
      (v, a) ∈ c ∨ (a = d ∧ ∀ e ∈ c, e.1 ≠ v) := by
    rintro c a (⟨pre, post, e, _⟩ | h)
    · left; rw [e]; simp
    · exact Or.inr h
  have huniq : ∀ {x y : Cell}, (v, x) ∈ c₁ → (v, y) ∈ c₁ → x = y := by
    intro x y hx hy
    have : ∀ (l : List (Cell × Cell)), (l.map (·.1)).Nodup → (v, x) ∈ l → (v, y) ∈ l → x = y := by
      intro l; induction l with
      | nil => intro _ h; cases h
      | cons z zs ih =>
        intro hn h1 h2
        rw [List.map_cons, List.nodup_cons] at hn
        rcases List.mem_cons.1 h1 with e1 | h1 <;> rcases List.mem_cons.1 h2 with e2 | h2
        · have := e1.trans e2.symm; simpa using this
        · exfalso; apply hn.1; rw [← e1]; exact List.mem_map.2 ⟨_, h2, rfl⟩
        · exfalso; apply hn.1; rw [← e2]; exact List.mem_map.2 ⟨_, h1, rfl⟩
        · exact ih hn.2 h1 h2
    exact this c₁ hnd hx hy
  rcases hmem h₁ with h | ⟨e, h⟩ <;> rcases hmem h₂ with k | ⟨e', k⟩
  · exact huniq h (hp.mem_iff.2 k)
  · exact absurd rfl (k _ (hp.mem_iff.1 h))
  · exact absurd rfl (h _ (hp.mem_iff.2 k))
  · rw [e, e']

/-! ### Non-vacuity -/

/-- A tiny plugin for the examples: 16 KB, 64 bytes of data, a case table in the code. -/
def c15Env : Env :=
  { code := [46, 130, 2, 100, 5, 200, 7, 300], floats := ⟨fun _ => true, id, fun _ a _ => a, fun _ _ _ => true, id⟩,
    natives := fun _ => none, legacyStack := true, localOffsets := fun _ => [], validate := fun _ => none,
    watchdog := fun _ => true }
def c15State (p a : Cell) : IState :=
  { vm := { mem := wr64 (wr64 (fun _ => 0) 0 (-7)) 8 (2), memSize := 16384, dataSize := 64, stp := 16380, hp := 64, sp := 16000,
            frm := 16100, hpScope := -1, directArrays := true, usesHeapScopes := true },
    pri := p, alt := a, polls := 0 }

example : ∃ s' q m, visit c15Env 0 0 (.sdiv .pri) (c15State (-7) 2) = .ok s' .next ∧ TruncDiv (-7) 2 q m ∧
    s'.pri = -3 ∧ s'.alt = -1 := ⟨_, -3, -1, rfl, ⟨rfl, by decide, by decide, by decide⟩, by decide +kernel, by decide +kernel⟩
example : visit c15Env 0 0 (.sdiv .pri) (c15State (BitVec.intMin 32) (-1)) =
    .fail (c15State (BitVec.intMin 32) (-1)) .integerOverflow := rfl
example : Wide (c15State 8 0).vm (c15State 8 0).pri.toInt ∧ Wide (c15State 8 0).vm (c15State 8 0).alt.toInt ∧
    Wide (c15State 8 0).vm ((c15State 8 0).vm.frm + (-8)) ∧
    (rd64 (c15State 8 0).vm.mem 0).toInt = -7 ∧ (rd64 (c15State 8 0).vm.mem 8).toInt = 2 := by
  refine ⟨⟨by decide, by decide, by decide⟩, ⟨by decide, by decide, by decide⟩,
    ⟨by decide, by decide, by decide⟩, by decide +kernel, by decide +kernel⟩
example : visit c15Env 0 0 (.switch 4) (c15State 7 0) = .ok (c15State 7 0) (.goto 300) := rfl
example : visit c15Env 0 0 (.switch 4) (c15State 8 0) = .ok (c15State 8 0) (.goto 100) := rfl
example : c15Env.code = [46] ++ [130, BitVec.ofNat 32 2, 100] ++
    ([(5, 200), (7, 300)] : List (Cell × Cell)).flatMap (fun e => [e.1, e.2]) ++ [] := rfl
example : visit c15Env 0 0 (.bounds 5) (c15State 5 0) = .ok (c15State 5 0) .next := rfl
example : visit c15Env 0 0 (.bounds 5) (c15State (-1) 0) = .fail (c15State (-1) 0) .arrayBounds := rfl

end Verif.VM

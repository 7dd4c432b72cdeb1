import Verif.Model.Lexer

/-! Lemmas about literals. -/
namespace Verif.Text

/-! ### Cells -/

/-- The number whose low-order bytes these are. -/
def num : List Byte → Nat
  | [] => 0
  | b :: l => b.toNat + 256 * num l

theorem num_append (p : List Byte) (b : Byte) : num (p ++ [b]) = num p + b.toNat * 256 ^ p.length := by
  induction p with
  | nil => simp [num]
  | cons a p ih =>
    simp only [List.cons_append, num, ih, List.length_cons, Nat.pow_succ]
    rw [Nat.mul_add, Nat.add_assoc]
    congr 2
    rw [Nat.mul_comm (256 ^ p.length), ← Nat.mul_assoc, ← Nat.mul_assoc, Nat.mul_comm 256]

theorem num_lt (p : List Byte) : num p < 256 ^ p.length := by
  induction p with
  | nil => simp [num]
  | cons a p ih =>
    have := a.isLt
    simp only [num, List.length_cons, Nat.pow_succ]
    omega

theorem cellBytes_num : ∀ (p : List Byte), p.length ≤ 4 → cellBytes (.ofNat 32 (num p)) = p ++ List.replicate (4 - p.length) 0 := by
  have e (n : Nat) (b : Byte) (h : n % 256 = b.toNat) : BitVec.ofNat 8 n = b := by
    apply BitVec.eq_of_toNat_eq
    rw [BitVec.toNat_ofNat]
    exact h
  intro p h
  match p with
  | [] => decide
  | [a] =>
    have := a.isLt
    simp only [cellBytes, BitVec.toNat_ofNat, num]
    rw [e _ a (by omega), e _ 0 (by simp; omega), e _ 0 (by simp; omega), e _ 0 (by simp; omega)]
    rfl
  | [a, b] =>
    have := a.isLt
    have := b.isLt
    simp only [cellBytes, BitVec.toNat_ofNat, num]
    rw [e _ a (by omega), e _ b (by omega), e _ 0 (by simp; omega), e _ 0 (by simp; omega)]
    rfl
  | [a, b, c] =>
    have := a.isLt
    have := b.isLt
    have := c.isLt
    simp only [cellBytes, BitVec.toNat_ofNat, num]
    rw [e _ a (by omega), e _ b (by omega), e _ c (by omega), e _ 0 (by simp; omega)]
    rfl
  | [a, b, c, d] =>
    have := a.isLt
    have := b.isLt
    have := c.isLt
    have := d.isLt
    simp only [cellBytes, BitVec.toNat_ofNat, num]
    rw [e _ a (by omega), e _ b (by omega), e _ c (by omega), e _ d (by omega)]
    rfl
  | _ :: _ :: _ :: _ :: _ :: _ => simp at h

theorem or_byte (p : List Byte) (b : Byte) (h : p.length < 4) :
    BitVec.ofNat 32 (num p) ||| (b.setWidth 32 <<< (8 * p.length)) = BitVec.ofNat 32 (num (p ++ [b])) := by
  have h1 := num_lt p
  have h2 := num_lt (p ++ [b])
  have hb := b.isLt
  rw [num_append] at h2 ⊢
  have e256 : (256 : Nat) ^ p.length = 2 ^ (8 * p.length) := by rw [Nat.pow_mul]
  rw [List.length_append, List.length_singleton] at h2
  have hle : (256 : Nat) ^ (p.length + 1) ≤ 2 ^ 32 := by
    rw [show (2 : Nat) ^ 32 = 256 ^ 4 from rfl]
    exact Nat.pow_le_pow_right (by omega) (by omega)
  have hle' : (256 : Nat) ^ p.length ≤ 256 ^ (p.length + 1) := Nat.pow_le_pow_right (by omega) (by omega)
  apply BitVec.eq_of_toNat_eq
  rw [BitVec.toNat_or, BitVec.toNat_shiftLeft, BitVec.toNat_setWidth, BitVec.toNat_ofNat, BitVec.toNat_ofNat, Nat.shiftLeft_eq,
    Nat.mod_eq_of_lt (by omega : num p < 2 ^ 32), Nat.mod_eq_of_lt (by omega : b.toNat < 2 ^ 32)]
  rw [← e256, Nat.mod_eq_of_lt (by omega : b.toNat * 256 ^ p.length < 2 ^ 32), Nat.mod_eq_of_lt (by omega), e256]
  rw [Nat.or_comm, Nat.mul_comm, ← Nat.two_pow_add_eq_or_of_lt (by omega)]
  omega

theorem toCells_ok : ∀ (l p : List Byte), p.length < 4 →
    (toCells l (.ofNat 32 (num p)) p.length).flatMap cellBytes = p ++ l ++ List.replicate (4 - (p.length + l.length) % 4) 0 ∧
    (toCells l (.ofNat 32 (num p)) p.length).length = (p.length + l.length) / 4 + 1
  | [], p, h => by
    unfold toCells
    split
    · rename_i h0
      rw [List.flatMap_singleton, cellBytes_num p (by omega)]
      simp only [List.append_nil, List.length_nil, Nat.add_zero, List.length_singleton]
      rw [Nat.mod_eq_of_lt h]
      exact ⟨rfl, by omega⟩
    · rename_i h0
      have : p = [] := List.eq_nil_of_length_eq_zero (by omega)
      subst this
      decide
  | b :: l, p, h => by
    unfold toCells
    rw [or_byte p b h]
    split
    · rename_i h3
      have ih := toCells_ok l [] (by decide)
      have hp : (p ++ [b]).length = 4 := by simp [h3]
      rw [List.flatMap_cons, cellBytes_num _ (by omega)]
      have e : num [] = 0 := rfl
      rw [e] at ih
      obtain ⟨i1, i2⟩ := ih
      simp only [List.length_nil, Nat.zero_add, List.nil_append] at i1 i2
      rw [hp]
      constructor
      · show _ ++ List.flatMap cellBytes (toCells l (BitVec.ofNat 32 0) 0) = _
        rw [i1]
        simp only [Nat.sub_self, List.replicate_zero, List.append_nil, List.length_cons, h3]
        rw [show (3 + (l.length + 1)) % 4 = l.length % 4 by omega]
        simp
      · rw [List.length_cons]
        show (toCells l (BitVec.ofNat 32 0) 0).length + 1 = _
        rw [i2, List.length_cons]
        omega
    · have ih := toCells_ok l (p ++ [b]) (by simp; omega)
      simp only [List.length_append, List.length_singleton] at ih
      obtain ⟨i1, i2⟩ := ih
      constructor
      · rw [i1]
        simp only [List.length_cons, List.append_assoc, List.singleton_append]
        rw [show p.length + 1 + l.length = p.length + (l.length + 1) by omega]
      · rw [i2, List.length_cons]
        omega

/-! ### Numbers -/

theorem digitOf_eq (b : Byte) : digitValue b = digitOf b := by
  have h : ∀ x : Fin 256, digitValue (.ofFin x) = digitOf (.ofFin x) := by decide +kernel
  exact h b.toFin

theorem digitOf_lt {b : Byte} {d : Nat} (h : digitOf b = some d) : d < 16 := by
  unfold digitOf at h
  split at h
  · cases h; omega
  · split at h
    · cases h; omega
    · split at h
      · cases h; omega
      · cases h

theorem digitOf_95 : digitOf 95 = none := by decide

theorem positional_append (base : Nat) (a b : List Nat) : positional base (a ++ b) = positional base a * base ^ b.length + positional base b := by
  induction a with
  | nil => simp [positional]
  | cons d a ih =>
    simp only [List.cons_append, positional, ih, List.length_append]
    rw [Nat.add_mul, Nat.add_assoc, Nat.pow_add, Nat.mul_assoc]

/-- A run of digits that is lexed. -/
structure Run (base : Nat) (body rest : List Byte) : Prop where
  chars : ∀ b ∈ body, b = 95 ∨ ∃ d, digitOf b = some d ∧ d < base
  stop : rest ≠ [] → digitOf (peek rest) = none ∧ peek rest ≠ 95

theorem lexDigits_stop {base : Nat} {rest : List Byte} (h : rest ≠ [] → digitOf (peek rest) = none ∧ peek rest ≠ 95) (v n : Nat)
    (r : List Nat) : lexDigits base rest v n r = ⟨v, n, r, rest⟩ := by
  cases rest with
  | nil => rfl
  | cons c l =>
    obtain ⟨h1, h2⟩ := h (by simp)
    have h1 : digitOf c = none := h1
    have h2 : ¬ c = 95 := h2
    unfold lexDigits
    rw [if_neg h2, h1]

theorem lexDigits_ok {base : Nat} {rest : List Byte} (hs : rest ≠ [] → digitOf (peek rest) = none ∧ peek rest ≠ 95) :
    ∀ (body : List Byte) (v n : Nat) (r : List Nat), (∀ b ∈ body, b = 95 ∨ ∃ d, digitOf b = some d ∧ d < base) →
    v * base ^ (body.filterMap digitOf).length + positional base (body.filterMap digitOf) ≤ 18446744073709551615 →
    lexDigits base (body ++ rest) v n r = ⟨v * base ^ (body.filterMap digitOf).length + positional base (body.filterMap digitOf),
      n + (body.filterMap digitOf).length, r, rest⟩
  | [], v, n, r, _, _ => by
    simp only [List.nil_append, List.filterMap_nil, List.length_nil, Nat.pow_zero, Nat.mul_one, positional, Nat.add_zero]
    exact lexDigits_stop hs v n r
  | c :: body, v, n, r, hc, hv => by
    have ih := lexDigits_ok (base := base) hs body
    rw [List.cons_append]
    unfold lexDigits
    rcases hc c (List.mem_cons_self ..) with h | ⟨d, h, hd⟩
    · subst h
      rw [if_pos rfl]
      rw [List.filterMap_cons_none digitOf_95] at hv ⊢
      exact ih v n r (fun b hb => hc b (List.mem_cons_of_mem _ hb)) hv
    · have h95 : ¬ c = 95 := by intro h'; subst h'; rw [digitOf_95] at h; cases h
      rw [if_neg h95, h]
      rw [List.filterMap_cons_some h] at hv ⊢
      simp only [List.length_cons, positional, Nat.pow_succ] at hv ⊢
      have hb : 0 < base := by omega
      have hp : 0 < base ^ (body.filterMap digitOf).length := Nat.pow_pos hb
      have e : v * (base ^ (body.filterMap digitOf).length * base) + (d * base ^ (body.filterMap digitOf).length +
          positional base (body.filterMap digitOf)) =
          (v * base + d) * base ^ (body.filterMap digitOf).length + positional base (body.filterMap digitOf) := by
        rw [Nat.add_mul, ← Nat.add_assoc, Nat.mul_comm (base ^ _) base, ← Nat.mul_assoc]
      rw [e] at hv ⊢
      have hle : v * base + d ≤ (v * base + d) * base ^ (body.filterMap digitOf).length := Nat.le_mul_of_pos_right _ hp
      rw [if_neg (by omega), if_neg (by omega), if_neg (by omega),
        ih (v * base + d) (n + 1) r (fun b hb => hc b (List.mem_cons_of_mem _ hb)) hv]
      congr 1
      omega

/-- A value that does not fit is reported. -/
theorem lexDigits_overflow {base : Nat} {rest : List Byte} :
    ∀ (body : List Byte) (v n : Nat) (r : List Nat), (∀ b ∈ body, b = 95 ∨ ∃ d, digitOf b = some d ∧ d < base) →
    v ≤ 18446744073709551615 →
    18446744073709551615 < v * base ^ (body.filterMap digitOf).length + positional base (body.filterMap digitOf) →
    135 ∈ (lexDigits base (body ++ rest) v n r).reports
  | [], v, n, r, _, h0, hv => by
    simp only [List.filterMap_nil, List.length_nil, Nat.pow_zero, Nat.mul_one, positional, Nat.add_zero] at hv
    omega
  | c :: body, v, n, r, hc, h0, hv => by
    have ih := lexDigits_overflow (base := base) (rest := rest) body
    rw [List.cons_append]
    unfold lexDigits
    rcases hc c (List.mem_cons_self ..) with h | ⟨d, h, hd⟩
    · subst h
      rw [if_pos rfl]
      rw [List.filterMap_cons_none digitOf_95] at hv
      exact ih v n r (fun b hb => hc b (List.mem_cons_of_mem _ hb)) h0 hv
    · have h95 : ¬ c = 95 := by intro h'; subst h'; rw [digitOf_95] at h; cases h
      rw [if_neg h95, h]
      rw [List.filterMap_cons_some h] at hv
      simp only [List.length_cons, positional, Nat.pow_succ] at hv ⊢
      have e : v * (base ^ (body.filterMap digitOf).length * base) + (d * base ^ (body.filterMap digitOf).length +
          positional base (body.filterMap digitOf)) =
          (v * base + d) * base ^ (body.filterMap digitOf).length + positional base (body.filterMap digitOf) := by
        rw [Nat.add_mul, ← Nat.add_assoc, Nat.mul_comm (base ^ _) base, ← Nat.mul_assoc]
      rw [e] at hv
      rw [if_neg (by omega)]
      split
      · simp
      · split
        · simp
        · exact ih (v * base + d) (n + 1) r (fun b hb => hc b (List.mem_cons_of_mem _ hb)) (by omega) hv

/-- Reports are only added. -/
theorem lexDigits_reports {base : Nat} : ∀ (l : List Byte) (v n : Nat) (r : List Nat), ∃ r', (lexDigits base l v n r).reports = r ++ r'
  | [], v, n, r => ⟨[], by simp [lexDigits]⟩
  | c :: l, v, n, r => by
    unfold lexDigits
    split
    · exact lexDigits_reports l v n r
    · split
      · exact ⟨[], by simp⟩
      · split
        · split
          · obtain ⟨r', h⟩ := lexDigits_reports (base := base) l v n (r ++ [86])
            exact ⟨[86] ++ r', by rw [h, List.append_assoc]⟩
          · exact lexDigits_reports l v n r
        · split
          · exact ⟨[135], rfl⟩
          · split
            · exact ⟨[135], rfl⟩
            · exact lexDigits_reports l _ _ r

/-- If nothing is reported, the text starts with a run of digits of the base. -/
theorem lexDigits_sound {base : Nat} : ∀ (l : List Byte) (v n : Nat), v ≤ 18446744073709551615 → (lexDigits base l v n []).reports = [] →
    ∃ body, l = body ++ (lexDigits base l v n []).rest ∧ (∀ b ∈ body, b = 95 ∨ ∃ d, digitOf b = some d ∧ d < base) ∧
      ((lexDigits base l v n []).rest ≠ [] → digitOf (peek (lexDigits base l v n []).rest) = none ∧ peek (lexDigits base l v n []).rest ≠ 95) ∧
      v * base ^ (body.filterMap digitOf).length + positional base (body.filterMap digitOf) ≤ 18446744073709551615
  | [], v, n, h0, h => ⟨[], by simp [lexDigits, positional]; exact h0⟩
  | c :: l, v, n, h0, h => by
    unfold lexDigits at h ⊢
    by_cases h95 : c = 95
    · rw [if_pos h95] at h ⊢
      obtain ⟨body, g1, g2, g3, g4⟩ := lexDigits_sound l v n h0 h
      refine ⟨c :: body, ?_, ?_, g3, ?_⟩
      · rw [List.cons_append, ← g1]
      · intro b hb
        rcases List.mem_cons.1 hb with h | h
        · exact Or.inl (h.trans h95)
        · exact g2 b h
      · subst h95
        rw [List.filterMap_cons_none digitOf_95]
        exact g4
    · rw [if_neg h95] at h ⊢
      cases hd : digitOf c with
      | none =>
        simp only
        refine ⟨[], by simp, by simp, fun _ => ⟨hd, h95⟩, by simp [positional]; exact h0⟩
      | some d =>
        rw [hd] at h
        simp only at h ⊢
        by_cases hb : d ≥ base
        · rw [if_pos hb] at h
          simp only [if_true] at h
          obtain ⟨r', hr⟩ := lexDigits_reports (base := base) l v n ([] ++ [86])
          rw [hr] at h
          simp at h
        · rw [if_neg hb] at h ⊢
          by_cases h1 : v * base > 18446744073709551615
          · rw [if_pos h1] at h; simp at h
          · rw [if_neg h1] at h ⊢
            by_cases h2 : v * base + d > 18446744073709551615
            · rw [if_pos h2] at h; simp at h
            · rw [if_neg h2] at h ⊢
              obtain ⟨body, g1, g2, g3, g4⟩ := lexDigits_sound l (v * base + d) (n + 1) (by omega) h
              refine ⟨c :: body, ?_, ?_, g3, ?_⟩
              · rw [List.cons_append, ← g1]
              · intro b hb
                rcases List.mem_cons.1 hb with h | h
                · exact Or.inr ⟨d, by rw [h]; exact hd, by omega⟩
                · exact g2 b h
              · rw [List.filterMap_cons_some hd]
                simp only [List.length_cons, positional, Nat.pow_succ]
                have e : v * (base ^ (body.filterMap digitOf).length * base) + (d * base ^ (body.filterMap digitOf).length +
                    positional base (body.filterMap digitOf)) =
                    (v * base + d) * base ^ (body.filterMap digitOf).length + positional base (body.filterMap digitOf) := by
                  rw [Nat.add_mul, ← Nat.add_assoc, Nat.mul_comm (base ^ _) base, ← Nat.mul_assoc]
                rw [e]
                exact g4

/-! ### UTF-8 -/

theorem shift_or (r x : Nat) (h : x < 64) : (r <<< 6) ||| x = r * 64 + x := by
  rw [Nat.shiftLeft_eq, Nat.mul_comm, ← Nat.two_pow_add_eq_or_of_lt (show x < 2 ^ 6 from h), Nat.mul_comm]

/-- A continuation byte. -/
theorem cont_facts (x : Nat) (h : x < 64) :
    (BitVec.ofNat 8 (0x80 + x)).toNat &&& 0xC0 = 0x80 ∧ (BitVec.ofNat 8 (0x80 + x)).toNat &&& 0x3F = x := by
  have : ∀ x : Fin 64, (BitVec.ofNat 8 (0x80 + x.val)).toNat &&& 0xC0 = 0x80 ∧ (BitVec.ofNat 8 (0x80 + x.val)).toNat &&& 0x3F = x.val := by
    decide +kernel
  exact this ⟨x, h⟩

theorem utf8More_cont (k r x : Nat) (l : List Byte) (h : x < 64) :
    utf8More (k + 1) r (BitVec.ofNat 8 (0x80 + x) :: l) = utf8More k (r * 64 + x) l := by
  obtain ⟨h1, h2⟩ := cont_facts x h
  rw [utf8More]
  show (if (BitVec.ofNat 8 (0x80 + x)).toNat &&& 0xC0 ≠ 0x80 then _ else utf8More k ((r <<< 6) ||| ((BitVec.ofNat 8 (0x80 + x)).toNat &&& 0x3F)) l) = _
  rw [h1, h2, shift_or r x h]
  rfl

theorem lead2 (x : Nat) (h : x < 32) (l : List Byte) : getUtf8 (.ofNat 8 (0xC0 + x)) l = utf8More 1 x l := by
  have : ∀ x : Fin 32, ¬ (BitVec.ofNat 8 (0xC0 + x.val)).toNat ≤ 0x7F ∧ ¬ (~~~(BitVec.ofNat 8 (0xC0 + x.val))).toNat = 0 ∧
      Nat.log2 (~~~(BitVec.ofNat 8 (0xC0 + x.val))).toNat = 5 ∧ (BitVec.ofNat 8 (0xC0 + x.val)).toNat &&& 31 = x.val := by decide +kernel
  obtain ⟨h1, h2, h3, h4⟩ := this ⟨x, h⟩
  simp only at h1 h2 h3 h4
  unfold getUtf8
  rw [if_neg h1, if_neg h2, h3]
  show utf8More 1 ((BitVec.ofNat 8 (0xC0 + x)).toNat &&& 31) l = _
  rw [h4]

theorem lead3 (x : Nat) (h : x < 16) (l : List Byte) : getUtf8 (.ofNat 8 (0xE0 + x)) l = utf8More 2 x l := by
  have : ∀ x : Fin 16, ¬ (BitVec.ofNat 8 (0xE0 + x.val)).toNat ≤ 0x7F ∧ ¬ (~~~(BitVec.ofNat 8 (0xE0 + x.val))).toNat = 0 ∧
      Nat.log2 (~~~(BitVec.ofNat 8 (0xE0 + x.val))).toNat = 4 ∧ (BitVec.ofNat 8 (0xE0 + x.val)).toNat &&& 15 = x.val := by decide +kernel
  obtain ⟨h1, h2, h3, h4⟩ := this ⟨x, h⟩
  simp only at h1 h2 h3 h4
  unfold getUtf8
  rw [if_neg h1, if_neg h2, h3]
  show utf8More 2 ((BitVec.ofNat 8 (0xE0 + x)).toNat &&& 15) l = _
  rw [h4]

theorem lead4 (x : Nat) (h : x < 8) (l : List Byte) : getUtf8 (.ofNat 8 (0xF0 + x)) l = utf8More 3 x l := by
  have : ∀ x : Fin 8, ¬ (BitVec.ofNat 8 (0xF0 + x.val)).toNat ≤ 0x7F ∧ ¬ (~~~(BitVec.ofNat 8 (0xF0 + x.val))).toNat = 0 ∧
      Nat.log2 (~~~(BitVec.ofNat 8 (0xF0 + x.val))).toNat = 3 ∧ (BitVec.ofNat 8 (0xF0 + x.val)).toNat &&& 7 = x.val := by decide +kernel
  obtain ⟨h1, h2, h3, h4⟩ := this ⟨x, h⟩
  simp only at h1 h2 h3 h4
  unfold getUtf8
  rw [if_neg h1, if_neg h2, h3]
  show utf8More 3 ((BitVec.ofNat 8 (0xF0 + x)).toNat &&& 7) l = _
  rw [h4]

/-- The encoding of a character is its first byte and others, and reads back. -/
theorem utf8_read (c : Nat) (h : c ≤ 0x10FFFF) : ∃ b r, utf8 c = b :: r ∧ ∀ l, getUtf8 b (r ++ l) = (some c, l) := by
  unfold utf8
  by_cases h1 : c < 0x80
  · rw [if_pos h1]
    refine ⟨_, _, rfl, fun l => ?_⟩
    have e : (BitVec.ofNat 8 c).toNat = c := by rw [BitVec.toNat_ofNat]; omega
    unfold getUtf8
    rw [e, if_pos (by omega)]
    rfl
  · rw [if_neg h1]
    by_cases h2 : c < 0x800
    · rw [if_pos h2]
      refine ⟨_, _, rfl, fun l => ?_⟩
      rw [lead2 _ (by omega), List.cons_append, List.nil_append, utf8More_cont _ _ _ _ (by omega)]
      show (some _, l) = _
      congr 2
      omega
    · rw [if_neg h2]
      by_cases h3 : c < 0x10000
      · rw [if_pos h3]
        refine ⟨_, _, rfl, fun l => ?_⟩
        rw [lead3 _ (by omega)]
        simp only [List.cons_append, List.nil_append]
        rw [utf8More_cont _ _ _ _ (by omega), utf8More_cont _ _ _ _ (by omega)]
        show (some _, l) = _
        congr 2
        omega
      · rw [if_neg h3]
        refine ⟨_, _, rfl, fun l => ?_⟩
        rw [lead4 _ (by omega)]
        simp only [List.cons_append, List.nil_append]
        rw [utf8More_cont _ _ _ _ (by omega), utf8More_cont _ _ _ _ (by omega), utf8More_cont _ _ _ _ (by omega)]
        show (some _, l) = _
        congr 2
        omega

/-- The first byte of a character outside ASCII. -/
theorem utf8_high {c : Nat} {b : Byte} {r : List Byte} (h : utf8 c = b :: r) (h1 : 0x80 ≤ c) (h2 : c ≤ 0x10FFFF) : 0x80 ≤ b.toNat := by
  unfold utf8 at h
  rw [if_neg (by omega)] at h
  split at h
  · cases h; rw [BitVec.toNat_ofNat]; omega
  · split at h
    · cases h; rw [BitVec.toNat_ofNat]; omega
    · cases h; rw [BitVec.toNat_ofNat]; omega

end Verif.Text

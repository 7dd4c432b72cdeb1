import Verif.Model.Md5

/-! C46: the MD5 digest does not depend on how the input is split, and is the one of RFC 1321. -/
namespace Verif.Md5

/-! ### One block -/

theorem rotl_eq (x : Word) (n : Nat) (h : n < 32) : rotl x n = x.rotateLeft n := by
  unfold rotl
  rw [BitVec.rotateLeft_def, Nat.mod_eq_of_lt h]

/-- A group of four calls does what four operations of the specification do. -/
theorem quad (x : List Word) (r : Regs) (f : Fn) (i n : Nat) (k0 k1 k2 k3 s0 s1 s2 s3 c0 c1 c2 c3 : Nat)
    (hf : ∀ u v w, f.eval u v w = Spec.aux n u v w) (hi : i / 16 = n ∧ i % 4 = 0)
    (h0 : Spec.index i = k0 ∧ Spec.amount i = s0 ∧ Spec.table.getD i 0 = c0 ∧ s0 < 32)
    (h1 : Spec.index (i + 1) = k1 ∧ Spec.amount (i + 1) = s1 ∧ Spec.table.getD (i + 1) 0 = c1 ∧ s1 < 32)
    (h2 : Spec.index (i + 2) = k2 ∧ Spec.amount (i + 2) = s2 ∧ Spec.table.getD (i + 2) 0 = c2 ∧ s2 < 32)
    (h3 : Spec.index (i + 3) = k3 ∧ Spec.amount (i + 3) = s3 ∧ Spec.table.getD (i + 3) 0 = c3 ∧ s3 < 32) :
    Op.run x (Op.run x (Op.run x (Op.run x r ⟨f, .a, .b, .c, .d, k0, s0, c0⟩) ⟨f, .d, .a, .b, .c, k1, s1, c1⟩)
      ⟨f, .c, .d, .a, .b, k2, s2, c2⟩) ⟨f, .b, .c, .d, .a, k3, s3, c3⟩ =
    Spec.operation x (Spec.operation x (Spec.operation x (Spec.operation x r i) (i + 1)) (i + 2)) (i + 3) := by
  obtain ⟨rfl, rfl, rfl, e0⟩ := h0
  obtain ⟨rfl, rfl, rfl, e1⟩ := h1
  obtain ⟨rfl, rfl, rfl, e2⟩ := h2
  obtain ⟨rfl, rfl, rfl, e3⟩ := h3
  have q : ∀ (a f x k b : Word) (n : Nat), n < 32 → rotl (a + (f + x + k)) n + b = b + (a + f + x + k).rotateLeft n := by
    intro a f x k b n hn
    rw [rotl_eq _ _ hn, BitVec.add_comm, ← BitVec.add_assoc, ← BitVec.add_assoc]
  simp only [Op.run, Regs.get, Regs.set, Spec.operation]
  rw [show i / 16 = n by omega, show (i + 1) / 16 = n by omega, show (i + 2) / 16 = n by omega, show (i + 3) / 16 = n by omega]
  simp only [q _ _ _ _ _ _ e0, q _ _ _ _ _ _ e1, q _ _ _ _ _ _ e2, q _ _ _ _ _ _ e3, hf]

theorem ops_eq (x : List Word) (r : Regs) : ops.foldl (Op.run x) r = (List.range 64).foldl (Spec.operation x) r := by
  have hr : List.range 64 = [0, 1, 2, 3, 4, 5, 6, 7, 8, 9, 10, 11, 12, 13, 14, 15, 16, 17, 18, 19, 20, 21, 22, 23, 24, 25, 26, 27, 28, 29,
    30, 31, 32, 33, 34, 35, 36, 37, 38, 39, 40, 41, 42, 43, 44, 45, 46, 47, 48, 49, 50, 51, 52, 53, 54, 55, 56, 57, 58, 59, 60, 61, 62, 63] := by
    decide
  rw [hr]
  unfold ops
  simp only [List.foldl_cons, List.foldl_nil]
  have f0 : ∀ u v w, Fn.ff.eval u v w = Spec.aux 0 u v w := fun _ _ _ => rfl
  have f1 : ∀ u v w, Fn.gg.eval u v w = Spec.aux 1 u v w := fun _ _ _ => rfl
  have f2 : ∀ u v w, Fn.hh.eval u v w = Spec.aux 2 u v w := fun _ _ _ => rfl
  have f3 : ∀ u v w, Fn.ii.eval u v w = Spec.aux 3 u v w := fun _ _ _ => rfl
  rw [quad x _ .ii 60 3 _ _ _ _ _ _ _ _ _ _ _ _ f3 (by decide) (by decide) (by decide) (by decide) (by decide),
    quad x _ .ii 56 3 _ _ _ _ _ _ _ _ _ _ _ _ f3 (by decide) (by decide) (by decide) (by decide) (by decide),
    quad x _ .ii 52 3 _ _ _ _ _ _ _ _ _ _ _ _ f3 (by decide) (by decide) (by decide) (by decide) (by decide),
    quad x _ .ii 48 3 _ _ _ _ _ _ _ _ _ _ _ _ f3 (by decide) (by decide) (by decide) (by decide) (by decide),
    quad x _ .hh 44 2 _ _ _ _ _ _ _ _ _ _ _ _ f2 (by decide) (by decide) (by decide) (by decide) (by decide),
    quad x _ .hh 40 2 _ _ _ _ _ _ _ _ _ _ _ _ f2 (by decide) (by decide) (by decide) (by decide) (by decide),
    quad x _ .hh 36 2 _ _ _ _ _ _ _ _ _ _ _ _ f2 (by decide) (by decide) (by decide) (by decide) (by decide),
    quad x _ .hh 32 2 _ _ _ _ _ _ _ _ _ _ _ _ f2 (by decide) (by decide) (by decide) (by decide) (by decide),
    quad x _ .gg 28 1 _ _ _ _ _ _ _ _ _ _ _ _ f1 (by decide) (by decide) (by decide) (by decide) (by decide),
    quad x _ .gg 24 1 _ _ _ _ _ _ _ _ _ _ _ _ f1 (by decide) (by decide) (by decide) (by decide) (by decide),
    quad x _ .gg 20 1 _ _ _ _ _ _ _ _ _ _ _ _ f1 (by decide) (by decide) (by decide) (by decide) (by decide),
    quad x _ .gg 16 1 _ _ _ _ _ _ _ _ _ _ _ _ f1 (by decide) (by decide) (by decide) (by decide) (by decide),
    quad x _ .ff 12 0 _ _ _ _ _ _ _ _ _ _ _ _ f0 (by decide) (by decide) (by decide) (by decide) (by decide),
    quad x _ .ff 8 0 _ _ _ _ _ _ _ _ _ _ _ _ f0 (by decide) (by decide) (by decide) (by decide) (by decide),
    quad x _ .ff 4 0 _ _ _ _ _ _ _ _ _ _ _ _ f0 (by decide) (by decide) (by decide) (by decide) (by decide),
    quad x _ .ff 0 0 _ _ _ _ _ _ _ _ _ _ _ _ f0 (by decide) (by decide) (by decide) (by decide) (by decide)]

theorem decodeWord_eq (a b c d : Byte) :
    decodeWord a b c d = BitVec.ofNat 32 (a.toNat + 256 * b.toNat + 65536 * c.toNat + 16777216 * d.toNat) := by
  have ha := a.isLt
  have hb := b.isLt
  have hc := c.isLt
  have hd := d.isLt
  apply BitVec.eq_of_toNat_eq
  simp only [decodeWord, BitVec.toNat_or, BitVec.toNat_shiftLeft, BitVec.toNat_setWidth, BitVec.toNat_ofNat]
  rw [Nat.shiftLeft_eq, Nat.shiftLeft_eq, Nat.shiftLeft_eq, Nat.mod_eq_of_lt (by omega : a.toNat < 2 ^ 32),
    Nat.mod_eq_of_lt (by omega : b.toNat < 2 ^ 32), Nat.mod_eq_of_lt (by omega : c.toNat < 2 ^ 32),
    Nat.mod_eq_of_lt (by omega : d.toNat < 2 ^ 32), Nat.mod_eq_of_lt (by omega : b.toNat * 2 ^ 8 < 2 ^ 32),
    Nat.mod_eq_of_lt (by omega : c.toNat * 2 ^ 16 < 2 ^ 32), Nat.mod_eq_of_lt (by omega : d.toNat * 2 ^ 24 < 2 ^ 32)]
  have o1 : a.toNat ||| b.toNat * 2 ^ 8 = a.toNat + b.toNat * 2 ^ 8 := by
    rw [Nat.or_comm, Nat.mul_comm, ← Nat.two_pow_add_eq_or_of_lt (by omega : a.toNat < 2 ^ 8)]; omega
  rw [o1]
  have o2 : (a.toNat + b.toNat * 2 ^ 8) ||| c.toNat * 2 ^ 16 = a.toNat + b.toNat * 2 ^ 8 + c.toNat * 2 ^ 16 := by
    rw [Nat.or_comm, Nat.mul_comm c.toNat, ← Nat.two_pow_add_eq_or_of_lt (by omega)]; omega
  rw [o2]
  have o3 : (a.toNat + b.toNat * 2 ^ 8 + c.toNat * 2 ^ 16) ||| d.toNat * 2 ^ 24 =
      a.toNat + b.toNat * 2 ^ 8 + c.toNat * 2 ^ 16 + d.toNat * 2 ^ 24 := by
    rw [Nat.or_comm, Nat.mul_comm d.toNat, ← Nat.two_pow_add_eq_or_of_lt (by omega)]; omega
  rw [o3]
  omega

theorem decode_eq : ∀ l, decode l = Spec.words l
  | [] => rfl
  | [_] => rfl
  | [_, _] => rfl
  | [_, _, _] => rfl
  | a :: b :: c :: d :: l => by
    unfold decode Spec.words
    rw [decodeWord_eq, decode_eq l]

theorem transform_eq (r : Regs) (blk : List Byte) : transform r blk = Spec.block r (Spec.words blk) := by
  unfold transform Spec.block
  rw [decode_eq, ops_eq]

theorem encode_cons (w : Word) (l : List Word) : encode (w :: l) = Spec.bytes 4 w.toNat ++ encode l := by
  have e (k : Nat) : (w >>> k).setWidth 8 = BitVec.ofNat 8 (w.toNat / 2 ^ k) := by
    apply BitVec.eq_of_toNat_eq
    rw [BitVec.toNat_setWidth, BitVec.toNat_ushiftRight, BitVec.toNat_ofNat, Nat.shiftRight_eq_div_pow]
  have e0 : w.setWidth 8 = BitVec.ofNat 8 w.toNat := by
    apply BitVec.eq_of_toNat_eq
    rw [BitVec.toNat_setWidth, BitVec.toNat_ofNat]
  show _ = BitVec.ofNat 8 w.toNat :: BitVec.ofNat 8 (w.toNat / 256) :: BitVec.ofNat 8 (w.toNat / 256 / 256) ::
    BitVec.ofNat 8 (w.toNat / 256 / 256 / 256) :: encode l
  rw [encode, e0, e 8, e 16, e 24, Nat.div_div_eq_div_mul, Nat.div_div_eq_div_mul]

theorem bytes_append (j k n : Nat) : Spec.bytes (j + k) n = Spec.bytes j n ++ Spec.bytes k (n / 256 ^ j) := by
  induction j generalizing n with
  | zero => simp [Spec.bytes]
  | succ j ih =>
    rw [show j + 1 + k = (j + k) + 1 by omega]
    show _ :: Spec.bytes (j + k) (n / 256) = _ :: _ ++ _
    rw [ih, Nat.div_div_eq_div_mul, Nat.pow_succ, Nat.mul_comm 256]
    rfl

theorem bytes_mod (k n m : Nat) (h : n % 256 ^ k = m % 256 ^ k) : Spec.bytes k n = Spec.bytes k m := by
  induction k generalizing n m with
  | zero => rfl
  | succ k ih =>
    have e1 : n % 256 = m % 256 := by
      have a1 := Nat.mod_mod_of_dvd n (show 256 ∣ 256 ^ (k + 1) from ⟨256 ^ k, by rw [Nat.pow_succ, Nat.mul_comm]⟩)
      have a2 := Nat.mod_mod_of_dvd m (show 256 ∣ 256 ^ (k + 1) from ⟨256 ^ k, by rw [Nat.pow_succ, Nat.mul_comm]⟩)
      rw [← a1, ← a2, h]
    have e2 : n / 256 % 256 ^ k = m / 256 % 256 ^ k := by
      have a (x : Nat) : x / 256 % 256 ^ k = x % 256 ^ (k + 1) / 256 := by
        rw [Nat.pow_succ, Nat.mul_comm, Nat.mod_mul_right_div_self]
      rw [a, a, h]
    show BitVec.ofNat 8 n :: _ = BitVec.ofNat 8 m :: _
    rw [ih _ _ e2]
    congr 1
    apply BitVec.eq_of_toNat_eq
    rw [BitVec.toNat_ofNat, BitVec.toNat_ofNat]
    exact e1

/-! ### The running state -/

theorem blocks_append (j : Nat) : ∀ (r : Regs) (m l : List Byte), m.length = 64 * j → ∀ k,
    Spec.blocks (j + k) r (m ++ l) = Spec.blocks k (Spec.blocks j r m) l := by
  induction j with
  | zero =>
    intro r m l h k
    have : m = [] := List.eq_nil_of_length_eq_zero (by omega)
    subst this
    rw [Nat.zero_add]
    rfl
  | succ j ih =>
    intro r m l h k
    rw [show j + 1 + k = (j + k) + 1 by omega]
    show Spec.blocks (j + k) (Spec.block r (Spec.words ((m ++ l).take 64))) ((m ++ l).drop 64) =
      Spec.blocks k (Spec.blocks j (Spec.block r (Spec.words (m.take 64))) (m.drop 64)) l
    rw [List.take_append_of_le_length (show 64 ≤ m.length by omega), List.drop_append_of_le_length (show 64 ≤ m.length by omega)]
    exact ih _ (m.drop 64) l (by rw [List.length_drop]; omega) k

/-- The context after some bytes: the whole blocks are in the state, the rest at the front of the buffer, the bits in the count. -/
structure After (m : Ctx) (l : List Byte) : Prop where
  live : m.finalized = false
  size : m.buffer.length = 64
  count : m.count0.toNat + 4294967296 * m.count1.toNat = 8 * l.length % 18446744073709551616
  state : m.state = Spec.blocks (l.length / 64) Spec.initial l
  rest : m.buffer.take (l.length % 64) = l.drop (64 * (l.length / 64))

theorem after_init {b d : List Byte} (h : b.length = 64) : After (.init b d) [] := ⟨rfl, h, rfl, rfl, rfl⟩

theorem After.index {m : Ctx} {l : List Byte} (h : After m l) : ((m.count0 >>> 3) &&& 63).toNat = l.length % 64 := by
  have := h.count
  have h0 := m.count0.isLt
  rw [BitVec.toNat_and, BitVec.toNat_ushiftRight, Nat.shiftRight_eq_div_pow]
  show (m.count0.toNat / 2 ^ 3) &&& (2 ^ 6 - 1) = _
  rw [Nat.and_two_pow_sub_one_eq_mod]
  omega

theorem count_update (c0 c1 : Word) (n k : Nat) (hk : k < 4294967296) (h : c0.toNat + 4294967296 * c1.toNat = 8 * n % 18446744073709551616) :
    let len : Word := BitVec.ofNat 32 k
    let d0 := c0 + (len <<< 3)
    let d1 := (if d0 < (len <<< 3) then c1 + 1 else c1) + (len >>> 29)
    d0.toNat + 4294967296 * d1.toNat = 8 * (n + k) % 18446744073709551616 := by
  intro len d0 d1
  have e1 : (len <<< 3).toNat = 8 * k % 4294967296 := by
    rw [BitVec.toNat_shiftLeft, Nat.shiftLeft_eq, BitVec.toNat_ofNat]; omega
  have e2 : (len >>> 29).toNat = k / 536870912 := by
    rw [BitVec.toNat_ushiftRight, Nat.shiftRight_eq_div_pow, BitVec.toNat_ofNat]; omega
  have e3 : d0.toNat = (c0.toNat + 8 * k % 4294967296) % 4294967296 := by
    rw [BitVec.toNat_add, e1]
  have h0 := c0.isLt
  have h1 := c1.isLt
  have e4 : d1.toNat = (c1.toNat + (if d0.toNat < 8 * k % 4294967296 then 1 else 0) + k / 536870912) % 4294967296 := by
    show ((if d0 < (len <<< 3) then c1 + 1 else c1) + (len >>> 29)).toNat = _
    rw [BitVec.toNat_add, e2]
    by_cases hc : d0 < (len <<< 3)
    · have hc' := BitVec.lt_def.1 hc
      rw [e1] at hc'
      rw [if_pos hc, if_pos hc', BitVec.toNat_add]
      show ((c1.toNat + 1) % 4294967296 + _) % 4294967296 = _
      omega
    · have hc' := fun h => hc (BitVec.lt_def.2 h)
      rw [e1] at hc'
      rw [if_neg hc, if_neg hc', Nat.add_zero]
  rw [e3] at e4 ⊢
  split at e4 <;> omega

/-- The loop over whole blocks, when the input is not within 63 bytes of 4 GiB. -/
theorem transformAll_ok (input : List Byte) (hn : input.length ≤ 4294967232) (index : Nat) (r : Regs) (hi : index ≤ input.length) :
    transformAll input index r = some (index + 64 * ((input.length - index) / 64),
      Spec.blocks ((input.length - index) / 64) r (input.drop index)) := by
  unfold transformAll
  rw [Nat.mod_eq_of_lt (by omega)]
  by_cases h : index + 64 ≤ input.length
  · rw [if_pos (by omega), if_pos h, transformAll_ok input hn (index + 64) _ h, transform_eq]
    have e : (input.length - index) / 64 = (input.length - (index + 64)) / 64 + 1 := by omega
    rw [e]
    congr 2
    · omega
    · show _ = Spec.blocks _ _ ((input.drop index).drop 64)
      rw [List.drop_drop]
  · rw [if_neg (by omega)]
    have e : (input.length - index) / 64 = 0 := by omega
    rw [e]
    rfl
termination_by input.length - index

theorem put_length {b l : List Byte} {n : Nat} (h : n + l.length ≤ b.length) : (put b n l).length = b.length := by
  unfold put
  simp only [List.length_append, List.length_take, List.length_drop]
  omega

theorem put_take {b l : List Byte} {n : Nat} (h : n + l.length ≤ b.length) : (put b n l).take (n + l.length) = b.take n ++ l := by
  unfold put
  have e : (b.take n ++ l).length = n + l.length := by simp only [List.length_append, List.length_take]; omega
  rw [List.take_append_of_le_length (by omega), List.take_of_length_le (by omega)]

/-- An update adds its input. -/
theorem After.update {m : Ctx} {l input : List Byte} (h : After m l) (hn : input.length ≤ 4294967232) :
    ∃ m', Md5.update input m = some m' ∧ After m' (l ++ input) := by
  have hc := count_update m.count0 m.count1 l.length input.length (by omega) h.count
  unfold Md5.update
  rw [h.live]
  simp only [Bool.false_eq_true, if_false]
  rw [h.index]
  have hsz := h.size
  have hlt : l.length % 64 < 64 := Nat.mod_lt _ (by omega)
  have hsplit : l = l.take (64 * (l.length / 64)) ++ m.buffer.take (l.length % 64) := by
    rw [h.rest, List.take_append_drop]
  have hq : (l.take (64 * (l.length / 64))).length = 64 * (l.length / 64) := by rw [List.length_take]; omega
  have hst : m.state = Spec.blocks (l.length / 64) Spec.initial (l.take (64 * (l.length / 64))) := by
    rw [h.state]
    have := blocks_append (l.length / 64) Spec.initial (l.take (64 * (l.length / 64))) (l.drop (64 * (l.length / 64))) hq 0
    rw [List.take_append_drop] at this
    exact this
  by_cases hf : input.length ≥ 64 - l.length % 64
  · rw [if_pos hf, transformAll_ok input hn _ _ hf]
    refine ⟨_, rfl, ?_⟩
    have hl1 : (input.take (64 - l.length % 64)).length = 64 - l.length % 64 := by rw [List.length_take]; omega
    have hb : put m.buffer (l.length % 64) (input.take (64 - l.length % 64)) = m.buffer.take (l.length % 64) ++ input.take (64 - l.length % 64) := by
      have := put_take (b := m.buffer) (l := input.take (64 - l.length % 64)) (n := l.length % 64) (by omega)
      rw [hl1, show l.length % 64 + (64 - l.length % 64) = 64 by omega,
        List.take_of_length_le (by rw [put_length (by omega)]; omega)] at this
      exact this
    have hbl : (put m.buffer (l.length % 64) (input.take (64 - l.length % 64))).length = 64 := by rw [put_length (by omega)]; exact hsz
    have e1 : (l ++ input).length / 64 = l.length / 64 + (1 + (input.length - (64 - l.length % 64)) / 64) := by
      rw [List.length_append]; omega
    have hdl : (input.drop (64 - l.length % 64 + 64 * ((input.length - (64 - l.length % 64)) / 64))).length = (l ++ input).length % 64 := by
      rw [List.length_drop, List.length_append]; omega
    constructor
    · rfl
    · show (put _ 0 _).length = 64
      rw [put_length (by rw [hbl, hdl]; omega)]
      exact hbl
    · rw [List.length_append]; exact hc
    · show Spec.blocks _ (transform _ _) _ = _
      rw [e1]
      have e2 : l ++ input = l.take (64 * (l.length / 64)) ++ (m.buffer.take (l.length % 64) ++ input) := by
        rw [← List.append_assoc, ← hsplit]
      rw [e2, blocks_append _ _ _ _ hq, ← hst]
      have e3 : m.buffer.take (l.length % 64) ++ input = put m.buffer (l.length % 64) (input.take (64 - l.length % 64)) ++
          input.drop (64 - l.length % 64) := by
        rw [hb, List.append_assoc, List.take_append_drop]
      rw [e3, blocks_append 1 _ _ _ (by rw [hbl]), transform_eq]
      show _ = Spec.blocks _ (Spec.block _ (Spec.words (List.take 64 _))) _
      rw [List.take_of_length_le (Nat.le_of_eq hbl)]
    · show (put _ 0 _).take _ = _
      have := put_take (b := put m.buffer (l.length % 64) (input.take (64 - l.length % 64)))
        (l := input.drop (64 - l.length % 64 + 64 * ((input.length - (64 - l.length % 64)) / 64))) (n := 0) (by rw [hbl, hdl]; omega)
      rw [Nat.zero_add, hdl] at this
      rw [this, List.take_zero, List.nil_append, e1, List.drop_append]
      rw [List.drop_of_length_le (by omega : l.length ≤ _), List.nil_append]
      congr 1
      omega
  · rw [if_neg hf]
    refine ⟨_, rfl, ?_⟩
    have hf : l.length % 64 + input.length < 64 := by omega
    have e1 : (l ++ input).length / 64 = l.length / 64 := by rw [List.length_append]; omega
    constructor
    · rfl
    · show (put _ _ _).length = 64
      rw [put_length (by omega)]
      exact hsz
    · rw [List.length_append]; exact hc
    · show m.state = _
      have e2 : l ++ input = l.take (64 * (l.length / 64)) ++ (m.buffer.take (l.length % 64) ++ input) := by
        rw [← List.append_assoc, ← hsplit]
      rw [e1, hst, e2]
      exact (blocks_append _ _ _ _ hq 0).symm
    · show (put _ _ _).take _ = _
      have e2 : (l ++ input).length % 64 = l.length % 64 + input.length := by rw [List.length_append]; omega
      rw [e2, put_take (by omega), e1, List.drop_append_of_le_length (by omega), h.rest]

theorem After.updates {cs : List (List Byte)} : ∀ {m : Ctx} {l : List Byte}, After m l → (∀ c ∈ cs, c.length ≤ 4294967232) →
    ∃ m', Md5.updates cs m = some m' ∧ After m' (l ++ cs.flatten) := by
  induction cs with
  | nil =>
    intro m l h _
    exact ⟨m, rfl, by simpa using h⟩
  | cons c cs ih =>
    intro m l h hn
    obtain ⟨m1, h1, h2⟩ := h.update (hn c (List.mem_cons_self ..))
    obtain ⟨m2, h3, h4⟩ := ih h2 fun d hd => hn d (List.mem_cons_of_mem _ hd)
    refine ⟨m2, ?_, ?_⟩
    · unfold Md5.updates
      rw [h1]
      exact h3
    · rw [List.flatten_cons, ← List.append_assoc]
      exact h4

theorem finalize_ok {m : Ctx} {l : List Byte} (h : After m l) : (Md5.finalize m).bind rawDigest = some (Spec.digest l) := by
  unfold Md5.finalize
  rw [h.live]
  simp only [Bool.false_eq_true, if_false]
  rw [h.index]
  have hbits : encode [m.count0, m.count1] = Spec.bytes 8 (8 * l.length) := by
    rw [encode_cons, encode_cons, show (8 : Nat) = 4 + 4 from rfl, bytes_append]
    show _ ++ (_ ++ []) = _
    have := h.count
    have h0 := m.count0.isLt
    have h1 := m.count1.isLt
    rw [List.append_nil, bytes_mod 4 m.count0.toNat ((4 + 4) * l.length) (by omega),
      bytes_mod 4 m.count1.toNat ((4 + 4) * l.length / 256 ^ 4) (by omega)]
  have hpad : ∀ k, 1 ≤ k → k ≤ 64 → ((128 : Byte) :: List.replicate 63 0).take k = 128 :: List.replicate (k - 1) 0 := by
    intro k h1 h2
    obtain ⟨j, rfl⟩ : ∃ j, k = j + 1 := ⟨k - 1, by omega⟩
    rw [List.take_succ_cons, List.take_replicate]
    congr 2
    omega
  have hlt : l.length % 64 < 64 := Nat.mod_lt _ (by omega)
  have hp : ((128 : Byte) :: List.replicate 63 0).take (if l.length % 64 < 56 then 56 - l.length % 64 else 120 - l.length % 64) =
      128 :: List.replicate ((119 - l.length % 64) % 64) 0 := by
    split
    · rw [hpad _ (by omega) (by omega)]
      congr 2
      omega
    · rw [hpad _ (by omega) (by omega)]
      congr 2
      omega
  rw [hp, hbits]
  obtain ⟨m1, h1, h2⟩ := h.update (input := 128 :: List.replicate ((119 - l.length % 64) % 64) 0)
    (by rw [List.length_cons, List.length_replicate]; omega)
  obtain ⟨m2, h3, h4⟩ := h2.update (input := Spec.bytes 8 (8 * l.length)) (by simp [Spec.bytes])
  rw [h1]
  simp only
  rw [h3]
  show some (encode [m2.state.a, m2.state.b, m2.state.c, m2.state.d]) = _
  have e : l ++ (128 :: List.replicate ((119 - l.length % 64) % 64) 0) ++ Spec.bytes 8 (8 * l.length) = l ++ Spec.padding l.length := by
    unfold Spec.padding
    simp
  rw [e] at h4
  have hs := h4.state
  unfold Spec.digest
  simp only
  rw [← hs, encode_cons, encode_cons, encode_cons, encode_cons]
  simp [encode]

/-- **C46.** Whatever is in the memory of a new object, hashing chunks none of which is within 63 bytes of 4 GiB gives the digest RFC 1321
prescribes for their concatenation.
Missing: a single chunk of 4294967233 to 4294967295 bytes (`C46_huge_chunk`). -/
theorem C46_digest_partial (buffer digest : List Byte) (hb : buffer.length = 64) (chunks : List (List Byte))
    (hn : ∀ c ∈ chunks, c.length ≤ 4294967232) : md5 buffer digest chunks = some (Spec.digest chunks.flatten) := by
  unfold md5
  obtain ⟨m, h1, h2⟩ := (after_init (d := digest) hb).updates hn
  rw [h1]
  exact finalize_ok h2

/-- So the digest does not depend on the chunks. -/
theorem C46_chunks_partial (b b' d d' : List Byte) (hb : b.length = 64) (hb' : b'.length = 64) (cs cs' : List (List Byte))
    (h : ∀ c ∈ cs, c.length ≤ 4294967232) (h' : ∀ c ∈ cs', c.length ≤ 4294967232) (he : cs.flatten = cs'.flatten) :
    md5 b d cs = md5 b' d' cs' ∧ ∃ x, md5 b d cs = some x ∧ x.length = 16 := by
  rw [C46_digest_partial b d hb cs h, C46_digest_partial b' d' hb' cs' h', he]
  refine ⟨rfl, _, rfl, ?_⟩
  unfold Spec.digest
  simp [Spec.bytes]

/-- After the digest is taken, further updates change nothing. -/
theorem C46_finalized (m m' : Ctx) (input : List Byte) (h : finalize m = some m') :
    update input m' = some m' ∧ finalize m' = some m' ∧ (m'.finalized = true) := by
  have hf : m'.finalized = true := by
    unfold finalize at h
    split at h
    · cases h; assumption
    · simp only at h
      split at h
      · cases h
      · split at h
        · cases h
        · cases h; rfl
  refine ⟨?_, ?_, hf⟩
  · unfold update; rw [if_pos hf]
  · unfold finalize; rw [if_pos hf]

/-- Two ways to split "abc", and the hypotheses on them. -/
example : md5 (List.replicate 64 7) [] [[97], [], [98, 99]] = md5 (List.replicate 64 0) [] [[97, 98, 99]] := by
  refine (C46_chunks_partial _ _ _ _ ?_ ?_ _ _ ?_ ?_ ?_).1 <;> decide

/-- The loop runs off the end of an input of 2^32 - 1 bytes when it is entered with 63 bytes in the buffer. -/
theorem transformAll_wraps (input : List Byte) (hn : input.length = 4294967295) (index : Nat) (r : Regs) (h1 : index % 64 = 1)
    (h2 : index ≤ 4294967233) : transformAll input index r = none := by
  unfold transformAll
  by_cases h : index + 64 ≤ input.length
  · rw [if_pos (by omega), if_pos h]
    exact transformAll_wraps input hn (index + 64) _ (by omega) (by omega)
  · rw [if_pos (by omega), if_neg h]
termination_by input.length - index

/-- **A chunk of 2^32 - 1 bytes after 63 others makes `update` read outside its input**: `input_index + 63` wraps to zero
(vm/md5/md5.cpp:89). -/
theorem C46_huge_chunk (buffer digest first input : List Byte) (hb : buffer.length = 64) (hf : first.length = 63)
    (hn : input.length = 4294967295) : md5 buffer digest [first, input] = none := by
  obtain ⟨m, h1, h2⟩ := (after_init (d := digest) hb).update (input := first) (by omega)
  rw [List.nil_append] at h2
  unfold md5 updates
  rw [h1]
  show ((update input m).bind _).bind _ = none
  have : update input m = none := by
    unfold update
    rw [h2.live]
    simp only [Bool.false_eq_true, if_false]
    rw [h2.index, hf, if_pos (by omega), transformAll_wraps input hn _ _ (by omega) (by omega)]
  rw [this]
  rfl

/-- Such chunks exist. -/
example : ∃ first input : List Byte, first.length = 63 ∧ input.length = 4294967295 :=
  ⟨List.replicate 63 0, List.replicate 4294967295 0, List.length_replicate .., List.length_replicate ..⟩

end Verif.Md5

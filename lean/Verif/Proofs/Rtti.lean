import Verif.Spec.Rtti

/-! Lemmas about the type-information reader. -/
namespace Verif.Rtti

theorem andThen_ok {α β} (bs : List Byte) (a : α) (f : List Byte → α → PRes β) :
    (PRes.ok bs a).andThen f = f bs a := rfl

/-! ## Integers -/

theorem or_shift {value d s : Nat} (h : value < 2 ^ s) : value ||| d <<< s = value + d * 2 ^ s := by
  rw [Nat.or_comm, ← Nat.shiftLeft_add_eq_or_of_lt h, Nat.shiftLeft_eq, Nat.add_comm]

theorem decodeUintFrom_varint {v : List Byte} {n : Nat} (h : Varint v n) :
    ∀ (value shift : Nat) (post : List Byte), value < 2 ^ shift → shift + 7 * (v.length - 1) < 32 →
      n * 2 ^ shift < 2 ^ 32 →
      decodeUintFrom value shift (v ++ post) = .ok post (value + n * 2 ^ shift) := by
  induction h with
  | last b hb =>
    intro value shift post hv hs hn
    simp only [List.cons_append, List.nil_append, decodeUintFrom]
    rw [Nat.mod_eq_of_lt hb, Nat.shiftLeft_eq, if_neg (by simp at hs; omega), if_pos hb, ← Nat.shiftLeft_eq,
      or_shift hv, Nat.shiftLeft_eq]
  | more b v n hb hvn ih =>
    intro value shift post hv hs hn
    have hl : v.length ≥ 1 := by cases hvn <;> simp
    simp only [List.cons_append, decodeUintFrom]
    have hb' : b.toNat % 128 < 128 := Nat.mod_lt _ (by omega)
    rw [Nat.add_mul] at hn
    simp only [List.length_cons] at hs
    rw [Nat.shiftLeft_eq, if_neg (by omega), if_neg (by omega), ← Nat.shiftLeft_eq, or_shift hv]
    have hp : 2 ^ (shift + 7) = 2 ^ shift * 128 := by rw [Nat.pow_add]
    have e : 128 * n * 2 ^ shift = n * (2 ^ shift * 128) := by
      rw [Nat.mul_comm 128 n, Nat.mul_assoc, Nat.mul_comm 128]
    rw [ih _ _ _ ?_ (by omega) ?_, hp]
    · congr 1
      rw [Nat.add_mul, e]; omega
    · rw [hp]
      have : b.toNat % 128 * 2 ^ shift ≤ 127 * 2 ^ shift := Nat.mul_le_mul_right _ (by omega)
      omega
    · rw [hp, ← e]; omega

theorem decodeUint_compact {v : List Byte} {n : Nat} (h : Compact v n) (post : List Byte) :
    decodeUint (v ++ post) = .ok post n := by
  unfold decodeUint
  rw [decodeUintFrom_varint h.1 0 0 post (by decide) (by have := h.2.2; omega) (by have := h.2.1; omega)]
  simp

theorem readCompactFrom_varint {v : List Byte} {n : Nat} (h : Varint v n) :
    ∀ (value shift : Nat) (post : List Byte), value < 2 ^ shift → shift + 7 * (v.length - 1) < 32 →
      n * 2 ^ shift < 2 ^ 32 →
      readCompactFrom value shift (v ++ post) = .ok post (some (value + n * 2 ^ shift)) := by
  induction h with
  | last b hb =>
    intro value shift post hv hs hn
    simp only [List.cons_append, List.nil_append, readCompactFrom]
    rw [Nat.mod_eq_of_lt hb, Nat.shiftLeft_eq, if_neg (by omega), if_pos hb, ← Nat.shiftLeft_eq,
      or_shift hv, Nat.shiftLeft_eq]
  | more b v n hb hvn ih =>
    intro value shift post hv hs hn
    have hl : v.length ≥ 1 := by cases hvn <;> simp
    simp only [List.cons_append, readCompactFrom]
    have hb' : b.toNat % 128 < 128 := Nat.mod_lt _ (by omega)
    rw [Nat.add_mul] at hn
    simp only [List.length_cons] at hs
    rw [Nat.shiftLeft_eq, if_neg (by omega), if_neg (by omega), if_neg (by omega), ← Nat.shiftLeft_eq, or_shift hv]
    have hp : 2 ^ (shift + 7) = 2 ^ shift * 128 := by rw [Nat.pow_add]
    have e : 128 * n * 2 ^ shift = n * (2 ^ shift * 128) := by
      rw [Nat.mul_comm 128 n, Nat.mul_assoc, Nat.mul_comm 128]
    rw [ih _ _ _ ?_ (by omega) ?_, hp]
    · congr 2
      rw [Nat.add_mul, e]; omega
    · rw [hp]
      have : b.toNat % 128 * 2 ^ shift ≤ 127 * 2 ^ shift := Nat.mul_le_mul_right _ (by omega)
      omega
    · rw [hp, ← e]; omega

theorem tryDecodeUint_varint {v : List Byte} {n : Nat} (h : Varint v n) (post : List Byte) :
    tryDecodeUint (v ++ post) = (post, true) := by
  induction h with
  | last b hb => simp [tryDecodeUint, hb]
  | more b v n hb _ ih =>
    simp only [List.cons_append, tryDecodeUint]
    rw [if_neg (by omega), ih]

theorem ofNat_or_high {m : Nat} (h : m < 128) : (BitVec.ofNat 8 m ||| (0x80 : Byte)).toNat = m + 128 := by
  have : (BitVec.ofNat 8 m ||| (0x80 : Byte)).toNat = m ||| 1 <<< 7 := by
    rw [BitVec.toNat_or, BitVec.toNat_ofNat, Nat.mod_eq_of_lt (by omega)]; rfl
  rw [this, or_shift (by omega)]

theorem compactEncode_varint (n : Nat) : Varint (compactEncode n) n := by
  induction n using Nat.strongRecOn with
  | ind n ih =>
    rw [compactEncode]
    split
    case isTrue h =>
      have h1 := ofNat_or_high (m := n % 128) (Nat.mod_lt _ (by omega))
      have := Varint.more (BitVec.ofNat 8 (n % 128) ||| 0x80) _ (n / 128) (by omega) (ih _ (by omega))
      rw [h1, show (n % 128 + 128) % 128 + 128 * (n / 128) = n by omega] at this
      exact this
    case isFalse h =>
      have h1 : (BitVec.ofNat 8 (n % 128)).toNat = n := by
        rw [BitVec.toNat_ofNat]; omega
      have := Varint.last (BitVec.ofNat 8 (n % 128)) (by omega)
      rwa [h1] at this

theorem compactEncode_length (n : Nat) : ∀ k, n < 128 ^ (k + 1) → (compactEncode n).length ≤ k + 1 := by
  intro k
  induction k generalizing n with
  | zero =>
    intro h
    rw [compactEncode, dif_neg (by omega)]; simp
  | succ k ih =>
    intro h
    rw [compactEncode]
    split
    · rw [List.length_cons]
      have : n / 128 < 128 ^ (k + 1) := by
        rw [Nat.div_lt_iff_lt_mul (by omega)]; rwa [← Nat.pow_succ]
      have := ih _ this
      omega
    · simp

theorem compactEncode_compact {n : Nat} (h : n < 2 ^ 32) : Compact (compactEncode n) n :=
  ⟨compactEncode_varint n, h, compactEncode_length n 4 (by omega)⟩

/-! ## Ends -/

theorem Ends.intro {α} {f : Nat → PRes α} {rest a} (N : Nat) (h : ∀ n, N ≤ n → f n = .ok rest a) : Ends f rest a := ⟨N, h⟩

theorem Ends.succ {α} {f : Nat → PRes α} {rest a} (h : Ends (fun n => f (n + 1)) rest a) : Ends f rest a := by
  obtain ⟨N, h⟩ := h
  refine ⟨N + 1, fun n hn => ?_⟩
  obtain ⟨m, rfl⟩ : ∃ m, n = m + 1 := ⟨n - 1, by omega⟩
  exact h m (by omega)

theorem Ends.bind {α β} {f : Nat → PRes α} {g : Nat → List Byte → α → PRes β} {rest a rest' b}
    (h : Ends f rest a) (h' : Ends (fun n => g n rest a) rest' b) :
    Ends (fun n => (f n).andThen (g n)) rest' b := by
  obtain ⟨N, h⟩ := h
  obtain ⟨N', h'⟩ := h'
  refine ⟨N + N', fun n hn => ?_⟩
  show (f n).andThen (g n) = _
  rw [h n (by omega), andThen_ok]
  exact h' n (by omega)

theorem Ends.const {α} {r : PRes α} {rest a} (h : r = .ok rest a) : Ends (fun _ => r) rest a := ⟨0, fun _ _ => h⟩

theorem Ends.congr {α} {f g : Nat → PRes α} {rest a} (h : Ends f rest a) (e : ∀ n, g n = f n) : Ends g rest a := by
  obtain ⟨N, h⟩ := h
  exact ⟨N, fun n hn => by rw [e, h n hn]⟩

/-! ## Indicator bytes -/

/-- Bytes that start an unqualified type. -/
def isTypeByte (b : Byte) : Bool :=
  isPlain b || isIndexed b || b == kFixedArray || b == kArray || b == kFunction

theorem typeByte_facts : ∀ b : Byte, isTypeByte b = true →
    b ≠ kConst ∧ b ≠ kByRef ∧ b ≠ kVoid ∧ b ≠ kLegacyVariadic := by decide +kernel

theorem plain_facts : ∀ b : Byte, isPlain b = true → isTypeByte b = true := by decide +kernel
theorem indexed_facts : ∀ b : Byte, isIndexed b = true →
    isTypeByte b = true ∧ isPlain b = false ∧ b ≠ kFixedArray ∧ b ≠ kArray := by decide +kernel

theorem core_head {c t k} (h : Core c t k) : ∃ b rest, c = b :: rest ∧ isTypeByte b = true := by
  cases h with
  | plain b h => exact ⟨b, [], rfl, plain_facts b h⟩
  | indexed b v i h hv => exact ⟨b, v, rfl, (indexed_facts b h).1⟩
  | fixed => exact ⟨_, _, rfl, by decide⟩
  | array => exact ⟨_, _, rfl, by decide⟩
  | func => exact ⟨_, _, rfl, by decide⟩

theorem match_eq (b : Byte) (rest : List Byte) : matchByte b (b :: rest) = .ok rest true := by
  simp [matchByte]
theorem match_ne {b x : Byte} (h : x ≠ b) (rest : List Byte) : matchByte b (x :: rest) = .ok (x :: rest) false := by
  simp [matchByte, h]

theorem core_match {c t k} (h : Core c t k) {b : Byte}
    (hb : b = kConst ∨ b = kByRef ∨ b = kVoid ∨ b = kLegacyVariadic) (post : List Byte) :
    matchByte b (c ++ post) = .ok (c ++ post) false := by
  obtain ⟨x, rest, rfl, hx⟩ := core_head h
  have := typeByte_facts x hx
  exact match_ne (by rcases hb with rfl | rfl | rfl | rfl <;> simp_all) _

theorem core_ne_nil {c t k} (h : Core c t k) (post : List Byte) : c ++ post ≠ [] := by
  obtain ⟨x, rest, rfl, hx⟩ := core_head h; simp

/-! ## Decoding follows the format -/

theorem decode_core_step {c t k} (_h : Core c t k) (q : Qual) (cst : Bool) (post : List Byte)
    (body : Nat → Bool → List Byte → PRes (Option Rtti × Bool)) (rest : List Byte)
    (hc1 : matchByte kConst (c ++ post) = .ok (c ++ post) false)
    (hc2 : matchByte kByRef (c ++ post) = .ok (c ++ post) false)
    (hb : Ends (fun n => body n (q.const || cst) (c ++ post)) rest (some t, q.const || cst || k)) :
    Ends (fun n => (matchByte kConst (q.bytes ++ (c ++ post))).andThen fun bs c' =>
        (matchByte kByRef bs).andThen fun bs byRef =>
        (body n (c' || cst) bs).andThen fun bs p =>
        (applyByRef byRef p.1 bs).andThen fun bs result => .ok bs (result, p.2))
      rest (some (markRef q.byRef t), q.const || cst || k) := by
  obtain ⟨qc, qr⟩ := q
  obtain ⟨N, hb⟩ := hb
  refine ⟨N, fun n hn => ?_⟩
  have hb := hb n hn
  cases qc <;> cases qr <;> dsimp only [Qual.bytes] at hb ⊢
  · simp only [Bool.false_eq_true, ↓reduceIte, List.nil_append, hc1, hc2, andThen_ok, hb, applyByRef, markRef]
  · simp only [Bool.false_eq_true, ↓reduceIte, List.nil_append, List.cons_append,
      match_ne (show kByRef ≠ kConst by decide), match_eq, andThen_ok, hb, applyByRef, markRef]
  · simp only [Bool.false_eq_true, ↓reduceIte, List.append_nil, List.cons_append, List.nil_append,
      match_eq, hc2, andThen_ok, hb, applyByRef, markRef]
  · simp only [↓reduceIte, List.cons_append, List.nil_append, match_eq, andThen_ok, hb, applyByRef, markRef]

/-- The body of `decode` after the qualifiers. -/
def decodeBody (n : Nat) (isConst : Bool) (bs : List Byte) : PRes (Option Rtti × Bool) :=
  (nextByte bs).andThen fun bs type =>
    if isPlain type then .ok bs (some (Rtti.plain type), isConst)
    else if type = kFixedArray then
      (decodeUint bs).andThen fun bs size =>
      (decode n isConst bs).andThen fun bs p =>
      .ok bs (some (Rtti.wrap type size p.1), p.2)
    else if type = kArray then
      (decode n isConst bs).andThen fun bs p =>
      .ok bs (some (Rtti.wrap type 0 p.1), p.2)
    else if isIndexed type then
      (decodeUint bs).andThen fun bs index => .ok bs (some (Rtti.indexed type index), isConst)
    else if type = kFunction then
      (decodeFunction n bs).andThen fun bs f => .ok bs (some f, isConst)
    else .ok bs (none, isConst)

theorem andThen_assoc {α β γ} (r : PRes α) (f : List Byte → α → PRes β) (g : List Byte → β → PRes γ) :
    (r.andThen f).andThen g = r.andThen fun bs a => (f bs a).andThen g := by
  cases r <;> rfl

theorem decode_succ (n : Nat) (isConst : Bool) (bs : List Byte) :
    decode (n + 1) isConst bs =
      (matchByte kConst bs).andThen fun bs c' =>
        (matchByte kByRef bs).andThen fun bs byRef =>
        (decodeBody n (c' || isConst) bs).andThen fun bs p =>
        (applyByRef byRef p.1 bs).andThen fun bs result => .ok bs (result, p.2) := by
  unfold decodeBody
  simp only [andThen_assoc]
  rw [decode]

theorem decodeNew_of_decode {bs rest : List Byte} {t : Rtti} {k : Bool}
    (h : Ends (fun n => decode n false bs) rest (some t, k)) :
    Ends (fun n => decodeNew n bs) rest (some (markConst k t)) := by
  apply Ends.succ
  obtain ⟨N, h⟩ := h
  refine ⟨N, fun n hn => ?_⟩
  have h := h n hn
  simp only [decodeNew]
  simp only at h
  rw [h, andThen_ok]
  cases k <;> simp [markConst]

theorem decode_of_body {c t k} (h : Core c t k)
    (hb : ∀ (cst : Bool) (post : List Byte), Ends (fun n => decodeBody n cst (c ++ post)) post (some t, cst || k))
    (q : Qual) (cst : Bool) (post : List Byte) :
    Ends (fun n => decode n cst (q.bytes ++ (c ++ post))) post (some (markRef q.byRef t), q.const || cst || k) := by
  apply Ends.succ
  refine Ends.congr ?_ (fun n => decode_succ n cst _)
  exact decode_core_step h q cst post decodeBody post (core_match h (Or.inl rfl) _)
    (core_match h (Or.inr (Or.inl rfl)) _) (hb _ post)

theorem decodeNew_of_body {c t k} (h : Core c t k)
    (hb : ∀ (cst : Bool) (post : List Byte), Ends (fun n => decodeBody n cst (c ++ post)) post (some t, cst || k))
    (q : Qual) (post : List Byte) :
    Ends (fun n => decodeNew n (q.bytes ++ (c ++ post))) post (some (markConst (q.const || k) (markRef q.byRef t))) := by
  have := decodeNew_of_decode (decode_of_body h hb q false post)
  simpa using this

theorem qual_core_match {c t k} (h : Core c t k) (q : Qual) {b : Byte} (hb : b = kVoid ∨ b = kLegacyVariadic) (post : List Byte) :
    matchByte b (q.bytes ++ (c ++ post)) = .ok (q.bytes ++ (c ++ post)) false := by
  obtain ⟨qc, qr⟩ := q
  cases qc <;> cases qr <;> simp only [Qual.bytes, Bool.false_eq_true, ↓reduceIte, List.nil_append, List.cons_append]
  · exact core_match h (by rcases hb with rfl | rfl <;> simp) post
  all_goals exact match_ne (by rcases hb with rfl | rfl <;> decide) _

/-- A return type is not mistaken for a variadic mark. -/
theorem ret_match {r t} (h : Ret r t) (post : List Byte) :
    matchByte kLegacyVariadic (r ++ post) = .ok (r ++ post) false := by
  cases h with
  | void => exact match_ne (by decide) _
  | type q c t k hc => rw [List.append_assoc]; exact qual_core_match hc q (Or.inr rfl) post

theorem match_variadic (v : Bool) (bs : List Byte) (h : matchByte kLegacyVariadic bs = .ok bs false) :
    matchByte kLegacyVariadic ((if v then [kLegacyVariadic] else []) ++ bs) = .ok bs v := by
  cases v
  · simpa using h
  · simp [match_eq]

/-- The by-reference mark of a parameter, together with the qualifiers of its type. -/
theorem decode_param {c t k} (h : Core c t k)
    (hb : ∀ (cst : Bool) (post : List Byte), Ends (fun n => decodeBody n cst (c ++ post)) post (some t, cst || k))
    (r : Bool) (q : Qual) (post : List Byte) :
    Ends (fun n => (matchByte kByRef ((if r then [kByRef] else []) ++ (q.bytes ++ (c ++ post)))).andThen fun bs byRef =>
      (decodeNew n bs).andThen fun bs arg => applyByRef byRef arg bs)
      post (some (markRef r (markConst (q.const || k) (markRef q.byRef t)))) := by
  have hd := decodeNew_of_body h hb q post
  cases r
  · -- the mark may belong to the type itself
    obtain ⟨qc, qr⟩ := q
    cases qc
    · cases qr
      · obtain ⟨N, hd⟩ := hd
        refine ⟨N, fun n hn => ?_⟩
        have hd := hd n hn
        simp only [Qual.bytes, Bool.false_eq_true, ↓reduceIte, List.nil_append] at hd ⊢
        rw [core_match h (Or.inr (Or.inl rfl)), andThen_ok, hd, andThen_ok]
        simp [applyByRef, markRef]
      · have hd' := decodeNew_of_body h hb ⟨false, false⟩ post
        obtain ⟨N, hd⟩ := hd'
        refine ⟨N, fun n hn => ?_⟩
        have hd := hd n hn
        simp only [Qual.bytes, Bool.false_eq_true, ↓reduceIte, List.nil_append, List.cons_append] at hd ⊢
        rw [match_eq, andThen_ok, hd, andThen_ok]
        obtain ⟨ty, i, inner, c1, r1, a, v⟩ := t
        cases k <;> simp [applyByRef, markRef, markConst, Rtti.setByRef, Rtti.setConst]
    · obtain ⟨N, hd⟩ := hd
      refine ⟨N, fun n hn => ?_⟩
      have hd := hd n hn
      simp only [Qual.bytes, Bool.false_eq_true, ↓reduceIte, List.nil_append, List.cons_append] at hd ⊢
      rw [match_ne (by decide), andThen_ok, hd, andThen_ok]
      simp [applyByRef, markRef]
  · obtain ⟨N, hd⟩ := hd
    refine ⟨N, fun n hn => ?_⟩
    have hd := hd n hn
    simp only [↓reduceIte, List.nil_append, List.cons_append] at hd ⊢
    rw [match_eq, andThen_ok, hd, andThen_ok]
    simp [applyByRef, markRef]

mutual
theorem decodeBody_core : ∀ {c t k}, Core c t k → ∀ (cst : Bool) (post : List Byte),
    Ends (fun n => decodeBody n cst (c ++ post)) post (some t, cst || k)
  | _, _, _, .plain b h, cst, post => ⟨0, fun n _ => by simp [decodeBody, nextByte, andThen_ok, h]⟩
  | _, _, _, .indexed b v i h hv, cst, post => by
    obtain ⟨_, h1, h2, h3⟩ := indexed_facts b h
    refine ⟨0, fun n _ => ?_⟩
    simp [decodeBody, nextByte, andThen_ok, h, h1, h2, h3, decodeUint_compact hv]
  | _, _, _, .fixed v m q c t k hv hc, cst, post => by
    obtain ⟨N, h⟩ := decode_of_body hc (decodeBody_core hc) q cst post
    refine ⟨N, fun n hn => ?_⟩
    have h := h n hn
    simp only at h
    simp only [decodeBody, nextByte, List.cons_append, List.append_assoc, andThen_ok]
    rw [if_neg (by decide), if_pos (by trivial), decodeUint_compact hv, andThen_ok, h, andThen_ok]
    rw [Bool.or_comm q.const cst, Bool.or_assoc]
  | _, _, _, .array q c t k hc, cst, post => by
    obtain ⟨N, h⟩ := decode_of_body hc (decodeBody_core hc) q cst post
    refine ⟨N, fun n hn => ?_⟩
    have h := h n hn
    simp only at h
    simp only [decodeBody, nextByte, List.cons_append, List.append_assoc, andThen_ok]
    rw [if_neg (by decide), if_neg (by decide), if_pos (by trivial), h, andThen_ok]
    rw [Bool.or_comm q.const cst, Bool.or_assoc]
  | _, _, _, .func s t hs, cst, post => by
    obtain ⟨N, h⟩ := decode_sig hs post
    refine ⟨N, fun n hn => ?_⟩
    have h := h n hn
    simp only at h
    simp only [decodeBody, nextByte, List.cons_append, andThen_ok]
    rw [if_neg (by decide), if_neg (by decide), if_neg (by decide), if_neg (by decide), if_pos (by trivial), h, andThen_ok]
    simp
theorem decode_sig : ∀ {s t}, Sig s t → ∀ (post : List Byte), Ends (fun n => decodeFunction n (s ++ post)) post t
  | _, _, .mk argc v ret rt ps args _ hret hps, post => by
    obtain ⟨N, h⟩ := decode_ret hret (ps ++ post)
    obtain ⟨M, h'⟩ := decode_params hps post
    apply Ends.succ
    refine ⟨N + M, fun n hn => ?_⟩
    have h := h n (by omega)
    have h' := h' n (by omega)
    simp only at h h'
    simp only [decodeFunction, nextByte, List.cons_append, List.append_assoc, andThen_ok]
    rw [match_variadic v _ (ret_match hret _), andThen_ok]
    rw [← andThen_assoc, h, andThen_ok, h', andThen_ok]
theorem decode_ret : ∀ {r t}, Ret r t → ∀ (post : List Byte),
    Ends (fun n => (matchByte kVoid (r ++ post)).andThen fun bs void =>
      if void then .ok bs (some (Rtti.plain kVoid)) else decodeNew n bs) post (some t)
  | _, _, .void, post => ⟨0, fun n _ => rfl⟩
  | _, _, .type q c t k hc, post => by
    refine Ends.congr (decodeNew_of_body hc (decodeBody_core hc) q post) (fun n => ?_)
    rw [List.append_assoc, qual_core_match hc q (Or.inl rfl), andThen_ok]
    simp
theorem decode_params : ∀ {n ps args}, Params n ps args → ∀ (post : List Byte),
    Ends (fun f => decodeArgs f n (ps ++ post)) post (args.map some)
  | _, _, _, .nil, post => Ends.succ (Ends.const rfl)
  | _, _, _, .cons n r q c t k ps args hc hps, post => by
    obtain ⟨N, h⟩ := decode_param hc (decodeBody_core hc) r q (ps ++ post)
    obtain ⟨M, h'⟩ := decode_params hps post
    apply Ends.succ
    refine ⟨N + M, fun f hf => ?_⟩
    have h := h f (by omega)
    have h' := h' f (by omega)
    simp only at h h'
    simp only [decodeArgs, List.append_assoc]
    simp only [← andThen_assoc] at h ⊢
    rw [h, andThen_ok, h', andThen_ok]
    rfl
end

/-! ## Validation accepts the format -/

/-- The body of `validate` after the qualifiers. -/
def validateBody (n : Nat) (bs : List Byte) : PRes Bool :=
  (nextByte bs).andThen fun bs type =>
    if isPlain type then .ok bs true
    else if type = kFixedArray then
      let (bs, ok) := tryDecodeUint bs
      if ok then validate n bs else .ok bs false
    else if type = kArray then validate n bs
    else if isIndexed type then
      let (bs, ok) := tryDecodeUint bs
      .ok bs ok
    else if type = kFunction then validateFunction n bs
    else .ok bs false

theorem validate_succ (n : Nat) (bs : List Byte) :
    validate (n + 1) bs = needByte bs (skipByte kConst bs fun bs => needByte bs (skipByte kByRef bs fun bs =>
      needByte bs (validateBody n bs))) := by
  rw [validate]; rfl

theorem needByte_ok {bs : List Byte} (h : bs ≠ []) (k : PRes Bool) : needByte bs k = k := by simp [needByte, h]

theorem skip_eq (b : Byte) (rest : List Byte) (k : List Byte → PRes Bool) : skipByte b (b :: rest) k = k rest := by
  simp [skipByte, match_eq, andThen_ok]
theorem skip_ne {b : Byte} {bs : List Byte} (h : matchByte b bs = .ok bs false) (k : List Byte → PRes Bool) :
    skipByte b bs k = k bs := by
  simp [skipByte, h, andThen_ok]

theorem validate_of_body {c t k} (h : Core c t k) (post : List Byte)
    (hb : Ends (fun n => validateBody n (c ++ post)) post true) (q : Qual) :
    Ends (fun n => validate n (q.bytes ++ (c ++ post))) post true := by
  have hn := core_ne_nil h post
  apply Ends.succ
  refine Ends.congr hb (fun n => ?_)
  rw [validate_succ]
  obtain ⟨qc, qr⟩ := q
  have m1 := core_match h (b := kConst) (Or.inl rfl) post
  have m2 := core_match h (b := kByRef) (Or.inr (Or.inl rfl)) post
  cases qc <;> cases qr <;>
    simp only [Qual.bytes, Bool.false_eq_true, ↓reduceIte, List.nil_append, List.append_nil, List.cons_append]
  · rw [needByte_ok hn, skip_ne m1, needByte_ok hn, skip_ne m2, needByte_ok hn]
  · rw [needByte_ok (by simp), skip_ne (match_ne (by decide) _), needByte_ok (by simp), skip_eq, needByte_ok hn]
  · rw [needByte_ok (by simp), skip_eq, needByte_ok hn, skip_ne m2, needByte_ok hn]
  · rw [needByte_ok (by simp), skip_eq, needByte_ok (by simp), skip_eq, needByte_ok hn]

/-- A parameter, whose qualifiers are partly skipped by the caller. -/
theorem validate_param {c t k} (h : Core c t k) (post : List Byte)
    (hb : Ends (fun n => validateBody n (c ++ post)) post true) (r : Bool) (q : Qual) :
    Ends (fun n => needByte ((if r then [kByRef] else []) ++ (q.bytes ++ (c ++ post)))
      (skipByte kConst ((if r then [kByRef] else []) ++ (q.bytes ++ (c ++ post))) fun bs => needByte bs
        (skipByte kByRef bs fun bs => validate n bs))) post true := by
  have hn := core_ne_nil h post
  have m1 := core_match h (b := kConst) (Or.inl rfl) post
  have m2 := core_match h (b := kByRef) (Or.inr (Or.inl rfl)) post
  have hv := validate_of_body h post hb
  have h00 := hv ⟨false, false⟩
  simp only [Qual.bytes, Bool.false_eq_true, ↓reduceIte, List.nil_append] at h00
  cases r
  · obtain ⟨qc, qr⟩ := q
    refine Ends.congr h00 (fun n => ?_)
    cases qc <;> cases qr <;>
      simp only [Qual.bytes, Bool.false_eq_true, ↓reduceIte, List.nil_append, List.append_nil, List.cons_append]
    · rw [needByte_ok hn, skip_ne m1, needByte_ok hn, skip_ne m2]
    · rw [needByte_ok (by simp), skip_ne (match_ne (by decide) _), needByte_ok (by simp), skip_eq]
    · rw [needByte_ok (by simp), skip_eq, needByte_ok hn, skip_ne m2]
    · rw [needByte_ok (by simp), skip_eq, needByte_ok (by simp), skip_eq]
  · refine Ends.congr (hv q) (fun n => ?_)
    simp only [↓reduceIte, List.nil_append, List.cons_append]
    rw [needByte_ok (by simp), skip_ne (match_ne (by decide) _), needByte_ok (by simp), skip_eq]

theorem ret_ne_nil {r t} (h : Ret r t) (post : List Byte) : r ++ post ≠ [] := by
  cases h with
  | void => simp
  | type q c t k hc => have := core_ne_nil hc post; simp_all

mutual
theorem validateBody_core : ∀ {c t k}, Core c t k → ∀ (post : List Byte),
    Ends (fun n => validateBody n (c ++ post)) post true
  | _, _, _, .plain b h, post => ⟨0, fun n _ => by simp [validateBody, nextByte, andThen_ok, h]⟩
  | _, _, _, .indexed b v i h hv, post => by
    obtain ⟨_, h1, h2, h3⟩ := indexed_facts b h
    refine ⟨0, fun n _ => ?_⟩
    simp [validateBody, nextByte, andThen_ok, h, h1, h2, h3, tryDecodeUint_varint hv.1]
  | _, _, _, .fixed v m q c t k hv hc, post => by
    obtain ⟨N, h⟩ := validate_of_body hc post (validateBody_core hc post) q
    refine ⟨N, fun n hn => ?_⟩
    have h := h n hn
    simp only at h
    simp only [validateBody, nextByte, List.cons_append, List.append_assoc, andThen_ok]
    rw [if_neg (by decide), if_pos (by trivial), tryDecodeUint_varint hv.1]
    simpa using h
  | _, _, _, .array q c t k hc, post => by
    obtain ⟨N, h⟩ := validate_of_body hc post (validateBody_core hc post) q
    refine ⟨N, fun n hn => ?_⟩
    have h := h n hn
    simp only at h
    simp only [validateBody, nextByte, List.cons_append, List.append_assoc, andThen_ok]
    rw [if_neg (by decide), if_neg (by decide), if_pos (by trivial), h]
  | _, _, _, .func s t hs, post => by
    obtain ⟨N, h⟩ := validate_sig hs post
    refine ⟨N, fun n hn => ?_⟩
    have h := h n hn
    simp only at h
    simp only [validateBody, nextByte, List.cons_append, andThen_ok]
    rw [if_neg (by decide), if_neg (by decide), if_neg (by decide), if_neg (by decide), if_pos (by trivial), h]
theorem validate_sig : ∀ {s t}, Sig s t → ∀ (post : List Byte), Ends (fun n => validateFunction n (s ++ post)) post true
  | _, _, .mk argc v ret rt ps args hargc hret hps, post => by
    obtain ⟨N, h⟩ := validate_ret hret (ps ++ post)
    obtain ⟨M, h'⟩ := validate_params hps post
    apply Ends.succ
    refine ⟨N + M, fun n hn => ?_⟩
    have h := h n (by omega)
    have h' := h' n (by omega)
    simp only at h h'
    have hne := ret_ne_nil hret (ps ++ post)
    simp only [validateFunction, List.cons_append, List.append_assoc]
    rw [needByte_ok (by simp), skip_ne (match_ne hargc _), needByte_ok (by simp)]
    simp only [nextByte, andThen_ok]
    rw [needByte_ok (by simp_all)]
    unfold skipByte
    rw [match_variadic v _ (ret_match hret _), andThen_ok]
    show needByte (ret ++ (ps ++ post)) _ = _
    rw [needByte_ok hne, h]
    simp only [PRes.andTry, andThen_ok, ↓reduceIte]
    exact h'
theorem validate_ret : ∀ {r t}, Ret r t → ∀ (post : List Byte),
    Ends (fun n => (matchByte kVoid (r ++ post)).andThen fun bs void =>
      if void then .ok bs true else validate n bs) post true
  | _, _, .void, post => ⟨0, fun n _ => rfl⟩
  | _, _, .type q c t k hc, post => by
    refine Ends.congr (validate_of_body hc post (validateBody_core hc post) q) (fun n => ?_)
    rw [List.append_assoc, qual_core_match hc q (Or.inl rfl), andThen_ok]
    simp
theorem validate_params : ∀ {n ps args}, Params n ps args → ∀ (post : List Byte),
    Ends (fun f => validateArgs f n (ps ++ post)) post true
  | _, _, _, .nil, post => Ends.succ ⟨0, fun _ _ => rfl⟩
  | _, _, _, .cons n r q c t k ps args hc hps, post => by
    obtain ⟨N, h⟩ := validate_param hc (ps ++ post) (validateBody_core hc _) r q
    obtain ⟨M, h'⟩ := validate_params hps post
    apply Ends.succ
    refine ⟨N + M, fun f hf => ?_⟩
    have h := h f (by omega)
    have h' := h' f (by omega)
    simp only at h h'
    simp only [validateArgs, List.append_assoc]
    have key : ∀ (bs : List Byte) (k : List Byte → PRes Bool),
        needByte bs (skipByte kConst bs fun bs => needByte bs (skipByte kByRef bs fun bs => validate f bs)) = .ok (ps ++ post) true →
        needByte bs (skipByte kConst bs fun bs => needByte bs (skipByte kByRef bs fun bs =>
          (validate f bs).andTry k)) = k (ps ++ post) := by
      intro bs k hk
      unfold needByte skipByte at hk ⊢
      split at hk
      · cases hk
      · rename_i h1
        rw [if_neg h1]
        cases hm : matchByte kConst bs with
        | ok b1 x =>
          rw [hm] at hk
          simp only [andThen_ok] at hk ⊢
          split at hk
          · cases hk
          · rename_i h2
            rw [if_neg h2]
            cases hm2 : matchByte kByRef b1 with
            | ok b2 y =>
              rw [hm2] at hk
              simp only [andThen_ok] at hk ⊢
              rw [hk]
              simp [PRes.andTry, andThen_ok]
            | ub => rw [hm2] at hk; cases hk
            | fuel => rw [hm2] at hk; cases hk
        | ub => rw [hm] at hk; cases hk
        | fuel => rw [hm] at hk; cases hk
    rw [key _ _ h, h']
end

theorem desc_decode {d t} (h : Desc d t) (post : List Byte) :
    Ends (fun n => decodeNew n (d ++ post)) post (some t) ∧ Ends (fun n => validate n (d ++ post)) post true := by
  obtain ⟨q, c, u, k, hc, rfl, rfl⟩ := h
  rw [List.append_assoc]
  exact ⟨decodeNew_of_body hc (decodeBody_core hc) q post, validate_of_body hc post (validateBody_core hc post) q⟩

end Verif.Rtti

import Verif.Proofs.Rtti

/-! C34 compact integers, C35 type descriptors round trip, C36 validation makes decoding safe. -/
namespace Verif.Rtti

/-! ## C34 -/

/-- **C34.** Every 32-bit value, whatever follows its encoding, is read back by the three readers of the VM,
consuming exactly the bytes written, and takes at most five bytes. -/
theorem C34_round_trip (x : BitVec 32) (post : List Byte) :
    decodeUint (compactEncode x.toNat ++ post) = .ok post x.toNat ∧
    tryDecodeUint (compactEncode x.toNat ++ post) = (post, true) ∧
    readCompact (compactEncode x.toNat ++ post) = .ok post (some x.toNat) ∧
    1 ≤ (compactEncode x.toNat).length ∧ (compactEncode x.toNat).length ≤ 5 := by
  have hc := compactEncode_compact x.isLt
  refine ⟨decodeUint_compact hc post, tryDecodeUint_varint hc.1 post, ?_, ?_, hc.2.2⟩
  · unfold readCompact
    rw [readCompactFrom_varint hc.1 0 0 post (by decide) (by have := hc.2.2; omega) (by have := hc.2.1; omega)]
    simp
  · rw [compactEncode]; split <;> simp

/-- **C34 (prefix freedom).** No encoding is a prefix of the encoding of another value. -/
theorem C34_prefix_free (x y : BitVec 32) (more : List Byte)
    (h : compactEncode y.toNat = compactEncode x.toNat ++ more) : x = y ∧ more = [] := by
  have h1 := (C34_round_trip x more).1
  have h2 := (C34_round_trip y []).1
  rw [List.append_nil, h, h1] at h2
  simp only [PRes.ok.injEq] at h2
  exact ⟨BitVec.eq_of_toNat_eq h2.2, h2.1⟩

example : compactEncode 300 = [0xac, 0x02] := by decide +kernel
example : compactEncode 0xffffffff = [0xff, 0xff, 0xff, 0xff, 0x0f] := by decide +kernel
example : compactEncode 0 = [0] := by decide +kernel

/-- The reader that is not bounded by the five-byte limit shifts by 35 bits on an overlong number, although
the check that precedes it accepts the bytes. -/
theorem C34_overlong_accepted_then_undefined :
    tryDecodeUint [0x80, 0x80, 0x80, 0x80, 0x80, 0] = ([], true) ∧
    decodeUint [0x80, 0x80, 0x80, 0x80, 0x80, 0] = .ub := ⟨by rfl, by rfl⟩

/-! ## C35 -/

theorem encodeBase_core (b : CBase) (h : b ≠ .void) : Core (encodeBase b) (viewBase b) false := by
  cases b <;> first
    | exact absurd rfl h
    | exact Core.plain _ (by decide)
    | exact Core.indexed _ _ _ (by decide) (compactEncode_compact (BitVec.isLt _))

theorem encodeDim_core (size : BitVec 32) {c : List Byte} {t : Rtti} (hc : Core c t false) :
    Core (encodeDim size ++ c) (viewDim size t) false := by
  have e1 : (⟨false, false⟩ : Qual).bytes = [] := rfl
  unfold encodeDim viewDim
  by_cases h : size = 0
  · rw [if_pos h, if_neg (by subst h; simp)]
    exact Core.array ⟨false, false⟩ c t false hc
  · have h' : size.toNat ≠ 0 := fun e => h (BitVec.eq_of_toNat_eq (by simpa using e))
    rw [if_neg h, if_pos h']
    exact Core.fixed _ _ ⟨false, false⟩ c t false (compactEncode_compact size.isLt) hc

theorem encodeArray_core : ∀ (a : CArray), a.elem ≠ .void → Core (encodeArray a) (viewArray a) false
  | .last size b, h => encodeDim_core size (encodeBase_core b h)
  | .dim size a, h => encodeDim_core size (encodeArray_core a h)

/-- Every compiler type is an unqualified type with qualifiers in front. -/
theorem encodeQual_form (q : CQual) (h : q.IsValue) : ∃ (w : Qual) (c : List Byte) (u : Rtti),
    Core c u false ∧ encodeQual q = w.bytes ++ c ∧ viewQual q = markConst w.const (markRef w.byRef u) := by
  obtain ⟨isConst, type⟩ := q
  cases type with
  | base b => exact ⟨⟨isConst, false⟩, _, _, encodeBase_core b h, by cases isConst <;> rfl, by cases isConst <;> rfl⟩
  | ref b => exact ⟨⟨isConst, true⟩, _, _, encodeBase_core b h, by cases isConst <;> rfl, by cases isConst <;> rfl⟩
  | array a => exact ⟨⟨isConst, false⟩, _, _, encodeArray_core a h, by cases isConst <;> rfl, by cases isConst <;> rfl⟩

theorem encodeQual_desc (q : CQual) (h : q.IsValue) : Desc (encodeQual q) (viewQual q) := by
  obtain ⟨w, c, u, hc, e1, e2⟩ := encodeQual_form q h
  exact ⟨w, c, u, false, hc, e1, by rw [e2]; simp⟩

/-- **C35 (types).** Every value type of the compiler, of any array depth, is accepted by the validator and
decoded to the VM's view of that type, whatever bytes follow; both stop exactly at its end. -/
theorem C35_type (q : CQual) (h : q.IsValue) (post : List Byte) :
    Ends (fun n => validate n (encodeQual q ++ post)) post true ∧
    Ends (fun n => decodeNew n (encodeQual q ++ post)) post (some (viewQual q)) :=
  ⟨(desc_decode (encodeQual_desc q h) post).2, (desc_decode (encodeQual_desc q h) post).1⟩

theorem viewBase_injective : ∀ a b : CBase, viewBase a = viewBase b → a = b := by
  intro a b h
  cases a <;> cases b <;> simp_all [viewBase, Rtti.plain, Rtti.indexed, kBool, kAny, kChar8, kFloat32, kInt32,
    kInt64, kVoid, kClassdef, kTopFunction, kFunctionPtr, kTypeset, kEnumStruct, kEnum, BitVec.toNat_inj]

theorem viewBase_marks (b : CBase) : ∃ t i, viewBase b = .mk t i none false false [] false ∧ t ≠ kArray ∧ t ≠ kFixedArray := by
  cases b <;> exact ⟨_, _, rfl, by decide, by decide⟩

theorem viewArray_marks (a : CArray) : ∃ t i n, viewArray a = .mk t i (some n) false false [] false := by
  cases a <;> (unfold viewArray viewDim; split <;> exact ⟨_, _, _, rfl⟩)

theorem viewDim_injective {s s' : BitVec 32} {t t' : Rtti} (h : viewDim s t = viewDim s' t') : s = s' ∧ t = t' := by
  unfold viewDim Rtti.wrap at h
  split at h <;> split at h <;> simp_all [kArray, kFixedArray, BitVec.toNat_inj]

theorem viewArray_injective : ∀ a b : CArray, viewArray a = viewArray b → a = b
  | .last s b, .last s' b', h => by
    obtain ⟨h1, h2⟩ := viewDim_injective h
    rw [h1, viewBase_injective _ _ h2]
  | .dim s a, .dim s' a', h => by
    obtain ⟨h1, h2⟩ := viewDim_injective h
    rw [h1, viewArray_injective _ _ h2]
  | .last s b, .dim s' a', h => by
    obtain ⟨_, h⟩ := viewDim_injective h
    obtain ⟨_, _, e, _⟩ := viewBase_marks b
    obtain ⟨_, _, _, e'⟩ := viewArray_marks a'
    rw [e, e'] at h; simp at h
  | .dim s' a', .last s b, h => by
    obtain ⟨_, h⟩ := viewDim_injective h
    obtain ⟨_, _, e, _⟩ := viewBase_marks b
    obtain ⟨_, _, _, e'⟩ := viewArray_marks a'
    rw [e, e'] at h; simp at h

/-- **C35 (nothing is lost).** Different compiler types look different to the VM. -/
theorem C35_view_injective (q q' : CQual) (h : viewQual q = viewQual q') : q = q' := by
  obtain ⟨c, t⟩ := q
  obtain ⟨c', t'⟩ := q'
  have key : c = c' ∧ viewType t = viewType t' := by
    have hm : ∀ t : CType, ∃ a i n r, viewType t = .mk a i n false r [] false := by
      intro t
      cases t with
      | base b => obtain ⟨_, _, e, _⟩ := viewBase_marks b; exact ⟨_, _, _, _, e⟩
      | ref b => obtain ⟨_, _, e, _⟩ := viewBase_marks b; exact ⟨_, _, _, _, by rw [viewType, e]; rfl⟩
      | array a => obtain ⟨_, _, _, e⟩ := viewArray_marks a; exact ⟨_, _, _, _, e⟩
    obtain ⟨_, _, _, _, e⟩ := hm t
    obtain ⟨_, _, _, _, e'⟩ := hm t'
    cases c <;> cases c' <;> simp_all [viewQual, markConst, Rtti.setConst]
  clear h
  obtain ⟨rfl, h⟩ := key
  congr 1
  cases t <;> cases t' <;> simp only [viewType] at h
  case base.base a b => rw [viewBase_injective _ _ h]
  case base.ref a b =>
    obtain ⟨_, _, e, _⟩ := viewBase_marks a
    obtain ⟨_, _, e', _⟩ := viewBase_marks b
    rw [e, e'] at h; simp [Rtti.setByRef] at h
  case base.array a b =>
    obtain ⟨_, _, e, _⟩ := viewBase_marks a
    obtain ⟨_, _, _, e'⟩ := viewArray_marks b
    rw [e, e'] at h; simp at h
  case ref.base a b =>
    obtain ⟨_, _, e, _⟩ := viewBase_marks a
    obtain ⟨_, _, e', _⟩ := viewBase_marks b
    rw [e, e'] at h; simp [Rtti.setByRef] at h
  case ref.ref a b =>
    obtain ⟨_, _, e, _⟩ := viewBase_marks a
    obtain ⟨_, _, e', _⟩ := viewBase_marks b
    have : viewBase a = viewBase b := by rw [e, e'] at h ⊢; simpa [Rtti.setByRef] using h
    rw [viewBase_injective _ _ this]
  case ref.array a b =>
    obtain ⟨_, _, e, _⟩ := viewBase_marks a
    obtain ⟨_, _, _, e'⟩ := viewArray_marks b
    rw [e, e'] at h; simp [Rtti.setByRef] at h
  case array.base a b =>
    obtain ⟨_, _, _, e'⟩ := viewArray_marks a
    obtain ⟨_, _, e, _⟩ := viewBase_marks b
    rw [e, e'] at h; simp at h
  case array.ref a b =>
    obtain ⟨_, _, _, e'⟩ := viewArray_marks a
    obtain ⟨_, _, e, _⟩ := viewBase_marks b
    rw [e, e'] at h; simp [Rtti.setByRef] at h
  case array.array a b => rw [viewArray_injective _ _ h]

theorem encodeArgs_params : ∀ (args : List CQual), (∀ a ∈ args, a.IsValue) →
    Params args.length (args.map encodeQual).flatten (args.map viewQual)
  | [], _ => Params.nil
  | a :: as, h => by
    obtain ⟨w, c, u, hc, e1, e2⟩ := encodeQual_form a (h a (List.mem_cons_self ..))
    have ih := encodeArgs_params as (fun b hb => h b (List.mem_cons_of_mem _ hb))
    have := Params.cons _ false w c u false _ _ hc ih
    simp only [Bool.false_eq_true, ↓reduceIte, List.nil_append, Bool.or_false, markRef] at this
    simp only [List.length_cons, List.map_cons, List.flatten_cons, e1, e2, List.append_assoc]
    exact this

theorem encodeRet_ret (q : CQual) (h : q.IsReturn) : Ret (encodeQual q) (viewQual q) := by
  rcases h with h | rfl
  · obtain ⟨w, c, u, hc, e1, e2⟩ := encodeQual_form q h
    rw [e1, e2]
    have := Ret.type w c u false hc
    simpa using this
  · exact Ret.void

/-- The bytes of a signature without the leading control byte. -/
theorem encodeSignature_sig (s : CSig) (h : s.Encodable) :
    ∃ body, encodeSignature s = kFunction :: body ∧ Sig body (viewSig s) := by
  have hl : (BitVec.ofNat 8 s.args.length).toNat = s.args.length := by
    rw [BitVec.toNat_ofNat]; exact Nat.mod_eq_of_lt h.count
  refine ⟨_, rfl, ?_⟩
  have hargc : BitVec.ofNat 8 s.args.length ≠ kFunction := by
    intro e
    have := congrArg BitVec.toNat e
    rw [hl] at this
    exact h.count' this
  have := Sig.mk (BitVec.ofNat 8 s.args.length) s.variadic _ _ (s.args.map encodeQual).flatten (s.args.map viewQual)
    hargc (encodeRet_ret s.ret h.ret) (by rw [hl]; exact encodeArgs_params s.args h.args)
  rw [List.map_map] at this
  simpa [List.append_assoc, viewSig, Function.comp_def] using this

theorem encodeSignature_desc (s : CSig) (h : s.Encodable) : Desc (encodeSignature s) (viewSig s) := by
  obtain ⟨body, e, hs⟩ := encodeSignature_sig s h
  exact ⟨⟨false, false⟩, _, _, false, Core.func _ _ hs, e, rfl⟩

/-- **C35 (signatures).** A signature of a function type (as found behind a function-pointer index or in a
typeset) round trips: the validator accepts it and it decodes to the view of the signature. -/
theorem C35_signature_partial (s : CSig) (h : s.Encodable) (post : List Byte) :
    Ends (fun n => validate n (encodeSignature s ++ post)) post true ∧
    Ends (fun n => decodeNew n (encodeSignature s ++ post)) post (some (viewSig s)) :=
  ⟨(desc_decode (encodeSignature_desc s h) post).2, (desc_decode (encodeSignature_desc s h) post).1⟩

theorem decodeSigs_ends : ∀ (sigs : List CSig), (∀ s ∈ sigs, s.Encodable) → ∀ (post : List Byte),
    Ends (fun n => decodeSigs n sigs.length ((sigs.map encodeSignature).flatten ++ post)) post
      (sigs.map fun s => some (viewSig s)) ∧
    Ends (fun n => validateSigs n sigs.length ((sigs.map encodeSignature).flatten ++ post)) post true
  | [], _, post => ⟨⟨0, fun _ _ => rfl⟩, ⟨0, fun _ _ => rfl⟩⟩
  | s :: ss, h, post => by
    obtain ⟨i1, i2⟩ := decodeSigs_ends ss (fun b hb => h b (List.mem_cons_of_mem _ hb)) post
    obtain ⟨⟨N1, j1⟩, ⟨N2, j2⟩⟩ := C35_signature_partial s (h s (List.mem_cons_self ..)) ((ss.map encodeSignature).flatten ++ post)
    obtain ⟨M1, i1⟩ := i1
    obtain ⟨M2, i2⟩ := i2
    simp only at i1 i2 j1 j2
    refine ⟨⟨N2 + M1, fun n hn => ?_⟩, ⟨N1 + M2, fun n hn => ?_⟩⟩
    · simp only [List.length_cons, List.map_cons, List.flatten_cons, List.append_assoc, decodeSigs]
      rw [j2 n (by omega), andThen_ok, i1 n (by omega), andThen_ok]
    · simp only [List.length_cons, List.map_cons, List.flatten_cons, List.append_assoc, validateSigs]
      rw [j1 n (by omega)]
      simp only [PRes.andTry, andThen_ok, ↓reduceIte]
      rw [i2 n (by omega)]

/-- **C35 (typesets).** A typeset of any number of signatures round trips. -/
theorem C35_typeset_partial (sigs : List CSig) (h : ∀ s ∈ sigs, s.Encodable) (hl : sigs.length < 2 ^ 32) (post : List Byte) :
    Ends (fun n => validateTypeset n (encodeTypesetBytes sigs ++ post)) post true ∧
    Ends (fun n => decodeTypeset n (encodeTypesetBytes sigs ++ post)) post
      (Rtti.typeset (sigs.map fun s => some (viewSig s))) := by
  obtain ⟨⟨N, i1⟩, ⟨M, i2⟩⟩ := decodeSigs_ends sigs h post
  have hc := compactEncode_compact hl
  simp only at i1 i2
  unfold encodeTypesetBytes
  refine ⟨⟨M, fun n hn => ?_⟩, ⟨N, fun n hn => ?_⟩⟩
  · simp only [validateTypeset, List.append_assoc]
    rw [tryDecodeUint_varint hc.1, decodeUint_compact hc, andThen_ok]
    simpa using i2 n hn
  · simp only [decodeTypeset, List.append_assoc]
    rw [decodeUint_compact hc, andThen_ok, i1 n hn, andThen_ok]

/-! ### Type identifiers -/

theorem or_add {a b s : Nat} (h : a < 2 ^ s) : a ||| b <<< s = a + b * 2 ^ s := or_shift h

/-- The bytes of a short encoding, padded with zeros, are the payload bytes of the inline form. -/
theorem inlineBytes_payload (bytes : List Byte) (h : bytes.length ≤ 4) :
    inlineBytes ((bytes.zipIdx.map fun (b, i) => b.toNat <<< (i * 8)).foldl (· ||| ·) 0) =
      bytes ++ List.replicate (4 - bytes.length) 0 := by
  have ofn : ∀ (x : Nat) (b : Byte), x % 256 = b.toNat → BitVec.ofNat 8 x = b := by
    intro x b hx
    apply BitVec.eq_of_toNat_eq
    rw [BitVec.toNat_ofNat]; exact hx
  have sh : ∀ x k : Nat, x >>> k = x / 2 ^ k := Nat.shiftRight_eq_div_pow
  have z : (0 : Byte).toNat = 0 := rfl
  have o1 : ∀ a b : Byte, a.toNat ||| b.toNat <<< 8 = a.toNat + b.toNat * 256 := fun a b => or_shift (s := 8) a.isLt
  have o2 : ∀ (x : Nat) (b : Byte), x < 65536 → x ||| b.toNat <<< 16 = x + b.toNat * 65536 := fun x b h => or_shift (s := 16) h
  have o3 : ∀ (x : Nat) (b : Byte), x < 16777216 → x ||| b.toNat <<< 24 = x + b.toNat * 16777216 := fun x b h => or_shift (s := 24) h
  have fin : ∀ (x : Nat) (a b c d : Byte), x = a.toNat + b.toNat * 256 + c.toNat * 65536 + d.toNat * 16777216 →
      inlineBytes x = [a, b, c, d] := by
    intro x a b c d hx
    have := a.isLt; have := b.isLt; have := c.isLt; have := d.isLt
    simp only [inlineBytes, sh, List.cons.injEq, and_true]
    exact ⟨ofn _ _ (by omega), ofn _ _ (by omega), ofn _ _ (by omega), ofn _ _ (by omega)⟩
  match bytes, h with
  | [], _ => rfl
  | [a], _ => exact fin _ a 0 0 0 (by simp [List.zipIdx])
  | [a, b], _ => exact fin _ a b 0 0 (by simp [List.zipIdx, o1])
  | [a, b, c], _ =>
    have := a.isLt; have := b.isLt
    exact fin _ a b c 0 (by simp [List.zipIdx, o1]; rw [o2 _ _ (by omega)])
  | [a, b, c, d], _ =>
    have := a.isLt; have := b.isLt; have := c.isLt
    exact fin _ a b c d (by simp [List.zipIdx, o1]; rw [o2 _ _ (by omega), o3 _ _ (by omega)])

/-- **C35 (type identifiers).** The 32-bit identifier made for a type is accepted and leads back to it,
whether it is stored inline or in the blob.  `pool` is where the blob keeps the bytes of a type. -/
theorem C35_type_id (q : CQual) (h : q.IsValue) (pool : List Byte → Nat) (blob tail : List Byte)
    (hoff : pool (encodeQual q) < 2 ^ 28)
    (hblob : blob.drop (pool (encodeQual q)) = encodeQual q ++ tail) :
    toTypeId pool q < 2 ^ 32 ∧
    (∃ rest, Ends (fun n => validateType n blob (toTypeId pool q)) rest true) ∧
    (∃ rest, Ends (fun n => typeFromTypeId n blob (toTypeId pool q)) rest (some (viewQual q))) := by
  unfold toTypeId
  dsimp only
  split
  case isTrue hs =>
    obtain ⟨hlen, hpay⟩ := hs
    have hin := inlineBytes_payload (encodeQual q) hlen
    generalize ((encodeQual q).zipIdx.map fun (b, i) => b.toNat <<< (i * 8)).foldl (· ||| ·) 0 = p at hpay hin ⊢
    have e : p <<< 4 ||| 0 = p * 16 := by rw [Nat.or_zero, Nat.shiftLeft_eq]
    rw [e]
    have e1 : p * 16 % 16 = 0 := by omega
    have e2 : ((p * 16) >>> 4) % 2 ^ 28 = p := by rw [Nat.shiftRight_eq_div_pow]; omega
    obtain ⟨v, d⟩ := C35_type q h (List.replicate (4 - (encodeQual q).length) 0)
    refine ⟨by omega, ⟨_, Ends.congr v (fun n => ?_)⟩, ⟨_, Ends.congr d (fun n => ?_)⟩⟩
    · simp only [validateType, e1, e2, ↓reduceIte, hin]
    · simp only [typeFromTypeId, e1, e2, ↓reduceIte, hin]
  case isFalse =>
    generalize hp : pool (encodeQual q) = p at hoff hblob ⊢
    have e : p <<< 4 ||| 1 = p * 16 + 1 := by
      rw [← Nat.shiftLeft_add_eq_or_of_lt (by omega), Nat.shiftLeft_eq]
    rw [e]
    have e1 : (p * 16 + 1) % 16 = 1 := by omega
    have e2 : ((p * 16 + 1) >>> 4) % 2 ^ 28 = p := by rw [Nat.shiftRight_eq_div_pow]; omega
    obtain ⟨v, d⟩ := C35_type q h tail
    have hne : p < blob.length := by
      rcases Nat.lt_or_ge p blob.length with hlt | hge
      · exact hlt
      · rw [List.drop_eq_nil_of_le hge] at hblob
        obtain ⟨w, c, u, hc, e1, _⟩ := encodeQual_form q h
        have := core_ne_nil hc tail
        rw [e1] at hblob
        simp_all
    refine ⟨by omega, ⟨_, Ends.congr v (fun n => ?_)⟩, ⟨_, Ends.congr d (fun n => ?_)⟩⟩
    · simp only [validateType, e1, e2, hblob]
      rw [if_neg (by omega), if_pos (by trivial), if_neg (by omega)]
    · simp only [typeFromTypeId, e1, e2, hblob]
      rw [if_neg (by omega), if_pos (by trivial)]

/-! ### Where the round trip fails -/

/-- The reader offered for a method's signature does not skip the control byte that the compiler writes in
front of it: for `void f()` it takes 0x32 for the argument count and runs out of the blob. -/
theorem C35_method_signature_misread :
    encodeSignature ⟨false, ⟨false, .base .void⟩, []⟩ = [0x32, 0, 0x70] ∧
    (∀ n, 10 ≤ n → validateFunction n [0x32, 0, 0x70] = .ok [] true) ∧
    (∀ n, 200 ≤ n → decodeFunction n [0x32, 0, 0x70] = .ub) := by
  refine ⟨by rfl, ?_, ?_⟩
  · intro n hn
    obtain ⟨m, rfl⟩ : ∃ m, n = m + 2 := ⟨n - 2, by omega⟩
    simp [validateFunction, needByte, skipByte, matchByte, andThen_ok, nextByte, PRes.andTry, kFunction, kLegacyVariadic, kVoid, validateArgs]
  · intro n hn
    obtain ⟨m, rfl⟩ : ∃ m, n = m + 6 := ⟨n - 6, by omega⟩
    rfl

set_option maxRecDepth 20000 in
/-- A function type with exactly fifty arguments is rejected: its argument count is taken for another
control byte. -/
theorem C35_fifty_arguments_rejected :
    ∃ s : CSig, s.ret.IsReturn ∧ (∀ a ∈ s.args, a.IsValue) ∧ s.args.length = 50 ∧
      ∃ rest, ∀ n, 100 ≤ n → validate n (encodeSignature s) = .ok rest false := by
  refine ⟨⟨false, ⟨false, .base .void⟩, List.replicate 50 ⟨false, .base .int⟩⟩, Or.inr rfl, ?_, by simp, [], ?_⟩
  · intro a ha
    rw [List.eq_of_mem_replicate ha]
    intro e; cases e
  · intro n hn
    obtain ⟨m, rfl⟩ : ∃ m, n = m + 60 := ⟨n - 60, by omega⟩
    rfl

/-! ## C36 -/

/-- The validator's steps on an arbitrary blob: they end, do not read outside, and never move backwards. -/
structure Safe (bs : List Byte) (r : PRes Bool) : Prop where
  ok : ∃ rest b, r = .ok rest b ∧ rest.length ≤ bs.length ∧ (b = true → rest.length < bs.length)

theorem tryDecode_length : ∀ (bs : List Byte), (tryDecodeUint bs).1.length ≤ bs.length
  | [] => by simp [tryDecodeUint]
  | b :: rest => by
    unfold tryDecodeUint
    split
    · simp
    · have := tryDecode_length rest; simp; omega

theorem needByte_safe {bs bs' : List Byte} {k : PRes Bool} (hl : bs.length ≤ bs'.length) (h : bs ≠ [] → Safe bs' k) :
    Safe bs' (needByte bs k) := by
  unfold needByte
  split
  · exact ⟨bs, false, rfl, hl, by simp⟩
  · rename_i h1; exact h h1

theorem skipByte_safe {b : Byte} {bs bs' : List Byte} {k : List Byte → PRes Bool} (hne : bs ≠ [])
    (h : ∀ cs, cs.length ≤ bs.length → bs.length ≤ cs.length + 1 → Safe bs' (k cs)) : Safe bs' (skipByte b bs k) := by
  cases bs with
  | nil => exact absurd rfl hne
  | cons x rest =>
    unfold skipByte
    by_cases hx : x = b
    · subst hx; rw [match_eq]; exact h rest (by simp) (by simp)
    · rw [match_ne hx]; exact h (x :: rest) (by simp) (by simp)

theorem validator_safe : ∀ n : Nat,
    (∀ bs : List Byte, 3 * bs.length + 2 ≤ n → Safe bs (validate n bs)) ∧
    (∀ bs : List Byte, 3 * bs.length + 1 ≤ n → Safe bs (validateFunction n bs)) ∧
    (∀ (k : Nat) (bs : List Byte), 3 * bs.length + 3 ≤ n →
      ∃ rest b, validateArgs n k bs = .ok rest b ∧ rest.length ≤ bs.length) := by
  intro n
  induction n with
  | zero => exact ⟨fun _ h => by omega, fun _ h => by omega, fun _ _ h => by omega⟩
  | succ n ih =>
    obtain ⟨iv, jf, ia⟩ := ih
    refine ⟨?_, ?_, ?_⟩
    · intro bs hn
      rw [validate_succ]
      refine needByte_safe (Nat.le_refl _) fun h0 => skipByte_safe h0 fun b1 l1 _ => needByte_safe l1 fun h1 =>
        skipByte_safe h1 fun b2 l2 _ => needByte_safe (by omega) fun h2 => ?_
      cases b2 with
      | nil => exact absurd rfl h2
      | cons x b3 =>
        simp only [List.length_cons] at l2
        simp only [validateBody, nextByte, andThen_ok]
        have rec1 : ∀ cs : List Byte, cs.length ≤ b3.length → Safe bs (validate n cs) := by
          intro cs hcs
          obtain ⟨rest, b, e, h1, h2⟩ := (iv cs (by omega)).ok
          exact ⟨rest, b, e, by omega, fun hb => by have := h2 hb; omega⟩
        split
        · exact ⟨_, _, rfl, by omega, fun _ => by omega⟩
        split
        · have := tryDecode_length b3
          split
          · exact rec1 _ this
          · exact ⟨_, _, rfl, by omega, by simp⟩
        split
        · exact rec1 _ (Nat.le_refl _)
        split
        · have := tryDecode_length b3
          exact ⟨_, _, rfl, by omega, fun _ => by omega⟩
        split
        · obtain ⟨rest, b, e, h1, h2⟩ := (jf b3 (by omega)).ok
          exact ⟨rest, b, e, by omega, fun hb => by have := h2 hb; omega⟩
        · exact ⟨_, _, rfl, by omega, by simp⟩
    · intro bs hn
      rw [validateFunction]
      refine needByte_safe (Nat.le_refl _) fun h0 => skipByte_safe h0 fun b1 l1 _ => needByte_safe l1 fun h1 => ?_
      cases b1 with
      | nil => exact absurd rfl h1
      | cons argc b2 =>
        simp only [List.length_cons] at l1
        simp only [nextByte, andThen_ok]
        refine needByte_safe (by omega) fun h2 => skipByte_safe h2 fun b3 l3 _ => needByte_safe (by omega) fun h3 => ?_
        have fin : ∀ cs : List Byte, cs.length ≤ b3.length → Safe bs (validateArgs n argc.toNat cs) := by
          intro cs hcs
          obtain ⟨rest, b, e, h1⟩ := ia argc.toNat cs (by omega)
          exact ⟨rest, b, e, by omega, fun _ => by omega⟩
        cases b3 with
        | nil => exact absurd rfl h3
        | cons x b4 =>
          simp only [List.length_cons] at l3 fin
          by_cases hx : x = kVoid
          · subst hx
            simp only [match_eq, andThen_ok, ↓reduceIte, PRes.andTry]
            exact fin b4 (by omega)
          · rw [match_ne hx]
            simp only [andThen_ok, Bool.false_eq_true, ↓reduceIte]
            obtain ⟨rest, b, e, q1, q2⟩ := (iv (x :: b4) (by simp only [List.length_cons]; omega)).ok
            rw [e]
            simp only [List.length_cons] at q1 q2
            cases b
            · exact ⟨_, _, rfl, by omega, by simp⟩
            · simp only [PRes.andTry, andThen_ok, ↓reduceIte]
              exact fin rest (by omega)
    · intro k bs hn
      cases k with
      | zero => exact ⟨bs, true, rfl, Nat.le_refl _⟩
      | succ k =>
        rw [validateArgs]
        have key : Safe bs (needByte bs (skipByte kConst bs fun bs => needByte bs (skipByte kByRef bs fun bs =>
            (validate n bs).andTry fun bs => validateArgs n k bs))) := by
          refine needByte_safe (Nat.le_refl _) fun h0 => skipByte_safe h0 fun b1 l1 _ => needByte_safe l1 fun h1 =>
            skipByte_safe h1 fun b2 l2 _ => ?_
          obtain ⟨rest, b, e, q1, q2⟩ := (iv b2 (by omega)).ok
          rw [e]
          cases b
          · exact ⟨_, _, rfl, by omega, by simp⟩
          · simp only [PRes.andTry, andThen_ok, ↓reduceIte]
            have := q2 rfl
            obtain ⟨r2, b2, e2, q3⟩ := ia k rest (by omega)
            exact ⟨r2, b2, e2, by omega, fun _ => by omega⟩
        obtain ⟨rest, b, e, q1, _⟩ := key.ok
        exact ⟨rest, b, e, q1⟩

/-- **C36 (the validator itself is safe).** On every blob and at every position, validation of a type or of a
signature ends with a verdict without reading outside the blob. -/
theorem C36_validator_safe (blob : List Byte) (offset : Nat) (n : Nat)
    (hn : 3 * (blob.drop offset).length + 2 ≤ n) :
    (∃ rest b, validate n (blob.drop offset) = .ok rest b) ∧
    (∃ rest b, validateFunction n (blob.drop offset) = .ok rest b) := by
  refine ⟨?_, ?_⟩
  · obtain ⟨r, b, e, _⟩ := ((validator_safe n).1 _ hn).ok
    exact ⟨r, b, e⟩
  · obtain ⟨r, b, e, _⟩ := ((validator_safe n).2.1 (blob.drop offset) (by omega)).ok
    exact ⟨r, b, e⟩

/-- **C36 (documented format).** Every descriptor of the documented format is accepted, and decoding it
reads exactly its bytes and yields a type with no null parts. -/
theorem C36_format_decodes (d : List Byte) (t : Rtti) (h : Desc d t) (post : List Byte) :
    Ends (fun n => validate n (d ++ post)) post true ∧
    Ends (fun n => decodeNew n (d ++ post)) post (some t) :=
  ⟨(desc_decode h post).2, (desc_decode h post).1⟩

/-- In `d`, four continuation bytes in a row are followed by a byte below 16: no compact integer exceeds 32
bits. -/
def ShortInts (d : List Byte) : Prop :=
  ∀ (a b : List Byte) (c1 c2 c3 c4 x : Byte), d = a ++ c1 :: c2 :: c3 :: c4 :: x :: b →
    128 ≤ c1.toNat → 128 ≤ c2.toNat → 128 ≤ c3.toNat → 128 ≤ c4.toNat → x.toNat < 16

theorem ShortInts.suffix {a d : List Byte} (h : ShortInts (a ++ d)) : ShortInts d := by
  intro a' b c1 c2 c3 c4 x e
  exact h (a ++ a') b c1 c2 c3 c4 x (by rw [e, List.append_assoc])

theorem ShortInts.prefix {a d : List Byte} (h : ShortInts (a ++ d)) : ShortInts a := by
  intro a' b c1 c2 c3 c4 x e
  exact h a' (b ++ d) c1 c2 c3 c4 x (by rw [e]; simp)

theorem varint_of_try : ∀ (bs rest : List Byte), tryDecodeUint bs = (rest, true) →
    ∃ v n, bs = v ++ rest ∧ Varint v n
  | [], rest, h => by simp [tryDecodeUint] at h
  | b :: bs, rest, h => by
    unfold tryDecodeUint at h
    split at h
    case isTrue hb =>
      simp only [Prod.mk.injEq, and_true] at h
      subst h
      exact ⟨[b], b.toNat, rfl, Varint.last b hb⟩
    case isFalse hb =>
      obtain ⟨v, n, e, hv⟩ := varint_of_try bs rest h
      exact ⟨b :: v, _, by rw [e]; rfl, Varint.more b v n (by omega) hv⟩

theorem compact_of_short {v : List Byte} {n : Nat} (hv : Varint v n) (hs : ShortInts v) : Compact v n := by
  have hlast : ∀ {b : Byte}, b.toNat < 128 → ¬ 128 ≤ b.toNat := by intros; omega
  cases hv with
  | last b h0 => exact ⟨.last b h0, by omega, by simp⟩
  | more c1 v n h1 hv =>
    cases hv with
    | last b h0 => exact ⟨.more c1 _ _ h1 (.last b h0), by omega, by simp⟩
    | more c2 v n h2 hv =>
      cases hv with
      | last b h0 => exact ⟨.more c1 _ _ h1 (.more c2 _ _ h2 (.last b h0)), by omega, by simp⟩
      | more c3 v n h3 hv =>
        cases hv with
        | last b h0 => exact ⟨.more c1 _ _ h1 (.more c2 _ _ h2 (.more c3 _ _ h3 (.last b h0))), by omega, by simp⟩
        | more c4 v n h4 hv =>
          cases hv with
          | last b h0 =>
            have := hs [] [] c1 c2 c3 c4 b rfl h1 h2 h3 h4
            exact ⟨.more c1 _ _ h1 (.more c2 _ _ h2 (.more c3 _ _ h3 (.more c4 _ _ h4 (.last b h0)))), by omega, by simp⟩
          | more c5 v n h5 hv =>
            have := hs [] v c1 c2 c3 c4 c5 rfl h1 h2 h3 h4
            omega

/-- Whatever is left after a step is a suffix of what was there. -/
def Suf (bs : List Byte) (r : PRes Bool) : Prop := ∀ rest b, r = .ok rest b → rest <:+ bs

theorem needByte_suf {bs bs' : List Byte} {k : PRes Bool} (hl : bs <:+ bs') (h : Suf bs' k) : Suf bs' (needByte bs k) := by
  intro rest b e
  unfold needByte at e
  split at e
  · cases e; exact hl
  · exact h rest b e

theorem match_suf {b : Byte} {bs cs : List Byte} {x : Bool} (h : matchByte b bs = .ok cs x) : cs <:+ bs := by
  cases bs with
  | nil => cases h
  | cons y bs =>
    by_cases hy : y = b
    · subst hy; rw [match_eq] at h; cases h; exact List.suffix_cons _ _
    · rw [match_ne hy] at h; cases h; exact List.suffix_rfl

theorem skipByte_suf {b : Byte} {bs bs' : List Byte} {k : List Byte → PRes Bool} (hl : bs <:+ bs')
    (h : ∀ cs, cs <:+ bs' → Suf bs' (k cs)) : Suf bs' (skipByte b bs k) := by
  intro rest x e
  unfold skipByte at e
  cases hm : matchByte b bs with
  | ok cs y =>
    rw [hm] at e
    exact h cs ((match_suf hm).trans hl) rest x e
  | ub => rw [hm] at e; cases e
  | fuel => rw [hm] at e; cases e

theorem try_suf : ∀ (bs : List Byte), (tryDecodeUint bs).1 <:+ bs
  | [] => List.suffix_rfl
  | b :: rest => by
    unfold tryDecodeUint
    split
    · exact List.suffix_cons _ _
    · exact (try_suf rest).trans (List.suffix_cons _ _)

theorem andTry_suf {bs : List Byte} {r : PRes Bool} {k : List Byte → PRes Bool} (hr : Suf bs r)
    (h : ∀ cs, cs <:+ bs → Suf bs (k cs)) : Suf bs (r.andTry k) := by
  intro rest x e
  cases r with
  | ok cs y =>
    have := hr cs y rfl
    cases y
    · simp only [PRes.andTry, andThen_ok, Bool.false_eq_true, ↓reduceIte, PRes.ok.injEq] at e
      rw [← e.1]; exact this
    · exact h cs this rest x e
  | ub => cases e
  | fuel => cases e

theorem ok_suf {bs cs : List Byte} {x : Bool} (h : cs <:+ bs) : Suf bs (.ok cs x) := by
  intro rest b e; cases e; exact h

theorem Suf.mono {bs bs' : List Byte} {r : PRes Bool} (h : Suf bs r) (hl : bs <:+ bs') : Suf bs' r :=
  fun rest b e => (h rest b e).trans hl

theorem validator_suffix : ∀ n : Nat,
    (∀ bs : List Byte, Suf bs (validate n bs)) ∧ (∀ bs : List Byte, Suf bs (validateFunction n bs)) ∧
    (∀ (k : Nat) (bs : List Byte), Suf bs (validateArgs n k bs)) := by
  intro n
  induction n with
  | zero =>
    exact ⟨fun _ _ _ h => by simp [validate] at h, fun _ _ _ h => by simp [validateFunction] at h,
      fun _ _ _ _ h => by simp [validateArgs] at h⟩
  | succ n ih =>
    obtain ⟨iv, jf, ia⟩ := ih
    refine ⟨?_, ?_, ?_⟩
    · intro bs
      rw [validate_succ]
      refine needByte_suf List.suffix_rfl (skipByte_suf List.suffix_rfl fun b1 l1 => needByte_suf l1
        (skipByte_suf l1 fun b2 l2 => needByte_suf l2 ?_))
      cases b2 with
      | nil => intro rest b e; cases e
      | cons x b3 =>
        have l3 : b3 <:+ bs := (List.suffix_cons _ _).trans l2
        have l4 := (try_suf b3).trans l3
        simp only [validateBody, nextByte, andThen_ok]
        split
        · exact ok_suf l3
        split
        · split
          · exact (iv _).mono l4
          · exact ok_suf l4
        split
        · exact (iv _).mono l3
        split
        · exact ok_suf l4
        split
        · exact (jf _).mono l3
        · exact ok_suf l3
    · intro bs
      rw [validateFunction]
      refine needByte_suf List.suffix_rfl (skipByte_suf List.suffix_rfl fun b1 l1 => needByte_suf l1 ?_)
      cases b1 with
      | nil => intro rest b e; cases e
      | cons argc b2 =>
        have l2 : b2 <:+ bs := (List.suffix_cons _ _).trans l1
        simp only [nextByte, andThen_ok]
        refine needByte_suf l2 (skipByte_suf l2 fun b3 l3 => needByte_suf l3 (andTry_suf ?_ fun cs lc => (ia _ _).mono lc))
        cases hm : matchByte kVoid b3 with
        | ok cs y =>
          have lc := (match_suf hm).trans l3
          simp only [andThen_ok]
          split
          · exact ok_suf lc
          · exact (iv _).mono lc
        | ub => intro rest b e; cases e
        | fuel => intro rest b e; cases e
    · intro k bs
      cases k with
      | zero => exact ok_suf List.suffix_rfl
      | succ k =>
        rw [validateArgs]
        exact needByte_suf List.suffix_rfl (skipByte_suf List.suffix_rfl fun b1 l1 => needByte_suf l1
          (skipByte_suf l1 fun b2 l2 => andTry_suf ((iv _).mono l2) fun cs lc => (ia _ _).mono lc))

/-- What an accepting run of the validator has read, when it met no function type. -/
theorem format_of_validate : ∀ (n : Nat) (bs rest : List Byte), validate n bs = .ok rest true →
    ∃ d, bs = d ++ rest ∧ (kFunction ∉ d → ShortInts d → ∃ q c u k, Core c u k ∧ d = Qual.bytes q ++ c)
  | 0, bs, rest, h => by simp [validate] at h
  | n+1, bs, rest, h => by
    rw [validate_succ] at h
    -- peel the qualifiers
    have peel : ∃ (q : Qual) (cs : List Byte), bs = q.bytes ++ cs ∧ cs ≠ [] ∧ validateBody n cs = .ok rest true := by
      unfold needByte at h
      split at h
      · cases h
      · rename_i h0
        cases bs with
        | nil => exact absurd rfl h0
        | cons x bs =>
          have second : ∀ (cs : List Byte), (if cs = [] then PRes.ok cs false else
              skipByte kByRef cs fun bs => if bs = [] then .ok bs false else validateBody n bs) = .ok rest true →
              ∃ (r : Bool) (ds : List Byte), cs = (if r then [kByRef] else []) ++ ds ∧ ds ≠ [] ∧
                validateBody n ds = .ok rest true := by
            intro cs hcs
            split at hcs
            · cases hcs
            · rename_i h1
              cases cs with
              | nil => exact absurd rfl h1
              | cons y cs =>
                by_cases hy : y = kByRef
                · subst hy
                  rw [skip_eq] at hcs
                  split at hcs
                  · cases hcs
                  · rename_i h2; exact ⟨true, cs, rfl, h2, hcs⟩
                · rw [skip_ne (match_ne hy _)] at hcs
                  rw [if_neg (by simp)] at hcs
                  exact ⟨false, y :: cs, rfl, by simp, hcs⟩
          by_cases hx : x = kConst
          · subst hx
            rw [skip_eq] at h
            obtain ⟨r, ds, e, h1, h2⟩ := second _ h
            exact ⟨⟨true, r⟩, ds, by rw [e]; cases r <;> rfl, h1, h2⟩
          · rw [skip_ne (match_ne hx _)] at h
            obtain ⟨r, ds, e, h1, h2⟩ := second _ h
            exact ⟨⟨false, r⟩, ds, by rw [e]; cases r <;> rfl, h1, h2⟩
    obtain ⟨q, cs, rfl, hne, hb⟩ := peel
    cases cs with
    | nil => exact absurd rfl hne
    | cons type cs =>
      simp only [validateBody, nextByte, andThen_ok] at hb
      split at hb
      case isTrue hp =>
        simp only [PRes.ok.injEq, and_true] at hb
        subst hb
        exact ⟨q.bytes ++ [type], by simp, fun _ _ => ⟨q, [type], _, _, Core.plain type hp, rfl⟩⟩
      split at hb
      case isTrue hp hf =>
        subst hf
        split at hb
        case isFalse => cases hb
        case isTrue ht =>
          obtain ⟨v, m, e, hv⟩ := varint_of_try cs (tryDecodeUint cs).1 (by rw [← ht])
          obtain ⟨d, e2, hd⟩ := format_of_validate n _ rest hb
          refine ⟨q.bytes ++ (kFixedArray :: (v ++ d)), ?_, ?_⟩
          · rw [e, e2]; simp
          · intro hnf hs
            have hs1 : ShortInts (v ++ d) := by
              have := hs.suffix
              exact ShortInts.suffix (a := [kFixedArray]) this
            obtain ⟨q', c, u, k, hc, ed⟩ := hd (fun hm => hnf (by simp [hm])) hs1.suffix
            exact ⟨q, _, _, _, Core.fixed v m q' c u k (compact_of_short hv hs1.prefix) hc, by rw [ed]⟩
      split at hb
      case isTrue hp hf ha =>
        subst ha
        obtain ⟨d, e2, hd⟩ := format_of_validate n _ rest hb
        refine ⟨q.bytes ++ (kArray :: d), by rw [e2]; simp, ?_⟩
        intro hnf hs
        have hs1 : ShortInts d := ShortInts.suffix (a := [kArray]) hs.suffix
        obtain ⟨q', c, u, k, hc, ed⟩ := hd (fun hm => hnf (by simp [hm])) hs1
        exact ⟨q, _, _, _, Core.array q' c u k hc, by rw [ed]⟩
      split at hb
      case isTrue hp hf ha hi =>
        simp only [PRes.ok.injEq] at hb
        obtain ⟨v, m, e, hv⟩ := varint_of_try cs rest (by rw [← hb.1, ← hb.2])
        refine ⟨q.bytes ++ (type :: v), by rw [e]; simp, ?_⟩
        intro hnf hs
        have hs1 : ShortInts v := ShortInts.suffix (a := [type]) hs.suffix
        exact ⟨q, _, _, _, Core.indexed type v m hi (compact_of_short hv hs1), rfl⟩
      split at hb
      case isTrue hp hf ha hi hfn =>
        subst hfn
        -- a function type: excluded by hypothesis
        obtain ⟨d, hd⟩ : ∃ d, kFunction :: cs = kFunction :: d ++ rest := by
          obtain ⟨d, hd⟩ := (validator_suffix n).2.1 cs rest true hb
          exact ⟨d, by rw [← hd]; rfl⟩
        refine ⟨q.bytes ++ kFunction :: d, by rw [hd]; simp, fun hnf => absurd (by simp) hnf⟩
      · cases hb

/-- **C36 (partial).** If the validator accepts a descriptor, and the bytes `d` it accepted contain no function
type and no compact integer of more than 32 bits, then decoding at the same place reads exactly `d` and
yields a type.  Missing: descriptors with an embedded function type (see the counterexamples below). -/
theorem C36_partial (n : Nat) (bs rest : List Byte) (h : validate n bs = .ok rest true) :
    ∃ d, bs = d ++ rest ∧ (kFunction ∉ d → ShortInts d →
      ∃ t, Desc d t ∧ Ends (fun n => decodeNew n bs) rest (some t)) := by
  obtain ⟨d, e, hd⟩ := format_of_validate n bs rest h
  refine ⟨d, e, fun h1 h2 => ?_⟩
  obtain ⟨q, c, u, k, hc, ed⟩ := hd h1 h2
  have hD : Desc d (markConst (q.const || k) (markRef q.byRef u)) := ⟨q, c, u, k, hc, ed, rfl⟩
  exact ⟨_, hD, by rw [e]; exact (desc_decode hD rest).1⟩

/-- A doubled control byte is accepted by the validator, but the decoder takes the second one for the number of
arguments and reads outside the blob. -/
theorem C36_doubled_prefix :
    (∀ n, 4 ≤ n → validate n [0x32, 0x32, 0, 0x70] = .ok [] true) ∧
    (∀ n, 20 ≤ n → decodeNew n [0x32, 0x32, 0, 0x70] = .ub) := by
  refine ⟨fun n hn => ?_, fun n hn => ?_⟩
  · obtain ⟨m, rfl⟩ : ∃ m, n = m + 3 := ⟨n - 3, by omega⟩
    rfl
  · obtain ⟨m, rfl⟩ : ∃ m, n = m + 10 := ⟨n - 10, by omega⟩
    rfl

/-- Doubled parameter marks are accepted by the validator; the decoder then dereferences a null type. -/
theorem C36_doubled_marks :
    (∀ n, 10 ≤ n → validate n [0x32, 1, 0x70, 0x73, 0x72, 0x73, 0x72, 0x06] = .ok [] true) ∧
    (∀ n, 20 ≤ n → decodeNew n [0x32, 1, 0x70, 0x73, 0x72, 0x73, 0x72, 0x06] = .ub) := by
  refine ⟨fun n hn => ?_, fun n hn => ?_⟩
  · obtain ⟨m, rfl⟩ : ∃ m, n = m + 6 := ⟨n - 6, by omega⟩
    rfl
  · obtain ⟨m, rfl⟩ : ∃ m, n = m + 10 := ⟨n - 10, by omega⟩
    rfl

/-- An overlong index is accepted by the validator; decoding it shifts by more than the width of the value. -/
theorem C36_overlong_index :
    (∀ n, 2 ≤ n → validate n [0x42, 0x80, 0x80, 0x80, 0x80, 0x80, 0] = .ok [] true) ∧
    (∀ n, 3 ≤ n → decodeNew n [0x42, 0x80, 0x80, 0x80, 0x80, 0x80, 0] = .ub) := by
  refine ⟨fun n hn => ?_, fun n hn => ?_⟩
  · obtain ⟨m, rfl⟩ : ∃ m, n = m + 1 := ⟨n - 1, by omega⟩
    rfl
  · obtain ⟨m, rfl⟩ : ∃ m, n = m + 2 := ⟨n - 2, by omega⟩
    rfl

/-! ### Non-vacuity -/

/-- `const int x[3][]` as a compiler type. -/
def sampleType : CQual := ⟨true, .array (.dim 3 (.last 0 .int))⟩

example : sampleType.IsValue := by intro h; cases h
example : encodeQual sampleType = [0x73, 0x30, 3, 0x31, 0x06] := by decide +kernel
example : (⟨true, ⟨false, .base .void⟩, [sampleType, ⟨false, .ref .float⟩]⟩ : CSig).Encodable :=
  ⟨Or.inr rfl, by intro a ha; simp at ha; rcases ha with rfl | rfl <;> (intro h; cases h), by decide, by decide⟩
example : validate 5 [0x73, 0x30, 3, 0x31, 0x06, 0xaa] = .ok [0xaa] true := by rfl
example : (kFunction ∉ ([0x73, 0x30, 3, 0x31, 0x06] : List Byte)) := by decide
-- an identifier stored inline and one stored in the blob
example : toTypeId (fun _ => 7) ⟨false, .base .int⟩ = 0x60 := by decide +kernel
example : toTypeId (fun _ => 7) sampleType = 0x71 := by decide +kernel

end Verif.Rtti

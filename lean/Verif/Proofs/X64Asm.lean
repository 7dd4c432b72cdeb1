import Verif.Spec.X64Calls

/-! Lemmas for C61: the bytes of the x64 assembler decode to the intended instructions. -/
namespace Verif.X64

/-- Is this one of r8 ... r15? -/
def hi (r : Fin 16) : Bool := decide (8 ≤ r.val)
/-- One REX bit. -/
def bit (b : Bool) : Byte := if b then 1 else 0
/-- The X and B bits. -/
def bitsXB (x b : Bool) : Byte := (bit x <<< 1) ||| bit b

theorem rexBit_eq : ∀ r : Fin 16, rexBit r = bit (hi r) := by decide +kernel
theorem ext_low : ∀ r : Fin 16, ext (hi r) (lowBits r).toNat = r := by decide +kernel
theorem low_lt : ∀ r : Fin 16, (lowBits r).toNat < 8 := by decide +kernel
theorem ext_mod (h : Bool) (n : Nat) : ext h (n % 8) = ext h n := by simp [ext]

theorem le32_imm (v : BitVec 32) (rest : List Byte) : imm32 (le32 v ++ rest) = some (v.toInt, rest) := by
  have : (v.extractLsb' 24 8 ++ v.extractLsb' 16 8 ++ v.extractLsb' 8 8 ++ v.extractLsb' 0 8) = v := by
    ext i hi
    simp only [BitVec.getElem_append, BitVec.getElem_extractLsb']
    grind
  simp only [le32, imm32, List.cons_append, List.nil_append]
  rw [show (v.extractLsb' 24 8 ++ v.extractLsb' 16 8 ++ v.extractLsb' 8 8 ++ v.extractLsb' 0 8) = v from this]

theorem le64_imm (v : BitVec 64) (rest : List Byte) : imm64 (le64 v ++ rest) = some (v.toInt, rest) := by
  have : (v.extractLsb' 56 8 ++ v.extractLsb' 48 8 ++ v.extractLsb' 40 8 ++ v.extractLsb' 32 8 ++
      v.extractLsb' 24 8 ++ v.extractLsb' 16 8 ++ v.extractLsb' 8 8 ++ v.extractLsb' 0 8) = v := by
    ext i hi
    simp only [BitVec.getElem_append, BitVec.getElem_extractLsb']
    grind
  simp only [le64, imm64, List.cons_append, List.nil_append]
  rw [show (v.extractLsb' 56 8 ++ v.extractLsb' 48 8 ++ v.extractLsb' 40 8 ++ v.extractLsb' 32 8 ++
      v.extractLsb' 24 8 ++ v.extractLsb' 16 8 ++ v.extractLsb' 8 8 ++ v.extractLsb' 0 8) = v from this]

theorem trunc8_toInt {v : BitVec 32} (h : fits8 v = true) : (trunc8 v).toInt = v.toInt := by
  simp only [fits8, decide_eq_true_eq] at h
  have e : (trunc8 v).toNat = v.toNat % 256 := by simp [trunc8]
  have hv := v.isLt
  rw [BitVec.toInt_eq_toNat_cond] at h ⊢
  rw [e, BitVec.toInt_eq_toNat_cond]
  split <;> split at h <;> split <;> omega

theorem trunc8_imm {v : BitVec 32} (h : fits8 v = true) (rest : List Byte) :
    imm8 (trunc8 v :: rest) = some (v.toInt, rest) := by
  rw [imm8, trunc8_toInt h]

/-- An r/m argument encodes the operand `t` when the REX bits X and B are these. -/
structure RmOk (rm : RmArg) (x b : Bool) (t : RM) : Prop where
  rex : rm.rexBits = bitsXB x b
  dec : ∀ (p : Pre) (o : OpReg) (rest : List Byte), p.x = x → p.b = b → o.field.toNat < 8 →
    modrm p (emitModrm o rm ++ rest) = some (o.field.toNat, t, rest)

theorem modrm3 : ∀ (f : Fin 8) (r : Fin 16),
    ((3 <<< 6) ||| (BitVec.ofNat 8 f.val <<< 3) ||| lowBits r : Byte).toNat = 192 + f.val * 8 + (lowBits r).toNat := by
  decide +kernel

theorem field_fin {f : Byte} (h : f.toNat < 8) : f = BitVec.ofNat 8 (⟨f.toNat, h⟩ : Fin 8).val := by simp

theorem modrm3' {f : Byte} (h : f.toNat < 8) (r : Fin 16) :
    ((3 <<< 6) ||| (f <<< 3) ||| lowBits r : Byte).toNat = 192 + f.toNat * 8 + (lowBits r).toNat := by
  have := modrm3 ⟨f.toNat, h⟩ r
  rwa [← field_fin h] at this

theorem modrmM : ∀ (m : Fin 4) (f : Fin 8) (r : Fin 16),
    (((BitVec.ofNat 8 m.val <<< 6) ||| lowBits r) ||| (BitVec.ofNat 8 f.val <<< 3) : Byte).toNat =
      m.val * 64 + f.val * 8 + (lowBits r).toNat := by
  decide +kernel

theorem modrmM' (m : Fin 4) {f : Byte} (h : f.toNat < 8) (r : Fin 16) :
    (((BitVec.ofNat 8 m.val <<< 6) ||| lowBits r) ||| (f <<< 3) : Byte).toNat =
      m.val * 64 + f.toNat * 8 + (lowBits r).toNat := by
  have := modrmM m ⟨f.toNat, h⟩ r
  rwa [← field_fin h] at this

theorem sibM : ∀ (s : Fin 4) (i b : Fin 16),
    ((BitVec.ofNat 8 s.val <<< 6) ||| (lowBits i <<< 3) ||| lowBits b : Byte).toNat =
      s.val * 64 + (lowBits i).toNat * 8 + (lowBits b).toNat := by
  decide +kernel

theorem rmOk_reg3 {o : OpReg} (r : Fin 16) (p : Pre) (rest : List Byte) (hb : p.b = hi r)
    (hf : o.field.toNat < 8) :
    modrm p (((3 <<< 6) ||| (o.field <<< 3) ||| lowBits r) :: rest) = some (o.field.toNat, .reg r, rest) := by
  have e := modrm3' hf r
  have hl := low_lt r
  simp only [modrm, e]
  rw [if_pos (by omega), show (192 + o.field.toNat * 8 + (lowBits r).toNat) % 8 = (lowBits r).toNat by omega,
    hb, ext_low]
  congr 2
  omega

theorem rmOk_gpr (r : Gpr) : RmOk (.gpr r) false (hi r) (.reg r) :=
  ⟨by simp only [RmArg.rexBits, rexBit_eq, bitsXB, bit]; simp, fun p _ rest _ hb hf => rmOk_reg3 r p rest hb hf⟩

theorem rmOk_xmm (r : Xmm) : RmOk (.xmm r) false (hi r) (.reg r) :=
  ⟨by simp only [RmArg.rexBits, rexBit_eq, bitsXB, bit]; simp, fun p _ rest _ hb hf => rmOk_reg3 r p rest hb hf⟩

theorem rmOk_wrapped (r : Gpr) : RmOk (.mem (opModrm 3 r)) false (hi r) (.reg r) := by
  refine ⟨by simp only [RmArg.rexBits, opModrm, rexBit_eq, bitsXB, bit]; simp, ?_⟩
  intro p o rest _ hb hf
  simp only [emitModrm, opModrm, List.cons_append, List.nil_append]
  have e := modrmM' 3 hf r
  have hl := low_lt r
  simp only [modrm]
  rw [show ((3 : Byte) <<< 6 ||| lowBits r ||| o.field <<< 3).toNat = 3 * 64 + o.field.toNat * 8 + (lowBits r).toNat from e]
  rw [if_pos (by omega), show (3 * 64 + o.field.toNat * 8 + (lowBits r).toNat) % 8 = (lowBits r).toNat by omega,
    hb, ext_low]
  congr 2
  omega

/-- modrm without SIB byte. -/
theorem modrm_plain {m : Fin 4} {f : Byte} (hf : f.toNat < 8) (r : Fin 16) (p : Pre) (hb : p.b = hi r)
    (hm : m.val < 3) (h4 : (lowBits r).toNat ≠ 4) (h5 : ¬ (m = 0 ∧ (lowBits r).toNat = 5))
    {ds : List Byte} {d : Int} {rest : List Byte} (hd : dispOf m.val (ds ++ rest) = some (d, rest)) :
    modrm p ((((BitVec.ofNat 8 m.val <<< 6) ||| lowBits r) ||| (f <<< 3)) :: (ds ++ rest)) =
      some (f.toNat, .mem ⟨some r, none, d⟩, rest) := by
  have e := modrmM' m hf r
  have hl := low_lt r
  simp only [modrm, e]
  have e1 : (m.val * 64 + f.toNat * 8 + (lowBits r).toNat) / 64 = m.val := by omega
  have e2 : (m.val * 64 + f.toNat * 8 + (lowBits r).toNat) / 8 % 8 = f.toNat := by omega
  have e3 : (m.val * 64 + f.toNat * 8 + (lowBits r).toNat) % 8 = (lowBits r).toNat := by omega
  rw [e1, e2, e3, if_neg (by omega), if_neg h4, if_neg (by
    rintro ⟨a, b⟩; exact h5 ⟨Fin.ext a, b⟩), hd, hb]
  simp only [Option.map_some, ext_low]

/-- modrm with SIB byte. -/
theorem modrm_sib {m : Fin 4} {f : Byte} (hf : f.toNat < 8) (s : Fin 4) (i r : Fin 16) (p : Pre)
    (hb : p.b = hi r) (hx : p.x = hi i)
    (hm : m.val < 3) (h5 : ¬ (m = 0 ∧ (lowBits r).toNat = 5))
    {ds : List Byte} {d : Int} {rest : List Byte} (hd : dispOf m.val (ds ++ rest) = some (d, rest)) :
    modrm p ((((BitVec.ofNat 8 m.val <<< 6) ||| lowBits 4) ||| (f <<< 3)) ::
        ((BitVec.ofNat 8 s.val <<< 6) ||| (lowBits i <<< 3) ||| lowBits r) :: (ds ++ rest)) =
      some (f.toNat, .mem ⟨some r, if i = 4 then none else some (i, s), d⟩, rest) := by
  have e := modrmM' m hf 4
  have es := sibM s i r
  have hl := low_lt r
  have hli := low_lt i
  have e4 : (lowBits 4).toNat = 4 := by decide
  have hs := s.isLt
  rw [e4] at e
  simp only [modrm, e]
  have e1 : (m.val * 64 + f.toNat * 8 + 4) / 64 = m.val := by omega
  have e2 : (m.val * 64 + f.toNat * 8 + 4) / 8 % 8 = f.toNat := by omega
  have e3 : (m.val * 64 + f.toNat * 8 + 4) % 8 = 4 := by omega
  rw [e1, e2, e3, if_neg (by omega), if_pos rfl]
  simp only [sib, es]
  have s1 : (s.val * 64 + (lowBits i).toNat * 8 + (lowBits r).toNat) / 64 = s.val := by omega
  have s2 : (s.val * 64 + (lowBits i).toNat * 8 + (lowBits r).toNat) / 8 = s.val * 8 + (lowBits i).toNat := by omega
  have s3 : (s.val * 64 + (lowBits i).toNat * 8 + (lowBits r).toNat) % 8 = (lowBits r).toNat := by omega
  have x1 : ext p.x (s.val * 8 + (lowBits i).toNat) = i := by
    rw [← ext_mod, show (s.val * 8 + (lowBits i).toNat) % 8 = (lowBits i).toNat by omega, hx, ext_low]
  have x2 : ext p.b (s.val * 64 + (lowBits i).toNat * 8 + (lowBits r).toNat) = r := by
    rw [← ext_mod, s3, hb, ext_low]
  have x3 : Fin.ofNat 4 s.val = s := Fin.ext (by simp)
  rw [s1, s2, s3, x1, x2, x3, if_neg (by rintro ⟨a, b⟩; exact h5 ⟨Fin.ext a, b⟩), hd]
  rfl

theorem dispOf0 (rest : List Byte) : dispOf (0 : Fin 4).val ([] ++ rest) = some (0, rest) := rfl
theorem dispOf1 {d : BitVec 32} (h : fits8 d = true) (rest : List Byte) :
    dispOf (1 : Fin 4).val ([trunc8 d] ++ rest) = some (d.toInt, rest) := by
  simp only [dispOf]; exact trunc8_imm h rest
theorem dispOf2 (d : BitVec 32) (rest : List Byte) :
    dispOf (2 : Fin 4).val (le32 d ++ rest) = some (d.toInt, rest) := by
  simp only [dispOf]; exact le32_imm d rest

theorem low_ne4 : ∀ r : Fin 16, r ≠ 4 → r ≠ 12 → (lowBits r).toNat ≠ 4 := by decide +kernel
theorem low_ne5 : ∀ r : Fin 16, r ≠ 5 → r ≠ 13 → (lowBits r).toNat ≠ 5 := by decide +kernel

/-- The REX bit X of a memory operand. -/
def MemArg.hx : MemArg → Bool
  | .bisd _ i _ _ => hi i
  | _ => false
/-- The REX bit B of a memory operand. -/
def MemArg.hb : MemArg → Bool
  | .bd b _ => hi b
  | .bsd b _ _ => hi b
  | .bisd b _ _ _ => hi b

theorem sibRex (i b : Fin 16) : rexBit 4 ||| ((rexBit i <<< 1) ||| rexBit b) = bitsXB (hi i) (hi b) := by
  revert i b; decide +kernel

theorem opSib_ok {m : Fin 4} {o : Opd} (s : Fin 4) (i r : Fin 16) (ds : List Byte) (d : Int)
    (hbytes : o.bytes = (opSib (BitVec.ofNat 8 m.val) s i r).bytes ++ ds)
    (hrex : o.rex = (opSib (BitVec.ofNat 8 m.val) s i r).rex)
    (hm : m.val < 3) (h5 : ¬ (m = 0 ∧ (lowBits r).toNat = 5))
    (hd : ∀ rest, dispOf m.val (ds ++ rest) = some (d, rest)) :
    RmOk (.mem o) (hi i) (hi r) (.mem ⟨some r, if i = 4 then none else some (i, s), d⟩) := by
  refine ⟨by simp only [RmArg.rexBits]; rw [hrex]; exact sibRex i r, ?_⟩
  intro p q rest hx hb hf
  simp only [emitModrm, hbytes, opSib, opModrm, List.cons_append, List.nil_append]
  exact modrm_sib hf s i r p hb hx hm h5 (hd rest)

theorem opPlain_ok {m : Fin 4} {o : Opd} (r : Fin 16) (ds : List Byte) (d : Int)
    (hbytes : o.bytes = (opModrm (BitVec.ofNat 8 m.val) r).bytes ++ ds)
    (hrex : o.rex = rexBit r)
    (hm : m.val < 3) (h4 : (lowBits r).toNat ≠ 4) (h5 : ¬ (m = 0 ∧ (lowBits r).toNat = 5))
    (hd : ∀ rest, dispOf m.val (ds ++ rest) = some (d, rest)) :
    RmOk (.mem o) false (hi r) (.mem ⟨some r, none, d⟩) := by
  refine ⟨by simp only [RmArg.rexBits, hrex, rexBit_eq, bitsXB, bit]; simp, ?_⟩
  intro p q rest hx hb hf
  simp only [emitModrm, hbytes, opModrm, List.cons_append, List.nil_append]
  exact modrm_plain hf r p hb hm h4 h5 (hd rest)

theorem hi4 : hi 4 = false := by decide

/-- All operands the constructors build are decoded as meant. -/
theorem rmOk_mem (m : MemArg) (h : m.Legal) : RmOk (.mem m.opd) m.hx m.hb (.mem m.meaning) := by
  have z : (0 : BitVec 32).toInt = 0 := by decide
  have sibCase : ∀ (s : Fin 4) (i r : Fin 16) (d : BitVec 32) (o : Opd),
      ((d = 0 ∧ (lowBits r).toNat ≠ 5 ∧ o = opSibDisp0 s i r) ∨ (fits8 d = true ∧ o = opSibDisp8 s i r d) ∨
        o = opSibDisp32 s i r d) →
      RmOk (.mem o) (hi i) (hi r) (.mem ⟨some r, if i = 4 then none else some (i, s), d.toInt⟩) := by
    intro s i r d o h
    rcases h with ⟨rfl, h5, rfl⟩ | ⟨hf, rfl⟩ | rfl
    · rw [z]
      exact opSib_ok (m := 0) s i r [] 0 (by simp [opSibDisp0]) rfl (by decide) (fun a => h5 a.2) dispOf0
    · exact opSib_ok (m := 1) s i r [trunc8 d] _ rfl rfl (by decide) (fun a => by simp at a) (dispOf1 hf)
    · exact opSib_ok (m := 2) s i r (le32 d) _ rfl rfl (by decide) (fun a => by simp at a) (dispOf2 d)
  cases m with
  | bd r d =>
    simp only [MemArg.hx, MemArg.hb, MemArg.meaning, MemArg.opd]
    by_cases hr : r = 4 ∨ r = 12
    · rw [if_pos hr]
      have h5 : (lowBits r).toNat ≠ 5 := by rcases hr with rfl | rfl <;> decide
      have := sibCase 0 4 r d (if d = 0 then opSibDisp0 0 4 r else if fits8 d = true then opSibDisp8 0 4 r d
        else opSibDisp32 0 4 r d) (by grind)
      simpa [hi4] using this
    · rw [if_neg hr]
      have h4 := low_ne4 r (fun e => hr (.inl e)) (fun e => hr (.inr e))
      by_cases h0 : d = 0 ∧ r ≠ 5 ∧ r ≠ 13
      · rw [if_pos h0]; obtain ⟨rfl, a, b⟩ := h0
        rw [z]
        exact opPlain_ok (m := 0) r [] 0 (by simp) rfl (by decide) h4 (fun e => low_ne5 r a b e.2) dispOf0
      · rw [if_neg h0]
        by_cases hf : fits8 d = true
        · rw [if_pos hf]
          exact opPlain_ok (m := 1) r [trunc8 d] _ rfl rfl (by decide) h4 (fun e => by simp at e) (dispOf1 hf)
        · rw [if_neg hf]
          exact opPlain_ok (m := 2) r (le32 d) _ rfl rfl (by decide) h4 (fun e => by simp at e) (dispOf2 d)
  | bsd r s d =>
    simp only [MemArg.hx, MemArg.hb, MemArg.meaning, MemArg.opd]
    have := sibCase s 4 r d (if d = 0 ∧ r ≠ 5 ∧ r ≠ 13 then opSibDisp0 s 4 r else
      if fits8 d = true then opSibDisp8 s 4 r d else opSibDisp32 s 4 r d) (by
        have := low_ne5 r; grind)
    simpa [hi4] using this
  | bisd r i s d =>
    simp only [MemArg.hx, MemArg.hb, MemArg.meaning, MemArg.opd]
    have := sibCase s i r d (if d = 0 ∧ r ≠ 5 ∧ r ≠ 13 then opSibDisp0 s i r else
      if fits8 d = true then opSibDisp8 s i r d else opSibDisp32 s i r d) (by
        have := low_ne5 r; grind)
    simp only [MemArg.Legal] at h
    simpa [h] using this

/-! ### Prefixes -/

theorem rexPrefix_64 (P F r x b : Bool) (t : List Byte) :
    rexPrefix P F ((0x48 ||| (bit r <<< 2) ||| bitsXB x b) :: t) = some (⟨P, F, true, true, r, x, b⟩, t) := by
  cases r <;> cases x <;> cases b <;> rfl

theorem prefixes_64 (r x b : Bool) (t : List Byte) :
    prefixes ((0x48 ||| (bit r <<< 2) ||| bitsXB x b) :: t) =
      some (⟨false, false, true, true, r, x, b⟩, t) := by
  cases r <;> cases x <;> cases b <;> rfl

theorem rexPrefix_maybe (P F r x b : Bool) (op : Byte) (t : List Byte) (h : op.toNat / 16 ≠ 4) :
    rexPrefix P F (maybeRex ((bit r <<< 2) ||| bitsXB x b) ++ op :: t) =
      some (⟨P, F, r || x || b, false, r, x, b⟩, op :: t) := by
  cases r <;> cases x <;> cases b <;> first | rfl | (show rexPrefix P F (op :: t) = _; simp only [rexPrefix, if_neg h]; rfl)

theorem prefixes_maybe (r x b : Bool) (op : Byte) (t : List Byte) (h : op.toNat / 16 ≠ 4)
    (h1 : op ≠ 0x66) (h2 : op ≠ 0xf3) :
    prefixes (maybeRex ((bit r <<< 2) ||| bitsXB x b) ++ op :: t) =
      some (⟨false, false, r || x || b, false, r, x, b⟩, op :: t) := by
  cases r <;> cases x <;> cases b <;> first
    | rfl
    | (show prefixes (op :: t) = _
       simp only [prefixes, if_neg h1, if_neg h2, rexPrefix, if_neg h]; rfl)

/-- The REX bit of the reg field. -/
def OpReg.hr : OpReg → Bool
  | .gpr r => hi r
  | .xmm r => hi r
  | .num _ => false

theorem OpReg.rexBit_eq (o : OpReg) : o.rexBit = bit o.hr := by
  cases o
  · exact X64.rexBit_eq _
  · exact X64.rexBit_eq _
  · rfl

/-- A reg field of three bits. -/
def OpReg.Ok : OpReg → Prop
  | .num n => n.toNat < 8
  | _ => True

theorem OpReg.Ok.lt {o : OpReg} (h : o.Ok) : o.field.toNat < 8 := by
  cases o
  · exact low_lt _
  · exact low_lt _
  · exact h

section
variable {rm : RmArg} {x b : Bool} {t : RM} (H : RmOk rm x b t) (o : OpReg) (rest : List Byte)
include H

theorem decode_emit1_64 (opc : Byte) (h : opc ≠ 0x0f) :
    decode (emit1_64 opc o rm ++ rest) =
      decode1 ⟨false, false, true, true, o.hr, x, b⟩ opc (emitModrm o rm ++ rest) := by
  simp only [emit1_64, rex64, o.rexBit_eq, H.rex, decode, List.cons_append, List.nil_append, prefixes_64]
  rw [if_neg h]

theorem decode_emit1 (opc : Byte) (h : opc ≠ 0x0f) (h4 : opc.toNat / 16 ≠ 4) (h1 : opc ≠ 0x66)
    (h2 : opc ≠ 0xf3) :
    decode (emit1 opc o rm ++ rest) =
      decode1 ⟨false, false, o.hr || x || b, false, o.hr, x, b⟩ opc (emitModrm o rm ++ rest) := by
  simp only [emit1, o.rexBit_eq, H.rex, decode, List.append_assoc, List.cons_append, List.nil_append]
  rw [prefixes_maybe _ _ _ _ _ h4 h1 h2]
  simp only [if_neg h]

/-- 64 or 32 bits. -/
theorem decode_emitQ (q : Bool) (opc : Byte) (h : opc ≠ 0x0f) (h4 : opc.toNat / 16 ≠ 4) (h1 : opc ≠ 0x66)
    (h2 : opc ≠ 0xf3) :
    ∃ p : Pre, p.width = wid q ∧ p.x = x ∧ p.b = b ∧ p.r = o.hr ∧
      decode ((if q then emit1_64 else emit1) opc o rm ++ rest) = decode1 p opc (emitModrm o rm ++ rest) := by
  cases q
  · exact ⟨_, rfl, rfl, rfl, rfl, decode_emit1 H o rest opc h h4 h1 h2⟩
  · exact ⟨_, rfl, rfl, rfl, rfl, decode_emit1_64 H o rest opc h⟩

theorem decode_emit2Q (q : Bool) (opc : Byte) :
    ∃ p : Pre, p.width = wid q ∧ p.x = x ∧ p.b = b ∧ p.r = o.hr ∧ p.f3 = false ∧ p.p66 = false ∧
      p.rex = (q || o.hr || x || b) ∧
      decode ((if q then emit2_64 else emit2) 0x0f opc o rm ++ rest) = decode0f p opc (emitModrm o rm ++ rest) := by
  cases q
  · refine ⟨⟨false, false, o.hr || x || b, false, o.hr, x, b⟩, rfl, rfl, rfl, rfl, rfl, rfl, by simp, ?_⟩
    simp only [Bool.false_eq_true, if_false, emit2, o.rexBit_eq, H.rex, decode, List.append_assoc,
      List.cons_append, List.nil_append]
    rw [prefixes_maybe _ _ _ _ _ (by decide) (by decide) (by decide)]
    simp
  · refine ⟨⟨false, false, true, true, o.hr, x, b⟩, rfl, rfl, rfl, rfl, rfl, rfl, by simp, ?_⟩
    simp only [if_true, emit2_64, rex64, o.rexBit_eq, H.rex, decode, List.cons_append, List.nil_append,
      prefixes_64]

theorem decode_sse (opc : Byte) (pf : Byte) (f3 : Bool) (hp : pf = if f3 then 0xf3 else 0x66) :
    decode (emit3sse pf 0x0f opc o rm ++ rest) =
      decode0f ⟨!f3, f3, x || b, false, false, x, b⟩ opc (emitModrm o rm ++ rest) := by
  have e : prefixes ([pf] ++ maybeRex rm.rexBits ++ [0x0f, opc] ++ emitModrm o rm ++ rest) =
      some (⟨!f3, f3, x || b, false, false, x, b⟩, 0x0f :: opc :: (emitModrm o rm ++ rest)) := by
    have := rexPrefix_maybe (!f3) f3 false x b 0x0f (opc :: (emitModrm o rm ++ rest)) (by decide)
    simp only [Bool.false_or] at this
    rw [show bit false <<< 2 ||| bitsXB x b = bitsXB x b from by cases x <;> cases b <;> rfl] at this
    rw [H.rex, ← this]
    cases f3 <;> subst hp <;>
      simp only [prefixes, List.append_assoc, List.cons_append, List.nil_append, if_true, Bool.false_eq_true,
        if_false] <;> rfl
  simp only [emit3sse, decode, e]
  simp

theorem decode_sse4 (opc : Byte) :
    decode (emit4sse 0x66 0x0f 0x3a opc o rm ++ rest) =
      decode0f ⟨true, false, x || b, false, false, x, b⟩ 0x3a (opc :: (emitModrm o rm ++ rest)) := by
  have e : prefixes ([0x66] ++ maybeRex rm.rexBits ++ [0x0f, 0x3a, opc] ++ emitModrm o rm ++ rest) =
      some (⟨true, false, x || b, false, false, x, b⟩, 0x0f :: 0x3a :: opc :: (emitModrm o rm ++ rest)) := by
    have := rexPrefix_maybe true false false x b 0x0f (0x3a :: opc :: (emitModrm o rm ++ rest)) (by decide)
    simp only [Bool.false_or] at this
    rw [show bit false <<< 2 ||| bitsXB x b = bitsXB x b from by cases x <;> cases b <;> rfl] at this
    rw [H.rex, ← this]
    simp only [prefixes, List.append_assoc, List.cons_append, List.nil_append, if_true]
  simp only [emit4sse, decode, e]
  simp

/-- Reading the ModRM byte back. -/
theorem withRM_emit (p : Pre) (hx : p.x = x) (hb : p.b = b) (ho : o.Ok) (f : Nat → RM → Option Instr) :
    withRM p (emitModrm o rm ++ rest) f = (f o.field.toNat t).map fun i => (i, rest) := by
  simp only [withRM, H.dec p o rest hx hb ho.lt]

theorem withRMI_emit {bs : List Byte} {imm : List Byte → Option (Int × List Byte)} {v : Int}
    (hi : imm (bs ++ rest) = some (v, rest)) (p : Pre) (hx : p.x = x) (hb : p.b = b) (ho : o.Ok)
    (f : Nat → RM → Int → Option Instr) :
    withRMI p (emitModrm o rm ++ (bs ++ rest)) imm f = (f o.field.toNat t v).map fun i => (i, rest) := by
  simp only [withRMI, H.dec p o (bs ++ rest) hx hb ho.lt, hi]

end

theorem ext_field_gpr (r : Gpr) : ext (OpReg.gpr r).hr (OpReg.gpr r).field.toNat = r := ext_low r
theorem ext_field_xmm (r : Xmm) : ext (OpReg.xmm r).hr (OpReg.xmm r).field.toNat = r := ext_low r

theorem ext_false : ∀ r : Fin 16, r.val < 8 → ext false (lowBits r).toNat = r := by decide +kernel

/-- The REX bits of a register or memory operand. -/
def RO.hx : RO → Bool
  | .reg _ => false
  | .mem m => m.hx
/-- The REX bits of a register or memory operand. -/
def RO.hb : RO → Bool
  | .reg r => hi r
  | .mem m => m.hb

theorem rmOk_ro (a : RO) (h : a.Legal) : RmOk a.rm a.hx a.hb a.meaning := by
  cases a with
  | reg r => exact rmOk_gpr r
  | mem m => exact rmOk_mem m h

/-- The REX bits of a float register or memory operand. -/
def XO.hx : XO → Bool
  | .xmm _ => false
  | .mem m => m.hx
/-- The REX bits of a float register or memory operand. -/
def XO.hb : XO → Bool
  | .xmm r => hi r
  | .mem m => m.hb

theorem rmOk_xo (a : XO) (h : a.Legal) : RmOk a.rm a.hx a.hb a.meaning := by
  cases a with
  | xmm r => exact rmOk_xmm r
  | mem m => exact rmOk_mem m h

end Verif.X64

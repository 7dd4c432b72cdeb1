import Verif.Spec.X64Run
import Verif.Proofs.X64Prefix
import Verif.Props.C64
import Verif.Proofs.X64Calls

/-! The processor on linked code: what it does at the place of each call of the assembler. -/
namespace Verif.X64

section
variable {ops : List Op} {A : Asm} (hrun : Asm.run true {} ops = some A) (H : Host) (chunk : BitVec 64)

theorem Reach.trans {H : Host} {I : Image} {a b c : Nat} {m m' m'' : Mach} (h1 : Reach H I a m b m') (h2 : Reach H I b m' c m'') :
    Reach H I a m c m'' := by
  induction h1 with
  | here => exact h2
  | step hs _ ih => exact .step hs (ih h2)

theorem Reach.one {H : Host} {I : Image} {a b : Nat} {m m' : Mach} (h : cpu H I a m = some (b, m')) : Reach H I a m b m' :=
  .step h (.here _ _)

include hrun in
theorem pos_run (n : Nat) : ∃ B, Asm.run true {} (ops.take n) = some B ∧ pos ops n = B.pc ∧
    B.run true (ops.drop n) = some A := by
  have h : Asm.run true {} (ops.take n ++ ops.drop n) = some A := by rw [List.take_append_drop]; exact hrun
  obtain ⟨B, h1, h2⟩ := run_split h
  exact ⟨B, h1, by simp only [pos, h1], h2⟩

theorem image_at (A : Asm) (chunk : BitVec 64) (p : Nat) : (A.toImage chunk).at p = A.buf.drop p := image_code A chunk p

theorem split_at {ops : List Op} {n : Nat} {op : Op} (h : ops[n]? = some op) :
    ops = ops.take n ++ op :: ops.drop (n + 1) ∧ ops.take (n + 1) = ops.take n ++ [op] := by
  obtain ⟨hn, rfl⟩ := List.getElem?_eq_some_iff.1 h
  constructor
  · rw [← List.drop_eq_getElem_cons hn, List.take_append_drop]
  · exact List.take_succ_eq_append_getElem hn

include hrun in
theorem pos_step {n : Nat} {op : Op} (h : ops[n]? = some op) : ∃ B C, Asm.run true {} (ops.take n) = some B ∧ pos ops n = B.pc ∧
    B.step true op = some C ∧ C.pc ≤ 536870912 ∧ pos ops (n + 1) = C.pc ∧ Asm.run true {} (ops.take n ++ [op]) = some C ∧
    B.pc ≤ C.pc ∧ C.pc ≤ A.buf.length := by
  obtain ⟨e1, e2⟩ := split_at h
  obtain ⟨B, h1, h2, h3⟩ := pos_run hrun n
  have h4 : ops.drop n = op :: ops.drop (n + 1) := by
    obtain ⟨hn, rfl⟩ := List.getElem?_eq_some_iff.1 h
    exact List.drop_eq_getElem_cons hn
  rw [h4] at h3
  obtain ⟨C, hC, hs, hr⟩ := run_one h3
  have h5 : Asm.run true {} (ops.take n ++ [op]) = some C := by
    rw [run_append, h1]
    simp only [Option.bind_some, Asm.run, hC, if_pos hs]
  obtain ⟨ch, sl, k⟩ := later_run _ inv_init h1
  obtain ⟨ch', sl', k'⟩ := later_step k.inv hC hs
  obtain ⟨ch'', sl'', k''⟩ := later_run _ k'.inv hr
  exact ⟨B, C, h1, h2, hC, hs, by simp only [pos, e2, h5], h5, k'.mono, k''.mono⟩

include hrun in
theorem pos_mono {n : Nat} {op : Op} (h : ops[n]? = some op) : pos ops n ≤ pos ops (n + 1) ∧ pos ops (n + 1) ≤ A.buf.length ∧
    pos ops n ≤ 536870912 := by
  obtain ⟨B, C, _, e1, _, hs, e2, _, h1, h2⟩ := pos_step hrun h
  rw [e1, e2]; omega

end

/-- Memory that holds the linked code of `ops`, where the jumps in `red` lead to other places than they were emitted for. -/
structure Follows (ops : List Op) (A : Asm) (red : Nat → Option Nat) (I : Image) : Prop where
  len : ∀ p, (I.at p).length = A.buf.length - p
  raw : ∀ {n : Nat} {bs : List Byte} {i : Instr}, ops[n]? = some (.raw bs) → decode bs = some (i, []) →
    decode (I.at (pos ops n)) = some (i, I.at (pos ops (n + 1)))
  jump : ∀ {n k l : Nat} {op : Op} {f : Int → Instr}, ops[n]? = some op → op.jump = some (l, f) → ops[k]? = some (.bind l) →
    ∃ rel : Int, decode (I.at (pos ops n)) = some (f rel, I.at (pos ops (n + 1))) ∧
      (pos ops (n + 1) : Int) + rel = pos ops ((red n).getD k)
  lea : ∀ {n k i j : Nat} {junk : Byte} {mid q : List Op} {cs : List Nat}, ops[n]? = some (.leaTab 6 k junk) →
    ops.drop (n + 1) = mid ++ (cs.reverse.map .abs ++ .bindTab k :: q) → (hi : i < cs.length) → ops[j]? = some (.bindAdr cs[i]) →
    ∃ d : Int, decode (I.at (pos ops n)) = some (.lea .q 6 (.rip d), I.at (pos ops (n + 1))) ∧
      qword I.bytes (I.start + pos ops (n + 1) + d + 8 * i) = some (I.entry + BitVec.ofNat 64 (pos ops j))
  long : ∀ {n q : Nat}, red n = some q → ∃ l, ops[n]? = some (.jmp32 l) ∨ ∃ cc, ops[n]? = some (.j32 cc l)

section
variable {ops : List Op} {A : Asm} (hrun : Asm.run true {} ops = some A) (H : Host) (chunk : BitVec 64)

include hrun in
theorem fetch_raw {n : Nat} {bs : List Byte} {i : Instr} (h : ops[n]? = some (.raw bs)) (hd : decode bs = some (i, [])) :
    decode ((A.toImage chunk).at (pos ops n)) = some (i, (A.toImage chunk).at (pos ops (n + 1))) := by
  obtain ⟨e1, _⟩ := split_at h
  obtain ⟨B, C, h1, e2, hC, hs, e3, _⟩ := pos_step hrun h
  have := C64_raw (p := ops.take n) (q := ops.drop (n + 1)) chunk (e1 ▸ hrun) h1
  have e4 : C.pc = B.pc + bs.length := by
    simp only [Asm.step, Option.some.injEq] at hC
    rw [← hC]; exact add_pc _ _
  rw [e2, e3, e4]
  show decode (A.code chunk _) = some (i, A.code chunk _)
  rw [this]
  exact decode_append hd _

include hrun in
theorem fetch_jump {n k : Nat} {op : Op} {l : Nat} {f : Int → Instr} (h : ops[n]? = some op) (hop : op.jump = some (l, f))
    (hk : ops[k]? = some (.bind l)) : ∃ rel : Int,
    decode ((A.toImage chunk).at (pos ops n)) = some (f rel, (A.toImage chunk).at (pos ops (n + 1))) ∧
      (pos ops (n + 1) : Int) + rel = pos ops k := by
  obtain ⟨e1, _⟩ := split_at h
  obtain ⟨e1', _⟩ := split_at hk
  obtain ⟨B, C, h1, e2, hC, hs, e3, h5, _⟩ := pos_step hrun h
  obtain ⟨B', C', h1', e2', _⟩ := pos_step hrun hk
  obtain ⟨rel, h6, h7⟩ := C64_jump chunk hrun e1 hop e1' h1 h5 h1'
  exact ⟨rel, by rw [e2, e3]; exact h6, by rw [e3, e2']; exact h7⟩

include hrun in
theorem fetch_lea {n k i j : Nat} {junk : Byte} {mid q : List Op} {cs : List Nat} (h0 : ops[n]? = some (.leaTab 6 k junk))
    (hmid : ops.drop (n + 1) = mid ++ (cs.reverse.map .abs ++ .bindTab k :: q)) (hi : i < cs.length) (hj : ops[j]? = some (.bindAdr cs[i])) :
    pos ops (n + 1) = pos ops n + 7 ∧
    ∃ d : Int, decode ((A.toImage chunk).at (pos ops n)) = some (.lea .q 6 (.rip d), (A.toImage chunk).at (pos ops (n + 1))) ∧
      qword (A.toImage chunk).bytes ((A.toImage chunk).start + pos ops (n + 1) + d + 8 * i) =
        some ((A.toImage chunk).entry + BitVec.ofNat 64 (pos ops j)) := by
  obtain ⟨e0, _⟩ := split_at h0
  obtain ⟨ej, _⟩ := split_at hj
  obtain ⟨B, C, hB, eB, hC, hs, eC, _, hle, hle2⟩ := pos_step hrun h0
  obtain ⟨B', C', hB', eB', _⟩ := pos_step hrun hj
  rw [hmid] at e0
  obtain ⟨d, hd, hq⟩ := C64_table (p := ops.take n) chunk hi (e0 ▸ hrun) hB (e0.symm.trans ej) hB'
  have h7 : C.pc = B.pc + 7 := by
    obtain ⟨ch, sl, kk⟩ := later_run _ inv_init hB
    simp only [Asm.step] at hC
    exact (leaTab_step kk.inv hC hs).2.1
  refine ⟨by rw [eC, eB, h7], d, ?_, ?_⟩
  · rw [eB, eC, h7]; exact hd
  · rw [eC, h7, eB']; exact hq

include hrun in
/-- The image that the assembler writes. -/
theorem follows_image : Follows ops A (fun _ => none) (A.toImage chunk) where
  len p := by rw [image_at, List.length_drop]
  raw := fetch_raw hrun chunk
  jump := fetch_jump hrun chunk
  lea h0 hmid hi hj := (fetch_lea hrun chunk h0 hmid hi hj).2
  long h := by cases h

include hrun in
theorem pos_bind {n : Nat} {op : Op} (h : ops[n]? = some op)
    (hop : ∀ B C : Asm, B.step true op = some C → C.pc = B.pc) : pos ops (n + 1) = pos ops n := by
  obtain ⟨B, C, _, e2, hC, _, e3, _⟩ := pos_step hrun h
  rw [e2, e3, hop B C hC]

theorem poke32_length {buf buf' : List Byte} {p : Nat} {v : BitVec 32} (h : poke32 buf p v = some buf') : buf'.length = buf.length := by
  unfold poke32 at h
  split at h
  · cases h
    simp only [List.length_append, List.length_take, List.length_drop, le32_length]
    omega
  · cases h

theorem patch_length {pc : Nat} : ∀ (n : Nat) {buf buf' : List Byte} {s : BitVec 32}, patch pc n buf s = some buf' → buf'.length = buf.length
  | 0, buf, buf', s, h => by
    unfold patch at h
    split at h
    · cases h; rfl
    · cases h
  | n+1, buf, buf', s, h => by
    unfold patch at h
    split at h
    · cases h; rfl
    · simp only at h
      split at h
      · cases h
      · split at h
        · cases h
        · split at h
          · cases h
          · rename_i b hb
            rw [patch_length n h, poke32_length hb]

theorem bind_pc (l : Nat) (B C : Asm) (h : B.step true (.bind l) = some C) : C.pc = B.pc := by
  simp only [Asm.step, Asm.bind] at h
  split at h
  · cases h
  · split at h
    · cases h
    · rename_i buf e
      cases h
      exact patch_length _ e

theorem bindAdr_pc (l : Nat) (B C : Asm) (h : B.step true (.bindAdr l) = some C) : C.pc = B.pc := by
  simp only [Asm.step, Asm.bindAdr] at h
  split at h
  · cases h
  · split at h
    · split at h
      · cases h
      · split at h
        · cases h; rfl
        · cases h
    · cases h; rfl

include hrun in
/-- Bind does not move. -/
theorem pos_label {n l : Nat} (h : ops[n]? = some (.bind l)) : pos ops (n + 1) = pos ops n := pos_bind hrun h (bind_pc l)
include hrun in
theorem pos_labelA {n l : Nat} (h : ops[n]? = some (.bindAdr l)) : pos ops (n + 1) = pos ops n := pos_bind hrun h (bindAdr_pc l)

end

section
variable {ops : List Op} {A : Asm} (hrun : Asm.run true {} ops = some A) (H : Host) {red : Nat → Option Nat} {I : Image} (hI : Follows ops A red I)

include hI in
/-- Where the instruction after this one begins. -/
theorem next_eq {p q : Nat} (h1 : p ≤ q) (h2 : q ≤ A.buf.length) : p + ((I.at p).length - (I.at q).length) = q := by
  rw [hI.len, hI.len]
  omega

include hI in
theorem red_jmp {n l : Nat} (h : ops[n]? = some (.jmp l)) : red n = none := by
  cases e : red n with
  | none => rfl
  | some q =>
    obtain ⟨l, h1 | ⟨cc, h1⟩⟩ := hI.long e <;> rw [h] at h1 <;> cases h1
include hI in
theorem red_j {n l : Nat} {cc : Cc} (h : ops[n]? = some (.j cc l)) : red n = none := by
  cases e : red n with
  | none => rfl
  | some q =>
    obtain ⟨l, h1 | ⟨cc, h1⟩⟩ := hI.long e <;> rw [h] at h1 <;> cases h1
include hI in
theorem red_call {n l : Nat} (h : ops[n]? = some (.call l)) : red n = none := by
  cases e : red n with
  | none => rfl
  | some q =>
    obtain ⟨l, h1 | ⟨cc, h1⟩⟩ := hI.long e <;> rw [h] at h1 <;> cases h1

include hrun hI in
/-- An ordinary instruction. -/
theorem cpu_raw {n : Nat} {bs : List Byte} {i : Instr} {m m' : Mach} (h : ops[n]? = some (.raw bs)) (hd : decode bs = some (i, []))
    (he : exec H i m = some m') : cpu H I (pos ops n) m = some (pos ops (n + 1), m') := by
  obtain ⟨h1, h2, _⟩ := pos_mono hrun h
  have hn := next_eq hI h1 h2
  have hf := hI.raw h hd
  unfold cpu
  rw [hf]
  simp only [hn]
  split
  · cases he
  · cases he
  · cases he
  · cases he
  · cases he
  · rw [he]
  · rw [he]

include hrun hI in
/-- A jump. -/
theorem cpu_jmp {n k l : Nat} {op : Op} {m : Mach} (h : ops[n]? = some op) (hop : op.jump = some (l, .jmp))
    (hk : ops[k]? = some (.bind l)) : cpu H I (pos ops n) m = some (pos ops ((red n).getD k), m) := by
  obtain ⟨h1, h2, _⟩ := pos_mono hrun h
  have hn := next_eq hI h1 h2
  obtain ⟨rel, hf, hr⟩ := hI.jump h hop hk
  unfold cpu
  rw [hf]
  simp only [hn, hr, jumpTo]
  rw [if_pos (by omega)]
  rfl

include hrun hI in
/-- A call. -/
theorem cpu_call {n k l : Nat} {op : Op} {m : Mach} (h : ops[n]? = some op) (hop : op.jump = some (l, .call))
    (hk : ops[k]? = some (.bind l)) : cpu H I (pos ops n) m =
      some (pos ops ((red n).getD k), { m with stack := (I.entry + BitVec.ofNat 64 (pos ops (n + 1))) :: m.stack }) := by
  obtain ⟨h1, h2, _⟩ := pos_mono hrun h
  have hn := next_eq hI h1 h2
  obtain ⟨rel, hf, hr⟩ := hI.jump h hop hk
  unfold cpu
  rw [hf]
  simp only [hn, hr, jumpTo]
  rw [if_pos (by omega)]
  rfl

include hrun hI in
/-- A conditional jump that is taken. -/
theorem cpu_jcc {n k l : Nat} {op : Op} {cc : Cc} {m : Mach} {f : Flags} (h : ops[n]? = some op) (hop : op.jump = some (l, .jcc cc))
    (hk : ops[k]? = some (.bind l)) (hf : m.flags = some f) :
    cpu H I (pos ops n) m = some (if cond f cc then pos ops ((red n).getD k) else pos ops (n + 1), m) := by
  obtain ⟨h1, h2, _⟩ := pos_mono hrun h
  have hn := next_eq hI h1 h2
  obtain ⟨rel, hd, hr⟩ := hI.jump h hop hk
  unfold cpu
  rw [hd]
  simp only [hn, hr, jumpTo, hf]
  by_cases hc : cond f cc = true
  · rw [if_pos hc, if_pos hc, if_pos (by omega)]; rfl
  · rw [if_neg hc, if_neg hc]

theorem movsxd11 : decode (Call.movsxd 1 (.reg 1)).bytes = some (.movsxd .q 1 (.reg 1), []) := by
  have := movsxd_ok 1 (.reg 1) trivial []
  rwa [List.append_nil] at this
theorem loadSlot : decode (Call.movqRM 7 (.bisd 6 1 3 0)).bytes = some (.movL .q 7 (.mem ⟨some 6, some (1, 3), 0⟩), []) := by
  have := movqRM_ok 7 (.bisd 6 1 3 0) (show (1 : Gpr) ≠ 4 by decide) []
  rw [List.append_nil] at this
  exact this
theorem jmp7 : decode (Call.jmpRM (.reg 7)).bytes = some (.jmpRM (.reg 7), []) := by
  have := jmpRM_ok (.reg 7) trivial []
  rwa [List.append_nil] at this

theorem qword_range {bs : List Byte} {p : Int} {v : BitVec 64} (h : qword bs p = some v) : 0 ≤ p ∧ p < bs.length := by
  unfold qword at h
  split at h
  · rename_i h0
    split at h
    · rename_i e
      have := congrArg List.length e
      simp only [List.length_drop, List.length_cons] at this
      omega
    · cases h
  · cases h

theorem add_ofInt_sub (b : BitVec 64) (x : Int) (h0 : 0 ≤ x) (h1 : x < 18446744073709551616) :
    (b + BitVec.ofInt 64 x - b).toNat = x.toNat := by
  rw [BitVec.add_comm, BitVec.add_sub_cancel]
  rw [BitVec.toNat_ofInt]
  omega

theorem index_sext {i : Nat} (h : i < 2147483648) : (BitVec.ofNat 32 i).signExtend 64 = BitVec.ofInt 64 i := by
  apply BitVec.eq_of_toInt_eq
  rw [BitVec.toInt_signExtend_of_le (by decide), BitVec.toInt_ofNat', BitVec.toInt_ofInt, Int.bmod_def, Int.bmod_def]
  omega

theorem index_scale {i : Nat} (h : i < 2147483648) :
    ((BitVec.ofNat 32 i).signExtend 64 : BitVec 64) <<< 3 = BitVec.ofInt 64 (8 * i) := by
  rw [index_sext h, BitVec.shiftLeft_eq_mul_twoPow, BitVec.mul_comm, BitVec.ofInt_mul]
  rfl

include hrun hI in
/-- The jump through a table. -/
theorem cpu_table {n k i j : Nat} {junk : Byte} {cs : List Nat} {q : List Op} {m : Mach}
    (h0 : ops[n]? = some (.leaTab 6 k junk)) (h1 : ops[n + 1]? = some (.raw (Call.movsxd 1 (.reg 1)).bytes))
    (h2 : ops[n + 2]? = some (.raw (Call.movqRM 7 (.bisd 6 1 3 0)).bytes))
    (h3 : ops[n + 3]? = some (.raw (Call.jmpRM (.reg 7)).bytes))
    (htail : ops.drop (n + 4) = cs.reverse.map .abs ++ .bindTab k :: q) (hi : i < cs.length)
    (hj : ops[j]? = some (.bindAdr cs[i])) (ok : ImageOk H I) (hm : m.lo 1 = BitVec.ofNat 32 i)
    (hsmall : i < 2147483648) :
    ∃ a b c, Reach H I (pos ops n) m (pos ops j) (((m.setReg 6 a).setReg 1 b).setReg 7 c) := by
  have hmid : ops.drop (n + 1) = [.raw (Call.movsxd 1 (.reg 1)).bytes, .raw (Call.movqRM 7 (.bisd 6 1 3 0)).bytes,
      .raw (Call.jmpRM (.reg 7)).bytes] ++ (cs.reverse.map .abs ++ .bindTab k :: q) := by
    obtain ⟨hn1, e1⟩ := List.getElem?_eq_some_iff.1 h1
    obtain ⟨hn2, e2⟩ := List.getElem?_eq_some_iff.1 h2
    obtain ⟨hn3, e3⟩ := List.getElem?_eq_some_iff.1 h3
    rw [List.drop_eq_getElem_cons hn1, e1, List.drop_eq_getElem_cons hn2, e2, List.drop_eq_getElem_cons hn3, e3, htail]
    rfl
  obtain ⟨d, hd, hq⟩ := hI.lea h0 hmid hi hj
  obtain ⟨hle, hle2, _⟩ := pos_mono hrun h0
  have hn0 := next_eq hI hle hle2
  have hp2 := (pos_mono hrun hj).2.2
  -- the address of the table
  have s0 : cpu H I (pos ops n) m = some (pos ops (n + 1), m.setReg 6 (I.entry + BitVec.ofInt 64 (pos ops (n + 1) + d))) := by
    unfold cpu
    rw [hd]
    simp only [hn0]
  -- the index
  have s1 := cpu_raw hrun H hI (m := m.setReg 6 (I.entry + BitVec.ofInt 64 (pos ops (n + 1) + d)))
    (m' := (m.setReg 6 (I.entry + BitVec.ofInt 64 (pos ops (n + 1) + d))).setReg 1 ((BitVec.ofNat 32 i).signExtend 64)) h1 movsxd11 (by
      show (match get32 H _ (.reg 1) with | none => none | some v => some (Mach.setReg _ 1 (v.signExtend 64))) = _
      have : (m.setReg 6 (I.entry + BitVec.ofInt 64 (pos ops (n + 1) + d))).lo 1 = BitVec.ofNat 32 i := hm
      simp only [get32, this])
  have hidx := index_scale hsmall
  -- the slot
  obtain ⟨r0, r1⟩ := qword_range hq
  have hfits := ok.fits
  have hea : ea ((m.setReg 6 (I.entry + BitVec.ofInt 64 (pos ops (n + 1) + d))).setReg 1 ((BitVec.ofNat 32 i).signExtend 64))
      ⟨some 6, some (1, 3), 0⟩ = I.base + BitVec.ofInt 64 (I.start + pos ops (n + 1) + d + 8 * i) := by
    show (I.entry + BitVec.ofInt 64 (pos ops (n + 1) + d)) + ((BitVec.ofNat 32 i).signExtend 64 <<< 3) + BitVec.ofInt 64 0 = _
    rw [hidx]
    show I.base + BitVec.ofNat 64 I.start + BitVec.ofInt 64 (pos ops (n + 1) + d) + BitVec.ofInt 64 (8 * i) + BitVec.ofInt 64 0 = _
    rw [← BitVec.ofInt_natCast, BitVec.add_assoc, BitVec.add_assoc, BitVec.add_assoc, ← BitVec.ofInt_add, ← BitVec.ofInt_add, ← BitVec.ofInt_add]
    congr 2
    omega
  have s2 : cpu H I (pos ops (n + 2)) ((m.setReg 6 (I.entry + BitVec.ofInt 64 (pos ops (n + 1) + d))).setReg 1
      ((BitVec.ofNat 32 i).signExtend 64)) = some (pos ops (n + 3), ((m.setReg 6 (I.entry + BitVec.ofInt 64 (pos ops (n + 1) + d))).setReg 1
      ((BitVec.ofNat 32 i).signExtend 64)).setReg 7 (I.entry + BitVec.ofNat 64 (pos ops j))) := by
    obtain ⟨g1, g2, _⟩ := pos_mono hrun h2
    have hn := next_eq hI g1 g2
    have hf := hI.raw h2 loadSlot
    generalize hM : (m.setReg 6 (I.entry + BitVec.ofInt 64 (pos ops (n + 1) + d))).setReg 1 ((BitVec.ofNat 32 i).signExtend 64) = M
    rw [hM] at hea
    have hno : exec H (.movL .q 7 (.mem ⟨some 6, some (1, 3), 0⟩)) M = none := by
      show (match get64 H M (.mem ⟨some 6, some (1, 3), 0⟩) with | none => none | some v => put64 H M (.reg 7) v) = none
      have : load64 H M (ea M ⟨some 6, some (1, 3), 0⟩) = none := by
        unfold load64
        split
        · rfl
        · rw [if_neg]
          rw [hea]
          have := ok.apart (I.start + pos ops (n + 1) + d + 8 * i : Int).toNat (by omega)
          rw [← BitVec.ofInt_natCast, Int.toNat_of_nonneg r0] at this
          unfold Host.inBlock
          simp only [decide_eq_true_eq]
          omega
      simp only [get64, this]
    unfold cpu
    rw [hf]
    simp only [hn, hno, hea]
    have hx : (I.base + BitVec.ofInt 64 (I.start + pos ops (n + 1) + d + 8 * i) - I.base).toNat =
        (I.start + pos ops (n + 1) + d + 8 * i : Int).toNat := add_ofInt_sub _ _ r0 (by omega)
    rw [hx, Int.toNat_of_nonneg r0, hq]
  -- the jump
  have s3 : ∀ M : Mach, M.reg 7 = I.entry + BitVec.ofNat 64 (pos ops j) → cpu H I (pos ops (n + 3)) M = some (pos ops j, M) := by
    intro M hM
    have hf := hI.raw h3 jmp7
    unfold cpu
    rw [hf]
    simp only [hM]
    have : (I.entry + BitVec.ofNat 64 (pos ops j) - I.entry).toNat = pos ops j := by
      rw [← BitVec.ofInt_natCast]
      exact add_ofInt_sub _ _ (by omega) (by omega)
    rw [this]
  exact ⟨_, _, _, .step s0 (.step s1 (.step s2 (.one (s3 _ rfl))))⟩

end

end Verif.X64

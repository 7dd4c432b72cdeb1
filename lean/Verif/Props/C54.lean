import Verif.Model.Insn
import Verif.Proofs.Mem
import Verif.Proofs.Reader

/-! C54: the instruction encoding and the instruction reader agree. -/
namespace Verif.VM

/-- A 32-bit signed number. -/
def I32 (x : Int) : Prop := -2147483648 ≤ x ∧ x < 2147483648

/-- Every integer operand of the instruction fits a cell. -/
def Insn.Fits : Insn → Prop
  | .load _ a | .loadS _ a | .lrefS _ a | .lodbI a | .addr _ a | .stor a _ | .storS a _ | .storSC a _
  | .srefS a _ | .strbI a | .stack a | .heap a | .call a | .jump a | .jcmp _ a | .shlC _ a | .zeroA a
  | .zeroS a | .zeroSI64 a | .incA a | .incS a | .decA a | .decS a | .movs a | .fill a | .bounds a
  | .sysreqC a | .switch a | .constA a _ | .constS a _ | .trackPushC a | .genarray a _ | .cvtI64 a
  | .invertI64 a | .negI64 a | .bin64 _ a | .storSCI64 a _ _ | .storSPriI64 a => I32 a
  | .sysreqN a b | .loadBoth a b | .loadSBoth a b => I32 a ∧ I32 b
  | .initarray _ a b c d _ => I32 a ∧ I32 b ∧ I32 c ∧ I32 d
  | _ => True

theorem operands_at (pre cs post : List Cell) (op : Cell) :
    operands (pre ++ op :: (cs ++ post)) pre.length cs.length = some cs := by
  unfold operands
  rw [if_pos (by simp only [List.length_append, List.length_cons]; omega)]
  congr 1
  rw [List.drop_append, List.drop_eq_nil_of_le (by omega), show pre.length + 1 - pre.length = 1 by omega]
  simp

theorem ofInt_I32 {x : Int} (h : I32 x) : (BitVec.ofInt 32 x).toInt = x := ofInt_toInt h.1 h.2

/-- The instruction read for an opcode with these operand cells. -/
def readArgs (op : Nat) (args : List Cell) : Option Insn :=
  match reader op with
  | some (n, f) => if args.length = n then f args else none
  | none => none

theorem readArgs_some {op : Nat} {args : List Cell} {i : Insn} (h : readArgs op args = some i) :
    ∃ f, reader op = some (args.length, f) ∧ f args = some i := by
  unfold readArgs at h
  split at h
  · rename_i n f hr
    by_cases hl : args.length = n
    · rw [if_pos hl] at h; exact ⟨f, by rw [hr, hl], h⟩
    · rw [if_neg hl] at h; cases h
  · cases h

/-- Opcode and operand cells of an encoded instruction, as the reader sees them. -/
def Reads (cs : List Cell) (i : Insn) : Prop :=
  ∃ op args, cs = op :: args ∧ op ≠ 130 ∧ readArgs op.toNat args = some i

theorem push_reads (mk : List Cell → Insn) (o1 o2 o3 o4 o5 : Cell) (vs cs : List Cell)
    (ho : o1 ≠ 130 ∧ o2 ≠ 130 ∧ o3 ≠ 130 ∧ o4 ≠ 130 ∧ o5 ≠ 130)
    (r1 : reader o1.toNat = an 1 mk) (r2 : reader o2.toNat = an 2 mk) (r3 : reader o3.toNat = an 3 mk)
    (r4 : reader o4.toNat = an 4 mk) (r5 : reader o5.toNat = an 5 mk)
    (hm : (match vs.length with
      | 1 => some (o1 :: vs) | 2 => some (o2 :: vs) | 3 => some (o3 :: vs) | 4 => some (o4 :: vs)
      | 5 => some (o5 :: vs) | _ => none) = some cs) : Reads cs (mk vs) := by
  split at hm <;> simp only [Option.some.injEq, reduceCtorEq] at hm <;> subst hm <;> rename_i hl
  · exact ⟨_, vs, rfl, ho.1, by simp [readArgs, r1, an, hl]⟩
  · exact ⟨_, vs, rfl, ho.2.1, by simp [readArgs, r2, an, hl]⟩
  · exact ⟨_, vs, rfl, ho.2.2.1, by simp [readArgs, r3, an, hl]⟩
  · exact ⟨_, vs, rfl, ho.2.2.2.1, by simp [readArgs, r4, an, hl]⟩
  · exact ⟨_, vs, rfl, ho.2.2.2.2, by simp [readArgs, r5, an, hl]⟩

/-- Closes a `Reads` goal for an instruction with fixed operands. -/
macro "reads" h:ident hf:ident : tactic => `(tactic| (
  simp only [encode, Option.some.injEq] at $h:ident
  subst $h
  refine ⟨_, _, rfl, by decide, ?_⟩
  unfold readArgs
  rdr
  try simp only [Insn.Fits] at $hf:ident
  simp only [z, a1, a2, a3, a5, List.length_cons, List.length_nil, if_true, Option.some.injEq,
    ofInt_I32, $hf:ident]))

theorem encode_reads (i : Insn) (hf : i.Fits) (cs : List Cell) (h : encode i = some cs) : Reads cs i := by
  cases i
  case pushC vs => exact push_reads .pushC 39 138 142 146 150 vs cs (by decide) reader_39 reader_138 reader_142 reader_146 reader_150 h
  case pushA vs => exact push_reads .pushA 40 139 143 147 151 vs cs (by decide) reader_40 reader_139 reader_143 reader_147 reader_151 h
  case pushS vs => exact push_reads .pushS 41 140 144 148 152 vs cs (by decide) reader_41 reader_140 reader_144 reader_148 reader_152 h
  case pushAdr vs => exact push_reads .pushAdr 133 141 145 149 153 vs cs (by decide) reader_133 reader_141 reader_145 reader_149 reader_153 h
  case casetbl n => cases h
  case load r a => cases r <;> reads h hf
  case loadS r a => cases r <;> reads h hf
  case lrefS r a => cases r <;> reads h hf
  case const r a => cases r <;> reads h hf
  case addr r a => cases r <;> reads h hf
  case stor a r => cases r <;> reads h hf
  case storS a r => cases r <;> reads h hf
  case srefS a r => cases r <;> reads h hf
  case move r => cases r <;> reads h hf
  case push r => cases r <;> reads h hf
  case pop r => cases r <;> reads h hf
  case shlC r a => cases r <;> reads h hf
  case sdiv r => cases r <;> reads h hf
  case zero r => cases r <;> reads h hf
  case eqC r a => cases r <;> reads h hf
  case inc r => cases r <;> reads h hf
  case dec r => cases r <;> reads h hf
  case swap r => cases r <;> reads h hf
  case initarray r a b c d e => cases r <;> reads h hf
  case jcmp c a => cases c <;> reads h hf
  case cmp c => cases c <;> first | (cases h; done) | reads h hf
  case cmp64 c => cases c <;> first | (cases h; done) | reads h hf
  case cmpF32 c => cases c <;> first | (cases h; done) | reads h hf
  case genarray n z => cases z <;> reads h hf
  case bin64 op s => cases op <;> reads h hf
  case binF32 op => cases op <;> reads h hf
  all_goals reads h hf

/-- **C54 (round trip).** Whatever surrounds it, an encoded instruction is read back as the same
instruction, and the reader stops exactly behind it. -/
theorem C54_round_trip (i : Insn) (hf : i.Fits) (cs : List Cell) (h : encode i = some cs)
    (pre post : List Cell) :
    decode (pre ++ cs ++ post) pre.length = some (i, pre.length + cs.length) := by
  obtain ⟨op, args, rfl, hop, hr⟩ := encode_reads i hf cs h
  obtain ⟨f, hf1, hf2⟩ := readArgs_some hr
  unfold decode
  have h0 : (pre ++ op :: args ++ post)[pre.length]? = some op := by simp
  rw [h0]
  dsimp only
  rw [if_neg hop, hf1]
  dsimp only
  rw [List.append_assoc, List.cons_append, operands_at]
  dsimp only
  rw [hf2]
  simp only [List.length_cons]
  congr 2
  omega

/-- **C54 (case tables).** A case table with `n` entries is skipped as one instruction. -/
theorem C54_case_table (pre entries post : List Cell) (n : Nat) (hn : n < 2147483648) (d : Cell)
    (he : entries.length = 2 * n) :
    decode (pre ++ [130, BitVec.ofNat 32 n, d] ++ entries ++ post) pre.length =
      some (.casetbl n, pre.length + 3 + entries.length) := by
  have hni : (BitVec.ofNat 32 n).toInt = n := by
    rw [BitVec.toInt_eq_toNat_of_lt (by rw [BitVec.toNat_ofNat]; omega), BitVec.toNat_ofNat]; omega
  have ho := operands_at pre [BitVec.ofNat 32 n] (d :: (entries ++ post)) 130
  simp only [List.append_assoc, List.cons_append, List.nil_append, List.length_cons, List.length_nil] at ho ⊢
  unfold decode
  rw [show (pre ++ 130 :: BitVec.ofNat 32 n :: d :: (entries ++ post))[pre.length]? = some 130 by simp]
  dsimp only
  rw [if_pos rfl, ho]
  dsimp only
  rw [hni, if_pos ⟨by omega, by simp only [List.length_append, List.length_cons]; omega⟩, he]
  simp

/-- Sizes in the opcode table for the opcodes the reader knows. -/
def sizesAgree : Bool :=
  (List.range 256).all fun op =>
    match reader op with
    | some (n, _) => opcodeSize op == some ((n : Int) + 1)
    | none => true

set_option maxRecDepth 100000 in
theorem reader_add (k : Nat) : reader (k + 256) = none := by rfl

/-- Opcodes are below 256. -/
theorem reader_small (op : Nat) (h : 256 ≤ op) : reader op = none := by
  rw [show op = (op - 256) + 256 by omega]
  exact reader_add _

/-- **C54 (sizes).** Whenever an instruction with fixed operands is read, the reader consumes exactly the
number of cells the instruction table declares for its opcode. -/
theorem C54_declared_size (code : List Cell) (pc pc' : Nat) (i : Insn) (op : Cell) (hop : code[pc]? = some op)
    (h130 : op ≠ 130) (h : decode code pc = some (i, pc')) :
    ∃ n : Nat, opcodeSize op.toNat = some (n : Int) ∧ pc' = pc + n ∧ 0 < n ∧ pc' ≤ code.length := by
  unfold decode at h
  rw [hop] at h
  dsimp only at h
  rw [if_neg h130] at h
  cases hr : reader op.toNat with
  | none => rw [hr] at h; cases h
  | some nf =>
    obtain ⟨n, f⟩ := nf
    rw [hr] at h
    dsimp only at h
    cases ho : operands code pc n with
    | none => rw [ho] at h; cases h
    | some vs =>
      rw [ho] at h
      dsimp only at h
      cases hi : f vs with
      | none => rw [hi] at h; cases h
      | some j =>
        rw [hi] at h
        cases h
        have hlt : op.toNat < 256 := by
          rcases Nat.lt_or_ge op.toNat 256 with h | h
          · exact h
          · rw [reader_small _ h] at hr; cases hr
        have hall : sizesAgree = true := by decide +kernel
        have := List.all_eq_true.1 hall op.toNat (List.mem_range.2 hlt)
        rw [hr] at this
        refine ⟨n + 1, ?_, by omega, by omega, ?_⟩
        · simpa using this
        · unfold operands at ho
          split at ho
          · omega
          · cases ho

/-! ### Non-vacuity -/

example : decode [46, 19, BitVec.ofInt 32 (-4), 7, 48] 1 = some (.storSC (-4) 7, 4) :=
  C54_round_trip (.storSC (-4) 7) (by simp [Insn.Fits, I32]) _ rfl [46] [48]
example : decode [46, 130, 1, 8, 5, 12, 48] 1 = some (.casetbl 1, 6) :=
  C54_case_table [46] [5, 12] [48] 1 (by omega) 8 rfl
example : decode [9, 51] 1 = none := rfl
example : decode [5] 0 = none := rfl

end Verif.VM

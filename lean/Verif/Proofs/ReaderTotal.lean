import Verif.Proofs.Reader
import Verif.Model.Graph
import Verif.Model.Interp

/-! The opcode table and the reader agree; which instructions move the program counter. -/
namespace Verif.VM
open Verif.Graph (isControl)

/-- The reader builds an instruction from any operands of the right number. -/
def Total (r : Reader) : Prop := ∀ n f, r = some (n, f) → ∀ vs : List Cell, vs.length = n → ∃ i, f vs = some i

theorem total_none : Total none := by intro n f h; cases h
theorem total_z (i : Insn) : Total (z i) := by
  intro n f h vs _; cases h; exact ⟨i, rfl⟩
theorem total_an (n : Nat) (g : List Cell → Insn) : Total (an n g) := by
  intro m f h vs _; cases h; exact ⟨_, rfl⟩
theorem total_a1 (g : Cell → Insn) : Total (a1 g) := by
  intro n f h vs hl
  cases h
  match vs, hl with
  | [x], _ => exact ⟨_, rfl⟩
theorem total_a2 (g : Cell → Cell → Insn) : Total (a2 g) := by
  intro n f h vs hl
  cases h
  match vs, hl with
  | [x, y], _ => exact ⟨_, rfl⟩
theorem total_a3 (g : Cell → Cell → Cell → Insn) : Total (a3 g) := by
  intro n f h vs hl
  cases h
  match vs, hl with
  | [x, y, w], _ => exact ⟨_, rfl⟩
theorem total_a5 (g : Cell → Cell → Cell → Cell → Cell → Insn) : Total (a5 g) := by
  intro n f h vs hl
  cases h
  match vs, hl with
  | [x, y, w, u, v], _ => exact ⟨_, rfl⟩

set_option maxRecDepth 20000 in
theorem reader_total (op : Nat) : Total (reader op) := by
  unfold reader
  split <;> first
    | exact total_z _
    | exact total_a1 _
    | exact total_a2 _
    | exact total_a3 _
    | exact total_a5 _
    | exact total_an _ _
    | exact total_none

/-- Instructions that move the program counter other than by falling through or calling. -/
def Insn.flow : Insn → Bool
  | .jump _ | .jcmp _ _ | .switch _ | .retn => true
  | _ => false

/-- The reader never builds an instruction with flow. -/
def Plain (r : Reader) : Prop := ∀ n f, r = some (n, f) → ∀ vs i, f vs = some i → i.flow = false

theorem plain_none : Plain none := by intro n f h; cases h
theorem plain_z (i : Insn) (hi : i.flow = false) : Plain (z i) := by
  intro n f h vs j hj; cases h; cases hj; exact hi
theorem plain_an (n : Nat) (g : List Cell → Insn) (hi : ∀ vs, (g vs).flow = false) : Plain (an n g) := by
  intro m f h vs j hj; cases h; cases hj; exact hi _
theorem plain_a1 (g : Cell → Insn) (hi : ∀ x, (g x).flow = false) : Plain (a1 g) := by
  intro n f h vs j hj
  cases h
  simp only at hj
  split at hj
  · cases hj; exact hi _
  · cases hj
theorem plain_a2 (g : Cell → Cell → Insn) (hi : ∀ x y, (g x y).flow = false) : Plain (a2 g) := by
  intro n f h vs j hj
  cases h
  simp only at hj
  split at hj
  · cases hj; exact hi _ _
  · cases hj
theorem plain_a3 (g : Cell → Cell → Cell → Insn) (hi : ∀ x y w, (g x y w).flow = false) : Plain (a3 g) := by
  intro n f h vs j hj
  cases h
  simp only at hj
  split at hj
  · cases hj; exact hi _ _ _
  · cases hj
theorem plain_a5 (g : Cell → Cell → Cell → Cell → Cell → Insn) (hi : ∀ x y w u v, (g x y w u v).flow = false) : Plain (a5 g) := by
  intro n f h vs j hj
  cases h
  simp only at hj
  split at hj
  · cases hj; exact hi _ _ _ _ _
  · cases hj

set_option maxRecDepth 20000 in
theorem reader_plain (op : Nat) (h : isControl op = false) : Plain (reader op) := by
  unfold reader
  split <;> first
    | exact plain_z _ rfl
    | exact plain_a1 _ fun _ => rfl
    | exact plain_a2 _ fun _ _ => rfl
    | exact plain_a3 _ fun _ _ _ => rfl
    | exact plain_a5 _ fun _ _ _ _ _ => rfl
    | exact plain_an _ _ fun _ => rfl
    | exact plain_none
    | (exfalso; revert h; decide)

set_option maxRecDepth 100000 in
theorem sizes_agree : ∀ op : Fin 236, op.val ≠ 0 → op.val ≠ 130 →
    (reader op.val).map Prod.fst = (opcodeSize op.val).map fun k => (k - 1).toNat := by decide +kernel

set_option maxRecDepth 100000 in
theorem sizes_pos : ∀ op : Fin 236, op.val ≠ 130 → ∀ k, opcodeSize op.val = some k → 1 ≤ k := by
  have h : ∀ op : Fin 236, op.val ≠ 130 → (match opcodeSize op.val with | none => true | some k => decide (1 ≤ k)) = true := by
    decide +kernel
  intro op hop k hk
  have := h op hop
  rw [hk] at this
  simpa using this

set_option maxRecDepth 100000 in
theorem control_size : ∀ op : Fin 236, isControl op.val = true → op.val ≠ 48 → opcodeSize op.val = some 2 := by decide +kernel

theorem operands_some {code : List Cell} {pc n : Nat} (h : pc + 1 + n ≤ code.length) :
    ∃ vs, operands code pc n = some vs ∧ vs.length = n := by
  unfold operands
  rw [if_pos h]
  refine ⟨_, rfl, ?_⟩
  simp
  omega

/-- Decoding an instruction other than a case table. -/
theorem decode_plain {code : List Cell} {pc : Nat} {op : Cell} {k : Int} (h : code[pc]? = some op) (h130 : op ≠ 130)
    (h0 : op.toNat ≠ 0) (hlt : op.toNat < 236) (hk : opcodeSize op.toNat = some k) (hl : pc + k.toNat ≤ code.length) :
    ∃ i n f vs, decode code pc = some (i, pc + k.toNat) ∧ reader op.toNat = some (n, f) ∧ f vs = some i ∧
      operands code pc n = some vs := by
  have h130' : op.toNat ≠ 130 := by
    intro hh; apply h130; apply BitVec.eq_of_toNat_eq; rw [hh]; rfl
  have hpos := sizes_pos ⟨op.toNat, hlt⟩ h130' k hk
  have hag := sizes_agree ⟨op.toNat, hlt⟩ h0 h130'
  simp only at hag
  rw [hk] at hag
  cases hr : reader op.toNat with
  | none => rw [hr] at hag; cases hag
  | some p =>
    obtain ⟨n, f⟩ := p
    rw [hr] at hag
    simp only [Option.map_some, Option.some.injEq] at hag
    obtain ⟨vs, hvs, hlen⟩ := operands_some (code := code) (pc := pc) (n := n) (by omega)
    obtain ⟨i, hi⟩ := reader_total op.toNat n f hr vs hlen
    refine ⟨i, n, f, vs, ?_, rfl, hi, hvs⟩
    unfold decode
    rw [h]
    simp only
    rw [if_neg h130, hr]
    simp only
    rw [hvs]
    simp only
    rw [hi]
    simp only
    rw [show pc + 1 + n = pc + k.toNat by omega]

/-- Decoding a case table. -/
theorem decode_table {code : List Cell} {pc : Nat} {n : Cell} (h : code[pc]? = some 130) (hn : code[pc + 1]? = some n)
    (h0 : 0 ≤ n.toInt) (hl : pc + 3 + 2 * n.toInt.toNat ≤ code.length) :
    decode code pc = some (.casetbl n.toInt, pc + 3 + 2 * n.toInt.toNat) := by
  have hop : operands code pc 1 = some [n] := by
    unfold operands
    have := (List.getElem?_eq_some_iff.1 hn).1
    rw [if_pos (by omega)]
    congr 1
    rw [List.take_one, List.head?_drop, hn]
    rfl
  unfold decode
  rw [h]
  simp only
  rw [if_pos trivial, hop]
  simp only
  rw [if_pos ⟨h0, hl⟩]

/-- One operand. -/
theorem operands_one {code : List Cell} {pc : Nat} {t : Cell} (h : code[pc + 1]? = some t) : operands code pc 1 = some [t] := by
  unfold operands
  have := (List.getElem?_eq_some_iff.1 h).1
  rw [if_pos (by omega)]
  congr 1
  rw [List.take_one, List.head?_drop, h]
  rfl

theorem decode_one {code : List Cell} {pc : Nat} {op t : Cell} {g : Cell → Insn} (h : code[pc]? = some op) (h130 : op ≠ 130)
    (hr : reader op.toNat = a1 g) (ht : code[pc + 1]? = some t) : decode code pc = some (g t, pc + 2) := by
  unfold decode
  rw [h]
  simp only
  rw [if_neg h130, hr]
  unfold a1
  simp only
  rw [operands_one ht]

theorem decode_zero {code : List Cell} {pc : Nat} {op : Cell} {i : Insn} (h : code[pc]? = some op) (h130 : op ≠ 130)
    (hr : reader op.toNat = z i) : decode code pc = some (i, pc + 1) := by
  have := (List.getElem?_eq_some_iff.1 h).1
  unfold decode
  rw [h]
  simp only
  rw [if_neg h130, hr]
  unfold z
  simp only
  unfold operands
  rw [if_pos (by omega)]

end Verif.VM

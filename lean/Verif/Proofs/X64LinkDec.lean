import Verif.Proofs.X64Link

/-! Lemmas for C64: how jumps and rip-relative instructions decode. -/
namespace Verif.X64

theorem dec_jmp32 (t : List Byte) : decode (0xe9 :: t) = withImm imm32 t .jmp := rfl
theorem dec_jmp8 (t : List Byte) : decode (0xeb :: t) = withImm imm8 t .jmp := rfl
theorem dec_call (t : List Byte) : decode (0xe8 :: t) = withImm imm32 t .call := rfl
theorem dec_j32 (cc : Fin 16) (t : List Byte) :
    decode (0x0f :: (0x80 + BitVec.ofNat 8 cc.val) :: t) = withImm imm32 t (.jcc cc) := by
  match cc with
  | 0 => rfl | 1 => rfl | 2 => rfl | 3 => rfl | 4 => rfl | 5 => rfl | 6 => rfl | 7 => rfl
  | 8 => rfl | 9 => rfl | 10 => rfl | 11 => rfl | 12 => rfl | 13 => rfl | 14 => rfl | 15 => rfl
  | ⟨n + 16, h⟩ => exact absurd h (by omega)
theorem dec_j8 (cc : Fin 16) (t : List Byte) :
    decode ((0x70 + BitVec.ofNat 8 cc.val) :: t) = withImm imm8 t (.jcc cc) := by
  match cc with
  | 0 => rfl | 1 => rfl | 2 => rfl | 3 => rfl | 4 => rfl | 5 => rfl | 6 => rfl | 7 => rfl
  | 8 => rfl | 9 => rfl | 10 => rfl | 11 => rfl | 12 => rfl | 13 => rfl | 14 => rfl | 15 => rfl
  | ⟨n + 16, h⟩ => exact absurd h (by omega)

/-- The three bytes before the displacement of `lea r, [rip + d]`. -/
def leaHead (r : Gpr) : List Byte :=
  [0x48 ||| (rexBit r <<< 2) ||| 0, 0x8d, 0x05 ||| (lowBits r <<< 3)]
theorem lea_bytes (r : Gpr) (junk : Byte) :
    emit1_64 0x8d (.gpr r) (.mem (ripOpd junk)) = leaHead r ++ [junk, 0, 0, 0] := rfl
theorem dec_lea (r : Gpr) (v : BitVec 32) (t : List Byte) :
    decode (leaHead r ++ le32 v ++ t) = some (.lea .q r (.rip v.toInt), t) := by
  have : decode (leaHead r ++ le32 v ++ t) = (imm32 (le32 v ++ t)).map (fun (d, t) => (.lea .q r (.rip d), t)) := by
    match r with
    | 0 => rfl | 1 => rfl | 2 => rfl | 3 => rfl | 4 => rfl | 5 => rfl | 6 => rfl | 7 => rfl
    | 8 => rfl | 9 => rfl | 10 => rfl | 11 => rfl | 12 => rfl | 13 => rfl | 14 => rfl | 15 => rfl
    | ⟨n + 16, h⟩ => exact absurd h (by omega)
  rw [this, le32_imm]; rfl
theorem call_bytes (junk : Byte) : emit1 0xff (.num 2) (.mem (ripOpd junk)) = [0xff, 0x15] ++ [junk, 0, 0, 0] := by
  simp [emit1, maybeRex, emitModrm, ripOpd, OpReg.rexBit, RmArg.rexBits, OpReg.field]
theorem jmp_bytes (junk : Byte) : emit1 0xff (.num 4) (.mem (ripOpd junk)) = [0xff, 0x25] ++ [junk, 0, 0, 0] := by
  simp [emit1, maybeRex, emitModrm, ripOpd, OpReg.rexBit, RmArg.rexBits, OpReg.field]
theorem dec_callRip (v : BitVec 32) (t : List Byte) :
    decode ([0xff, 0x15] ++ le32 v ++ t) = some (.callRM (.rip v.toInt), t) := by
  have : decode ([0xff, 0x15] ++ le32 v ++ t) = (imm32 (le32 v ++ t)).map (fun (d, t) => (.callRM (.rip d), t)) := rfl
  rw [this, le32_imm]; rfl
theorem dec_jmpRip (v : BitVec 32) (t : List Byte) :
    decode ([0xff, 0x25] ++ le32 v ++ t) = some (.jmpRM (.rip v.toInt), t) := by
  have : decode ([0xff, 0x25] ++ le32 v ++ t) = (imm32 (le32 v ++ t)).map (fun (d, t) => (.jmpRM (.rip d), t)) := rfl
  rw [this, le32_imm]; rfl

end Verif.X64

import Verif.Proofs.X64Pos

/-! The bytes of linked code, call by call of the assembler. -/
namespace Verif.X64

section
variable {ops : List Op} {A : Asm} (hrun : Asm.run true {} ops = some A)

include hrun in
theorem pos_le : ∀ {i j : Nat}, i ≤ j → j ≤ ops.length → pos ops i ≤ pos ops j := by
  intro i j h hj
  induction h with
  | refl => exact Nat.le_refl _
  | step h ih =>
    rename_i m
    have hm : ops[m]? = some ops[m] := List.getElem?_eq_getElem (by omega)
    exact Nat.le_trans (ih (by omega)) (pos_mono hrun hm).1

include hrun in
theorem bytes_raw {n : Nat} {bs : List Byte} (h : ops[n]? = some (.raw bs)) :
    At A.buf (pos ops n) bs ∧ pos ops (n + 1) = pos ops n + bs.length := by
  obtain ⟨e1, _⟩ := split_at h
  obtain ⟨B, C, h1, e2, hC, hs, e3, h5, _⟩ := pos_step hrun h
  obtain ⟨B', e, hr⟩ := run_split (e1 ▸ hrun)
  rw [h1] at e; injection e with e; subst e
  obtain ⟨ch, sl, k⟩ := later_run _ inv_init h1
  obtain ⟨C', hC', hs', hr⟩ := run_one hr
  rw [hC] at hC'; injection hC' with e; subst e
  simp only [Asm.step, Option.some.injEq] at hC
  subst hC
  rw [add_pc] at hs e3
  have k' := later_add k.inv bs hs
  obtain ⟨ch'', sl'', k''⟩ := later_run _ k'.inv hr
  obtain ⟨ha, _⟩ := At.later k'' (add_at B bs) (by rw [add_pc]; omega) (fun q h1 _ => free_end k.inv h1)
  rw [e2, e3]
  exact ⟨ha, rfl⟩

include hrun in
theorem bytes_jump {n k l : Nat} {op : Op} {f : Int → Instr} (h : ops[n]? = some op) (hop : op.jump = some (l, f))
    (hk : ops[k]? = some (.bind l)) : ∃ bs rel, (∀ t, decode (bs ++ t) = some (f rel, t)) ∧ At A.buf (pos ops n) bs ∧
      pos ops (n + 1) = pos ops n + bs.length ∧ (pos ops (n + 1) : Int) + rel = pos ops k := by
  obtain ⟨e1, _⟩ := split_at h
  obtain ⟨e1', _⟩ := split_at hk
  obtain ⟨B, C, h1, e2, hC, hs, e3, h5, _⟩ := pos_step hrun h
  obtain ⟨B', C', h1', e2', _⟩ := pos_step hrun hk
  obtain ⟨hl, hsm⟩ := bound_where (e1' ▸ hrun) h1'
  obtain ⟨B', e, hr⟩ := run_split (e1 ▸ hrun)
  rw [h1] at e; injection e with e; subst e
  obtain ⟨ch, sl, k⟩ := later_run _ inv_init h1
  obtain ⟨C', hC', hs', hr⟩ := run_one hr
  rw [hC] at hC'; injection hC' with e; subst e
  obtain ⟨ch', k', hj⟩ := jump_step k.inv hop hC hs
  obtain ⟨ch'', sl'', k''⟩ := later_run _ k'.inv hr
  rw [e2, e3, e2']
  exact (hj.later k'.inv k'').bytes k''.inv hl hsm

/-- A jump with a distance of four bytes. -/
def IsLong (op : Op) : Prop := ∃ l, op = .jmp32 l ∨ ∃ cc, op = .j32 cc l

include hrun in
theorem bytes_opc {n : Nat} {op : Op} (opc : List Byte) (l : Nat) (h : ops[n]? = some op) (h0 : 1 ≤ opc.length)
    (hop : ∀ B : Asm, B.step true op = some ((B.add opc).target l)) :
    At A.buf (pos ops n) opc ∧ pos ops (n + 1) = pos ops n + opc.length + 4 := by
  obtain ⟨e1, _⟩ := split_at h
  obtain ⟨B, C, h1, e2, hC, hs, e3, h5, _⟩ := pos_step hrun h
  obtain ⟨B', e, hr⟩ := run_split (e1 ▸ hrun)
  rw [h1] at e; injection e with e; subst e
  obtain ⟨ch, sl, k⟩ := later_run _ inv_init h1
  obtain ⟨C', hC', hs', hr⟩ := run_one hr
  rw [hC] at hC'; injection hC' with e; subst e
  rw [hop B] at hC
  injection hC with hC; subst hC
  have hpc := target_pc (B.add opc) l
  rw [add_pc] at hpc
  have k1 := later_add k.inv opc (by omega)
  obtain ⟨ch', k2, _, _⟩ := later_target k1.inv l (by rw [add_pc]; omega) (by rw [add_pc]; omega)
  obtain ⟨ha, hf⟩ := At.later k2 (add_at B opc) (by rw [add_pc]; omega) (fun q h1 _ => free_end k.inv h1)
  obtain ⟨ch'', sl'', k''⟩ := later_run _ k2.inv hr
  obtain ⟨ha', _⟩ := At.later k'' ha (by omega) hf
  rw [e2, e3, hpc]
  exact ⟨ha', rfl⟩

include hrun in
theorem bytes_long {n l : Nat} {op : Op} {f : Int → Instr} (h : ops[n]? = some op) (hl : IsLong op) (hop : op.jump = some (l, f)) :
    ∃ opc, 1 ≤ opc.length ∧ (∀ v t, decode (opc ++ le32 v ++ t) = some (f v.toInt, t)) ∧ At A.buf (pos ops n) opc ∧
      pos ops (n + 1) = pos ops n + opc.length + 4 := by
  obtain ⟨l', rfl | ⟨cc, rfl⟩⟩ := hl
  · cases hop
    refine ⟨[0xe9], by decide, ?_, bytes_opc hrun _ l h (by simp) (fun _ => rfl)⟩
    intro v t
    rw [show ([0xe9] ++ le32 v ++ t : List Byte) = 0xe9 :: (le32 v ++ t) from rfl, dec_jmp32, withImm, le32_imm]; rfl
  · cases hop
    refine ⟨[0x0f, 0x80 + BitVec.ofNat 8 cc.val], by simp, ?_, bytes_opc hrun _ l h (by simp) (fun _ => rfl)⟩
    intro v t
    rw [show ([0x0f, 0x80 + BitVec.ofNat 8 cc.val] ++ le32 v ++ t : List Byte) =
      0x0f :: (0x80 + BitVec.ofNat 8 cc.val) :: (le32 v ++ t) from rfl, dec_j32, withImm, le32_imm]; rfl

include hrun in
theorem bytes_lea (chunk : BitVec 64) {n k i j : Nat} {junk : Byte} {mid q : List Op} {cs : List Nat} (h0 : ops[n]? = some (.leaTab 6 k junk))
    (hmid : ops.drop (n + 1) = mid ++ (cs.reverse.map .abs ++ .bindTab k :: q)) (hi : i < cs.length) (hj : ops[j]? = some (.bindAdr cs[i])) :
    pos ops (n + 1) = pos ops n + 7 ∧
    ∃ d : Int, At A.buf (pos ops n) (leaHead 6 ++ le32 (BitVec.ofInt 32 d)) ∧ (BitVec.ofInt 32 d).toInt = d ∧
      qword (A.image chunk) (A.table.length * 8 + pos ops (n + 1) + d + 8 * i) = some (A.entry chunk + BitVec.ofNat 64 (pos ops j)) ∧
      (pos ops (n + 1) : Int) + d + 8 * i + 8 ≤ 0 := by
  obtain ⟨e0, _⟩ := split_at h0
  obtain ⟨ej, _⟩ := split_at hj
  obtain ⟨B, C, hB, eB, hC, hs, eC, _, hle, hle2⟩ := pos_step hrun h0
  obtain ⟨B', C', hB', eB', _⟩ := pos_step hrun hj
  rw [hmid] at e0
  obtain ⟨d, h1, h2, h3, h4⟩ := table_bytes (p := ops.take n) chunk hi (e0 ▸ hrun) hB (e0.symm.trans ej) hB'
  have h7 : C.pc = B.pc + 7 := by
    obtain ⟨ch, sl, kk⟩ := later_run _ inv_init hB
    simp only [Asm.step] at hC
    exact (leaTab_step kk.inv hC hs).2.1
  refine ⟨by rw [eC, eB, h7], d, by rw [eB]; exact h1, h2, ?_, ?_⟩
  · rw [eC, h7, eB']; exact h3
  · rw [eC, h7]; exact h4

end

/-- The bytes of another image that agrees with the linked one. -/
theorem At.image {A : Asm} {chunk : BitVec 64} {bytes bs : List Byte} {p : Nat} (h : At A.buf p bs)
    (hb : ∀ x, p ≤ x → x < p + bs.length → bytes[A.table.length * 8 + x]? = (A.image chunk)[A.table.length * 8 + x]?) :
    At bytes (A.table.length * 8 + p) bs := by
  intro i hi
  have h1 := h i hi
  have h2 := image_code A chunk (p + i)
  have h3 : (A.image chunk)[A.table.length * 8 + (p + i)]? = A.buf[p + i]? := by
    have := congrArg (fun l : List Byte => l[0]?) h2
    simp only [Asm.code, List.getElem?_drop, Nat.add_zero] at this
    exact this
  rw [Nat.add_assoc, hb (p + i) (by omega) (by omega), h3, h1]

theorem qword_same {a b : List Byte} {p : Int} (hl : a.length = b.length) (h : ∀ x : Nat, p ≤ x → (x : Int) < p + 8 → a[x]? = b[x]?) : qword a p = qword b p := by
  unfold qword
  split
  · rename_i h0
    have e : ∀ i, i < 8 → (a.drop p.toNat)[i]? = (b.drop p.toNat)[i]? := by
      intro i hi
      rw [List.getElem?_drop, List.getElem?_drop]
      exact h _ (by omega) (by omega)
    have hl' : (a.drop p.toNat).length = (b.drop p.toNat).length := by rw [List.length_drop, List.length_drop, hl]
    generalize a.drop p.toNat = x at e hl'
    generalize b.drop p.toNat = y at e hl'
    have ht : x.take 8 = y.take 8 := by
      apply List.ext_getElem?
      intro i
      rw [List.getElem?_take, List.getElem?_take]
      split
      · exact e i ‹_›
      · rfl
    clear e
    match x, y, hl', ht with
    | [], [], _, _ => rfl
    | [_], [_], _, _ => rfl
    | [_, _], [_, _], _, _ => rfl
    | [_, _, _], [_, _, _], _, _ => rfl
    | [_, _, _, _], [_, _, _, _], _, _ => rfl
    | [_, _, _, _, _], [_, _, _, _, _], _, _ => rfl
    | [_, _, _, _, _, _], [_, _, _, _, _, _], _, _ => rfl
    | [_, _, _, _, _, _, _], [_, _, _, _, _, _, _], _, _ => rfl
    | a :: b :: c :: d :: e :: f :: g :: h :: t, a' :: b' :: c' :: d' :: e' :: f' :: g' :: h' :: t', _, ht =>
      simp only [List.take_succ_cons, List.take_zero, List.cons.injEq] at ht
      obtain ⟨rfl, rfl, rfl, rfl, rfl, rfl, rfl, rfl, _⟩ := ht
      rfl
  · rfl

end Verif.X64

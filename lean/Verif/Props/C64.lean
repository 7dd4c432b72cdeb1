import Verif.Proofs.X64LinkRun

/-!
# C64: jumps and switch tables of compiled code lead where they should

The calls `ops` made on the assembler are followed by linking. `Asm.run true` is a run in which every
assertion holds; `C64_release` says that a release build does the same.
-/
namespace Verif.X64

/-- Every jump, conditional jump and call, in the linked image, leads to the place where its label was
bound: the instruction decodes as the jump that was asked for, and the end of the instruction plus its
distance is that place. It does not matter whether the label was bound before or after the jump, how
far away it is, or how many other jumps use it. -/
theorem C64_jump {ops p₁ q₁ p₂ q₂ : List Op} {op : Op} {l : Nat} {f : Int → Instr} {A A₁ A₁' A₂ : Asm}
    (chunk : BitVec 64) (hrun : Asm.run true {} ops = some A)
    (hjump : ops = p₁ ++ op :: q₁) (hop : op.jump = some (l, f))
    (hbind : ops = p₂ ++ .bind l :: q₂)
    (h₁ : Asm.run true {} p₁ = some A₁) (h₁' : Asm.run true {} (p₁ ++ [op]) = some A₁')
    (h₂ : Asm.run true {} p₂ = some A₂) :
    ∃ rel : Int, decode (A.code chunk A₁.pc) = some (f rel, A.code chunk A₁'.pc) ∧
      (A₁'.pc : Int) + rel = A₂.pc := by
  subst hjump
  obtain ⟨hl, hsm⟩ := bound_where (hbind ▸ hrun) h₂
  obtain ⟨B, e, hr⟩ := run_split hrun
  rw [h₁] at e; injection e with e; subst e
  obtain ⟨ch, sl, k⟩ := later_run p₁ inv_init h₁
  obtain ⟨C, hC, hs, hr⟩ := run_one hr
  have hCe : C = A₁' := by
    rw [run_append, h₁] at h₁'
    simp only [Option.bind_some, Asm.run, hC, if_pos hs, Option.some.injEq] at h₁'
    exact h₁'
  subst hCe
  obtain ⟨ch', k', hj⟩ := jump_step k.inv hop hC hs
  obtain ⟨ch'', sl'', k''⟩ := later_run q₁ k'.inv hr
  rw [image_code, image_code]
  exact (hj.later k'.inv k'').done k''.inv hl hsm

/-- Every other instruction stands in the image as it was emitted, at the place where the code ended when
it was emitted. -/
theorem C64_raw {p q : List Op} {bs : List Byte} {A A₁ : Asm} (chunk : BitVec 64)
    (hrun : Asm.run true {} (p ++ .raw bs :: q) = some A) (h₁ : Asm.run true {} p = some A₁) :
    A.code chunk A₁.pc = bs ++ A.code chunk (A₁.pc + bs.length) := by
  obtain ⟨B, e, hr⟩ := run_split hrun
  rw [h₁] at e; injection e with e; subst e
  obtain ⟨ch, sl, k⟩ := later_run p inv_init h₁
  obtain ⟨C, hC, hs, hr⟩ := run_one hr
  simp only [Asm.step, Option.some.injEq] at hC
  subst hC
  rw [add_pc] at hs
  have k' := later_add k.inv bs hs
  obtain ⟨ch'', sl'', k''⟩ := later_run q k'.inv hr
  obtain ⟨ha, _⟩ := At.later k'' (add_at A₁ bs) (by rw [add_pc]; omega) (fun q h1 _ => free_end k.inv h1)
  rw [image_code, image_code]
  exact ha.drop

/-- A call of a fixed address goes through a word of the image that holds that address. -/
theorem C64_const {p q : List Op} {v : BitVec 64} {junk : Byte} {A A₁ : Asm} (chunk : BitVec 64)
    (hrun : Asm.run true {} (p ++ .callConst v junk :: q) = some A) (h₁ : Asm.run true {} p = some A₁) :
    ∃ d : Int, decode (A.code chunk A₁.pc) = some (.callRM (.rip d), A.code chunk (A₁.pc + 6)) ∧
      qword (A.image chunk) (A.table.length * 8 + (A₁.pc + 6) + d) = some v := by
  obtain ⟨B, e, hr⟩ := run_split hrun
  rw [h₁] at e; injection e with e; subst e
  obtain ⟨ch, sl, k⟩ := later_run p inv_init h₁
  obtain ⟨C, hC, hs, hr⟩ := run_one hr
  simp only [Asm.step, call_bytes] at hC
  obtain ⟨k', hpc, ht, hrel, hov, hat⟩ := ripConst_step k.inv _ junk v rfl hC hs
  obtain ⟨ch'', sl'', k''⟩ := later_run q k'.inv hr
  have hlen : ([0xff, 0x15] ++ le32 (BitVec.ofInt 32 (-((A₁.pc : Int) + 6 + (A₁.table.length + 1) * 8)))).length = 6 := rfl
  obtain ⟨ha, _⟩ := At.later k'' hat (by rw [hlen, hpc]; omega) (fun q h1 _ => free_end k.inv h1)
  have hctl : C.table.length = A₁.table.length + 1 := by rw [ht]; simp
  have hnosl : ∀ a, sl a ≠ some A₁.table.length := by
    intro a ha
    rcases k.inv.adr a with ⟨_, _, _, e⟩ | ⟨_, e⟩ | ⟨i, e1, _, _, e4⟩
    · rw [e] at ha; cases ha
    · rw [e] at ha; cases ha
    · rw [e1] at ha; injection ha with ha; omega
  have hslot := (k''.tkeep A₁.table.length (by omega) hnosl).1
  have hv : A.table[A₁.table.length]? = some v := by
    rw [hslot, ht, List.getElem?_append_right (Nat.le_refl _)]; simp
  have hnr : A₁.table.length ∉ A.reloc := by
    rw [k''.relk _ (by omega), hrel]
    intro hm
    have := k.inv.rel _ hm; omega
  refine ⟨-((A₁.pc : Int) + 6 + (A₁.table.length + 1) * 8), ?_, ?_⟩
  · rw [image_code, image_code, ha.drop, dec_callRip, toInt_small (by omega) (by omega), hlen]
  · have h3 := image_slot k''.inv chunk hv
    rw [if_neg hnr] at h3
    have hT := k''.tlen
    rw [← h3]
    congr 1
    omega

/-- The switch table. A table label is named by a `lea`; the addresses of the labels `cases` are put into
the table, last first, and the table label is bound. Then, in the image, the word number `i` counted from
the address computed by the `lea` is the address of the place where `cases[i]` was bound: the entry of
the code plus its offset. -/
theorem C64_table {p mid q p₂ q₂ : List Op} {r : Gpr} {k : Nat} {junk : Byte} {cases : List Nat} {A A₁ A₂ : Asm}
    (chunk : BitVec 64) {i : Nat} (hi : i < cases.length)
    (hrun : Asm.run true {}
      (p ++ .leaTab r k junk :: (mid ++ (cases.reverse.map .abs ++ .bindTab k :: q))) = some A)
    (h₁ : Asm.run true {} p = some A₁)
    (hbind : p ++ .leaTab r k junk :: (mid ++ (cases.reverse.map .abs ++ .bindTab k :: q)) =
      p₂ ++ .bindAdr cases[i] :: q₂)
    (h₂ : Asm.run true {} p₂ = some A₂) :
    ∃ d : Int, decode (A.code chunk A₁.pc) = some (.lea .q r (.rip d), A.code chunk (A₁.pc + 7)) ∧
      qword (A.image chunk) (A.table.length * 8 + (A₁.pc + 7) + d + 8 * i) =
        some (A.entry chunk + BitVec.ofNat 64 A₂.pc) := by
  obtain ⟨d, h1, h2, h3, _⟩ := table_bytes chunk hi hrun h₁ hbind h₂
  refine ⟨d, ?_, h3⟩
  rw [image_code, image_code, h1.drop, dec_lea, h2]
  rfl

/-- A release build, where assertions are not compiled, links the same image whenever the assertions
would have held. -/
theorem C64_release {ops : List Op} {A : Asm} (h : Asm.run true {} ops = some A) :
    Asm.run false {} ops = some A := run_release ops h

/-- Binding a label that is not bound yet always works: the list threaded through the code is found intact,
and walking it ends. -/
theorem C64_bind_total {ops : List Op} {A : Asm} {l : Nat} (h : Asm.run true {} ops = some A)
    (hl : Op.bind l ∉ ops) : ∃ A', Asm.run true {} (ops ++ [.bind l]) = some A' := by
  obtain ⟨ch, sl, k⟩ := later_run ops inv_init h
  have hnb : ∀ (ops : List Op) (A B : Asm), Op.bind l ∉ ops → A.run true ops = some B →
      boundSt (A.lab l) = false → boundSt (B.lab l) = false := by
    intro ops
    induction ops with
    | nil => intro A B _ hr hA; simp only [Asm.run, Option.some.injEq] at hr; subst hr; exact hA
    | cons op ops ih =>
      intro A B hn hr hA
      obtain ⟨C, hC, _, hr⟩ := run_one hr
      refine ih C B (fun h => hn (List.mem_cons_of_mem _ h)) hr ?_
      have htgt : ∀ (A : Asm) l', boundSt (A.lab l) = false → boundSt ((A.target l').lab l) = false := by
        intro A l' hA
        unfold Asm.target
        split
        · exact hA
        · simp only [upd]
          split
          · exact boundSt_pendingAt _
          · exact hA
      cases op with
      | raw bs => simp only [Asm.step, Option.some.injEq] at hC; subst hC; exact hA
      | jmp l' =>
        simp only [Asm.step] at hC
        split at hC <;> (injection hC with hC; subst hC)
        · exact hA
        · exact htgt _ _ hA
      | j cc l' =>
        simp only [Asm.step] at hC
        split at hC <;> (injection hC with hC; subst hC)
        · exact hA
        · exact htgt _ _ hA
      | jmp32 l' => simp only [Asm.step, Option.some.injEq] at hC; subst hC; exact htgt _ _ hA
      | j32 cc l' => simp only [Asm.step, Option.some.injEq] at hC; subst hC; exact htgt _ _ hA
      | call l' => simp only [Asm.step, Option.some.injEq] at hC; subst hC; exact htgt _ _ hA
      | bind l' =>
        simp only [Asm.step, Asm.bind] at hC
        split at hC
        · cases hC
        · split at hC
          · cases hC
          · injection hC with hC; subst hC
            have : l ≠ l' := fun e => hn (by simp [e])
            simpa [upd, this] using hA
      | callConst v junk =>
        simp only [Asm.step, Asm.ripConst] at hC
        split at hC
        · cases hC
        · split at hC
          · cases hC
          · injection hC with hC; subst hC; exact hA
      | jmpConst v junk =>
        simp only [Asm.step, Asm.ripConst] at hC
        split at hC
        · cases hC
        · split at hC
          · cases hC
          · injection hC with hC; subst hC; exact hA
      | leaTab r k junk =>
        simp only [Asm.step, Asm.leaTab] at hC
        split at hC
        · cases hC
        · split at hC
          · cases hC
          · injection hC with hC; subst hC; exact hA
      | bindTab k =>
        simp only [Asm.step, Asm.bindTab] at hC
        split at hC
        · cases hC
        · split at hC
          · split at hC
            · cases hC
            · split at hC
              · cases hC
              · injection hC with hC; subst hC; exact hA
          · injection hC with hC; subst hC; exact hA
      | abs a =>
        simp only [Asm.step, Asm.abs] at hC
        split at hC
        · injection hC with hC; subst hC; exact hA
        · split at hC
          · cases hC
          · split at hC
            · cases hC
            · injection hC with hC; subst hC; exact hA
      | bindAdr a =>
        simp only [Asm.step, Asm.bindAdr] at hC
        split at hC
        · cases hC
        · split at hC
          · split at hC
            · cases hC
            · split at hC
              · injection hC with hC; subst hC; exact hA
              · cases hC
          · injection hC with hC; subst hC; exact hA
  obtain ⟨A', e, k', hpc, _⟩ := later_bind k.inv l (hnb ops {} A hl h (by simp [boundSt]))
  refine ⟨A', ?_⟩
  rw [run_append, h]
  simp only [Option.bind_some, Asm.run, Asm.step, e]
  rw [if_pos k'.inv.small]

/-! ### Two cases that share a block -/

/-- The calls made for `switch` with two consecutive cases that share their block, as in `case 0, 1:`. -/
def sharedCase : List Op :=
  [.leaTab 6 0 0, .raw [0xff, 0xe7], .abs 7, .abs 7, .bindTab 0, .raw [0x90], .bindAdr 7, .raw [0xc3]]

/-- In a debug build an assertion fails. -/
theorem C64_shared_case_asserts : Asm.run true {} sharedCase = none := by decide +kernel

/-- In a release build the code is linked, but only one of the two words leads to the block (offset 10).
The other leads to the entry of the code: the method starts over, in the middle of its own frame. -/
theorem C64_shared_case_lost : ∃ A A₂, Asm.run false {} sharedCase = some A ∧
    Asm.run false {} (sharedCase.take 6) = some A₂ ∧ A₂.pc = 10 ∧
    ∀ chunk, decode (A.code chunk 0) = some (.lea .q 6 (.rip (-23)), A.code chunk 7) ∧
      qword (A.image chunk) (A.table.length * 8 + 7 + (-23) + 8 * 0) = some (A.entry chunk + BitVec.ofNat 64 10) ∧
      qword (A.image chunk) (A.table.length * 8 + 7 + (-23) + 8 * 1) = some (A.entry chunk + BitVec.ofNat 64 0) := by
  refine ⟨_, _, rfl, rfl, rfl, ?_⟩
  intro chunk
  refine ⟨rfl, ?_, ?_⟩
  · refine (qword_le64 (p := 0) (t := ?_) ?_)
    rotate_left
    · exact rfl
  · refine (qword_le64 (p := 8) (t := ?_) ?_)
    rotate_left
    · exact rfl

/-! ### Examples -/

/-- A loop with a forward exit, a backward jump, a far label and a two-way switch. -/
def demoOps : List Op :=
  [.bind 0, .raw [0x90], .j 4 1, .jmp 0, .j 5 1, .call 1, .callConst 0x1234 0xaa,
   .leaTab 6 0 0x77, .raw [0xff, 0xe7], .abs 3, .abs 2, .bindTab 0,
   .bindAdr 2, .raw [0xc3], .bindAdr 3, .raw [0xc3], .bind 1, .raw [0xc9]]

example : (Asm.run true {} demoOps).isSome := by decide +kernel
/-- Four uses, one of them a short backward jump. -/
example : (Asm.run true {} demoOps).map (fun A => A.buf.length) = some 38 := by decide +kernel
/-- The hypotheses of `C64_jump` and `C64_table` are met; this is what they say here. -/
example : ∃ A, Asm.run true {} demoOps = some A ∧ ∀ chunk,
    (∃ rel : Int, decode (A.code chunk 1) = some (.jcc 4 rel, A.code chunk 7) ∧ 7 + rel = 37) ∧
    (∃ rel : Int, decode (A.code chunk 7) = some (.jmp rel, A.code chunk 9) ∧ 9 + rel = 0) ∧
    (∃ d : Int, decode (A.code chunk 26) = some (.lea .q 6 (.rip d), A.code chunk 33) ∧
      qword (A.image chunk) (A.table.length * 8 + 33 + d + 8 * 0) = some (A.entry chunk + BitVec.ofNat 64 35)) := by
  refine ⟨_, rfl, fun chunk => ⟨?_, ?_, ?_⟩⟩
  · exact C64_jump (ops := demoOps) (p₁ := demoOps.take 2) (q₁ := demoOps.drop 3)
      (p₂ := demoOps.take 16) (q₂ := demoOps.drop 17) (op := .j 4 1) chunk rfl rfl rfl rfl rfl rfl rfl
  · exact C64_jump (ops := demoOps) (p₁ := demoOps.take 3) (q₁ := demoOps.drop 4)
      (p₂ := []) (q₂ := demoOps.drop 1) (op := .jmp 0) chunk rfl rfl rfl rfl rfl rfl rfl
  · exact C64_table (p := demoOps.take 7) (mid := [.raw [0xff, 0xe7]]) (q := demoOps.drop 12)
      (p₂ := demoOps.take 12) (q₂ := demoOps.drop 13) (cases := [2, 3]) (i := 0) chunk (by decide) rfl rfl rfl rfl
/-- Before its last bind, label 1 has three uses waiting. -/
example : ∃ A, Asm.run true {} (demoOps.take 16) = some A ∧
    ∃ A', Asm.run true {} (demoOps.take 16 ++ [.bind 1]) = some A' :=
  ⟨_, rfl, C64_bind_total rfl (by simp [demoOps])⟩
/-- The call of a fixed address. -/
example : ∃ A, Asm.run true {} demoOps = some A ∧ ∀ chunk,
    ∃ d : Int, decode (A.code chunk 20) = some (.callRM (.rip d), A.code chunk 26) ∧
      qword (A.image chunk) (A.table.length * 8 + 26 + d) = some 0x1234 :=
  ⟨_, rfl, fun chunk => C64_const (junk := 0xaa) (p := demoOps.take 6) (q := demoOps.drop 7) chunk rfl rfl⟩

end Verif.X64

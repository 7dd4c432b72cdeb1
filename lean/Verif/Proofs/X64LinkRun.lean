import Verif.Spec.X64Link
import Verif.Proofs.X64LinkDec

/-! Lemmas for C64: runs of the assembler. -/
namespace Verif.X64

theorem inv_init : Inv {} (fun _ => []) (fun _ => none) where
  small := by decide
  pos := by simp
  desc := by simp
  sep := by simp
  lab := fun _ => .inr ⟨rfl, trivial⟩
  tab := fun _ => .inr ⟨rfl, by simp⟩
  adr := fun _ => .inr (.inl ⟨rfl, rfl⟩)
  slinj := by simp
  rel := by simp
  relnd := by simp

theorem target_pc (A : Asm) (l : Nat) : (A.target l).pc = A.pc + 4 := by
  unfold Asm.target; split <;> simp [Asm.pc, Asm.add, le32_length]
theorem add_pc (A : Asm) (bs : List Byte) : (A.add bs).pc = A.pc + bs.length := by simp [Asm.pc, Asm.add]

theorem At.later {A ch sl A' ch' sl'} (k : Later A ch sl A' ch' sl') {p : Nat} {bs : List Byte}
    (h : At A.buf p bs) (hp : p + bs.length ≤ A.pc) (hf : ∀ q, p ≤ q → q < p + bs.length → Free ch q) :
    At A'.buf p bs ∧ ∀ q, p ≤ q → q < p + bs.length → Free ch' q :=
  ⟨fun i hi => by rw [(k.keep _ (by omega) (hf _ (by omega) (by omega))).1]; exact h i hi,
   fun q h1 h2 => (k.keep _ (by omega) (hf _ h1 h2)).2⟩

/-- A jump with its label `l` was emitted at `p`. -/
def Jumped (A : Asm) (ch : Src → List Nat) (l p e : Nat) (f : Int → Instr) : Prop :=
  (∃ opc, (∀ v t, decode (opc ++ le32 v ++ t) = some (f v.toInt, t)) ∧ At A.buf p opc ∧
    e = p + opc.length + 4 ∧ e ≤ A.pc ∧ (∀ q, p ≤ q → q < p + opc.length → Free ch q) ∧ e ∈ ch (.lab l)) ∨
  (∃ bs b rel, (∀ t, decode (bs ++ t) = some (f rel, t)) ∧ At A.buf p bs ∧ e = p + bs.length ∧ e ≤ A.pc ∧
    A.lab l = boundAt b ∧ b ≤ A.pc ∧ (e : Int) + rel = b ∧ ∀ q, p ≤ q → q < e → Free ch q)

theorem toInt_small {x : Int} (h1 : -2147483648 ≤ x) (h2 : x < 2147483648) : (BitVec.ofInt 32 x).toInt = x :=
  BitVec.toInt_ofInt_eq_self (by decide) (by simpa using h1) (by simpa using h2)

theorem at_append {buf : List Byte} {p : Nat} {a b : List Byte} (h1 : At buf p a) (h2 : At buf (p + a.length) b) :
    At buf p (a ++ b) := by
  intro i hi
  rw [List.getElem?_append]
  split
  · exact h1 i ‹_›
  · rw [List.length_append] at hi
    have := h2 (i - a.length) (by omega)
    rw [← this]; congr 1; omega

theorem Jumped.later {A ch sl A' ch' sl' l p e f} (hA : Inv A ch sl) (k : Later A ch sl A' ch' sl')
    (h : Jumped A ch l p e f) : Jumped A' ch' l p e f := by
  have hm := k.mono
  have hsm := k.inv.small
  rcases h with ⟨opc, hd, ha, he, hle, hf, hs⟩ | ⟨bs, b, rel, hd, ha, he, hle, hb, hbl, hr, hf⟩
  · obtain ⟨ha', hf'⟩ := At.later k ha (by omega) hf
    rcases k.site l e hs with hs | ⟨b, hbl, hb, hat, hf2⟩
    · exact .inl ⟨opc, hd, ha', he, by omega, hf', hs⟩
    · right
      refine ⟨opc ++ le32 (BitVec.ofInt 32 ((b : Int) - e)), b, (b : Int) - e, ?_, ?_, ?_, by omega, hb, hbl, by omega, ?_⟩
      · intro t
        rw [hd, toInt_small (by omega) (by omega)]
      · exact at_append ha' (by rw [show p + opc.length = e - 4 by omega]; exact hat)
      · simp [le32_length]; omega
      · intro q h1 h2
        by_cases hq : q < p + opc.length
        · exact hf' q h1 hq
        · exact hf2 q (by omega) h2
  · obtain ⟨ha', hf'⟩ := At.later k ha (by omega) (fun q h1 h2 => hf q h1 (by omega))
    refine .inr ⟨bs, b, rel, hd, ha', he, by omega, ?_, by omega, hr, fun q h1 h2 => hf' q h1 (by omega)⟩
    rw [← hb]; exact k.labB l (by rw [hb]; exact boundSt_boundAt b)

/-- What a jump looks like once its label is bound. -/
theorem Jumped.done {A ch sl l p e f b} (hA : Inv A ch sl) (h : Jumped A ch l p e f)
    (hb : A.lab l = boundAt b) (hbl : b ≤ 536870912) :
    ∃ rel, decode (A.buf.drop p) = some (f rel, A.buf.drop e) ∧ (e : Int) + rel = b := by
  rcases h with ⟨opc, hd, ha, he, hle, hf, hs⟩ | ⟨bs, b', rel, hd, ha, he, hle, hb', hbl', hr, hf⟩
  · exfalso
    rcases hA.lab l with ⟨_, _, _, e⟩ | ⟨e, _⟩
    · rw [e] at hs; simp at hs
    · have := boundSt_boundAt b
      rw [← hb, e, link_notBound] at this; cases this
  · have : b = b' := boundAt_inj hbl (Nat.le_trans hbl' hA.small) (hb.symm.trans hb')
    subst this
    refine ⟨rel, ?_, hr⟩
    rw [ha.drop, hd, he]

theorem Jumped.bytes {A ch sl l p e f b} (hA : Inv A ch sl) (h : Jumped A ch l p e f)
    (hb : A.lab l = boundAt b) (hbl : b ≤ 536870912) :
    ∃ bs rel, (∀ t, decode (bs ++ t) = some (f rel, t)) ∧ At A.buf p bs ∧ e = p + bs.length ∧ (e : Int) + rel = b := by
  rcases h with ⟨opc, hd, ha, he, hle, hf, hs⟩ | ⟨bs, b', rel, hd, ha, he, hle, hb', hbl', hr, hf⟩
  · exfalso
    rcases hA.lab l with ⟨_, _, _, e⟩ | ⟨e, _⟩
    · rw [e] at hs; simp at hs
    · have := boundSt_boundAt b
      rw [← hb, e, link_notBound] at this; cases this
  · have : b = b' := boundAt_inj hbl (Nat.le_trans hbl' hA.small) (hb.symm.trans hb')
    subst this
    exact ⟨bs, rel, hd, ha, he, hr⟩

theorem add_at (A : Asm) (bs : List Byte) : At (A.add bs).buf A.pc bs := by
  have := at_end A.buf bs []
  rwa [List.append_nil] at this

theorem free_end {A ch sl} (h : Inv A ch sl) {p : Nat} (hp : A.pc ≤ p) : Free ch p :=
  fun x o ho => .inr (Nat.le_trans (h.pos x o ho).2 hp)

theorem jump_long {A ch sl} (h : Inv A ch sl) (opc : List Byte) (l : Nat) (f : Int → Instr)
    (hd : ∀ v t, decode (opc ++ le32 v ++ t) = some (f v.toInt, t)) (h1 : 1 ≤ opc.length)
    (hs : ((A.add opc).target l).pc ≤ 536870912) :
    ∃ ch', Later A ch sl ((A.add opc).target l) ch' sl ∧
      Jumped ((A.add opc).target l) ch' l A.pc ((A.add opc).target l).pc f := by
  rw [target_pc, add_pc] at hs
  have k1 := later_add h opc (by omega)
  obtain ⟨ch', k2, hpc, hj⟩ := later_target k1.inv l (by rw [add_pc]; omega) (by rw [add_pc]; omega)
  have k := k1.trans h k2
  refine ⟨ch', k, ?_⟩
  obtain ⟨ha, hf⟩ := At.later k2 (add_at A opc) (by rw [add_pc]; omega) (fun q h1 _ => free_end h h1)
  rw [hpc]
  rw [add_pc] at hj hpc ⊢
  rcases hj with hj | ⟨b, hb, e1, e2, hat, hf2⟩
  · exact .inl ⟨opc, hd, ha, rfl, by omega, hf, hj⟩
  · right
    refine ⟨opc ++ le32 (BitVec.ofInt 32 ((b : Int) - (((A.pc + opc.length : Nat) : Int) + 4))), b, (b : Int) - (((A.pc + opc.length : Nat) : Int) + 4), ?_, at_append ha hat, ?_, by omega, e2, by omega,
      by omega, ?_⟩
    · intro t
      rw [hd, toInt_small (by omega) (by omega)]
    · simp [le32_length]; omega
    · intro q h1 h2
      by_cases hq : q < A.pc + opc.length
      · exact hf q h1 hq
      · exact hf2 q (by omega)

theorem small_some {A : Asm} {ch sl l d} (h : Inv A ch sl) (hs : A.small l = some d) :
    ∃ b, b ≤ A.pc ∧ A.lab l = boundAt b ∧ ((A.pc + 2 : Nat) : Int) + d.toInt = b := by
  unfold Asm.small at hs
  split at hs
  · rename_i hb
    rcases h.lab l with ⟨b, hb, e, _⟩ | ⟨e, _⟩
    · simp only at hs
      split at hs
      · cases hs
      · injection hs with hs
        have hsm := h.small
        rw [e, toOffset_boundAt (by omega)] at hs
        rename_i hr
        rw [e, toOffset_boundAt (by omega)] at hr
        refine ⟨b, hb, e, ?_⟩
        rw [← hs, BitVec.toInt_ofInt_eq_self (by decide) (by simp; omega) (by simp; omega)]
        omega
    · rw [e, link_notBound] at hb; cases hb
  · cases hs

theorem jump_short {A ch sl} (h : Inv A ch sl) (op : Byte) (l : Nat) (d : BitVec 8) (f : Int → Instr)
    (hsm : A.small l = some d)
    (hd : ∀ t, decode (op :: t) = withImm imm8 t f) (hs : (A.add [op, d]).pc ≤ 536870912) :
    Later A ch sl (A.add [op, d]) ch sl ∧
      Jumped (A.add [op, d]) ch l A.pc (A.add [op, d]).pc f := by
  rw [add_pc] at hs
  obtain ⟨b, hb, e, hr⟩ := small_some h hsm
  have k := later_add h [op, d] hs
  refine ⟨k, .inr ⟨[op, d], b, d.toInt, ?_, add_at A _, by rw [add_pc], by rw [add_pc]; omega, e, by rw [add_pc]; omega, ?_, fun q h1 _ => free_end h h1⟩⟩
  · intro t
    rw [show [op, d] ++ t = op :: d :: t from rfl, hd]; rfl
  · rw [add_pc]; exact hr

theorem jump_step {A A' : Asm} {ch sl op l f} (h : Inv A ch sl) (hj : op.jump = some (l, f))
    (hr : A.step true op = some A') (hs : A'.pc ≤ 536870912) :
    ∃ ch', Later A ch sl A' ch' sl ∧ Jumped A' ch' l A.pc A'.pc f := by
  have djmp : ∀ v t, decode ([0xe9] ++ le32 v ++ t) = some (.jmp v.toInt, t) := by
    intro v t
    rw [show ([0xe9] ++ le32 v ++ t : List Byte) = 0xe9 :: (le32 v ++ t) from rfl, dec_jmp32, withImm, le32_imm]; rfl
  have dcall : ∀ v t, decode ([0xe8] ++ le32 v ++ t) = some (.call v.toInt, t) := by
    intro v t
    rw [show ([0xe8] ++ le32 v ++ t : List Byte) = 0xe8 :: (le32 v ++ t) from rfl, dec_call, withImm, le32_imm]; rfl
  have dj : ∀ cc v t, decode ([0x0f, 0x80 + BitVec.ofNat 8 cc.val] ++ le32 v ++ t) = some (.jcc cc v.toInt, t) := by
    intro cc v t
    rw [show ([0x0f, 0x80 + BitVec.ofNat 8 cc.val] ++ le32 v ++ t : List Byte) =
      0x0f :: (0x80 + BitVec.ofNat 8 cc.val) :: (le32 v ++ t) from rfl, dec_j32, withImm, le32_imm]; rfl
  cases op with
  | jmp l' =>
    simp only [Op.jump, Option.some.injEq, Prod.mk.injEq] at hj; obtain ⟨rfl, rfl⟩ := hj
    simp only [Asm.step] at hr
    split at hr
    · injection hr with hr; subst hr
      exact ⟨ch, jump_short h _ l' _ _ ‹_› dec_jmp8 hs⟩
    · injection hr with hr; subst hr
      exact jump_long h _ l' _ djmp (by simp) hs
  | jmp32 l' =>
    simp only [Op.jump, Option.some.injEq, Prod.mk.injEq] at hj; obtain ⟨rfl, rfl⟩ := hj
    simp only [Asm.step] at hr
    injection hr with hr; subst hr
    exact jump_long h _ l' _ djmp (by simp) hs
  | j cc l' =>
    simp only [Op.jump, Option.some.injEq, Prod.mk.injEq] at hj; obtain ⟨rfl, rfl⟩ := hj
    simp only [Asm.step] at hr
    split at hr
    · injection hr with hr; subst hr
      exact ⟨ch, jump_short h _ l' _ _ ‹_› (dec_j8 cc) hs⟩
    · injection hr with hr; subst hr
      exact jump_long h _ l' _ (dj cc) (by simp) hs
  | j32 cc l' =>
    simp only [Op.jump, Option.some.injEq, Prod.mk.injEq] at hj; obtain ⟨rfl, rfl⟩ := hj
    simp only [Asm.step] at hr
    injection hr with hr; subst hr
    exact jump_long h _ l' _ (dj cc) (by simp) hs
  | call l' =>
    simp only [Op.jump, Option.some.injEq, Prod.mk.injEq] at hj; obtain ⟨rfl, rfl⟩ := hj
    simp only [Asm.step] at hr
    injection hr with hr; subst hr
    exact jump_long h _ l' _ dcall (by simp) hs
  | _ => simp [Op.jump] at hj

/-- A constant in the table, and the instruction that names it. -/
theorem ripConst_step {A A' : Asm} {ch sl} (h : Inv A ch sl) (hd2 : List Byte) (junk : Byte) (v : BitVec 64)
    (h2 : hd2.length = 2)
    (hr : (A.add (hd2 ++ [junk, 0, 0, 0])).ripConst v = some A') (hs : A'.pc ≤ 536870912) :
    Later A ch sl A' ch sl ∧ A'.pc = A.pc + 6 ∧ A'.table = A.table ++ [v] ∧ A'.reloc = A.reloc ∧
      ((A.pc : Int) + 6 + (A.table.length + 1) * 8 ≤ 2147483647) ∧
      At A'.buf A.pc (hd2 ++ le32 (BitVec.ofInt 32 (-((A.pc : Int) + 6 + (A.table.length + 1) * 8)))) := by
  unfold Asm.ripConst at hr
  simp only at hr
  split at hr
  · cases hr
  rename_i hov
  have hpc : (A.add (hd2 ++ [junk, 0, 0, 0])).pc = A.pc + 6 := by rw [add_pc]; simp [h2]
  rw [hpc] at hr hov
  obtain ⟨b1, e1, el, ea, eo⟩ := poke32_ok (buf := (A.add (hd2 ++ [junk, 0, 0, 0])).buf) (p := A.pc + 6 - 4)
    (BitVec.ofInt 32 (-(((A.pc + 6 : Nat) : Int) + ((A.table.length + 1) * 8 : Nat)))) (by
      have : (A.add (hd2 ++ [junk, 0, 0, 0])).buf.length = A.pc + 6 := hpc
      omega)
  have htl : (A.add (hd2 ++ [junk, 0, 0, 0])).table = A.table := rfl
  rw [htl, e1] at hr
  injection hr with hr
  have hl : b1.length = A.pc + 6 := el.trans hpc
  have hs' : b1.length ≤ 536870912 := by rw [← hr] at hs; exact hs
  have k1 := later_buf h b1 (by simp only [Asm.pc] at hl; omega) hs' (fun p hp => by
    rw [eo p (.inl (by simp only [Asm.pc]; omega))]
    exact List.getElem?_append_left hp)
  have k2 := later_const k1.inv v
  have k := k1.trans h k2
  subst hr
  refine ⟨k, hl, rfl, rfl, ?_, ?_⟩
  · have : (A.add (hd2 ++ [junk, 0, 0, 0])).table.length = A.table.length := rfl
    omega
  · refine at_append ?_ ?_
    · intro i hi
      show b1[A.pc + i]? = _
      rw [eo _ (.inl (by omega)), ← List.getElem?_append_left (l₂ := [junk, 0, 0, 0]) hi]
      exact add_at A _ i (by simp; omega)
    · rw [h2]
      have : (-(((A.pc + 6 : Nat) : Int) + ((A.table.length + 1) * 8 : Nat))) =
        -((A.pc : Int) + 6 + (A.table.length + 1) * 8) := by omega
      rw [this] at ea
      exact ea

theorem leaTab_step {A A' : Asm} {ch sl r k junk} (h : Inv A ch sl) (hr : A.leaTab true r k junk = some A')
    (hs : A'.pc ≤ 536870912) :
    Later A ch sl A' (chPush ch (.tab k) (A.pc + 7)) sl ∧ A'.pc = A.pc + 7 ∧ A'.table = A.table ∧
      At A'.buf A.pc (leaHead r) := by
  unfold Asm.leaTab at hr
  rw [lea_bytes] at hr
  simp only [Bool.true_and] at hr
  split at hr
  · cases hr
  split at hr
  · cases hr
  rename_i hnu
  have hpc : (A.add (leaHead r ++ [junk, 0, 0, 0])).pc = A.pc + 7 := by rw [add_pc]; simp [leaHead]
  injection hr with hr; subst hr
  have hpc' : (A.add (leaHead r ++ [junk, 0, 0, 0])).buf.length = A.pc + 7 := hpc
  have k := later_useTab h k (by simpa [Asm.add] using hnu) (A.add (leaHead r ++ [junk, 0, 0, 0])).buf
    (by simp only [Asm.pc] at hpc'; omega) (by exact hs) (fun p hp => List.getElem?_append_left hp)
  rw [hpc'] at k
  refine ⟨?_, hpc, rfl, ?_⟩
  · rw [hpc]; exact k
  · intro i hi
    rw [← List.getElem?_append_left (l₂ := [junk, 0, 0, 0]) hi]
    exact add_at A _ i (by simp; omega)

theorem later_step {A A' : Asm} {ch sl op} (h : Inv A ch sl) (hr : A.step true op = some A')
    (hs : A'.pc ≤ 536870912) : ∃ ch' sl', Later A ch sl A' ch' sl' := by
  cases hj : op.jump with
  | some lf =>
    obtain ⟨l, f⟩ := lf
    obtain ⟨ch', k, _⟩ := jump_step h hj hr hs
    exact ⟨ch', sl, k⟩
  | none =>
    cases op with
    | jmp | jmp32 | j | j32 | call => simp [Op.jump] at hj
    | raw bs =>
      simp only [Asm.step] at hr; injection hr with hr; subst hr
      rw [add_pc] at hs
      exact ⟨ch, sl, later_add h bs hs⟩
    | bind l =>
      simp only [Asm.step] at hr
      have hnb : boundSt (A.lab l) = false := by
        unfold Asm.bind at hr; split at hr
        · cases hr
        · simpa using ‹¬ boundSt (A.lab l) = true›
      obtain ⟨B, e, k, _⟩ := later_bind h l hnb
      rw [e] at hr; injection hr with hr; subst hr
      exact ⟨_, _, k⟩
    | callConst v junk =>
      simp only [Asm.step, call_bytes] at hr
      exact ⟨_, _, (ripConst_step h _ junk v rfl hr hs).1⟩
    | jmpConst v junk =>
      simp only [Asm.step, jmp_bytes] at hr
      exact ⟨_, _, (ripConst_step h _ junk v rfl hr hs).1⟩
    | leaTab r k junk =>
      simp only [Asm.step] at hr
      exact ⟨_, _, (leaTab_step h hr hs).1⟩
    | bindTab k =>
      simp only [Asm.step] at hr
      exact ⟨_, _, (later_bindTab h k hr).1⟩
    | abs a =>
      simp only [Asm.step] at hr
      obtain ⟨sl', k, _⟩ := later_abs h a hr
      exact ⟨_, _, k⟩
    | bindAdr a =>
      simp only [Asm.step] at hr
      have hnb : boundSt (A.adr a) = false := by
        unfold Asm.bindAdr at hr; split at hr
        · cases hr
        · simpa using ‹¬ boundSt (A.adr a) = true›
      obtain ⟨B, e, sl', k, _⟩ := later_bindAdr h a hnb
      rw [e] at hr; injection hr with hr; subst hr
      exact ⟨_, _, k⟩

theorem later_run : ∀ (ops : List Op) {A A' : Asm} {ch sl}, Inv A ch sl → A.run true ops = some A' →
    ∃ ch' sl', Later A ch sl A' ch' sl'
  | [], A, A', ch, sl, h, hr => by
    simp only [Asm.run, Option.some.injEq] at hr; subst hr
    exact ⟨ch, sl, Later.rfl h⟩
  | op :: ops, A, A', ch, sl, h, hr => by
    simp only [Asm.run] at hr
    split at hr
    · cases hr
    rename_i B hB
    split at hr
    · obtain ⟨ch1, sl1, k1⟩ := later_step h hB ‹_›
      obtain ⟨ch2, sl2, k2⟩ := later_run ops k1.inv hr
      exact ⟨ch2, sl2, k1.trans h k2⟩
    · cases hr

theorem run_append (c : Bool) : ∀ (ops ops' : List Op) (A : Asm),
    A.run c (ops ++ ops') = (A.run c ops).bind fun B => B.run c ops'
  | [], ops', A => rfl
  | op :: ops, ops', A => by
    simp only [List.cons_append, Asm.run]
    split
    · rfl
    · split
      · exact run_append c ops ops' _
      · rfl

theorem run_split {c : Bool} {ops ops' : List Op} {A C : Asm} (h : A.run c (ops ++ ops') = some C) :
    ∃ B, A.run c ops = some B ∧ B.run c ops' = some C := by
  rw [run_append] at h
  cases e : A.run c ops with
  | none => rw [e] at h; cases h
  | some B => rw [e] at h; exact ⟨B, rfl, h⟩

theorem run_one {c : Bool} {op : Op} {ops : List Op} {A C : Asm} (h : A.run c (op :: ops) = some C) :
    ∃ B, A.step c op = some B ∧ B.pc ≤ 536870912 ∧ B.run c ops = some C := by
  simp only [Asm.run] at h
  split at h
  · cases h
  · split at h
    · exact ⟨_, ‹_›, ‹_›, h⟩
    · cases h

/-- A label is bound at the position where its bind stands. -/
theorem bound_where {p q : List Op} {l : Nat} {A B : Asm} (h : Asm.run true {} (p ++ .bind l :: q) = some A)
    (hB : Asm.run true {} p = some B) : A.lab l = boundAt B.pc ∧ B.pc ≤ 536870912 := by
  obtain ⟨B', e, h⟩ := run_split h
  rw [hB] at e; injection e with e; subst e
  obtain ⟨chB, slB, kB⟩ := later_run p inv_init hB
  obtain ⟨C, hC, hs, h⟩ := run_one h
  have hst : B.bind l = some C := hC
  have hnb : boundSt (B.lab l) = false := by
    unfold Asm.bind at hst; split at hst
    · cases hst
    · simpa using ‹¬ boundSt (B.lab l) = true›
  obtain ⟨C', e, k, _, hl⟩ := later_bind kB.inv l hnb
  rw [e] at hst; injection hst with hst; subst hst
  obtain ⟨ch', sl', k'⟩ := later_run q k.inv h
  exact ⟨(k'.labB l (by rw [hl]; exact boundSt_boundAt _)).trans hl, kB.inv.small⟩

theorem bound_whereA {p q : List Op} {a : Nat} {A B : Asm} (h : Asm.run true {} (p ++ .bindAdr a :: q) = some A)
    (hB : Asm.run true {} p = some B) : A.adr a = boundAt B.pc ∧ B.pc ≤ 536870912 := by
  obtain ⟨B', e, h⟩ := run_split h
  rw [hB] at e; injection e with e; subst e
  obtain ⟨chB, slB, kB⟩ := later_run p inv_init hB
  obtain ⟨C, hC, hs, h⟩ := run_one h
  have hst : B.bindAdr a = some C := hC
  have hnb : boundSt (B.adr a) = false := by
    unfold Asm.bindAdr at hst; split at hst
    · cases hst
    · simpa using ‹¬ boundSt (B.adr a) = true›
  obtain ⟨C', e, sl', k, _, hl⟩ := later_bindAdr kB.inv a hnb
  rw [e] at hst; injection hst with hst; subst hst
  obtain ⟨ch', sl', k'⟩ := later_run q k.inv h
  exact ⟨(k'.adrB a (by rw [hl]; exact boundSt_boundAt _)).trans hl, kB.inv.small⟩

/-! ### The table -/

/-- Slot `s` of the table belongs to the code label `a`. -/
def Slotted (A : Asm) (sl : Nat → Option Nat) (a s : Nat) : Prop :=
  s < A.table.length ∧ s ∈ A.reloc ∧
  (sl a = some s ∨ ∃ b, b ≤ A.pc ∧ A.adr a = boundAt b ∧ A.table[s]? = some (BitVec.ofNat 64 b) ∧ ∀ a, sl a ≠ some s)

theorem Slotted.later {A ch sl A' ch' sl' a s} (k : Later A ch sl A' ch' sl') (h : Slotted A sl a s) :
    Slotted A' sl' a s := by
  obtain ⟨hs, hr, h⟩ := h
  refine ⟨Nat.lt_of_lt_of_le hs k.tlen, (k.relk s hs).mpr hr, ?_⟩
  rcases h with h | ⟨b, hb, e, ht, hf⟩
  · exact k.slot a s h
  · obtain ⟨e', f'⟩ := k.tkeep s hs hf
    exact .inr ⟨b, Nat.le_trans hb k.mono, by rw [← e]; exact k.adrB a (by rw [e]; exact boundSt_boundAt b),
      e'.trans ht, f'⟩

theorem Slotted.done {A ch sl a s b} (hA : Inv A ch sl) (h : Slotted A sl a s) (hb : A.adr a = boundAt b)
    (hbl : b ≤ 536870912) : s < A.table.length ∧ s ∈ A.reloc ∧ A.table[s]? = some (BitVec.ofNat 64 b) := by
  obtain ⟨hs, hr, h⟩ := h
  refine ⟨hs, hr, ?_⟩
  rcases h with h | ⟨b', hb', e, ht, _⟩
  · exfalso
    rcases hA.adr a with ⟨_, _, _, e⟩ | ⟨_, e⟩ | ⟨i, _, e, _⟩
    · rw [e] at h; cases h
    · rw [e] at h; cases h
    · rw [hb, boundSt_boundAt] at e; cases e
  · rw [ht, boundAt_inj hbl (Nat.le_trans hb' hA.small) (hb.symm.trans e)]

theorem abs_run : ∀ (cs : List Nat) {A A' : Asm} {ch sl}, Inv A ch sl →
    A.run true (cs.map .abs) = some A' →
    ∃ sl', Later A ch sl A' ch sl' ∧ A'.table.length = A.table.length + cs.length ∧ A'.pc = A.pc ∧
      ∀ i (h : i < cs.length), Slotted A' sl' cs[i] (A.table.length + i)
  | [], A, A', ch, sl, h, hr => by
    simp only [List.map_nil, Asm.run, Option.some.injEq] at hr; subst hr
    exact ⟨sl, Later.rfl h, rfl, rfl, fun i hi => absurd hi (by simp)⟩
  | c :: cs, A, A', ch, sl, h, hr => by
    obtain ⟨B, hB, _, hr⟩ := run_one hr
    obtain ⟨sl1, k1, hp1, hl1, _, hm1, hd1⟩ := later_abs h c hB
    obtain ⟨sl2, k2, hl2, hp2, hs2⟩ := abs_run cs k1.inv hr
    refine ⟨sl2, k1.trans h k2, by rw [hl2, hl1, List.length_cons]; omega, hp2.trans hp1, ?_⟩
    intro i hi
    cases i with
    | zero =>
      refine Slotted.later k2 ⟨by omega, hm1, ?_⟩
      rcases hd1 with hd | ⟨b, hb, e⟩
      · exact .inl hd
      · exact .inr ⟨b, by rw [hp1]; exact hb, e⟩
    | succ i =>
      have := hs2 i (by simpa using hi)
      rw [hl1] at this
      rw [show A.table.length + (i + 1) = A.table.length + 1 + i by omega]
      exact this

theorem relocate_length (e : BitVec 64) : ∀ rs t, (relocate e rs t).length = t.length
  | [], t => rfl
  | r :: rs, t => by simp [relocate, relocate_length e rs]

theorem relocate_get (e : BitVec 64) : ∀ (rs : List Nat) (t : List (BitVec 64)) (i : Nat) (v : BitVec 64),
    rs.Nodup → t[i]? = some v → (relocate e rs t)[i]? = some (if i ∈ rs then e + v else v)
  | [], t, i, v, _, ht => by simpa [relocate] using ht
  | r :: rs, t, i, v, hn, ht => by
    have hn' := List.nodup_cons.mp hn
    simp only [relocate]
    by_cases hir : i = r
    · subst hir
      rw [relocate_get e rs (t.set i (e + t.getD i 0)) i (e + v) hn'.2 ?_]
      · simp [hn'.1]
      · have hlt := (List.getElem?_eq_some_iff.mp ht).1
        rw [List.getElem?_set_self hlt]
        simp [List.getD, ht]
    · rw [relocate_get e rs _ i v hn'.2 ?_]
      · simp [hir]
      · rw [List.getElem?_set_ne (fun h => hir h.symm)]; exact ht

theorem flat_drop : ∀ (xs : List (BitVec 64)) (i : Nat) (v : BitVec 64) (t : List Byte), xs[i]? = some v →
    ∃ t', (xs.flatMap le64 ++ t).drop (8 * i) = le64 v ++ t'
  | [], i, v, t, h => by simp at h
  | x :: xs, 0, v, t, h => by
    simp only [List.getElem?_cons_zero, Option.some.injEq] at h; subst h
    exact ⟨xs.flatMap le64 ++ t, by simp⟩
  | x :: xs, i + 1, v, t, h => by
    simp only [List.getElem?_cons_succ] at h
    obtain ⟨t', e⟩ := flat_drop xs i v t h
    refine ⟨t', ?_⟩
    rw [← e, List.flatMap_cons, List.append_assoc, show 8 * (i + 1) = (le64 x).length + 8 * i by simp [le64]; omega,
      ← List.drop_drop, List.drop_left]

theorem flat_length : ∀ xs : List (BitVec 64), (xs.flatMap le64).length = 8 * xs.length
  | [] => rfl
  | x :: xs => by simp [flat_length xs, le64]; omega

theorem qword_le64 {bs : List Byte} {p : Nat} {v : BitVec 64} {t : List Byte} (h : bs.drop p = le64 v ++ t) :
    qword bs p = some v := by
  unfold qword
  rw [if_pos (by omega), Int.toNat_natCast, h]
  simp only [le64, List.cons_append, List.nil_append]
  congr 1
  ext i hi
  simp only [BitVec.getElem_append, BitVec.getElem_extractLsb']
  grind

/-- What stands in the image for slot `s` of the table. -/
theorem image_slot {A : Asm} {ch sl} (h : Inv A ch sl) (chunk : BitVec 64) {s : Nat} {v : BitVec 64}
    (ht : A.table[s]? = some v) :
    qword (A.image chunk) ((8 * (A.table.length - 1 - s) : Nat) : Int) =
      some (if s ∈ A.reloc then A.entry chunk + v else v) := by
  have hlt := (List.getElem?_eq_some_iff.mp ht).1
  have h1 := relocate_get (A.entry chunk) A.reloc A.table s v h.relnd ht
  have h2 : (relocate (A.entry chunk) A.reloc A.table).reverse[A.table.length - 1 - s]? =
      some (if s ∈ A.reloc then A.entry chunk + v else v) := by
    rw [List.getElem?_reverse (by rw [relocate_length]; omega), relocate_length, ← h1]
    congr 1; omega
  obtain ⟨t', e⟩ := flat_drop _ _ _ A.buf h2
  exact qword_le64 e

theorem image_code (A : Asm) (chunk : BitVec 64) (p : Nat) : A.code chunk p = A.buf.drop p := by
  unfold Asm.code Asm.image
  have : ((relocate (chunk + BitVec.ofNat 64 (A.table.length * 8)) A.reloc A.table).reverse.flatMap le64).length =
      A.table.length * 8 := by
    rw [flat_length, List.length_reverse, relocate_length]; omega
  rw [← List.drop_drop]
  congr 1
  exact List.drop_left' this

/-- The bytes of an instruction that refers to a table, and the table. -/
theorem table_bytes {p mid q p₂ q₂ : List Op} {r : Gpr} {k : Nat} {junk : Byte} {cases : List Nat} {A A₁ A₂ : Asm}
    (chunk : BitVec 64) {i : Nat} (hi : i < cases.length)
    (hrun : Asm.run true {}
      (p ++ .leaTab r k junk :: (mid ++ (cases.reverse.map .abs ++ .bindTab k :: q))) = some A)
    (h₁ : Asm.run true {} p = some A₁)
    (hbind : p ++ .leaTab r k junk :: (mid ++ (cases.reverse.map .abs ++ .bindTab k :: q)) =
      p₂ ++ .bindAdr cases[i] :: q₂)
    (h₂ : Asm.run true {} p₂ = some A₂) :
    ∃ d : Int, At A.buf A₁.pc (leaHead r ++ le32 (BitVec.ofInt 32 d)) ∧ (BitVec.ofInt 32 d).toInt = d ∧
      qword (A.image chunk) (A.table.length * 8 + (A₁.pc + 7) + d + 8 * i) = some (A.entry chunk + BitVec.ofNat 64 A₂.pc) ∧
      ((A₁.pc + 7 : Nat) : Int) + d + 8 * i + 8 ≤ 0 := by
  obtain ⟨hadr, hsm2⟩ := bound_whereA (hbind ▸ hrun) h₂
  obtain ⟨B, e, hr⟩ := run_split hrun
  rw [h₁] at e; injection e with e; subst e
  obtain ⟨ch, sl, kB⟩ := later_run p inv_init h₁
  obtain ⟨C, hC, hs, hr⟩ := run_one hr
  simp only [Asm.step] at hC
  obtain ⟨kC, hpcC, htC, hatC⟩ := leaTab_step kB.inv hC hs
  obtain ⟨D, hD, hr⟩ := run_split hr
  obtain ⟨chD, slD, kD⟩ := later_run mid kC.inv hD
  obtain ⟨E, hE, hr⟩ := run_split hr
  obtain ⟨slE, kE, htE, hpE, hsl⟩ := abs_run cases.reverse kD.inv hE
  obtain ⟨F, hF, hsF, hr⟩ := run_one hr
  simp only [Asm.step] at hF
  obtain ⟨kF, hpF, htF, hsite⟩ := later_bindTab kE.inv k hF
  obtain ⟨chA, slA, kA⟩ := later_run q kF.inv hr
  -- the lea's displacement
  have hnbE : boundSt (E.tab k) = false := by
    unfold Asm.bindTab at hF
    split at hF
    · cases hF
    · simpa using ‹¬ boundSt (E.tab k) = true›
  have hin : A₁.pc + 7 ∈ chD (.tab k) := by
    have kDE := kD.trans kC.inv kE
    rcases kDE.siteT k (A₁.pc + 7) (by simp [chPush]) with h | h
    · exact h
    · rw [hnbE] at h; cases h
  obtain ⟨hrange, hat7, hfree7⟩ := hsite _ hin
  have hCtoE := kD.trans kC.inv kE
  have hleaE := At.later hCtoE hatC (by rw [hpcC]; simp [leaHead]) (fun q' h1 h2 => by
    intro x o ho
    rcases mem_chPush ho with ho | ⟨_, rfl⟩
    · have := kB.inv.pos x o ho; omega
    · simp only [leaHead, List.length_cons, List.length_nil] at h2; omega)
  have hlen3 : (leaHead r).length = 3 := rfl
  have hmE := hCtoE.mono
  have hleaF := At.later kF hleaE.1 (by omega) hleaE.2
  have hmF := kF.mono
  have hfull : At F.buf A₁.pc (leaHead r ++ le32 (BitVec.ofInt 32 (-(((A₁.pc + 7 : Nat) : Int) + E.table.length * 8)))) :=
    at_append hleaF.1 (by rw [hlen3, show A₁.pc + 3 = A₁.pc + 7 - 4 by omega]; exact hat7)
  have hlen7 : (leaHead r ++ le32 (BitVec.ofInt 32 (-(((A₁.pc + 7 : Nat) : Int) + E.table.length * 8)))).length = 7 := rfl
  obtain ⟨hatA, _⟩ := At.later kA hfull (by rw [hlen7]; omega) (fun q' h1 h2 => by
    rw [hlen7] at h2
    by_cases hq : q' < A₁.pc + 3
    · exact hleaF.2 q' h1 (by omega)
    · exact hfree7 q' (by omega) (by omega))
  -- the slot
  have hrl : cases.reverse.length = cases.length := List.length_reverse
  have hslot := hsl (cases.length - 1 - i) (by omega)
  have hcase : cases.reverse[cases.length - 1 - i]'(by omega) = cases[i] := by
    rw [List.getElem_reverse]; congr 1; omega
  rw [hcase] at hslot
  obtain ⟨hsA, hrA, htA⟩ := ((hslot.later kF).later kA).done kA.inv hadr hsm2
  have himg := image_slot kA.inv chunk htA
  rw [if_pos hrA] at himg
  refine ⟨-(((A₁.pc + 7 : Nat) : Int) + E.table.length * 8), hatA, toInt_small (by omega) (by omega), ?_, ?_⟩
  · rw [← himg]
    congr 1
    rw [hrl] at htE
    omega
  · rw [hrl] at htE
    omega

/-- Assertions that hold do not matter. -/
theorem step_release {A A' : Asm} {op : Op} (h : A.step true op = some A') : A.step false op = some A' := by
  cases op with
  | leaTab r k junk =>
    simp only [Asm.step, Asm.leaTab, Bool.true_and, Bool.false_and, Bool.false_eq_true, if_false] at h ⊢
    split at h
    · cases h
    · split at h
      · cases h
      · rw [if_neg ‹_›]; exact h
  | abs a =>
    simp only [Asm.step, Asm.abs, Bool.true_and, Bool.false_and, Bool.false_eq_true, if_false] at h ⊢
    split at h
    · rw [if_pos ‹_›]; exact h
    · rw [if_neg ‹_›]
      split at h
      · cases h
      · exact h
  | _ => exact h

theorem run_release : ∀ (ops : List Op) {A A' : Asm}, A.run true ops = some A' → A.run false ops = some A'
  | [], _, _, h => h
  | op :: ops, A, A', h => by
    obtain ⟨B, hB, hs, h⟩ := run_one h
    simp only [Asm.run, step_release hB, if_pos hs]
    exact run_release ops h

end Verif.X64

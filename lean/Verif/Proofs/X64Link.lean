import Verif.Model.X64Link
import Verif.Proofs.X64Asm

/-! Lemmas for C64: the lists threaded through the code, and what later calls leave alone. -/
namespace Verif.X64

/-! ### Status words -/
theorem boundSt_boundAt (b : Nat) : boundSt (boundAt b) = true := by
  simp [boundSt, boundAt]
theorem boundSt_pendingAt (b : Nat) : boundSt (pendingAt b) = false := by
  simp [boundSt, pendingAt]
theorem toOffset_boundAt {b : Nat} (h : b ≤ 536870912) : toOffset (boundAt b) = b := by
  have : (boundAt b) >>> 1 = BitVec.ofNat 32 b := by
    ext i hi
    simp only [boundAt, BitVec.getElem_ushiftRight, BitVec.getLsbD_or, BitVec.getLsbD_shiftLeft]
    have hb : i = 31 → b.testBit i = false := by
      intro e; subst e; exact Nat.testBit_lt_two_pow (by omega)
    by_cases e : i = 31
    · subst e
      rw [← BitVec.getLsbD_eq_getElem, BitVec.getLsbD_ofNat, hb rfl]; simp
    · have : 1 + i < 32 := by omega
      simp [this, ← BitVec.getLsbD_eq_getElem]
  rw [toOffset, this, BitVec.toNat_ofNat]; omega
theorem toOffset_pendingAt {b : Nat} (h : b ≤ 536870912) : toOffset (pendingAt b) = b := by
  simp only [toOffset, pendingAt, BitVec.toNat_ushiftRight, BitVec.toNat_shiftLeft, BitVec.toNat_ofNat,
    Nat.shiftRight_eq_div_pow, Nat.shiftLeft_eq]
  omega
theorem pendingAt_ne {b : Nat} (h0 : 0 < b) (h : b ≤ 536870912) : pendingAt b ≠ 0 := by
  intro e
  have := toOffset_pendingAt h
  rw [e] at this
  simp [toOffset] at this
  omega
theorem toOffsetS_of {s : BitVec 32} (h : toOffset s ≤ 1073741823) : toOffsetS s = toOffset s := by
  have e : toOffset s = s.toNat / 2 := by simp [toOffset, Nat.shiftRight_eq_div_pow]
  rw [e] at h ⊢
  rw [toOffsetS, BitVec.toInt_sshiftRight, BitVec.toInt_eq_toNat_of_lt (by omega), Int.shiftRight_eq_div_pow]
  omega
theorem boundAt_inj {a b : Nat} (ha : a ≤ 536870912) (hb : b ≤ 536870912) (h : boundAt a = boundAt b) : a = b := by
  have := toOffset_boundAt ha; rw [h, toOffset_boundAt hb] at this; exact this.symm

/-! ### Bytes at a place -/

/-- These bytes stand at this place. -/
def At (buf : List Byte) (p : Nat) (bs : List Byte) : Prop := ∀ i, i < bs.length → buf[p + i]? = bs[i]?

theorem At.drop {buf : List Byte} {p : Nat} {bs : List Byte} (h : At buf p bs) :
    buf.drop p = bs ++ buf.drop (p + bs.length) := by
  apply List.ext_getElem?
  intro i
  rw [List.getElem?_drop, List.getElem?_append]
  split
  · exact h i ‹_›
  · rw [List.getElem?_drop]; congr 1; omega

theorem at_end (buf bs rest : List Byte) : At (buf ++ bs ++ rest) buf.length bs := by
  intro i hi
  rw [List.append_assoc, List.getElem?_append_right (by omega), List.getElem?_append_left (by omega)]
  congr 1; omega

theorem le32_length (v : BitVec 32) : (le32 v).length = 4 := rfl

theorem peek32_at {buf : List Byte} {p : Nat} {v : BitVec 32} (h : At buf p (le32 v)) :
    peek32 buf p = some v := by
  have := le32_imm v (buf.drop (p + 4))
  rw [peek32, h.drop]
  simp only [le32, List.cons_append, List.nil_append]
  congr 1
  ext i hi
  simp only [BitVec.getElem_append, BitVec.getElem_extractLsb']
  grind

theorem poke32_ok {buf : List Byte} {p : Nat} (v : BitVec 32) (h : p + 4 ≤ buf.length) :
    ∃ buf', poke32 buf p v = some buf' ∧ buf'.length = buf.length ∧ At buf' p (le32 v) ∧
      ∀ q, (q < p ∨ p + 4 ≤ q) → buf'[q]? = buf[q]? := by
  refine ⟨_, if_pos h, ?_, ?_, ?_⟩
  · simp [le32_length]; omega
  · have : (buf.take p).length = p := by simp; omega
    have := at_end (buf.take p) (le32 v) (buf.drop (p + 4))
    rwa [‹(buf.take p).length = p›] at this
  · intro q hq
    rw [List.append_assoc, List.getElem?_append]
    have hl : (buf.take p).length = p := by simp; omega
    rw [hl]
    split
    · rw [List.getElem?_take, if_pos ‹_›]
    · rw [List.getElem?_append_right (by rw [le32_length]; omega), List.getElem?_drop, le32_length]
      congr 1; omega

/-! ### The invariant -/

/-- What can have uses waiting in the code. -/
inductive Src where | lab (l : Nat) | tab (k : Nat)
deriving DecidableEq

/-- The status word that heads a list of waiting uses. -/
def link : List Nat → BitVec 32
  | [] => 0
  | o :: _ => pendingAt o

/-- Each use holds the word that heads the rest. -/
def Chain (buf : List Byte) : List Nat → Prop
  | [] => True
  | o :: os => At buf (o - 4) (le32 (link os)) ∧ Chain buf os

/-- The byte at `p` belongs to no waiting use. -/
def Free (ch : Src → List Nat) (p : Nat) : Prop := ∀ x o, o ∈ ch x → p + 4 < o ∨ o ≤ p

structure Inv (A : Asm) (ch : Src → List Nat) (sl : Nat → Option Nat) : Prop where
  small : A.pc ≤ 536870912
  pos : ∀ x o, o ∈ ch x → 5 ≤ o ∧ o ≤ A.pc
  desc : ∀ x, (ch x).Pairwise (fun a b => b + 4 ≤ a)
  sep : ∀ x y o o', x ≠ y → o ∈ ch x → o' ∈ ch y → o + 4 ≤ o' ∨ o' + 4 ≤ o
  lab : ∀ l, (∃ b, b ≤ A.pc ∧ A.lab l = boundAt b ∧ ch (.lab l) = []) ∨
    (A.lab l = link (ch (.lab l)) ∧ Chain A.buf (ch (.lab l)))
  tab : ∀ k, (∃ b, b ≤ A.pc ∧ A.tab k = boundAt b ∧ ch (.tab k) = []) ∨
    (A.tab k = link (ch (.tab k)) ∧ (ch (.tab k)).length ≤ 1)
  adr : ∀ a, (∃ b, b ≤ A.pc ∧ A.adr a = boundAt b ∧ sl a = none) ∨ (A.adr a = 0 ∧ sl a = none) ∨
    (∃ i, sl a = some i ∧ boundSt (A.adr a) = false ∧ toOffsetS (A.adr a) = -(i + 1 : Int) ∧
      i < A.table.length)
  slinj : ∀ a a' i, sl a = some i → sl a' = some i → a = a'
  rel : ∀ i, i ∈ A.reloc → i < A.table.length
  relnd : A.reloc.Nodup

/-- What a later state keeps of an earlier one. -/
structure Later (A : Asm) (ch : Src → List Nat) (sl : Nat → Option Nat)
    (A' : Asm) (ch' : Src → List Nat) (sl' : Nat → Option Nat) : Prop where
  inv : Inv A' ch' sl'
  mono : A.pc ≤ A'.pc
  keep : ∀ p, p < A.pc → Free ch p → A'.buf[p]? = A.buf[p]? ∧ Free ch' p
  labB : ∀ l, boundSt (A.lab l) = true → A'.lab l = A.lab l
  site : ∀ l o, o ∈ ch (.lab l) → o ∈ ch' (.lab l) ∨
    ∃ b, b ≤ A'.pc ∧ A'.lab l = boundAt b ∧ At A'.buf (o - 4) (le32 (BitVec.ofInt 32 ((b : Int) - o))) ∧
      ∀ p, o - 4 ≤ p → p < o → Free ch' p
  tabB : ∀ k, boundSt (A.tab k) = true → A'.tab k = A.tab k
  siteT : ∀ k o, o ∈ ch (.tab k) → o ∈ ch' (.tab k) ∨ boundSt (A'.tab k) = true
  tlen : A.table.length ≤ A'.table.length
  tkeep : ∀ i, i < A.table.length → (∀ a, sl a ≠ some i) →
    A'.table[i]? = A.table[i]? ∧ ∀ a, sl' a ≠ some i
  slot : ∀ a i, sl a = some i → sl' a = some i ∨
    ∃ b, b ≤ A'.pc ∧ A'.adr a = boundAt b ∧ A'.table[i]? = some (BitVec.ofNat 64 b) ∧ ∀ a, sl' a ≠ some i
  adrB : ∀ a, boundSt (A.adr a) = true → A'.adr a = A.adr a
  relk : ∀ i, i < A.table.length → (i ∈ A'.reloc ↔ i ∈ A.reloc)

theorem chain_congr {buf buf' : List Byte} : ∀ os, (∀ o ∈ os, ∀ q, o - 4 ≤ q → q < o → buf'[q]? = buf[q]?) →
    (∀ o ∈ os, 5 ≤ o) → Chain buf os → Chain buf' os
  | [], _, _, _ => trivial
  | o :: os, h, h5, ⟨hA, hC⟩ =>
    ⟨fun i hi => by
        have h5 := h5 o (by simp)
        rw [le32_length] at hi
        rw [h o (by simp) _ (by omega) (by omega)]; exact hA i hi,
     chain_congr os (fun o ho => h o (by simp [ho])) (fun o ho => h5 o (by simp [ho])) hC⟩

theorem Later.rfl {A : Asm} {ch sl} (h : Inv A ch sl) : Later A ch sl A ch sl where
  inv := h
  mono := Nat.le_refl _
  keep _ _ hf := ⟨Eq.refl _, hf⟩
  labB _ _ := Eq.refl _
  site _ _ h := .inl h
  tabB _ _ := Eq.refl _
  siteT _ _ h := .inl h
  tlen := Nat.le_refl _
  tkeep _ _ h := ⟨Eq.refl _, h⟩
  slot _ _ h := .inl h
  adrB _ _ := Eq.refl _
  relk _ _ := Iff.rfl

theorem Later.trans {A ch sl B ch' sl' C ch'' sl''} (hA : Inv A ch sl) (h : Later A ch sl B ch' sl')
    (k : Later B ch' sl' C ch'' sl'') : Later A ch sl C ch'' sl'' where
  inv := k.inv
  mono := Nat.le_trans h.mono k.mono
  keep p hp hf := by
    obtain ⟨e, f⟩ := h.keep p hp hf
    obtain ⟨e', f'⟩ := k.keep p (Nat.lt_of_lt_of_le hp h.mono) f
    exact ⟨e'.trans e, f'⟩
  labB l hl := by
    have e := h.labB l hl
    rw [← e]; exact k.labB l (by rw [e]; exact hl)
  site l o ho := by
    have hp := hA.pos _ _ ho
    rcases h.site l o ho with h1 | ⟨b, hb, e, hat, hf⟩
    · exact k.site l o h1
    · refine .inr ⟨b, Nat.le_trans hb k.mono, ?_, ?_, ?_⟩
      · rw [← e]; exact k.labB l (by rw [e]; exact boundSt_boundAt b)
      · intro i hi
        rw [le32_length] at hi
        have := hp.2; have := h.mono
        rw [(k.keep _ (by omega) (hf _ (by omega) (by omega))).1]
        exact hat i hi
      · intro p h1 h2
        have := hp.2; have := h.mono
        exact (k.keep _ (by omega) (hf _ h1 h2)).2
  tabB l hl := by
    have e := h.tabB l hl
    rw [← e]; exact k.tabB l (by rw [e]; exact hl)
  siteT l o ho := by
    rcases h.siteT l o ho with h1 | h1
    · exact k.siteT l o h1
    · exact .inr (by rw [k.tabB l h1]; exact h1)
  tlen := Nat.le_trans h.tlen k.tlen
  tkeep i hi hf := by
    obtain ⟨e, f⟩ := h.tkeep i hi hf
    obtain ⟨e', f'⟩ := k.tkeep i (Nat.lt_of_lt_of_le hi h.tlen) f
    exact ⟨e'.trans e, f'⟩
  slot a i hs := by
    rcases h.slot a i hs with h1 | ⟨b, hb, e, ht, hf⟩
    · exact k.slot a i h1
    · have hi : i < B.table.length := by
        have := List.getElem?_eq_some_iff.mp ht; exact this.1
      obtain ⟨e', f'⟩ := k.tkeep i hi hf
      exact .inr ⟨b, Nat.le_trans hb k.mono, by rw [← e]; exact k.adrB a (by rw [e]; exact boundSt_boundAt b),
        e'.trans ht, f'⟩
  adrB l hl := by
    have e := h.adrB l hl
    rw [← e]; exact k.adrB l (by rw [e]; exact hl)
  relk i hi := (k.relk i (Nat.lt_of_lt_of_le hi h.tlen)).trans (h.relk i hi)

/-! ### Each call -/

/-- Bytes are added at the end. -/
theorem later_buf {A : Asm} {ch sl} (h : Inv A ch sl) (B : List Byte) (hl : A.buf.length ≤ B.length)
    (hs : B.length ≤ 536870912) (hp : ∀ p, p < A.buf.length → B[p]? = A.buf[p]?) :
    Later A ch sl { A with buf := B } ch sl where
  inv :=
    { small := hs
      pos := fun x o ho => ⟨(h.pos x o ho).1, Nat.le_trans (h.pos x o ho).2 hl⟩
      desc := h.desc
      sep := h.sep
      lab := fun l => by
        rcases h.lab l with ⟨b, hb, e⟩ | ⟨e, hc⟩
        · exact .inl ⟨b, Nat.le_trans hb hl, e⟩
        · refine .inr ⟨e, chain_congr _ ?_ (fun o ho => (h.pos _ o ho).1) hc⟩
          intro o ho q _ h2
          exact hp q (Nat.lt_of_lt_of_le h2 (h.pos _ o ho).2)
      tab := fun k => by
        rcases h.tab k with ⟨b, hb, e⟩ | e
        · exact .inl ⟨b, Nat.le_trans hb hl, e⟩
        · exact .inr e
      adr := fun k => by
        rcases h.adr k with ⟨b, hb, e⟩ | e
        · exact .inl ⟨b, Nat.le_trans hb hl, e⟩
        · exact .inr e
      slinj := h.slinj
      rel := h.rel
      relnd := h.relnd }
  mono := hl
  keep p hpc hf := ⟨hp p hpc, hf⟩
  labB _ _ := rfl
  site _ _ h := .inl h
  tabB _ _ := rfl
  siteT _ _ h := .inl h
  tlen := Nat.le_refl _
  tkeep _ _ h := ⟨rfl, h⟩
  slot _ _ h := .inl h
  adrB _ _ := rfl
  relk _ _ := Iff.rfl

theorem later_add {A : Asm} {ch sl} (h : Inv A ch sl) (bs : List Byte) (hs : A.pc + bs.length ≤ 536870912) :
    Later A ch sl (A.add bs) ch sl :=
  later_buf h _ (by simp) (by simpa [Asm.pc] using hs) (fun p hp => List.getElem?_append_left hp)

/-- A constant is added to the table. -/
theorem later_const {A : Asm} {ch sl} (h : Inv A ch sl) (v : BitVec 64) :
    Later A ch sl { A with table := A.table ++ [v] } ch sl where
  inv :=
    { small := h.small
      pos := h.pos
      desc := h.desc
      sep := h.sep
      lab := h.lab
      tab := h.tab
      adr := fun a => by
        rcases h.adr a with e | e | ⟨i, e1, e2, e3, e4⟩
        · exact .inl e
        · exact .inr (.inl e)
        · exact .inr (.inr ⟨i, e1, e2, e3, by simp; omega⟩)
      slinj := h.slinj
      rel := fun i hi => by have := h.rel i hi; simp; omega
      relnd := h.relnd }
  mono := Nat.le_refl _
  keep _ _ hf := ⟨rfl, hf⟩
  labB _ _ := rfl
  site _ _ h := .inl h
  tabB _ _ := rfl
  siteT _ _ h := .inl h
  tlen := by simp
  tkeep i hi h := ⟨List.getElem?_append_left hi, h⟩
  slot _ _ h := .inl h
  adrB _ _ := rfl
  relk _ _ := Iff.rfl

/-- A new use, at the end of the code. -/
def chPush (ch : Src → List Nat) (x : Src) (o : Nat) : Src → List Nat :=
  fun y => if y = x then o :: ch x else ch y

theorem mem_chPush {ch : Src → List Nat} {x y : Src} {o o' : Nat} (h : o' ∈ chPush ch x o y) :
    o' ∈ ch y ∨ (y = x ∧ o' = o) := by
  unfold chPush at h
  split at h
  · subst_vars
    rcases List.mem_cons.mp h with h | h
    · exact .inr ⟨rfl, h⟩
    · exact .inl h
  · exact .inl h

theorem later_target {A : Asm} {ch sl} (h : Inv A ch sl) (l : Nat) (h1 : 1 ≤ A.pc)
    (hs : A.pc + 4 ≤ 536870912) : ∃ ch', Later A ch sl (A.target l) ch' sl ∧
      (A.target l).pc = A.pc + 4 ∧
      ((A.pc + 4) ∈ ch' (.lab l) ∨
        ∃ b, b ≤ A.pc ∧ A.lab l = boundAt b ∧ (A.target l).lab l = boundAt b ∧
          At (A.target l).buf A.pc (le32 (BitVec.ofInt 32 ((b : Int) - (A.pc + 4)))) ∧
          ∀ p, A.pc ≤ p → Free ch' p) := by
  unfold Asm.target
  rcases h.lab l with ⟨b, hb, e, hc⟩ | ⟨e, hc⟩
  · rw [if_pos (by rw [e]; exact boundSt_boundAt b)]
    have := h.small
    refine ⟨ch, later_add h _ (by simpa [le32_length] using hs), by simp [Asm.pc, Asm.add, le32_length], .inr ⟨b, hb, e, e, ?_, ?_⟩⟩
    · rw [e, toOffset_boundAt (by omega)]
      have := at_end A.buf (le32 (BitVec.ofInt 32 ((b : Int) - (A.pc + 4)))) []
      rwa [List.append_nil] at this
    · intro p hp x o ho
      exact .inr (Nat.le_trans (h.pos x o ho).2 hp)
  · have hnb : boundSt (A.lab l) = false := by
      rw [e]; cases ch (.lab l) with
      | nil => rfl
      | cons o os => exact boundSt_pendingAt o
    rw [if_neg (by simp [hnb])]
    have hbuf : ∀ p, p < A.buf.length → (A.buf ++ le32 (A.lab l))[p]? = A.buf[p]? :=
      fun p hp => List.getElem?_append_left hp
    have hlen : (A.buf ++ le32 (A.lab l)).length = A.pc + 4 := by simp [Asm.pc, le32_length]
    refine ⟨chPush ch (.lab l) (A.pc + 4), ?_, hlen, .inl (by simp [chPush])⟩
    have hb := later_buf h (A.buf ++ le32 (A.lab l)) (by simp) (by rw [hlen]; exact hs) hbuf
    have hpos : ∀ x o, o ∈ chPush ch (.lab l) (A.pc + 4) x → 5 ≤ o ∧ o ≤ A.pc + 4 := by
      intro x o ho
      rcases mem_chPush ho with ho | ⟨_, rfl⟩
      · have := h.pos x o ho; omega
      · omega
    exact
      { inv :=
        { small := by show (A.buf ++ _).length ≤ _; rw [hlen]; exact hs
          pos := fun x o ho => by
            have := hpos x o ho
            show 5 ≤ o ∧ o ≤ (A.buf ++ _).length
            rw [hlen]; exact this
          desc := fun x => by
            unfold chPush
            split
            · refine List.pairwise_cons.mpr ⟨fun o ho => ?_, h.desc _⟩
              have := h.pos _ o ho; omega
            · exact h.desc x
          sep := fun x y o o' hxy ho ho' => by
            rcases mem_chPush ho with ho | ⟨rfl, rfl⟩ <;> rcases mem_chPush ho' with ho' | ⟨rfl, rfl⟩
            · exact h.sep x y o o' hxy ho ho'
            · have := h.pos x o ho; omega
            · have := h.pos y o' ho'; omega
            · exact absurd rfl hxy
          lab := fun l' => by
            by_cases hl : l' = l
            · subst hl
              refine .inr ⟨by simp [upd, chPush, link], ?_⟩
              simp only [chPush, if_true]
              refine ⟨?_, ?_⟩
              · rw [Nat.add_sub_cancel, ← e]
                have := at_end A.buf (le32 (A.lab l')) []
                rwa [List.append_nil] at this
              · exact chain_congr _ (fun o ho q _ h2 => hbuf q (Nat.lt_of_lt_of_le h2 (h.pos _ o ho).2))
                  (fun o ho => (h.pos _ o ho).1) hc
            · have hne : (Src.lab l') ≠ Src.lab l := fun h => hl (by injection h)
              simp only [upd, if_neg hl, chPush, if_neg hne]
              exact hb.inv.lab l'
          tab := fun k => by
            simp only [chPush, if_neg (show Src.tab k ≠ Src.lab l from fun h => nomatch h)]
            exact hb.inv.tab k
          adr := hb.inv.adr
          slinj := h.slinj
          rel := h.rel
          relnd := h.relnd }
        mono := by show A.pc ≤ (A.buf ++ _).length; rw [hlen]; omega
        keep := fun p hp hf => ⟨hbuf p hp, fun x o ho => by
          rcases mem_chPush ho with ho | ⟨_, rfl⟩
          · exact hf x o ho
          · omega⟩
        labB := fun l' hl' => by
          have : l' ≠ l := fun e => by rw [e, hnb] at hl'; cases hl'
          simp [upd, this]
        site := fun l' o ho => .inl (by
          unfold chPush; split
          · rename_i e; injection e with e; subst e; exact List.mem_cons_of_mem _ ho
          · exact ho)
        tabB := fun _ _ => rfl
        siteT := fun k o ho => .inl (by
          simp only [chPush, if_neg (show Src.tab k ≠ Src.lab l from fun h => nomatch h)]; exact ho)
        tlen := Nat.le_refl _
        tkeep := fun _ _ h => ⟨rfl, h⟩
        slot := fun _ _ h => .inl h
        adrB := fun _ _ => rfl
        relk := fun _ _ => Iff.rfl }

/-- The loop of bind: every waiting use gets its distance. -/
theorem patch_ok (pc : Nat) : ∀ (os : List Nat) (n : Nat) (buf : List Byte), os.length ≤ n →
    (∀ o ∈ os, 5 ≤ o ∧ o ≤ buf.length ∧ o ≤ 536870912) → os.Pairwise (fun a b => b + 4 ≤ a) →
    Chain buf os →
    ∃ buf', patch pc n buf (link os) = some buf' ∧ buf'.length = buf.length ∧
      (∀ o ∈ os, At buf' (o - 4) (le32 (BitVec.ofInt 32 ((pc : Int) - o)))) ∧
      ∀ q, (∀ o ∈ os, q + 4 < o ∨ o ≤ q) → buf'[q]? = buf[q]?
  | [], n, buf, _, _, _, _ => by
    refine ⟨buf, ?_, rfl, fun o ho => by simp at ho, fun _ _ => rfl⟩
    cases n <;> rfl
  | o :: os, 0, buf, hn, _, _, _ => by simp at hn
  | o :: os, n + 1, buf, hn, hp, hd, ⟨hA, hC⟩ => by
    obtain ⟨h5, hle, hsm⟩ := hp o (by simp)
    have hd' := List.pairwise_cons.mp hd
    obtain ⟨b1, e1, el, ea, eo⟩ := poke32_ok (buf := buf) (p := o - 4) (BitVec.ofInt 32 ((pc : Int) - o)) (by omega)
    have hC' : Chain b1 os := by
      refine chain_congr os ?_ (fun o' ho' => (hp o' (by simp [ho'])).1) hC
      intro o' ho' q _ h2
      have := hd'.1 o' ho'
      exact eo q (.inl (by omega))
    obtain ⟨b2, e2, el2, ea2, eo2⟩ := patch_ok pc os n b1 (by simpa using hn)
      (fun o' ho' => by rw [el]; exact hp o' (by simp [ho'])) hd'.2 hC'
    refine ⟨b2, ?_, el2.trans el, ?_, ?_⟩
    · show patch pc (n + 1) buf (pendingAt o) = _
      simp only [patch]
      rw [if_neg (pendingAt_ne (by omega) hsm), toOffset_pendingAt hsm, if_neg (by omega), peek32_at hA, e1]
      exact e2
    · intro o' ho'
      rcases List.mem_cons.mp ho' with rfl | ho'
      · intro i hi
        rw [eo2 _ (fun o'' ho'' => ?_)]
        · exact ea i hi
        · have := hd'.1 o'' ho''
          right; omega
      · exact ea2 o' ho'
    · intro q hq
      rw [eo2 q (fun o' ho' => hq o' (by simp [ho']))]
      have := hq o (by simp)
      exact eo q (by omega)

/-- The uses of a label are served. -/
def chClear (ch : Src → List Nat) (x : Src) : Src → List Nat := fun y => if y = x then [] else ch y

theorem mem_chClear {ch : Src → List Nat} {x y : Src} {o : Nat} (h : o ∈ chClear ch x y) : o ∈ ch y ∧ y ≠ x := by
  unfold chClear at h
  split at h
  · simp at h
  · exact ⟨h, ‹_›⟩

theorem pairwise_length {os : List Nat} {m : Nat} (h : os.Pairwise (fun a b => b + 4 ≤ a))
    (hm : ∀ o ∈ os, 4 ≤ o ∧ o ≤ m) : os.length * 4 ≤ m := by
  induction os generalizing m with
  | nil => simp
  | cons o os ih =>
    have h' := List.pairwise_cons.mp h
    have := hm o (by simp)
    have := ih (m := o - 4) h'.2 (fun o' ho' => by
      have := h'.1 o' ho'; have := hm o' (by simp [ho']); omega)
    simp only [List.length_cons] at this ⊢
    omega

/-- Fields of one list lie apart from the others: patching one leaves the rest alone. -/
theorem clear_inv {A : Asm} {ch sl} (h : Inv A ch sl) (x : Src) (buf : List Byte)
    (hq : ∀ q, (∀ o ∈ ch x, q + 4 < o ∨ o ≤ q) → buf[q]? = A.buf[q]?) :
    ∀ l, x ≠ .lab l → Chain A.buf (ch (.lab l)) → Chain buf (ch (.lab l)) := by
  intro l hx hc
  refine chain_congr _ ?_ (fun o ho => (h.pos _ o ho).1) hc
  intro o ho q h1 h2
  refine hq q (fun o' ho' => ?_)
  have := h.sep x (.lab l) o' o hx ho' ho
  have := h.pos _ _ ho
  omega

theorem link_notBound (os : List Nat) : boundSt (link os) = false := by
  cases os with
  | nil => rfl
  | cons o os => exact boundSt_pendingAt o

/-- The state after the uses of `x` are served, whichever label word was changed. -/
theorem clear_desc {ch : Src → List Nat} {x : Src} (h : ∀ x, (ch x).Pairwise (fun a b => b + 4 ≤ a)) :
    ∀ y, (chClear ch x y).Pairwise (fun a b => b + 4 ≤ a) := by
  intro y; unfold chClear; split
  · exact List.Pairwise.nil
  · exact h y

/-- Bytes of a use that was served belong to no use any more. -/
theorem clear_free {A : Asm} {ch sl} (h : Inv A ch sl) {x : Src} {o : Nat} (ho : o ∈ ch x) :
    ∀ p, o - 4 ≤ p → p < o → Free (chClear ch x) p := by
  intro p h1 h2 y o' ho'
  obtain ⟨ho', hy⟩ := mem_chClear ho'
  have := h.sep x y o o' (fun e => hy e.symm) ho ho'
  have := h.pos _ _ ho
  have := h.pos _ _ ho'
  omega

theorem later_bind {A : Asm} {ch sl} (h : Inv A ch sl) (l : Nat) (hnb : boundSt (A.lab l) = false) :
    ∃ A', A.bind l = some A' ∧ Later A ch sl A' (chClear ch (.lab l)) sl ∧ A'.pc = A.pc ∧
      A'.lab l = boundAt A.pc := by
  rcases h.lab l with ⟨b, hb, e, hc⟩ | ⟨e, hc⟩
  · rw [e, boundSt_boundAt] at hnb; cases hnb
  · have hpos := h.pos (.lab l)
    have hsm := h.small
    have hlen := pairwise_length (m := A.pc) (h.desc (.lab l)) (fun o ho => by
      have := hpos o ho; omega)
    obtain ⟨buf, e1, el, ea, eo⟩ := patch_ok A.pc (ch (.lab l)) A.pc A.buf (by omega)
      (fun o ho => ⟨(hpos o ho).1, (hpos o ho).2, Nat.le_trans (hpos o ho).2 hsm⟩) (h.desc _) hc
    refine ⟨{ A with buf := buf, lab := upd A.lab l (boundAt A.pc) }, ?_, ?_, el, by simp [upd]⟩
    · unfold Asm.bind
      rw [if_neg (by simp [hnb]), e, e1]
    have hpc : ({ A with buf := buf, lab := upd A.lab l (boundAt A.pc) } : Asm).pc = A.pc := el
    exact
      { inv :=
        { small := by rw [hpc]; exact hsm
          pos := fun x o ho => by rw [hpc]; exact h.pos x o (mem_chClear ho).1
          desc := clear_desc h.desc
          sep := fun x y o o' hxy ho ho' => h.sep x y o o' hxy (mem_chClear ho).1 (mem_chClear ho').1
          lab := fun l' => by
            by_cases hl : l' = l
            · subst hl
              exact .inl ⟨A.pc, by rw [hpc]; exact Nat.le_refl _, by simp [upd], by simp [chClear]⟩
            · have hne : (Src.lab l') ≠ Src.lab l := fun h => hl (by injection h)
              simp only [upd, if_neg hl, chClear, if_neg hne]
              rcases h.lab l' with ⟨b, hb, e⟩ | ⟨e, hc⟩
              · exact .inl ⟨b, by rw [hpc]; exact hb, e⟩
              · exact .inr ⟨e, clear_inv h (.lab l) buf eo l' (fun h => hne h.symm) hc⟩
          tab := fun k => by
            simp only [chClear, if_neg (show Src.tab k ≠ Src.lab l from fun h => nomatch h)]
            rw [hpc]; exact h.tab k
          adr := fun a => by rw [hpc]; exact h.adr a
          slinj := h.slinj
          rel := h.rel
          relnd := h.relnd }
        mono := by rw [hpc]; exact Nat.le_refl _
        keep := fun p hp hf => ⟨eo p (fun o ho => hf _ o ho), fun x o ho => hf x o (mem_chClear ho).1⟩
        labB := fun l' hl' => by
          have : l' ≠ l := fun e => by rw [e, hnb] at hl'; cases hl'
          simp [upd, this]
        site := fun l' o ho => by
          by_cases hl : l' = l
          · subst hl
            exact .inr ⟨A.pc, by rw [hpc]; exact Nat.le_refl _, by simp [upd], ea o ho, clear_free h ho⟩
          · have hne : (Src.lab l') ≠ Src.lab l := fun h => hl (by injection h)
            exact .inl (by simp only [chClear, if_neg hne]; exact ho)
        tabB := fun _ _ => rfl
        siteT := fun k o ho => .inl (by
          simp only [chClear, if_neg (show Src.tab k ≠ Src.lab l from fun h => nomatch h)]; exact ho)
        tlen := Nat.le_refl _
        tkeep := fun _ _ h => ⟨rfl, h⟩
        slot := fun _ _ h => .inl h
        adrB := fun _ _ => rfl
        relk := fun _ _ => Iff.rfl }

theorem usedSt_pendingAt {b : Nat} (h0 : 0 < b) (h : b ≤ 536870912) : usedSt (pendingAt b) = true := by
  have := toOffset_pendingAt h
  simp only [usedSt, Bool.or_eq_true, bne_iff_ne]
  right
  intro e
  rw [toOffset, e] at this
  simp at this
  omega

/-- A use of a table label, at the end of the code. -/
theorem later_useTab {A : Asm} {ch sl} (h : Inv A ch sl) (k : Nat) (hnu : usedSt (A.tab k) = false)
    (B : List Byte) (hl : A.buf.length + 5 ≤ B.length) (hs : B.length ≤ 536870912)
    (hp : ∀ p, p < A.buf.length → B[p]? = A.buf[p]?) :
    Later A ch sl { A with buf := B, tab := upd A.tab k (pendingAt B.length) } (chPush ch (.tab k) B.length) sl := by
  have hb := later_buf h B (by omega) hs hp
  have hnil : ch (.tab k) = [] := by
    rcases h.tab k with ⟨b, _, _, e⟩ | ⟨e, _⟩
    · exact e
    · cases hc : ch (.tab k) with
      | nil => rfl
      | cons o os =>
        have := h.pos (.tab k) o (by rw [hc]; simp)
        have := h.small
        rw [e, hc, link, usedSt_pendingAt (by omega) (by omega)] at hnu; cases hnu
  have hnb : boundSt (A.tab k) = false := by
    simp only [usedSt, Bool.or_eq_false_iff] at hnu; exact hnu.1
  exact
    { inv :=
      { small := hs
        pos := fun x o ho => by
          rcases mem_chPush ho with ho | ⟨_, rfl⟩
          · exact hb.inv.pos x o ho
          · show _ ∧ _ ≤ B.length; omega
        desc := fun x => by
          unfold chPush
          split
          · rw [hnil]; exact List.pairwise_singleton _ _
          · exact h.desc x
        sep := fun x y o o' hxy ho ho' => by
          rcases mem_chPush ho with ho | ⟨rfl, rfl⟩ <;> rcases mem_chPush ho' with ho' | ⟨rfl, rfl⟩
          · exact h.sep x y o o' hxy ho ho'
          · have := h.pos x o ho; simp only [Asm.pc] at this; omega
          · have := h.pos y o' ho'; simp only [Asm.pc] at this; omega
          · exact absurd rfl hxy
        lab := fun l => by
          simp only [chPush, if_neg (show Src.lab l ≠ Src.tab k from fun h => nomatch h)]
          exact hb.inv.lab l
        tab := fun k' => by
          by_cases hk : k' = k
          · subst hk
            refine .inr ⟨by simp [upd, chPush, link], by simp [chPush, hnil]⟩
          · have hne : (Src.tab k') ≠ Src.tab k := fun h => hk (by injection h)
            simp only [upd, if_neg hk, chPush, if_neg hne]
            exact hb.inv.tab k'
        adr := hb.inv.adr
        slinj := h.slinj
        rel := h.rel
        relnd := h.relnd }
      mono := hb.mono
      keep := fun p hpc hf => ⟨hp p hpc, fun x o ho => by
        rcases mem_chPush ho with ho | ⟨_, rfl⟩
        · exact hf x o ho
        · simp only [Asm.pc] at hpc; omega⟩
      labB := fun _ _ => rfl
      site := fun l o ho => .inl (by
        simp only [chPush, if_neg (show Src.lab l ≠ Src.tab k from fun h => nomatch h)]; exact ho)
      tabB := fun k' hk' => by
        have : k' ≠ k := fun e => by rw [e, hnb] at hk'; cases hk'
        simp [upd, this]
      siteT := fun k' o ho => .inl (by
        unfold chPush; split
        · rename_i e; injection e with e; subst e; exact List.mem_cons_of_mem _ ho
        · exact ho)
      tlen := Nat.le_refl _
      tkeep := fun _ _ h => ⟨rfl, h⟩
      slot := fun _ _ h => .inl h
      adrB := fun _ _ => rfl
      relk := fun _ _ => Iff.rfl }

theorem later_bindTab {A A' : Asm} {ch sl} (h : Inv A ch sl) (k : Nat) (hr : A.bindTab k = some A') :
    Later A ch sl A' (chClear ch (.tab k)) sl ∧ A'.pc = A.pc ∧ A'.table = A.table ∧
      ∀ o, o ∈ ch (.tab k) → -((o : Int) + A.table.length * 8) ≥ -2147483648 ∧
        At A'.buf (o - 4) (le32 (BitVec.ofInt 32 (-((o : Int) + A.table.length * 8)))) ∧
        ∀ p, o - 4 ≤ p → p < o → Free (chClear ch (.tab k)) p := by
  have hnb : boundSt (A.tab k) = false := by
    unfold Asm.bindTab at hr
    split at hr
    · cases hr
    · simpa using ‹¬ boundSt (A.tab k) = true›
  unfold Asm.bindTab at hr
  rw [if_neg (by simp [hnb])] at hr
  have key : ∀ buf : List Byte, buf.length = A.buf.length →
      (∀ q, (∀ o ∈ ch (.tab k), q + 4 < o ∨ o ≤ q) → buf[q]? = A.buf[q]?) →
      Later A ch sl { A with buf := buf, tab := upd A.tab k (boundAt A.pc) } (chClear ch (.tab k)) sl := by
    intro buf el eo
    have hpc : ({ A with buf := buf, tab := upd A.tab k (boundAt A.pc) } : Asm).pc = A.pc := el
    exact
      { inv :=
        { small := by rw [hpc]; exact h.small
          pos := fun x o ho => by rw [hpc]; exact h.pos x o (mem_chClear ho).1
          desc := clear_desc h.desc
          sep := fun x y o o' hxy ho ho' => h.sep x y o o' hxy (mem_chClear ho).1 (mem_chClear ho').1
          lab := fun l' => by
            simp only [chClear, if_neg (show Src.lab l' ≠ Src.tab k from fun h => nomatch h)]
            rcases h.lab l' with ⟨b, hb, e⟩ | ⟨e, hc⟩
            · exact .inl ⟨b, by rw [hpc]; exact hb, e⟩
            · exact .inr ⟨e, clear_inv h (.tab k) buf eo l' (fun h => nomatch h) hc⟩
          tab := fun k' => by
            by_cases hk : k' = k
            · subst hk
              exact .inl ⟨A.pc, by rw [hpc]; exact Nat.le_refl _, by simp [upd], by simp [chClear]⟩
            · have hne : (Src.tab k') ≠ Src.tab k := fun h => hk (by injection h)
              simp only [upd, if_neg hk, chClear, if_neg hne]
              rw [hpc]; exact h.tab k'
          adr := fun a => by rw [hpc]; exact h.adr a
          slinj := h.slinj
          rel := h.rel
          relnd := h.relnd }
        mono := by rw [hpc]; exact Nat.le_refl _
        keep := fun p hp hf => ⟨eo p (fun o ho => hf _ o ho), fun x o ho => hf x o (mem_chClear ho).1⟩
        labB := fun _ _ => rfl
        site := fun l o ho => .inl (by
          simp only [chClear, if_neg (show Src.lab l ≠ Src.tab k from fun h => nomatch h)]; exact ho)
        tabB := fun k' hk' => by
          have : k' ≠ k := fun e => by rw [e, hnb] at hk'; cases hk'
          simp [upd, this]
        siteT := fun k' o ho => by
          by_cases hk : k' = k
          · subst hk
            exact .inr (by simp [upd, boundSt_boundAt])
          · have hne : (Src.tab k') ≠ Src.tab k := fun h => hk (by injection h)
            exact .inl (by simp only [chClear, if_neg hne]; exact ho)
        tlen := Nat.le_refl _
        tkeep := fun _ _ h => ⟨rfl, h⟩
        slot := fun _ _ h => .inl h
        adrB := fun _ _ => rfl
        relk := fun _ _ => Iff.rfl }
  rcases h.tab k with ⟨b, hb, e, hc⟩ | ⟨e, hc⟩
  · rw [e, boundSt_boundAt] at hnb; cases hnb
  · cases hl : ch (.tab k) with
    | nil =>
      rw [hl] at e
      rw [e, if_neg (by simp [link, usedSt, boundSt])] at hr
      injection hr with hr; subst hr
      exact ⟨key A.buf rfl (fun _ _ => rfl), rfl, rfl, fun o ho => by simp at ho⟩
    | cons o os =>
      have hos : os = [] := by
        rw [hl] at hc; simp only [List.length_cons] at hc
        exact List.eq_nil_of_length_eq_zero (by omega)
      subst hos
      obtain ⟨h5, hle⟩ := h.pos (.tab k) o (by rw [hl]; simp)
      have hsm := h.small
      rw [hl] at e
      have eo : toOffsetS (A.tab k) = (o : Int) := by
        rw [e, link, toOffsetS_of (by rw [toOffset_pendingAt (by omega)]; omega), toOffset_pendingAt (by omega)]
      rw [if_pos (by rw [e, link]; exact usedSt_pendingAt (by omega) (by omega)), eo] at hr
      simp only [Int.toNat_natCast] at hr
      split at hr
      · cases hr
      rename_i hdel
      obtain ⟨b1, e1, el, ea, eq⟩ := poke32_ok (buf := A.buf) (p := o - 4)
        (BitVec.ofInt 32 (-((o : Int) + A.table.length * 8))) (by simp only [Asm.pc] at hle; omega)
      rw [e1] at hr
      injection hr with hr; subst hr
      refine ⟨?_, el, rfl, ?_⟩
      · exact key b1 el (fun q hq => eq q (by
          have := hq o (by rw [hl]; simp)
          omega))
      · intro o' ho'
        simp only [List.mem_cons, List.not_mem_nil, or_false] at ho'
        subst ho'
        exact ⟨by omega, ea, clear_free h (by rw [hl]; simp)⟩

theorem later_abs {A : Asm} {ch sl} (h : Inv A ch sl) (a : Nat) {A' : Asm} (hr : A.abs true a = some A') :
    ∃ sl', Later A ch sl A' ch sl' ∧ A'.pc = A.pc ∧ A'.table.length = A.table.length + 1 ∧ A'.buf = A.buf ∧
      A.table.length ∈ A'.reloc ∧
      (sl' a = some A.table.length ∨
        ∃ b, b ≤ A.pc ∧ A'.adr a = boundAt b ∧ A'.table[A.table.length]? = some (BitVec.ofNat 64 b) ∧
          ∀ a, sl' a ≠ some A.table.length) := by
  unfold Asm.abs at hr
  have hrel : (A.reloc ++ [A.table.length]).Nodup := by
    rw [List.nodup_append]
    refine ⟨h.relnd, by simp, ?_⟩
    intro i hi j hj
    simp only [List.mem_cons, List.not_mem_nil, or_false] at hj
    have := h.rel i hi; omega
  have hsl : ∀ a i, sl a = some i → i < A.table.length := by
    intro a i hs
    rcases h.adr a with ⟨_, _, _, e⟩ | ⟨_, e⟩ | ⟨i', e1, _, _, e4⟩
    · rw [e] at hs; cases hs
    · rw [e] at hs; cases hs
    · rw [e1] at hs; injection hs with hs; omega
  split at hr
  · injection hr with hr; subst hr
    rename_i hbd
    obtain ⟨b, hb, e, hn⟩ : ∃ b, b ≤ A.pc ∧ A.adr a = boundAt b ∧ sl a = none := by
      rcases h.adr a with h1 | ⟨e, _⟩ | ⟨i, _, e, _⟩
      · exact h1
      · rw [e] at hbd; simp [boundSt] at hbd
      · rw [e] at hbd; cases hbd
    have hsm := h.small
    refine ⟨sl, ?_, rfl, by simp, rfl, by simp, .inr ⟨b, hb, e, ?_, ?_⟩⟩
    · exact
        { inv :=
          { small := h.small
            pos := h.pos
            desc := h.desc
            sep := h.sep
            lab := h.lab
            tab := h.tab
            adr := fun a => by
              rcases h.adr a with e | e | ⟨i, e1, e2, e3, e4⟩
              · exact .inl e
              · exact .inr (.inl e)
              · exact .inr (.inr ⟨i, e1, e2, e3, by simp; omega⟩)
            slinj := h.slinj
            rel := fun i hi => by
              simp only [List.mem_append, List.mem_cons, List.not_mem_nil, or_false] at hi
              simp only [List.length_append, List.length_cons, List.length_nil]
              rcases hi with hi | hi
              · have := h.rel i hi; omega
              · omega
            relnd := hrel }
          mono := Nat.le_refl _
          keep := fun _ _ hf => ⟨rfl, hf⟩
          labB := fun _ _ => rfl
          site := fun _ _ h => .inl h
          tabB := fun _ _ => rfl
          siteT := fun _ _ h => .inl h
          tlen := by simp
          tkeep := fun i hi h => ⟨List.getElem?_append_left hi, h⟩
          slot := fun _ _ h => .inl h
          adrB := fun _ _ => rfl
          relk := fun i hi => by
            simp only [List.mem_append, List.mem_cons, List.not_mem_nil, or_false]
            constructor
            · rintro (h | h)
              · exact h
              · omega
            · exact .inl }
    · simp only [List.getElem?_append_right (Nat.le_refl _), Nat.sub_self, List.getElem?_cons_zero]
      rw [e, toOffsetS_of (by rw [toOffset_boundAt (by omega)]; omega), toOffset_boundAt (by omega)]
      rfl
    · intro a' ha'
      have := hsl a' _ ha'; omega
  · rename_i hnb
    simp only [Bool.true_and] at hr
    split at hr
    · cases hr
    · rename_i hnu
      split at hr
      · cases hr
      · rename_i hst
        simp only [ne_eq, Decidable.not_not] at hst
        injection hr with hr; subst hr
        have hn : sl a = none := by
          rcases h.adr a with ⟨_, _, _, e⟩ | ⟨_, e⟩ | ⟨i, _, e1, e2, _⟩
          · exact e
          · exact e
          · exfalso
            apply hnu
            simp only [usedSt, Bool.or_eq_true, bne_iff_ne]
            right
            intro h0
            have h0' : toOffset (A.adr a) = 0 := by rw [toOffset, h0]; rfl
            rw [toOffsetS_of (by omega), h0'] at e2
            omega
        refine ⟨fun x => if x = a then some A.table.length else sl x, ?_, rfl, by simp, rfl, by simp, .inl (by simp)⟩
        exact
          { inv :=
            { small := h.small
              pos := h.pos
              desc := h.desc
              sep := h.sep
              lab := h.lab
              tab := h.tab
              adr := fun a' => by
                by_cases ha : a' = a
                · subst ha
                  refine .inr (.inr ⟨A.table.length, by simp, ?_, ?_, by simp⟩)
                  · simp [upd, boundSt]
                  · simpa [upd] using hst
                · simp only [upd, if_neg ha]
                  rcases h.adr a' with e | e | ⟨i, e1, e2, e3, e4⟩
                  · exact .inl e
                  · exact .inr (.inl e)
                  · exact .inr (.inr ⟨i, e1, e2, e3, by simp; omega⟩)
              slinj := fun x y i hx hy => by
                clear hst hnu
                split at hx <;> split at hy
                · rename_i e1 e2; exact e1.trans e2.symm
                · injection hx with hx; have := hsl _ _ hy; omega
                · injection hy with hy; have := hsl _ _ hx; omega
                · exact h.slinj x y i hx hy
              rel := fun i hi => by
                simp only [List.mem_append, List.mem_cons, List.not_mem_nil, or_false] at hi
                simp only [List.length_append, List.length_cons, List.length_nil]
                rcases hi with hi | hi
                · have := h.rel i hi; omega
                · omega
              relnd := hrel }
            mono := Nat.le_refl _
            keep := fun _ _ hf => ⟨rfl, hf⟩
            labB := fun _ _ => rfl
            site := fun _ _ h => .inl h
            tabB := fun _ _ => rfl
            siteT := fun _ _ h => .inl h
            tlen := by simp
            tkeep := fun i hi hf => ⟨List.getElem?_append_left hi, fun x hx => by
              split at hx
              · injection hx with hx; omega
              · exact hf x hx⟩
            slot := fun x i hx => .inl (by
              split
              · rename_i e; rw [e, hn] at hx; cases hx
              · exact hx)
            adrB := fun x hx => by
              have : x ≠ a := fun e => hnb (by rw [← e]; exact hx)
              simp [upd, this]
            relk := fun i hi => by
              simp only [List.mem_append, List.mem_cons, List.not_mem_nil, or_false]
              constructor
              · rintro (h | h)
                · exact h
                · omega
              · exact .inl }

theorem later_bindAdr {A : Asm} {ch sl} (h : Inv A ch sl) (a : Nat) (hnb : boundSt (A.adr a) = false) :
    ∃ A', A.bindAdr a = some A' ∧ ∃ sl', Later A ch sl A' ch sl' ∧ A'.pc = A.pc ∧ A'.adr a = boundAt A.pc := by
  have hsl : ∀ a i, sl a = some i → i < A.table.length := by
    intro a i hs
    rcases h.adr a with ⟨_, _, _, e⟩ | ⟨_, e⟩ | ⟨i', e1, _, _, e4⟩
    · rw [e] at hs; cases hs
    · rw [e] at hs; cases hs
    · rw [e1] at hs; injection hs with hs; omega
  have key : ∀ t : List (BitVec 64), t.length = A.table.length →
      (∀ i, sl a ≠ some i → t[i]? = A.table[i]?) →
      (∀ i, sl a = some i → t[i]? = some (BitVec.ofNat 64 A.pc)) →
      Later A ch sl { A with table := t, adr := upd A.adr a (boundAt A.pc) } ch
        (fun x => if x = a then none else sl x) := by
    intro t hl h1 h2
    exact
      { inv :=
        { small := h.small
          pos := h.pos
          desc := h.desc
          sep := h.sep
          lab := h.lab
          tab := h.tab
          adr := fun a' => by
            by_cases ha : a' = a
            · subst ha
              exact .inl ⟨A.pc, Nat.le_refl _, by simp [upd], by simp⟩
            · simp only [upd, if_neg ha]
              rcases h.adr a' with e | e | ⟨i, e1, e2, e3, e4⟩
              · exact .inl e
              · exact .inr (.inl e)
              · exact .inr (.inr ⟨i, e1, e2, e3, by rw [hl]; exact e4⟩)
          slinj := fun x y i hx hy => by
            split at hx
            · cases hx
            · split at hy
              · cases hy
              · exact h.slinj x y i hx hy
          rel := fun i hi => by rw [hl]; exact h.rel i hi
          relnd := h.relnd }
        mono := Nat.le_refl _
        keep := fun _ _ hf => ⟨rfl, hf⟩
        labB := fun _ _ => rfl
        site := fun _ _ h => .inl h
        tabB := fun _ _ => rfl
        siteT := fun _ _ h => .inl h
        tlen := Nat.le_of_eq hl.symm
        tkeep := fun i hi hf => ⟨h1 i (hf a), fun x hx => by
          split at hx
          · cases hx
          · exact hf x hx⟩
        slot := fun x i hx => by
          by_cases ha : x = a
          · subst ha
            refine .inr ⟨A.pc, Nat.le_refl _, by simp [upd], h2 i hx, ?_⟩
            intro y hy
            split at hy
            · cases hy
            · rename_i hne
              exact hne (h.slinj y x i hy hx)
          · exact .inl (by simp only [if_neg ha]; exact hx)
        adrB := fun x hx => by
          have : x ≠ a := fun e => by rw [e, hnb] at hx; cases hx
          simp [upd, this]
        relk := fun _ _ => Iff.rfl }
  rcases h.adr a with ⟨b, _, e, _⟩ | ⟨e, hn⟩ | ⟨i, e1, e2, e3, e4⟩
  · rw [e, boundSt_boundAt] at hnb; cases hnb
  · refine ⟨{ A with adr := upd A.adr a (boundAt A.pc) }, ?_, _, key A.table rfl (fun _ _ => rfl) ?_, rfl, by simp [upd]⟩
    · unfold Asm.bindAdr
      rw [if_neg (by simp [hnb]), e, if_neg (by simp [usedSt, boundSt])]
    · intro i hi; rw [hn] at hi; cases hi
  · refine ⟨{ A with table := A.table.set i (BitVec.ofNat 64 A.pc), adr := upd A.adr a (boundAt A.pc) }, ?_, _,
      key _ (by simp) ?_ ?_, rfl, by simp [upd]⟩
    · unfold Asm.bindAdr
      rw [if_neg (by simp [hnb]), if_pos ?_]
      · simp only [e3]
        rw [if_neg (by omega), if_pos (by omega)]
        have : (-(-((i : Int) + 1)) - 1).toNat = i := by omega
        rw [this]
      · simp only [usedSt, Bool.or_eq_true, bne_iff_ne]
        right
        intro h0
        have h0' : toOffset (A.adr a) = 0 := by rw [toOffset, h0]; rfl
        rw [toOffsetS_of (by omega), h0'] at e3
        omega
    · intro j hj
      rw [e1] at hj
      have hij : i ≠ j := fun e => hj (by rw [e])
      rw [List.getElem?_set_ne hij]
    · intro j hj
      rw [e1] at hj; injection hj with hj; subst hj
      rw [List.getElem?_set_self e4]

end Verif.X64

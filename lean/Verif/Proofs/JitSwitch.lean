import Verif.Proofs.JitEmit
import Verif.Proofs.JitRegs

/-! Jumps, comparisons and switches in compiled code. -/
namespace Verif.Jit
open Verif.VM hiding Op
open Verif.X64 hiding Pre decode

/-- The machine differs at most in registers that hold nothing, and in the flags. -/
structure Near (m m' : Mach) : Prop where
  reg : ∀ r, r ≠ 1 → r ≠ 6 → r ≠ 7 → m'.reg r = m.reg r
  df : m'.df = m.df
  mem : m'.mem = m.mem
  field : m'.field = m.field
  stack : m'.outer = m.outer

theorem Near.refl (m : Mach) : Near m m := ⟨fun _ _ _ _ => rfl, rfl, rfl, rfl, rfl⟩
theorem Near.trans {a b c : Mach} (h : Near a b) (g : Near b c) : Near a c :=
  ⟨fun r h1 h2 h3 => (g.reg r h1 h2 h3).trans (h.reg r h1 h2 h3), g.df.trans h.df, g.mem.trans h.mem, g.field.trans h.field, g.stack.trans h.stack⟩
theorem near_flags (m : Mach) (f : Option Flags) : Near m { m with flags := f } := ⟨fun _ _ _ _ => rfl, rfl, rfl, rfl, rfl⟩
theorem near_set (m : Mach) (r : Gpr) (v : BitVec 64) (h : r = 1 ∨ r = 6 ∨ r = 7) : Near m (m.setReg r v) := by
  refine ⟨?_, rfl, rfl, rfl, by rcases h with rfl | rfl | rfl <;> rfl⟩
  intro q h1 h2 h3
  show (if q = r then v else m.reg q) = m.reg q
  rw [if_neg]
  rintro rfl
  rcases h with h | h | h
  · exact h1 h
  · exact h2 h
  · exact h3 h

theorem Near.sim {H : Host} {kp ka : Bool} {m m' : Mach} {s : IState} (h : Near m m') (S : Sim H kp ka m s) : Sim H kp ka m' s where
  pri hk := by rw [h.reg 0 (by decide) (by decide) (by decide)]; exact S.pri hk
  alt hk := by rw [h.reg 2 (by decide) (by decide) (by decide)]; exact S.alt hk
  frm := by rw [h.reg 3 (by decide) (by decide) (by decide)]; exact S.frm
  ctx := by rw [h.reg 12 (by decide) (by decide) (by decide)]; exact S.ctx
  stk := by rw [h.reg 14 (by decide) (by decide) (by decide)]; exact S.stk
  dat := by rw [h.reg 15 (by decide) (by decide) (by decide)]; exact S.dat
  df := by rw [h.df]; exact S.df
  mem := by rw [h.mem]; exact S.mem
  hpF := by rw [h.field]; exact S.hpF
  frmF := by rw [h.field]; exact S.frmF
  scopeF := by rw [h.field]; exact S.scopeF

theorem cond_invert (f : Flags) (cc : Cc) : cond f (invert cc) = !cond f cc := by
  obtain ⟨a, b, c, d, e⟩ := f
  revert cc a b c d e
  decide +kernel

section
variable {ops : List Op} {A : Asm} (hrun : Asm.run true {} ops = some A) (H : Host) {red : Nat → Option Nat} {I : Image} (hI : Follows ops A red I) {f : Nat → Nat}

/-- Block `t` begins at call number `f t`. -/
def Starts (ops : List Op) (f : Nat → Nat) (t : Nat) : Prop := Seg ops (f t) [.bind (4 * t), .bindAdr t]

include hrun in
theorem starts_pos {t : Nat} (h : Starts ops f t) : pos ops (f t + 2) = pos ops (f t) := by
  rw [pos_labelA hrun (h.tail).head, pos_label hrun h.head]

include hrun hI in
theorem go_jmp {n t : Nat} (h : ops[n]? = some (.jmp (4 * t))) (hs : Starts ops f t) (m : Mach) :
    Reach H I (pos ops n) m (pos ops (f t + 2)) m := by
  rw [starts_pos hrun hs]
  have := cpu_jmp hrun H hI (m := m) h rfl hs.head
  rw [red_jmp hI h] at this
  exact .one this

include hrun hI in
theorem go_jcc {n t : Nat} {cc : Cc} {m : Mach} {fl : Flags} (h : ops[n]? = some (.j cc (4 * t))) (hs : Starts ops f t) (hf : m.flags = some fl) :
    Reach H I (pos ops n) m (if cond fl cc then pos ops (f t + 2) else pos ops (n + 1)) m := by
  rw [starts_pos hrun hs]
  have := cpu_jcc hrun H hI h rfl hs.head hf
  rw [red_j hI h] at this
  exact .one this

include hrun hI in
theorem go_unless {n k t : Nat} (h : Seg ops n (jmpUnlessNext k t)) (he : n + (jmpUnlessNext k t).length = f (k + 1)) (hs : Starts ops f t) (m : Mach) :
    Reach H I (pos ops n) m (pos ops (f t + 2)) m := by
  unfold jmpUnlessNext at h he
  split at h
  · rename_i e
    rw [if_pos e] at he
    rw [starts_pos hrun hs, e, ← he]
    exact .here _ _
  · exact go_jmp hrun H hI h.head hs m

/-- The calls of `Acc.jump`. -/
def jumpOps (k t : Nat) : List Op := if t = k + 1 then [] else if t ≤ k then [.jmp32 (4 * t)] else [.jmp (4 * t)]

theorem jump_ops (a : Acc) (k t : Nat) : (a.jump k t).ops = a.ops ++ jumpOps k t := by
  unfold Acc.jump jumpOps
  split
  · exact (List.append_nil _).symm
  · split <;> rfl

include hrun hI in
theorem go_jump {n k t : Nat} (h : Seg ops n (jumpOps k t)) (he : n + (jumpOps k t).length = f (k + 1)) (hs : Starts ops f t) (m : Mach) :
    (Reach H I (pos ops n) m (pos ops (f t + 2)) m ∧ (t ≤ k → red n = none)) ∨ (t ≤ k ∧ ∃ q, red n = some q ∧ Reach H I (pos ops n) m (pos ops q) m) := by
  unfold jumpOps at h he
  split at h
  · rename_i e
    rw [if_pos e] at he
    rw [starts_pos hrun hs, e, ← he]
    exact .inl ⟨.here _ _, by omega⟩
  · split at h
    · rename_i e
      have := cpu_jmp hrun H hI (m := m) h.head rfl hs.head
      cases hr : red n with
      | none => rw [hr] at this; exact .inl ⟨by rw [starts_pos hrun hs]; exact .one this, fun _ => rfl⟩
      | some q => rw [hr] at this; exact .inr ⟨e, q, rfl, .one this⟩
    · rename_i e
      exact .inl ⟨go_jmp hrun H hI h.head hs m, fun hh => absurd hh e⟩

/-- The calls of `Acc.jcmp`. -/
def jcmpOps (k f t : Nat) (c : Cmp) : List Op :=
  .raw (jcmpTest c).1.bytes ::
    if t ≤ k then .j32 (jcmpTest c).2 (4 * t) :: jmpUnlessNext k f
    else if t = k + 1 then [.j (invert (jcmpTest c).2) (4 * f)]
    else .j (jcmpTest c).2 (4 * t) :: jmpUnlessNext k f

theorem jcmp_ops (a : Acc) (k x t : Nat) (c : Cmp) : (a.jcmp k x t c).ops = a.ops ++ jcmpOps k x t c := by
  unfold Acc.jcmp jcmpOps
  simp only
  split
  · show ((a.ops ++ _) ++ _) ++ _ = _
    rw [List.append_assoc, List.append_assoc]; rfl
  · split
    · show (a.ops ++ _) ++ _ = _
      rw [List.append_assoc]; rfl
    · show (a.ops ++ _) ++ _ = _
      rw [List.append_assoc]; rfl

theorem jcmp_test {kp ka : Bool} {m : Mach} {s : IState} {c : Cmp} (h : Sim H kp ka m s) (hp : kp = true)
    (ha : c ≠ .zero → c ≠ .notZero → ka = true) :
    ∃ fl, stepCall H (jcmpTest c).1 m = some { m with flags := some fl } ∧ cond fl (jcmpTest c).2 = cmpCells c s.pri s.alt := by
  have e0 : m.lo 0 = s.pri := by
    show (m.reg 0).setWidth 32 = _
    rw [h.pri hp, lo_zext]
  have tests : ∀ c, opToCondition c = none → jcmpTest c = (.test false (.reg rPri) rPri, match c with | .zero => equal | _ => notEqual) := by
    intro c hc; cases c <;> cases hc <;> rfl
  have cmps : ∀ c cc, opToCondition c = some cc → jcmpTest c = (.alu false .cmp (.reg rPri) rAlt, cc) := by
    intro c cc hc; unfold jcmpTest; rw [hc]
  cases hc : opToCondition c with
  | none =>
    rw [tests c hc]
    refine ⟨testFlags s.pri s.pri, ?_, ?_⟩
    · rw [st_test32, e0]
    · cases c <;> cases hc
      · exact cond_test0 _
      · exact cond_test1 _
  | some cc =>
    rw [cmps c cc hc]
    have e2 : m.lo 2 = s.alt := by
      show (m.reg 2).setWidth 32 = _
      rw [h.alt (ha (by rintro rfl; cases hc) (by rintro rfl; cases hc)), lo_zext]
    refine ⟨cmpFlags s.pri s.alt, ?_, cond_cmp32 hc _ _⟩
    rw [st_alu32 H m .cmp (.reg 0) 2 trivial]
    show alu32 H m .cmp (.reg 0) (m.lo 2) = _
    simp only [alu32, get32, e0, e2]

include hrun hI in
theorem go_jcmp {n k x t : Nat} {c : Cmp} {m : Mach} {fl : Flags} (h : Seg ops n (jcmpOps k x t c)) (he : n + (jcmpOps k x t c).length = f (k + 1))
    (hx : Starts ops f x) (ht : Starts ops f t) (hst : stepCall H (jcmpTest c).1 m = some { m with flags := some fl }) :
    (Reach H I (pos ops n) m (pos ops (f (if cond fl (jcmpTest c).2 then t else x) + 2)) { m with flags := some fl } ∧
      (cond fl (jcmpTest c).2 = true → t ≤ k → red (n + 1) = none)) ∨
    (cond fl (jcmpTest c).2 = true ∧ t ≤ k ∧ ∃ q, red (n + 1) = some q ∧ Reach H I (pos ops n) m (pos ops q) { m with flags := some fl }) := by
  obtain ⟨i, hd, hex⟩ := stepCall_some hst
  have s1 := cpu_raw hrun H hI h.head hd hex
  have h2 := h.tail
  unfold jcmpOps at he
  simp only [List.length_cons] at he
  split at h2
  · rename_i e
    rw [if_pos e] at he
    have := cpu_jcc hrun H hI (m := { m with flags := some fl }) h2.head rfl ht.head rfl
    by_cases hc : cond fl (jcmpTest c).2 = true
    · rw [if_pos hc] at this ⊢
      cases hr : red (n + 1) with
      | none => rw [hr] at this; exact .inl ⟨.step s1 (by rw [starts_pos hrun ht]; exact .one this), fun _ _ => rfl⟩
      | some q => rw [hr] at this; exact .inr ⟨hc, e, q, rfl, .step s1 (.one this)⟩
    · rw [if_neg hc] at this ⊢
      exact .inl ⟨.step s1 ((Reach.one this).trans (go_unless hrun H hI h2.tail (by rw [← he]; simp only [List.length_cons]; omega) hx _)),
        fun hh => absurd hh hc⟩
  · rename_i e
    rw [if_neg e] at he
    refine .inl ⟨.step s1 ?_, fun _ hh => absurd hh e⟩
    split at h2
    · rename_i e1
      rw [if_pos e1] at he
      have := go_jcc hrun H hI (m := { m with flags := some fl }) h2.head hx rfl
      rw [cond_invert] at this
      by_cases hc : cond fl (jcmpTest c).2 = true
      · rw [hc] at this
        rw [if_pos hc, starts_pos hrun ht, e1, ← he]
        simpa using this
      · rw [if_neg hc]
        rw [Bool.eq_false_iff.2 hc] at this
        exact this
    · rename_i e1
      rw [if_neg e1] at he
      have := go_jcc hrun H hI (m := { m with flags := some fl }) h2.head ht rfl
      by_cases hc : cond fl (jcmpTest c).2 = true
      · rw [if_pos hc] at this ⊢; exact this
      · rw [if_neg hc] at this ⊢
        exact this.trans (go_unless hrun H hI h2.tail (by rw [← he]; simp only [List.length_cons]; omega) hx _)

/-- The block of the first case with this value. -/
def pick (d : Nat) : List (Cell × Nat) → Cell → Nat
  | [], _ => d
  | (v, t) :: cs, p => if p = v then t else pick d cs p

theorem cmp_imm {m : Mach} (r : Gpr) (v : BitVec 32) :
    stepCall H (.aluI false .cmp (.reg r) v) m = some { m with flags := some (cmpFlags (m.lo r) v) } := by
  rw [st_aluI32 H m .cmp (.reg r) v trivial]
  rfl

include hrun hI in
theorem go_chain {d : Nat} {p : Cell} : ∀ (cs : List (Cell × Nat)) (n : Nat) (m : Mach), Seg ops n (chain cs) → (∀ x ∈ cs, Starts ops f x.2) → m.lo 0 = p →
    ∃ m', Near m m' ∧ ((pick d cs p = d ∧ Reach H I (pos ops n) m (pos ops (n + (chain cs).length)) m') ∨
      Reach H I (pos ops n) m (pos ops (f (pick d cs p) + 2)) m')
  | [], n, m, _, _, _ => ⟨m, .refl m, .inl ⟨rfl, .here _ _⟩⟩
  | (v, t) :: cs, n, m, h, hs, hp => by
    have e : stepCall H (.aluI false .cmp (.reg rPri) v) m = some { m with flags := some (cmpFlags p v) } := by
      rw [cmp_imm, hp]
    obtain ⟨i, hd, hex⟩ := stepCall_some e
    have s1 := cpu_raw hrun H hI (Seg.head h) hd hex
    have s2 := go_jcc hrun H hI (m := { m with flags := some (cmpFlags p v) }) (Seg.head (Seg.tail h)) (hs _ List.mem_cons_self) rfl
    rw [cond_eq] at s2
    by_cases hpv : p = v
    · rw [if_pos (by simpa using hpv)] at s2
      refine ⟨_, near_flags m (some (cmpFlags p v)), .inr ?_⟩
      rw [pick, if_pos hpv]
      exact .step s1 s2
    · rw [if_neg (by simpa using hpv)] at s2
      obtain ⟨m', g1, g2⟩ := go_chain cs (n + 1 + 1) { m with flags := some (cmpFlags p v) } (Seg.tail (Seg.tail h)) (fun x hx => hs x (List.mem_cons_of_mem _ hx)) hp
      refine ⟨m', (near_flags m _).trans g1, ?_⟩
      rw [pick, if_neg hpv]
      rcases g2 with ⟨g2, g3⟩ | g2
      · refine .inl ⟨g2, .step s1 (s2.trans ?_)⟩
        rwa [show n + 1 + 1 + (chain cs).length = n + (chain ((v, t) :: cs)).length by simp only [chain, List.length_cons]; omega] at g3
      · exact .inr (.step s1 (s2.trans g2))

theorem pick_zip_none {d : Nat} {p : Cell} : ∀ (vs : List Cell) (ts : List Nat), p ∉ vs → pick d (vs.zip ts) p = d
  | [], _, _ => by simp [pick]
  | v :: vs, [], _ => by simp [pick]
  | v :: vs, t :: ts, h => by
    rw [List.zip_cons_cons, pick, if_neg (by rintro rfl; exact h List.mem_cons_self)]
    exact pick_zip_none vs ts (fun hh => h (List.mem_cons_of_mem _ hh))

theorem pick_zip_some {d : Nat} {p : Cell} : ∀ (vs : List Cell) (ts : List Nat) (i t : Nat), vs[i]? = some p → ts[i]? = some t →
    (∀ j, j < i → vs[j]? ≠ some p) → pick d (vs.zip ts) p = t
  | [], _, _, _, h, _, _ => by simp at h
  | v :: vs, [], i, t, _, h, _ => by simp at h
  | v :: vs, t :: ts, 0, t', h, h', _ => by
    cases h; cases h'
    rw [List.zip_cons_cons, pick, if_pos rfl]
  | v :: vs, t :: ts, i+1, t', h, h', hj => by
    rw [List.zip_cons_cons, pick, if_neg (by rintro rfl; exact hj 0 (by omega) rfl)]
    exact pick_zip_some vs ts i t' h h' (fun j hji hh => hj (j + 1) (by omega) hh)

theorem seq_get : ∀ (vs : List Cell) (last : Int), sequential last vs = some true → ∀ (j : Nat) (v : Cell), vs[j]? = some v → v.toInt = last + 1 + j
  | [], _, _, j, v, h => by simp at h
  | w :: vs, last, hs, j, v, h => by
    unfold sequential at hs
    split at hs
    · cases hs
    · split at hs
      · cases hs
      · rename_i e
        cases j with
        | zero => cases h; have := Decidable.not_not.1 e; omega
        | succ j =>
          have := seq_get vs (last + 1) hs j v h
          omega

theorem lo_lea (p low : BitVec 32) (m : Mach) (h : m.lo 0 = p) (h0 : m.reg 0 = p.setWidth 64) :
    (ea m (MemArg.bd rPri (-low)).meaning).setWidth 32 = p - low := by
  show ((m.reg 0 + 0 + BitVec.ofInt 64 (-low).toInt : BitVec 64)).setWidth 32 = _
  rw [h0, BitVec.setWidth_add _ _ (by decide), BitVec.setWidth_add _ _ (by decide), lo_zext]
  have e : (BitVec.ofInt 64 (-low).toInt).setWidth 32 = -low := by
    apply BitVec.eq_of_toInt_eq
    rw [BitVec.toInt_setWidth, BitVec.toNat_ofInt]
    have := (-low).isLt
    have h2 := BitVec.toInt_eq_toNat_cond (-low)
    rw [Int.bmod_def]
    split at h2 <;> split <;> omega
  rw [e, BitVec.sub_eq_add_neg]
  congr 1
  exact BitVec.add_zero p

include hrun hI in
theorem go_table {n d : Nat} {junk : Byte} {v w : Cell} {vs : List Cell} {ts : List Nat} {q : List Op} {m : Mach} {p : Cell}
    (hdrop : ops.drop n = table n v ((w :: vs).getLastD w) ts d junk ++ q) (hlen : ts.length = (v :: w :: vs).length)
    (hsmall : ts.length < 2147483648) (hseq : sequential v.toInt (w :: vs) = some true)
    (hd : Starts ops f d) (hts : ∀ t ∈ ts, Starts ops f t) (ok : ImageOk H I) (hp : m.reg 0 = p.setWidth 64) :
    ∃ m', Near m m' ∧ Reach H I (pos ops n) m (pos ops (f (pick d ((v :: w :: vs).zip ts) p) + 2)) m' := by
  have hlo : m.lo 0 = p := by show (m.reg 0).setWidth 32 = p; rw [hp, lo_zext]
  have hseg : Seg ops n (table n v ((w :: vs).getLastD w) ts d junk) := by
    intro j x hx
    rw [← List.getElem?_drop, hdrop, List.getElem?_append_left (List.getElem?_eq_some_iff.1 hx).1]
    exact hx
  have hvals : ∀ (j : Nat) (x : Cell), (v :: w :: vs)[j]? = some x → x.toInt = v.toInt + j := by
    intro j x hx
    cases j with
    | zero => cases hx; omega
    | succ j => have := seq_get _ _ hseq j x hx; omega
  have hlast : ((w :: vs).getLastD w).toInt = v.toInt + (vs.length + 1 : Nat) := by
    apply hvals
    rw [List.getElem?_cons_succ, List.getLastD_eq_getLast?, List.getLast?_eq_getElem?]
    rw [List.length_cons, Nat.add_sub_cancel, List.getElem?_eq_getElem (by simp)]
    rfl
  -- the index
  have s1 : ∃ a, stepCall H (if v ≠ 0 then Call.lea rTmp (.bd rPri (-v)) else Call.movl (.reg rTmp) rPri) m = some (m.setReg 1 a) ∧
      a.setWidth 32 = p - v := by
    by_cases h0 : v ≠ 0
    · rw [if_pos h0]
      refine ⟨_, st_lea H m rTmp (.bd rPri (-v)) trivial, lo_lea p v m hlo hp⟩
    · rw [if_neg h0]
      refine ⟨_, st_movlRR H m rTmp rPri, ?_⟩
      rw [lo_zext, hlo, Decidable.not_not.1 h0]
      simp
  obtain ⟨a, s1, ha⟩ := s1
  obtain ⟨i1, d1, x1⟩ := stepCall_some s1
  have c1 := cpu_raw hrun H hI (hseg 0 _ rfl) d1 x1
  have e1 : (m.setReg 1 a).lo 1 = p - v := ha
  have s2 := cmp_imm H (m := m.setReg 1 a) 1 (bv (v.toInt - ((w :: vs).getLastD w).toInt).natAbs)
  obtain ⟨i2, d2, x2⟩ := stepCall_some s2
  have c2 := cpu_raw hrun H hI (hseg 1 _ rfl) d2 x2
  rw [e1] at c2
  have hpn := BitVec.toInt_sub (x := p) (y := v)
  have hpv := toInt_range v
  have hpp := toInt_range p
  have hlr := toInt_range ((w :: vs).getLastD w)
  have hcnt : (bv (v.toInt - ((w :: vs).getLastD w).toInt).natAbs).toNat = vs.length + 1 := by
    rw [hlast, show (v.toInt - (v.toInt + (vs.length + 1 : Nat))).natAbs = vs.length + 1 by omega]
    show (BitVec.ofInt 32 ((vs.length + 1 : Nat) : Int)).toNat = _
    rw [BitVec.toNat_ofInt]
    simp only [List.length_cons] at hlen
    omega
  have hidx := BitVec.toInt_eq_toNat_cond (p - v)
  have hbnd := (p - v).isLt
  simp only [List.length_cons] at hlen
  have c3 := go_jcc hrun H hI (m := { m.setReg 1 a with flags := some (cmpFlags (p - v) (bv (v.toInt - ((w :: vs).getLastD w).toInt).natAbs)) })
    (n := n + 2) (hseg 2 _ rfl) hd rfl
  rw [cond_above, hcnt] at c3
  have near2 : Near m { m.setReg 1 a with flags := some (cmpFlags (p - v) (bv (v.toInt - ((w :: vs).getLastD w).toInt).natAbs)) } :=
    (near_set m 1 a (.inl rfl)).trans (near_flags _ _)
  by_cases hab : vs.length + 1 < (p - v).toNat
  · rw [if_pos (by simpa using hab)] at c3
    refine ⟨_, near2, ?_⟩
    rw [pick_zip_none]
    · exact .step c1 (.step c2 c3)
    · intro hmem
      obtain ⟨j, hj⟩ := List.getElem?_of_mem hmem
      have h1 := hvals j p hj
      have h2 := (List.getElem?_eq_some_iff.1 hj).1
      simp only [List.length_cons] at h2
      rw [Int.bmod_def] at hpn
      split at hpn <;> split at hidx <;> omega
  · rw [if_neg (by simpa using hab)] at c3
    have hi : (p - v).toNat < ts.length := by omega
    have hjt := hts _ (List.getElem_mem hi)
    have htail : ops.drop (n + 3 + 4) = ts.reverse.map .abs ++ .bindTab n :: q := by
      rw [show n + 3 + 4 = n + 7 by omega, ← List.drop_drop, hdrop]
      unfold table
      simp only [List.cons_append, List.nil_append, List.drop_succ_cons, List.drop_zero, List.append_assoc]
    obtain ⟨x, y, z, c4⟩ := cpu_table hrun H hI (n := n + 3) (k := n) (i := (p - v).toNat) (j := f ts[(p - v).toNat] + 1) (junk := junk) (cs := ts) (q := q)
      (m := { m.setReg 1 a with flags := some (cmpFlags (p - v) (bv (v.toInt - ((w :: vs).getLastD w).toInt).natAbs)) })
      (hseg 3 _ rfl) (hseg 4 _ rfl) (hseg 5 _ rfl) (hseg 6 _ rfl) htail hi hjt.tail.head ok
      (by show a.setWidth 32 = _; rw [ha]; exact (BitVec.ofNat_toNat _ _).symm ▸ (by simp)) (by omega)
    refine ⟨_, near2.trans ((near_set _ 6 x (.inr (.inl rfl))).trans ((near_set _ 1 y (.inl rfl)).trans (near_set _ 7 z (.inr (.inr rfl))))), ?_⟩
    have hget : (v :: w :: vs)[(p - v).toNat]? = some p := by
      have hl : (p - v).toNat < (v :: w :: vs).length := by simp only [List.length_cons]; omega
      rw [List.getElem?_eq_getElem hl]
      congr 1
      apply BitVec.eq_of_toInt_eq
      have := hvals _ _ (List.getElem?_eq_getElem hl)
      rw [this]
      rw [Int.bmod_def] at hpn
      split at hpn <;> split at hidx <;> omega
    rw [pick_zip_some (v :: w :: vs) ts (p - v).toNat ts[(p - v).toNat] hget (List.getElem?_eq_getElem hi)]
    · rw [show f ts[(p - v).toNat] + 2 = f ts[(p - v).toNat] + 1 + 1 by omega, pos_labelA hrun hjt.tail.head]
      exact .step c1 (.step c2 (c3.trans c4))
    · intro j hj hh
      have h1 := hvals _ _ hh
      have h2 := hvals _ _ hget
      omega

end
end Verif.Jit

import Verif.Spec.X64Frames
import Verif.Proofs.X64Pos
import Verif.Props.C64

/-! The processor among several pieces of code. -/
namespace Verif.X64

theorem World.Reach.trans {H : Host} {W : World} {a b c : BitVec 64} {m m' m'' : Mach} (h1 : W.Reach H a m b m') (h2 : W.Reach H b m' c m'') :
    W.Reach H a m c m'' := by
  induction h1 with
  | here => exact h2
  | step hs _ ih => exact .step hs (ih h2)

theorem World.Reach.one {H : Host} {W : World} {a b : BitVec 64} {m m' : Mach} (h : W.cpu H a m = some (b, m')) : W.Reach H a m b m' :=
  .step h (.here _ _)

section
variable {H : Host} {W : World} (ok : WorldOk H W) {I : Image} (hI : I ∈ W.images)

include ok hI in
theorem world_at {p : Nat} (hp : p < I.bytes.length - I.start) (m : Mach) : W.cpu H (I.addr p) m = W.inside H I p m := by
  have hf := (ok.image I hI).fits
  have e : (I.addr p - I.entry).toNat = p := by
    unfold Image.addr
    rw [BitVec.add_comm, BitVec.add_sub_cancel, BitVec.toNat_ofNat, Nat.mod_eq_of_lt (by omega)]
  have hh : I.holds (I.addr p) = true := by unfold Image.holds; rw [e]; exact decide_eq_true hp
  unfold World.cpu
  cases hx : W.images.find? fun I' => I'.holds (I.addr p) with
  | none => exact absurd hh (List.find?_eq_none.1 hx I hI)
  | some I' =>
    have := ok.apart I' (List.mem_of_find?_eq_some hx) I hI _ (List.find?_some (p := fun I' : Image => I'.holds (I.addr p)) hx) hh
    subst this
    simp only [e]

theorem decode_lt {p : Nat} {r : Instr × List Byte} (h : decode (I.at p) = some r) : p < I.bytes.length - I.start := by
  rcases Nat.lt_or_ge p (I.bytes.length - I.start) with h1 | h1
  · exact h1
  · have : I.at p = [] := by unfold Image.at; exact List.drop_eq_nil_of_le (by omega)
    rw [this] at h
    cases h

include ok hI in
/-- What the processor does inside one piece. -/
theorem lift_cpu {p q : Nat} {m m' : Mach} (h : X64.cpu H I p m = some (q, m')) : W.cpu H (I.addr p) m = some (I.addr q, m') := by
  have h0 := h
  unfold X64.cpu at h0
  cases hd : decode (I.at p) with
  | none => rw [hd] at h0; cases h0
  | some r =>
    rw [world_at ok hI (decode_lt hd)]
    obtain ⟨i, rest⟩ := r
    rw [hd] at h0
    unfold World.inside
    rw [hd]
    simp only at h0 ⊢
    split <;> first
      | (rw [h]; done)
      | (simp only [exec] at h0; cases h0; done)

include ok hI in
theorem lift {p q : Nat} {m m' : Mach} (h : X64.Reach H I p m q m') : W.Reach H (I.addr p) m (I.addr q) m' := by
  induction h with
  | here => exact .here _ _
  | step hs _ ih => exact .step (lift_cpu ok hI hs) ih

end

section
variable {ops : List Op} {A : Asm} (hrun : Asm.run true {} ops = some A) {H : Host} {W : World} (ok : WorldOk H W) {I : Image} (hI : I ∈ W.images)
  (hF : Follows ops A (fun _ => none) I)

include hrun ok hI hF in
/-- The special instructions. -/
theorem world_raw {n : Nat} {bs : List Byte} {i : Instr} (h : ops[n]? = some (.raw bs)) (hd : decode bs = some (i, [])) (m : Mach) :
    W.cpu H (I.addr (pos ops n)) m = W.inside H I (pos ops n) m ∧ decode (I.at (pos ops n)) = some (i, I.at (pos ops (n + 1))) ∧
      pos ops n + ((I.at (pos ops n)).length - (I.at (pos ops (n + 1))).length) = pos ops (n + 1) := by
  obtain ⟨h1, h2, _⟩ := pos_mono hrun h
  have hf := hF.raw h hd
  exact ⟨world_at ok hI (decode_lt hf) m, hf, next_eq hF h1 h2⟩

include hrun ok hI hF in
theorem world_movRsp {n : Nat} {bs : List Byte} {r : Gpr} (h : ops[n]? = some (.raw bs)) (hd : decode bs = some (.movL .q r (.reg 4), [])) (m : Mach) :
    W.cpu H (I.addr (pos ops n)) m = some (I.addr (pos ops (n + 1)), m.setReg r (W.rsp m.stack.length)) := by
  obtain ⟨e1, e2, e3⟩ := world_raw hrun ok hI hF h hd m
  rw [e1, World.inside, e2]
  simp only [e3]

include hrun ok hI hF in
theorem world_subRsp {n : Nat} {bs : List Byte} (h : ops[n]? = some (.raw bs)) (hd : decode bs = some (.aluI .sub .q (.reg 4) 8, [])) (m : Mach) :
    W.cpu H (I.addr (pos ops n)) m = some (I.addr (pos ops (n + 1)), { m with flags := none, stack := W.junk :: m.stack }) := by
  obtain ⟨e1, e2, e3⟩ := world_raw hrun ok hI hF h hd m
  rw [e1, World.inside, e2]
  simp only [e3]

include hrun ok hI hF in
theorem world_addRsp {n : Nat} {bs : List Byte} {x : BitVec 64} {st : List (BitVec 64)} (h : ops[n]? = some (.raw bs))
    (hd : decode bs = some (.aluI .add .q (.reg 4) 8, [])) (m : Mach) (hs : m.stack = x :: st) :
    W.cpu H (I.addr (pos ops n)) m = some (I.addr (pos ops (n + 1)), { m with flags := none, stack := st }) := by
  obtain ⟨e1, e2, e3⟩ := world_raw hrun ok hI hF h hd m
  rw [e1, World.inside, e2]
  simp only [e3, hs]

include hrun ok hI hF in
theorem world_ret {n : Nat} {bs : List Byte} {x : BitVec 64} {st : List (BitVec 64)} (h : ops[n]? = some (.raw bs))
    (hd : decode bs = some (.ret, [])) (m : Mach) (hs : m.stack = x :: st) :
    W.cpu H (I.addr (pos ops n)) m = some (x, { m with stack := st }) := by
  obtain ⟨e1, e2, e3⟩ := world_raw hrun ok hI hF h hd m
  rw [e1, World.inside, e2]
  simp only [hs]

theorem words_rsp (ok : WorldOk H W) {n : Nat} (h : n ≤ W.room) : W.words (W.rsp n) = n := by
  have := ok.stack
  unfold World.words World.rsp
  have e : W.top - (W.top - BitVec.ofNat 64 (8 * n)) = BitVec.ofNat 64 (8 * n) := by
    apply BitVec.eq_of_toNat_eq
    simp only [BitVec.toNat_sub, BitVec.toNat_ofNat]
    have := W.top.isLt
    omega
  rw [e, BitVec.toNat_ofNat, Nat.mod_eq_of_lt (by omega)]
  omega

include hrun ok hI hF in
theorem world_leave {n : Nat} {bs : List Byte} {x : BitVec 64} {pre st : List (BitVec 64)} (h : ops[n]? = some (.raw bs))
    (hd : decode bs = some (.leave, [])) (m : Mach) (hs : m.stack = pre ++ x :: st) (hr : m.stack.length ≤ W.room)
    (h5 : m.reg 5 = W.rsp (st.length + 1)) :
    W.cpu H (I.addr (pos ops n)) m = some (I.addr (pos ops (n + 1)), { m with stack := st }.setReg 5 x) := by
  obtain ⟨e1, e2, e3⟩ := world_raw hrun ok hI hF h hd m
  have hl : m.stack.length = pre.length + (st.length + 1) := by rw [hs, List.length_append]; rfl
  have hw : W.words (m.reg 5) = st.length + 1 := by rw [h5, words_rsp ok (by omega)]
  have hdrop : m.stack.drop (m.stack.length - (st.length + 1)) = x :: st := by
    rw [hl, Nat.add_sub_cancel, hs, List.drop_left]
  rw [e1, World.inside, e2]
  simp only [e3, hw, hdrop]
  rw [if_pos ⟨by omega, h5.symm⟩]

include hrun ok hI in
theorem world_call {n : Nat} {v : BitVec 64} {junk : Byte} {chunk : BitVec 64} (hc : I = A.toImage chunk) (h : ops[n]? = some (.callConst v junk))
    (m : Mach) (hr : m.stack.length + 8 ≤ W.room) :
    W.cpu H (I.addr (pos ops n)) m = some (v, { m with stack := I.addr (pos ops (n + 1)) :: m.stack }) := by
  subst hc
  obtain ⟨e1, _⟩ := split_at h
  obtain ⟨B, C, h1, e2, hC, hs, e3, _⟩ := pos_step hrun h
  obtain ⟨d, g1, g2⟩ := C64_const (p := ops.take n) (q := ops.drop (n + 1)) chunk (e1 ▸ hrun) h1
  have e4 : C.pc = B.pc + 6 := by
    obtain ⟨ch, sl, k⟩ := later_run _ inv_init h1
    simp only [Asm.step, call_bytes] at hC
    exact (ripConst_step k.inv _ junk v rfl hC hs).2.1
  obtain ⟨p1, p2, _⟩ := pos_mono hrun h
  have hd : decode ((A.toImage chunk).at (pos ops n)) = some (.callRM (.rip d), (A.toImage chunk).at (pos ops (n + 1))) := by
    rw [e2, e3, e4]; exact g1
  rw [world_at ok hI (decode_lt hd), World.inside, hd]
  simp only [next_eq (follows_image hrun chunk) p1 p2]
  rw [if_pos hr]
  have : qword (A.toImage chunk).bytes ((A.toImage chunk).start + (pos ops (n + 1) : Nat) + d) = some v := by
    rw [e3, e4]
    rw [← g2]
    congr 1
  rw [this]
end

end Verif.X64

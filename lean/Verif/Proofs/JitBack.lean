import Verif.Spec.JitTrace
import Verif.Proofs.JitCips

/-! The frames of the native stack while compiled functions are active. -/
namespace Verif.Jit
open Verif.VM hiding Op
open Verif.X64 hiding Pre decode
open Verif.Graph

section
variable {H : Host} {W : World}

theorem word_append {st pre : List (BitVec 64)} {a v : BitVec 64} (h : W.word st a = some v) : W.word (pre ++ st) a = some v := by
  unfold World.word at h ⊢
  split at h
  · rename_i hc
    rw [if_pos ⟨hc.1, hc.2.1, by rw [List.length_append]; omega⟩, List.length_append,
      show pre.length + st.length - W.words a = pre.length + (st.length - W.words a) by omega,
      List.getElem?_append_right (by omega)]
    rw [← h]
    congr 1
    omega
  · cases h

theorem word_at (ok : WorldOk H W) {post : List (BitVec 64)} {x : BitVec 64} (h : post.length + 1 ≤ W.room) :
    W.word (x :: post) (W.rsp (post.length + 1)) = some x := by
  unfold World.word
  rw [words_rsp ok h, if_pos ⟨rfl, by omega, by rw [List.length_cons]; omega⟩, List.length_cons, Nat.sub_self]
  rfl

theorem rsp_sub (n : Nat) : W.rsp n - 8 = W.rsp (n + 1) := by
  unfold World.rsp
  rw [show (8 : BitVec 64) = BitVec.ofNat 64 8 from rfl]
  apply BitVec.eq_of_toNat_eq
  simp only [BitVec.toNat_sub, BitVec.toNat_ofNat]
  omega

theorem rsp_add (n : Nat) : W.rsp (n + 1) + 8 = W.rsp n := by
  rw [← rsp_sub]
  exact BitVec.sub_add_cancel _ _

theorem frame_word (ok : WorldOk H W) (pre : List (BitVec 64)) {post : List (BitVec 64)} {w p r : BitVec 64} (h : post.length + 3 ≤ W.room) :
    frameFromFp (W.word (pre ++ w :: p :: r :: post)) (W.rsp (post.length + 2)) = some ⟨w, p, r⟩ := by
  unfold frameFromFp
  rw [rsp_sub, rsp_add]
  have h1 : W.word (pre ++ w :: p :: r :: post) (W.rsp (post.length + 2 + 1)) = some w := word_append (word_at ok (by simpa using h))
  have h2 : W.word (pre ++ w :: p :: r :: post) (W.rsp (post.length + 2)) = some p := by
    rw [show pre ++ w :: p :: r :: post = (pre ++ [w]) ++ p :: r :: post by simp]
    exact word_append (word_at ok (by simp only [List.length_cons]; omega))
  have h3 : W.word (pre ++ w :: p :: r :: post) (W.rsp (post.length + 1)) = some r := by
    rw [show pre ++ w :: p :: r :: post = (pre ++ [w, p]) ++ r :: post by simp]
    exact word_append (word_at ok (by omega))
  rw [h1, h2, h3]

theorem frame_append {st pre : List (BitVec 64)} {a : BitVec 64} {f : FrameLayout} (h : frameFromFp (W.word st) a = some f) :
    frameFromFp (W.word (pre ++ st)) a = some f := by
  unfold frameFromFp at h ⊢
  split at h
  · rename_i w p r e1 e2 e3
    rw [word_append e1, word_append e2, word_append e3]
    exact h
  · cases h

end

theorem frameWord_type (t : Nat) (p r : BitVec 64) (h : t * 4 < 2147483648) :
    (⟨frameWord t, p, r⟩ : FrameLayout).frameType = BitVec.ofNat 32 scripted ∧ (⟨frameWord t, p, r⟩ : FrameLayout).functionId.toNat = t * 4 := by
  unfold FrameLayout.frameType FrameLayout.functionId frameWord
  constructor
  · apply BitVec.eq_of_toNat_eq
    simp only [BitVec.toNat_setWidth, BitVec.toNat_ofNat, scripted]
    omega
  · have h1 : (BitVec.ofNat 64 (t * 4 * 4294967296 + scripted)).msb = false := by
      rw [BitVec.msb_eq_decide, BitVec.toNat_ofNat]
      simp only [scripted]
      refine decide_eq_false ?_
      rw [Nat.mod_eq_of_lt (by omega)]
      show ¬ (9223372036854775808 ≤ _)
      omega
    rw [BitVec.toNat_setWidth, BitVec.sshiftRight_eq_of_msb_false h1, BitVec.toNat_ushiftRight, BitVec.toNat_ofNat, Nat.shiftRight_eq_div_pow]
    simp only [scripted]
    omega

section
variable {H : Host} {P : Plugin} {E : Env} {W : World}

/-- The native stack above the frames of the active functions. -/
inductive Stacked (P : Plugin) (E : Env) (W : World) (st : List (BitVec 64)) (fp0 : BitVec 64) : List (Nat × Nat) → Nat → List (BitVec 64) → BitVec 64 → Prop where
  | base (t : Nat) : Stacked P E W st fp0 [] t (W.junk :: frameWord t :: fp0 :: st) (W.rsp (st.length + 1))
  | call {ch : List (Nat × Nat)} {t pc q : Nat} {stk : List (BitVec 64)} {fp : BitVec 64} (u : Nat) : Stacked P E W st fp0 ch t stk fp → P.Has E W t →
    (q, pc) ∈ callCips E.code (P.F t) (P.C t).places →
    Stacked P E W st fp0 ((t, pc) :: ch) u (W.junk :: frameWord u :: fp :: (P.image t).addr (pos (P.C t).ops q) :: stk) (W.rsp (stk.length + 2))

/-- What the trace shows for the callers. -/
def callers (ch : List (Nat × Nat)) : List Shown := ch.map fun (t, pc) => .scripted (t * 4) (some (pc * 4))

theorem has_calls {t : Nat} (has : P.Has E W t) : ∀ pc n o next, (pc, n) ∈ (P.C t).places → decode E.code pc = some (.call o, next) →
    ∃ v junk, (P.F t).other pc = callOf v junk := by
  intro pc n o next h1 h2
  obtain ⟨u, junk, _, h⟩ := has.call pc n o next h1 h2
  exact ⟨_, junk, h⟩

theorem plugin_find {t q pc : Nat} (has : P.Has E W t) (pl : Placed P t) (he : (q, pc) ∈ callCips E.code (P.F t) (P.C t).places ++ (P.C t).cips) (H : Host) :
    ∃ g, P.find E (t * 4) = some g ∧ g ((P.image t).addr (pos (P.C t).ops q)) = some (pc * 4) := by
  refine ⟨_, rfl, ?_⟩
  rw [Nat.mul_div_cancel _ (by decide : 0 < 4)]
  exact find_ok H has.method (P.chunk t) (has_calls has) pl.fits he

/-- The frame of the function that runs. -/
theorem Stacked.frame (ok : WorldOk H W) {st : List (BitVec 64)} {fp0 fp : BitVec 64} {ch : List (Nat × Nat)} {t : Nat} {stk : List (BitVec 64)}
    (h : Stacked P E W st fp0 ch t stk fp) (pre : List (BitVec 64)) (hst : st ≠ []) (hr : stk.length ≤ W.room) :
    ∃ pf r, frameFromFp (W.word (pre ++ stk)) fp = some ⟨frameWord t, pf, r⟩ ∧
      ((ch = [] ∧ pf = fp0) ∨ ∃ u pc ch' q stk', ch = (u, pc) :: ch' ∧ Stacked P E W st fp0 ch' u stk' pf ∧ P.Has E W u ∧
        (q, pc) ∈ callCips E.code (P.F u) (P.C u).places ∧ r = (P.image u).addr (pos (P.C u).ops q) ∧ ∃ pre', stk = pre' ++ stk' ∧ 0 < pre'.length) := by
  cases h with
  | base =>
    cases st with
    | nil => exact absurd rfl hst
    | cons ra st =>
      refine ⟨fp0, ra, ?_, .inl ⟨rfl, rfl⟩⟩
      rw [show pre ++ W.junk :: frameWord t :: fp0 :: ra :: st = (pre ++ [W.junk]) ++ frameWord t :: fp0 :: ra :: st by simp]
      exact frame_word ok _ (by simp only [List.length_cons] at hr; omega)
  | @call ch' u pc q stk' fp' _ h has hq =>
    refine ⟨fp', _, ?_, .inr ⟨u, pc, ch', q, stk', rfl, h, has, hq, rfl, [_, _, _, _], rfl, Nat.succ_pos _⟩⟩
    rw [show ∀ x, pre ++ W.junk :: frameWord t :: fp' :: x :: stk' = (pre ++ [W.junk]) ++ frameWord t :: fp' :: x :: stk' by simp]
    exact frame_word ok _ (by simp only [List.length_cons] at hr; omega)

theorem scripted_not_done {t : Nat} {p r : BitVec 64} {pc : Option (BitVec 64)} (h : t * 4 < 2147483648) :
    (⟨⟨frameWord t, p, r⟩, pc⟩ : JitIter).done = false := by
  unfold JitIter.done
  simp only
  rw [(frameWord_type t p r h).1]
  decide

theorem scripted_shown {t : Nat} {p r pc : BitVec 64} (h : t * 4 < 2147483648) {g : BitVec 64 → Option Nat} {find : Nat → Option (BitVec 64 → Option Nat)}
    (hg : find (t * 4) = some g) : (⟨⟨frameWord t, p, r⟩, some pc⟩ : JitIter).shown find = .scripted (t * 4) (g pc) := by
  unfold JitIter.shown
  simp only
  rw [if_pos (frameWord_type t p r h).1, (frameWord_type t p r h).2, hg]

/-- The walk from a function's frame to the entry frame. -/
theorem walk (ok : WorldOk H W) (placed : ∀ t, P.Has E W t → Placed P t) {st : List (BitVec 64)} {fp0 : BitVec 64} {f0 : FrameLayout}
    (h0 : frameFromFp (W.word st) fp0 = some f0) (ht0 : f0.frameType = BitVec.ofNat 32 entryFrame) (hst : st ≠ []) (full : List (BitVec 64)) :
    ∀ (ch : List (Nat × Nat)) {t : Nat} {stk pre : List (BitVec 64)} {fp pf r ret : BitVec 64} {cip : Option Nat} {fuel : Nat},
    full = pre ++ stk → Stacked P E W st fp0 ch t stk fp → P.Has E W t →
    stk.length ≤ W.room → frameFromFp (W.word full) fp = some ⟨frameWord t, pf, r⟩ → (∃ g, P.find E (t * 4) = some g ∧ g ret = cip) → ch.length + 2 ≤ fuel →
    backtrace (W.word full) (P.find E) fuel ⟨⟨frameWord t, pf, r⟩, some ret⟩ = some (.scripted (t * 4) cip :: callers ch ++ [.internal]) ∧
    ∀ x, findEntryFp (W.word full) fuel ⟨⟨frameWord t, pf, r⟩, some ret⟩ x = some fp0 := by
  have suffix : ∀ {ch t stk fp}, Stacked P E W st fp0 ch t stk fp → ∃ l, stk = l ++ st := by
    intro ch t stk fp h
    induction h with
    | base => exact ⟨[_, _, _], rfl⟩
    | call _ _ _ _ ih => obtain ⟨l, rfl⟩ := ih; exact ⟨_ :: _ :: _ :: _ :: l, rfl⟩
  have hdone : ∀ pc, (⟨f0, pc⟩ : JitIter).done = true := by
    intro pc
    unfold JitIter.done
    simp only [ht0, decide_true]
  have hshow : ∀ pc, (⟨f0, pc⟩ : JitIter).shown (P.find E) = .internal := by
    intro pc
    unfold JitIter.shown
    simp only [ht0]
    rw [if_neg (by decide), if_neg (fun h => absurd h.1 (by decide))]
  intro ch
  induction ch with
  | nil =>
    intro t stk pre fp pf r ret cip fuel hf h has hr hfr hcip hfu
    obtain ⟨g, hg, rfl⟩ := hcip
    obtain ⟨pf', r', h1, ⟨_, rfl⟩ | ⟨_, _, _, _, _, h, _⟩⟩ := h.frame ok pre hst hr
    rotate_left
    · cases h
    rw [← hf, hfr] at h1
    cases h1
    obtain ⟨l, rfl⟩ := suffix h
    have hn : (⟨⟨frameWord t, pf, r⟩, some ret⟩ : JitIter).next (W.word full) = some ⟨f0, some r⟩ := by
      unfold JitIter.next
      simp only
      rw [hf, ← List.append_assoc, frame_append h0]
    obtain ⟨k, rfl⟩ : ∃ k, fuel = k + 1 + 1 := ⟨fuel - 2, by simp only [List.length_nil] at hfu; omega⟩
    have hnd := scripted_not_done (p := pf) (r := r) (pc := some ret) (placed _ has).offset
    constructor
    · rw [backtrace, hnd, if_neg (by decide), hn]
      simp only
      rw [backtrace, hdone, if_pos rfl, hshow]
      simp only
      rw [scripted_shown (placed _ has).offset hg]
      rfl
    · intro x
      rw [findEntryFp, hnd, if_neg (by decide), hn]
      simp only
      rw [findEntryFp, hdone, if_pos rfl]
  | cons c ch ih =>
    intro t stk pre fp pf r ret cip fuel hf h has hr hfr hcip hfu
    obtain ⟨g, hg, rfl⟩ := hcip
    obtain ⟨pf', r', h1, ⟨h, _⟩ | ⟨u, pc, ch', q, stk', h2, h3, hasu, hq, hr', pre', rfl, _⟩⟩ := h.frame ok pre hst hr
    · cases h
    rw [← hf, hfr] at h1
    cases h1
    cases h2
    rw [List.length_append] at hr
    obtain ⟨pf2, r2, h4, _⟩ := h3.frame ok (pre ++ pre') hst (by omega)
    rw [List.append_assoc, ← hf] at h4
    have hn : (⟨⟨frameWord t, pf, r⟩, some ret⟩ : JitIter).next (W.word full) = some ⟨⟨frameWord u, pf2, r2⟩, some r⟩ := by
      unfold JitIter.next
      simp only
      rw [h4]
    have hp := plugin_find hasu (placed _ hasu) (List.mem_append_left _ hq) H
    rw [← hr'] at hp
    obtain ⟨k, rfl⟩ : ∃ k, fuel = k + 1 := ⟨fuel - 1, by simp only [List.length_cons] at hfu; omega⟩
    obtain ⟨b1, b2⟩ := ih (pre := pre ++ pre') (by rw [List.append_assoc]; exact hf) h3 hasu (by omega) h4 hp (fuel := k) (by simp only [List.length_cons] at hfu; omega)
    have hnd := scripted_not_done (p := pf) (r := r) (pc := some ret) (placed _ has).offset
    constructor
    · rw [backtrace, hnd, if_neg (by decide), hn]
      simp only
      rw [b1]
      simp only
      rw [scripted_shown (placed _ has).offset hg]
      rfl
    · intro x
      rw [findEntryFp, hnd, if_neg (by decide), hn]
      exact b2 _

/-- The processor and the frames of its stack follow the calls. -/
theorem active_ok (ok : WorldOk H W) (FA : FloatsAgree E.floats H.fpu) {d0 t0 : Nat} {s0 : IState} {kp0 ka0 : Bool} {m0 : Mach} (has0 : P.Has E W t0)
    (S0 : Setup H (P.J t0) E t0 s0) (sim0 : Sim H kp0 ka0 m0 s0) (room : m0.stack.length + 4 * d0 + 11 ≤ W.room) {d t pc : Nat} {ch : List (Nat × Nat)}
    {s : IState} {kp ka : Bool} (act : Active H P E W d0 t0 s0 d ch t pc s kp ka) :
    ∃ n m, P.Has E W t ∧ (pc, n) ∈ (P.C t).places ∧ W.Reach H (P.image t0).entry m0 ((P.image t).addr (pos (P.C t).ops n)) m ∧
      Sim H kp ka m s ∧ Setup H (P.J t) E t s ∧ Stacked P E W m0.stack (m0.reg 5) ch t m.stack (m.reg 5) ∧ m.stack.length + 4 * d + 8 ≤ W.room ∧
      4 * ch.length ≤ m.stack.length := by
  induction act with
  | start en =>
    obtain ⟨n, m, h1, h2, h3, h4, h5⟩ := enter_ok ok has0 (Base.of has0 S0) S0.layout en sim0
    have e1 : m.stack = _ := congrArg Prod.fst h5
    have e2 : m.reg 5 = _ := congrArg (fun x => x.2.1) h5
    refine ⟨n, m, has0, h1, h2, h3, h4, ?_, ?_, Nat.zero_le _⟩
    · rw [e1, e2]; exact .base t0
    · rw [e1]; simp only [List.length_cons]; omega
  | run _ tr ih =>
    obtain ⟨n, m, has, h1, h2, h3, h4, h5, h6, h7⟩ := ih
    obtain ⟨n', m', g1, g2, g3, g4, g5⟩ := trace_ok ok FA tr has h4 h3 h1 h6
    have e1 : m'.stack = _ := congrArg Prod.fst g4
    have e2 : m'.reg 5 = _ := congrArg (fun x => x.2.1) g4
    refine ⟨n', m', has, g1, h2.trans g2, g3, g5, ?_, ?_, ?_⟩
    · rw [e1, e2]; exact h5
    · rw [e1]; exact h6
    · rw [e1]; exact h7
  | @call d t pc next u ch o s s1 kp ka _ hd hu hasu en ih =>
    obtain ⟨n, m, has, h1, h2, h3, h4, h5, h6, h7⟩ := ih
    obtain ⟨u', junk, hu', hcall⟩ := has.call _ _ _ _ h1 hd
    rw [hu] at hu'
    cases hu'
    obtain ⟨hseg, _⟩ := has.method.other h1 hd rfl rfl (P.chunk t) H
    rw [hcall] at hseg
    have c1 := world_call has.method.linked ok has.image rfl hseg.head m (by omega)
    have sim1 : Sim H kp ka { m with stack := (P.image t).addr (pos (P.C t).ops (n + 1)) :: m.stack } s := h3.outer
    obtain ⟨n1, m1, q1, r1, sm1, S1, o1⟩ := enter_ok ok hasu (Base.of has h4) h4.layout en sim1
    have e1 : m1.stack = W.junk :: frameWord u :: m.reg 5 :: (P.image t).addr (pos (P.C t).ops (n + 1)) :: m.stack := congrArg Prod.fst o1
    have e2 : m1.reg 5 = W.rsp (m.stack.length + 2) := congrArg (fun x => x.2.1) o1
    refine ⟨n1, m1, hasu, q1, h2.trans (.step c1 r1), sm1, S1, ?_, ?_, ?_⟩
    · rw [e1, e2]
      refine .call u h5 has (List.mem_filterMap.2 ⟨(pc, n), h1, ?_⟩)
      simp only [hd, hcall]
      rfl
    · rw [e1]; simp only [List.length_cons]; omega
    · rw [e1]; simp only [List.length_cons]; omega

/-- The word of the exit frame. -/
def exitWord : BitVec 64 := BitVec.ofNat 64 (1 * 4294967296 + exitFrame)

/-- The exit frame. -/
theorem exit_ok (ok : WorldOk H W) {t r l : Nat} {more : List Op} (has : P.Has E W t) (hseg : Seg (P.C t).ops r (.bind l :: ((exitCalls.map fun c => Op.raw c.bytes) ++ more)))
    (m : Mach) : ∃ m1, W.Reach H ((P.image t).addr (pos (P.C t).ops r)) m ((P.image t).addr (pos (P.C t).ops (r + 5))) m1 ∧
      m1.stack = exitWord :: m.reg 5 :: m.stack ∧ m1.reg 5 = W.rsp (m.stack.length + 1) ∧ m1.reg 0 = m.reg 0 ∧ m1.mem = m.mem ∧ m1.field = m.field ∧
      m1.reg 13 = m.reg 13 := by
  have hF := follows_image has.method.linked (P.chunk t)
  have hrun := has.method.linked
  have hs : Seg (P.C t).ops (r + 1) (exitCalls.map fun c => Op.raw c.bytes) := hseg.tail.left
  have raw : ∀ {n : Nat} {c : Call} {m m' : Mach}, (P.C t).ops[n]? = some (.raw c.bytes) → stepCall H c m = some m' →
      W.cpu H ((P.image t).addr (pos (P.C t).ops n)) m = some ((P.image t).addr (pos (P.C t).ops (n + 1)), m') := by
    intro n c m m' h1 h2
    obtain ⟨i, hd, hx⟩ := stepCall_some h2
    exact lift_cpu ok has.image (cpu_raw hrun H hF h1 hd hx)
  rw [← pos_label hrun hseg.head]
  have s0 := raw (m := m) (hs 0 _ rfl) (st_push H _ 5)
  have s1 := world_movRsp hrun ok has.image hF (hs 1 _ rfl) dec_movRsp { m with stack := m.reg 5 :: m.stack }
  have s2 := raw (m := Mach.setReg { m with stack := m.reg 5 :: m.stack } 5 (W.rsp (m.stack.length + 1))) (hs 2 _ rfl) (st_movqRI H _ 10 exitWord)
  have s3 := raw (m := Mach.setReg (Mach.setReg { m with stack := m.reg 5 :: m.stack } 5 (W.rsp (m.stack.length + 1))) 10 exitWord) (hs 3 _ rfl) (st_push H _ 10)
  exact ⟨_, .step s0 (.step s1 (.step s2 (.step s3 (.here _ _)))), rfl, rfl, rfl, rfl, rfl, rfl⟩

/-- The walk from the exit frame, with the error's return address below the frame of the function. -/
theorem walk_exit (ok : WorldOk H W) (placed : ∀ t, P.Has E W t → Placed P t) {st : List (BitVec 64)} {fp0 : BitVec 64} {f0 : FrameLayout}
    (h0 : frameFromFp (W.word st) fp0 = some f0) (ht0 : f0.frameType = BitVec.ofNat 32 entryFrame) (hst : st ≠ [])
    {ch : List (Nat × Nat)} {t q pc : Nat} {stk : List (BitVec 64)} {fp : BitVec 64} {fuel : Nat}
    (h : Stacked P E W st fp0 ch t stk fp) (has : P.Has E W t) (hr : stk.length + 3 ≤ W.room)
    (hq : (q, pc) ∈ (P.C t).cips) (hfu : ch.length + 3 ≤ fuel) :
    ∃ it, JitIter.init (W.word (exitWord :: fp :: (P.image t).addr (pos (P.C t).ops q) :: stk)) (W.rsp (stk.length + 2)) = some it ∧
      backtrace (W.word (exitWord :: fp :: (P.image t).addr (pos (P.C t).ops q) :: stk)) (P.find E) fuel it =
        some (.internal :: .scripted (t * 4) (some (pc * 4)) :: callers ch ++ [.internal]) ∧
      ∀ x, findEntryFp (W.word (exitWord :: fp :: (P.image t).addr (pos (P.C t).ops q) :: stk)) fuel it x = some fp0 := by
  obtain ⟨pf, r, h1, _⟩ := h.frame ok [exitWord, fp, (P.image t).addr (pos (P.C t).ops q)] hst (by omega)
  obtain ⟨k, rfl⟩ : ∃ k, fuel = k + 1 := ⟨fuel - 1, by omega⟩
  obtain ⟨b1, b2⟩ := walk ok placed h0 ht0 hst _ ch (pre := [exitWord, fp, (P.image t).addr (pos (P.C t).ops q)]) (fuel := k) rfl h has (by omega) h1
    (plugin_find has (placed _ has) (List.mem_append_right _ hq) H) (by omega)
  have hfr := frame_word (w := exitWord) (p := fp) (r := (P.image t).addr (pos (P.C t).ops q)) ok [] hr
  have hnd : (⟨⟨exitWord, fp, (P.image t).addr (pos (P.C t).ops q)⟩, none⟩ : JitIter).done = false := by
    unfold JitIter.done FrameLayout.frameType
    exact (by decide : decide (BitVec.setWidth 32 exitWord = BitVec.ofNat 32 entryFrame) = false)
  have hsh : (⟨⟨exitWord, fp, (P.image t).addr (pos (P.C t).ops q)⟩, none⟩ : JitIter).shown (P.find E) = .internal := by
    unfold JitIter.shown FrameLayout.frameType FrameLayout.functionId
    simp only
    rw [if_neg (by decide), if_neg (by decide)]
  refine ⟨⟨⟨exitWord, fp, (P.image t).addr (pos (P.C t).ops q)⟩, none⟩, ?_, ?_, ?_⟩
  · unfold JitIter.init
    rw [show exitWord :: fp :: (P.image t).addr (pos (P.C t).ops q) :: stk = [] ++ exitWord :: fp :: (P.image t).addr (pos (P.C t).ops q) :: stk from rfl, hfr]
  · rw [backtrace, hnd, if_neg (by decide)]
    unfold JitIter.next
    simp only
    rw [show exitWord :: fp :: (P.image t).addr (pos (P.C t).ops q) :: stk = [exitWord, fp, (P.image t).addr (pos (P.C t).ops q)] ++ stk from rfl, h1]
    simp only
    rw [b1]
    simp only [hsh]
    rfl
  · intro x
    rw [findEntryFp, hnd, if_neg (by decide)]
    unfold JitIter.next
    simp only
    rw [show exitWord :: fp :: (P.image t).addr (pos (P.C t).ops q) :: stk = [exitWord, fp, (P.image t).addr (pos (P.C t).ops q)] ++ stk from rfl, h1]
    exact b2 _

end
end Verif.Jit

import Verif.Spec.CallArgs
import Verif.Props.C07

/-! Lemmas for C48. -/
namespace Verif.VM

/-- Allocation and filling of arguments leave everything but the free part of the heap as it was. -/
structure Marshalled (s s' : State) : Prop where
  lay : Layout s'
  same : SameBlock s s'
  regs : s'.sp = s.sp ∧ s'.frm = s.frm ∧ s'.hpScope = s.hpScope ∧ s.hp ≤ s'.hp
  mem : ∀ x, x < s.hp ∨ s.sp ≤ x → s'.mem x = s.mem x

theorem Marshalled.refl {s : State} (L : Layout s) : Marshalled s s :=
  ⟨L, .rfl, ⟨rfl, rfl, rfl, Int.le_refl _⟩, fun _ _ => rfl⟩

theorem Marshalled.trans {s t u : State} (h : Marshalled s t) (k : Marshalled t u) : Marshalled s u :=
  ⟨k.lay, h.same.trans k.same, ⟨by rw [k.regs.1, h.regs.1], by rw [k.regs.2.1, h.regs.2.1], by rw [k.regs.2.2.1, h.regs.2.2.1],
    by have := h.regs.2.2.2; have := k.regs.2.2.2; omega⟩,
   fun x hx => by
    rw [k.mem x (by have := h.regs.2.2.2; have := h.regs.1; omega), h.mem x hx]⟩

/-- `AllocArray` for sizes that do not wrap. -/
theorem allocArray_cases {s : State} (L : Layout s) (n : Nat) (hn : n < 536870911) :
    allocArray n s = .fail s .heapLow ∨
    (s.hp + 4 * n + 64 ≤ s.sp ∧ allocArray n s =
      .ok { s with mem := wr32 s.mem s.hp (BitVec.ofNat 32 n), hp := s.hp + 4 + 4 * n } (s.hp + 4)) := by
  obtain ⟨l1, l2, l3, l4, l5, l6⟩ := L
  unfold allocArray
  have e : ((n * 4 % 4294967296 : Nat) : Int) = 4 * n := by omega
  simp only [e, stackMargin]
  rw [wrap32_id (x := s.sp - s.hp - 4 * n) (by omega) (by omega)]
  by_cases h : s.sp - s.hp - 4 * n < 64
  · left; rw [if_pos h]
  · right
    rw [if_neg h, storeRaw_ok ⟨by omega, by omega⟩]
    dsimp only
    rw [wrap32_id (x := s.hp + 4 + 4 * n) (by omega) (by omega), wrap32_id (x := s.hp + 4) (by omega) (by omega)]
    exact ⟨by omega, rfl⟩

theorem hostRead_ok {H : Host} {a : BitVec 64} {n : Nat} {bs : List (BitVec 8)} (h : H a = some bs) (hn : n ≤ bs.length)
    (s : State) : hostRead H a n s = .ok s (bs.take n) := by
  unfold hostRead; rw [h]; simp only; rw [if_pos hn]

theorem takeWhile_str (str rest : List (BitVec 8)) (h : ∀ b ∈ str, b ≠ 0) :
    (str ++ 0 :: rest).takeWhile (· ≠ 0) = str := by
  induction str with
  | nil => simp
  | cons b str ih =>
    rw [List.cons_append, List.takeWhile_cons_of_pos (by simpa using h b (by simp)),
      ih (fun c hc => h c (by simp [hc]))]

theorem str_unique {a b r q : List (BitVec 8)} (ha : ∀ x ∈ a, x ≠ 0) (hb : ∀ x ∈ b, x ≠ 0) (e : a ++ 0 :: r = b ++ 0 :: q) :
    a = b := by
  rw [← takeWhile_str a r ha, e, takeWhile_str b q hb]

theorem hostString_ok {H : Host} {a : BitVec 64} {str rest : List (BitVec 8)} (h : H a = some (str ++ 0 :: rest))
    (hs : ∀ b ∈ str, b ≠ 0) (s : State) : hostString H a s = .ok s str := by
  unfold hostString; rw [h]; simp only; rw [if_pos (by simp), takeWhile_str str rest hs]

theorem split_nul {bs : List (BitVec 8)} (h : 0 ∈ bs) : ∃ str rest, bs = str ++ 0 :: rest ∧ ∀ b ∈ str, b ≠ 0 := by
  induction bs with
  | nil => simp at h
  | cons b bs ih =>
    by_cases hb : b = 0
    · exact ⟨[], bs, by simp [hb], by simp⟩
    · obtain ⟨str, rest, e, hs⟩ := ih ((List.mem_cons.1 h).resolve_left (Ne.symm hb))
      refine ⟨b :: str, rest, by simp [e], fun c hc => ?_⟩
      rcases List.mem_cons.1 hc with rfl | hc
      · exact hb
      · exact hs c hc

theorem ignoring_ok {α : Type} {x : VMM α} {s s' : State} {a : α} (h : x s = .ok s' a) : ignoring x s = .ok s' () := by
  unfold ignoring; rw [h]

theorem ignoring_fail {α : Type} {x : VMM α} {s s' : State} {e : Err} (h : x s = .fail s' e) : ignoring x s = .ok s' () := by
  unfold ignoring; rw [h]

theorem HoldsString.mono {m m' : Int → BitVec 8} {a : Int} {str : List (BitVec 8)} (h : HoldsString m a str)
    (k : ∀ x, a ≤ x → x ≤ a + str.length → m' x = m x) : HoldsString m' a str :=
  ⟨fun i hi => by rw [k _ (by omega) (by omega)]; exact h.bytes i hi,
   by rw [k _ (by omega) (by omega)]; exact h.nul, h.noNul⟩

theorem toInt_addr {a : Int} (h0 : 0 ≤ a) (h1 : a < 2147483648) : (BitVec.ofInt 32 a).toInt = a :=
  ofInt_toInt (by omega) h1

/-- The effect of one argument. -/
structure Put (H : Host) (x : ArgSlot) (s s' : State) (p : Cell) : Prop where
  ok : Marshalled s s'
  block : x.type ≠ argCell → s.hp ≤ p.toInt ∧ p.toInt + x.bytes ≤ s'.hp
  passed : ∀ m, (∀ y, s.hp ≤ y → y < s'.hp → m y = s'.mem y) → Passed H x p m

/-- A state with a memory range above the heap top written and the heap top raised. -/
theorem marshalled_of {s s' : State} (L : Layout s) (n : Int) (m : Int → BitVec 8) (e : s' = { s with mem := m, hp := s.hp + n })
    (h0 : 0 ≤ n) (h1 : s.hp + n ≤ s.sp) (hm : ∀ x, x < s.hp ∨ s.sp ≤ x → m x = s.mem x) : Marshalled s s' := by
  subst e
  obtain ⟨l1, l2, l3, l4, l5, l6⟩ := L
  refine ⟨⟨l1, by somega, by somega, l4, l5, l6⟩, ⟨rfl, rfl, rfl, rfl, rfl⟩, ⟨rfl, rfl, rfl, by somega⟩, hm⟩

theorem holdsBytes_write (m : Int → BitVec 8) (a : Int) (bs : List (BitVec 8)) : HoldsBytes (writeBytes m a bs) a bs :=
  fun i h => writeBytes_in m a bs i h

theorem HoldsBytes.mono {m m' : Int → BitVec 8} {a : Int} {bs : List (BitVec 8)} (h : HoldsBytes m a bs)
    (k : ∀ x, a ≤ x → x < a + bs.length → m' x = m x) : HoldsBytes m' a bs :=
  fun i hi => by rw [k _ (by omega) (by omega)]; exact h i hi

theorem passed_chars {H : Host} {x : ArgSlot} {p : Cell} {m : Int → BitVec 8} (ht : x.type = argChars)
    (h1 : x.flags.getLsbD 2 = false → 0 < x.size.toNat → rd32 m p.toInt = 0)
    (h2 : x.flags.getLsbD 2 = true → x.flags.getLsbD 1 = false → x.flags.getLsbD 3 = true →
      ∀ bs, H x.u = some bs → HoldsBytes m p.toInt (bs.take x.size.toNat))
    (h3 : x.flags.getLsbD 2 = true → x.flags.getLsbD 1 = false → x.flags.getLsbD 3 = false →
      0 < x.size.toNat → ∀ str rest, H x.u = some (str ++ 0 :: rest) → (∀ b ∈ str, b ≠ 0) →
      HoldsString m p.toInt (str.take (x.size.toNat - 1)))
    (h4 : x.flags.getLsbD 2 = true → x.flags.getLsbD 1 = true → 0 < x.size.toNat →
      ∀ cs rest, H x.u = some (utf8 cs ++ 0 :: rest) → (∀ b ∈ utf8 cs, b ≠ 0) →
      ∃ k, LongestPrefix cs (x.size.toNat - 1) k ∧ HoldsString m p.toInt (utf8 (cs.take k))) : Passed H x p m :=
  ⟨fun h => absurd (ht ▸ h) (by decide), fun h => absurd (ht ▸ h) (by decide), fun h => absurd (ht ▸ h) (by decide),
    fun _ => h1, fun _ => h2, fun _ => h3, fun _ => h4⟩

/-- Filling a char array: only its own bytes (and the padding of its last cell) change. -/
theorem fillChars_ok {H : Host} {x : ArgSlot} (ht : x.type = argChars) (V : ValidArg H x) {s : State} {a : Int}
    (h0 : 0 < a) (hsz : a + 4 * ((x.size.toNat + 3) / 4 : Nat) ≤ s.hp) (hend : a + 4 ≤ s.memSize)
    (hsp : s.hp ≤ s.sp) (hms : s.hp ≤ s.memSize) (hm31 : s.memSize < 2147483648) :
    ∃ s', fillChars H x a s = .ok s' () ∧ OnlyRange s s' a (4 + 4 * ((x.size.toNat + 3) / 4 : Nat)) ∧
      ∀ m, (∀ y, a ≤ y → y < s.hp → m y = s'.mem y) → Passed H x (BitVec.ofInt 32 a) m := by
  have ha : (BitVec.ofInt 32 a).toInt = a := toInt_addr (by omega) (by omega)
  cases V with
  | cell h => rw [h] at ht; cases ht
  | ref _ h => rw [h] at ht; cases ht
  | array _ h => rw [h] at ht; cases ht
  | chars bs _ hH hsize hback hutf hbin hplain =>
  unfold fillChars
  by_cases hc : x.flags.getLsbD 2 = true
  · have nc : ¬ x.flags.getLsbD 2 = false := by simp [hc]
    rw [if_pos hc]
    by_cases hu : x.flags.getLsbD 1 = true
    · have nu : ¬ x.flags.getLsbD 1 = false := by simp [hu]
      rw [if_pos hu]
      obtain ⟨hne1, cs, rest, rfl, hnn⟩ := hutf hc hu
      rw [bind_ok (hostString_ok hH hnn s)]
      by_cases hz : x.size.toNat = 0
      · refine ⟨s, ?_, ⟨rfl, fun _ _ => rfl⟩, fun m hm => ?_⟩
        · by_cases hb : badStringAddr s a
          · exact ignoring_fail (s' := s) (e := .invalidAddress) (by unfold stringToLocalUTF8; rw [if_pos hb])
          · exact ignoring_ok (s' := s) (a := none) (by unfold stringToLocalUTF8; rw [if_neg hb, if_pos hz])
        · exact passed_chars ht (fun _ h => by omega) (fun _ h => absurd h nu) (fun _ h => absurd h nu)
            (fun _ _ h => by omega)
      · have hb : ¬ badStringAddr s a := by unfold badStringAddr; omega
        obtain ⟨s', k, hk, e, ho, hh⟩ := C14_utf8_copy_partial s a x.size.toNat cs (by omega) (by omega) hnn (by omega) hb
          (Or.inr h0)
        refine ⟨s', ignoring_ok e, ⟨ho.regs, fun y hy => ho.mem y (by omega)⟩, fun m hm => ?_⟩
        refine passed_chars ht (fun h => absurd h nc) (fun _ h => absurd h nu) (fun _ h => absurd h nu)
            (fun _ _ _ cs' rest' h hn' => ?_)
        rw [hH] at h
        have hcs : utf8 cs = utf8 cs' := str_unique hnn hn' (Option.some.inj h)
        obtain ⟨s2, k2, hk2, e2, _, hh2⟩ := C14_utf8_copy_partial s a x.size.toNat cs' (by omega) (by omega) hn' (by omega) hb
          (Or.inr h0)
        rw [← hcs, e] at e2
        have es : s' = s2 := by injection e2
        subst es
        refine ⟨k2, hk2, ?_⟩
        rw [ha]
        have := hk2.fits
        exact hh2.mono fun y h1 h2 => hm y h1 (by omega)
    · have nu : x.flags.getLsbD 1 = false := by simpa using hu
      rw [if_neg hu]
      by_cases hbn : x.flags.getLsbD 3 = true
      · rw [if_pos hbn]
        have hlen := hbin hc nu hbn
        have hl : (bs.take x.size.toNat).length = x.size.toNat := by simp; omega
        rw [bind_ok (hostRead_ok hH hlen s), copyIn_ok s a _ ⟨by omega, by omega⟩]
        refine ⟨_, rfl, ⟨rfl, fun y hy => writeBytes_out _ _ _ _ (by omega)⟩, fun m hm => ?_⟩
        refine passed_chars ht (fun h => absurd h nc) (fun _ _ _ bs' h => ?_) (fun _ _ h => by rw [hbn] at h; cases h)
          (fun _ h => absurd h hu)
        rw [hH] at h; cases h
        rw [ha]
        exact (holdsBytes_write s.mem a _).mono fun y h1 h2 => hm y h1 (by omega)
      · have nb : x.flags.getLsbD 3 = false := by simpa using hbn
        rw [if_neg hbn]
        obtain ⟨str, rest, rfl, hnn⟩ := split_nul (hplain hc nu nb)
        rw [bind_ok (hostString_ok hH hnn s)]
        by_cases hz : x.size.toNat = 0
        · refine ⟨s, ?_, ⟨rfl, fun _ _ => rfl⟩, fun m hm => ?_⟩
          · by_cases hb : badStringAddr s a
            · exact ignoring_fail (s' := s) (e := .invalidAddress) (by unfold stringToLocal; rw [if_pos hb])
            · exact ignoring_ok (s' := s) (a := ()) (by unfold stringToLocal; rw [if_neg hb, if_pos hz])
          · exact passed_chars ht (fun _ h => by omega) (fun _ _ h => absurd h hbn) (fun _ _ _ h => by omega)
              (fun _ _ h => by omega)
        · have hb : ¬ badStringAddr s a := by unfold badStringAddr; omega
          rcases C13_string_copy s a x.size.toNat str (by omega) hnn (by omega) with ⟨h, _⟩ | ⟨s', e, ho, hh, _⟩
          · exact absurd h hb
          refine ⟨s', ignoring_ok e, ⟨ho.regs, fun y hy => ho.mem y (by omega)⟩, fun m hm => ?_⟩
          refine passed_chars ht (fun h => absurd h nc) (fun _ _ h => absurd h hbn) (fun _ _ _ _ str' rest' h hn' => ?_)
            (fun _ h => absurd h hu)
          rw [hH] at h
          rw [← str_unique hnn hn' (Option.some.inj h), ha]
          exact hh.mono fun y h1 h2 => hm y h1 (by simp only [List.length_take] at h2; omega)
  · have nc : x.flags.getLsbD 2 = false := by simpa using hc
    rw [if_neg hc, storeRaw_ok ⟨by omega, by omega⟩]
    refine ⟨_, rfl, ⟨rfl, fun y hy => wr32_far (by omega)⟩, fun m hm => ?_⟩
    refine passed_chars ht (fun _ hp => ?_) (fun h => absurd h hc) (fun h => absurd h hc) (fun h => absurd h hc)
    rw [ha, rd32_congr (m := wr32 s.mem a 0) (fun y h1 h2 => hm y h1 (by omega)), rd32_wr32_same]

/-- One valid argument: no room, or it is passed. -/
theorem marshal_ok {H : Host} {x : ArgSlot} {s : State} (L : Layout s) (V : ValidArg H x) :
    (∃ e, marshal H x s = .fail s e) ∨ ∃ s' p, marshal H x s = .ok s' p ∧ Put H x s s' p := by
  have L' := L
  obtain ⟨l1, l2, l3, l4, l5, l6⟩ := L'
  have V' := V
  cases V with
  | cell ht =>
    right
    unfold marshal
    rw [if_pos ht]
    refine ⟨s, _, rfl, .refl L, fun h => absurd ht h, fun m _ => ⟨fun _ => rfl, ?_, ?_, ?_, ?_, ?_, ?_⟩⟩ <;>
      exact fun h => absurd (ht ▸ h) (by decide)
  | ref bs ht hH hl =>
    unfold marshal
    rw [if_neg (by rw [ht]; decide), if_pos ht]
    rcases heapAlloc_cases L (n := 4) (by omega) (by omega) with (⟨h, _⟩ | ⟨_, _, e⟩) | ⟨k1, k2, e⟩
    · omega
    · left; exact ⟨_, bind_fail e⟩
    · right
      have hl4 : (bs.take 4).length = 4 := by simp; omega
      rw [bind_ok e, bind_ok (hostRead_ok hH hl _), bind_ok (copyIn_ok _ _ _ ⟨by omega, by somega⟩), pure_def]
      have ha : (BitVec.ofInt 32 s.hp).toInt = s.hp := toInt_addr (by omega) (by omega)
      refine ⟨_, _, rfl, marshalled_of L 4 _ rfl (by omega) (by omega) fun y hy => writeBytes_out _ _ _ _ (by omega),
        fun _ => ⟨by omega, ?_⟩, fun m hm => ⟨?_, fun _ bs' h => ?_, ?_, ?_, ?_, ?_, ?_⟩⟩
      · rw [ha]; unfold ArgSlot.bytes; rw [if_pos ht]; exact Int.le_refl _
      rotate_left
      · rw [hH] at h; cases h
        rw [ha]
        exact (holdsBytes_write s.mem s.hp _).mono fun y h1 h2 => hm y h1 (by somega)
      all_goals exact fun h => absurd (ht ▸ h) (by decide)
  | array bs ht hH hn hl =>
    unfold marshal
    rw [if_neg (by rw [ht]; decide), if_neg (by rw [ht]; decide), if_neg (by rw [ht]; decide), if_pos ht]
    rcases allocArray_cases L x.size.toNat hn with e | ⟨k, e⟩
    · left; exact ⟨_, bind_fail e⟩
    · right
      have hl4 : (bs.take (4 * x.size.toNat)).length = 4 * x.size.toNat := by simp; omega
      rw [bind_ok e, bind_ok (hostRead_ok hH hl _), bind_ok (copyIn_ok _ _ _ ⟨by omega, by somega⟩), pure_def]
      have ha : (BitVec.ofInt 32 (s.hp + 4)).toInt = s.hp + 4 := toInt_addr (by omega) (by omega)
      refine ⟨_, _, rfl, marshalled_of L (4 + 4 * (x.size.toNat : Int)) _ (by rw [← Int.add_assoc]) (by omega) (by omega) fun y hy => ?_,
        fun _ => ⟨by omega, ?_⟩, fun m hm => ⟨?_, ?_, fun _ bs' h => ?_, ?_, ?_, ?_, ?_⟩⟩
      · dsimp only
        rw [writeBytes_out _ _ _ _ (by omega), wr32_far (by omega)]
      · rw [ha]; unfold ArgSlot.bytes; rw [if_neg (by rw [ht]; decide), if_pos ht]; somega
      rotate_left 2
      · rw [hH] at h; cases h
        rw [ha]
        exact (holdsBytes_write _ _ _).mono fun y h1 h2 => hm y (by omega) (by somega)
      all_goals exact fun h => absurd (ht ▸ h) (by decide)
  | chars bs ht hH hn _ _ _ _ =>
    unfold marshal
    rw [if_neg (by rw [ht]; decide), if_neg (by rw [ht]; decide), if_neg (by rw [ht]; decide), if_neg (by rw [ht]; decide),
      if_pos ht, Nat.mod_eq_of_lt (by omega)]
    rcases allocArray_cases L ((x.size.toNat + 3) / 4) (by omega) with e | ⟨k, e⟩
    · left; exact ⟨_, bind_fail e⟩
    · right
      rw [bind_ok e]
      obtain ⟨s', e', ho, hp⟩ := fillChars_ok ht V'
        (s := { s with mem := wr32 s.mem s.hp (BitVec.ofNat 32 ((x.size.toNat + 3) / 4)),
                       hp := s.hp + 4 + 4 * ((x.size.toNat + 3) / 4 : Nat) }) (a := s.hp + 4)
        (by omega) (by somega) (by somega) (by somega) (by somega) (by somega)
      rw [bind_ok e', pure_def]
      have ha : (BitVec.ofInt 32 (s.hp + 4)).toInt = s.hp + 4 := toInt_addr (by omega) (by omega)
      have hreg := ho.regs
      have hhp : s'.hp = s.hp + 4 + 4 * ((x.size.toNat + 3) / 4 : Nat) := by rw [hreg]
      refine ⟨s', _, rfl, marshalled_of L (4 + 4 * ((x.size.toNat + 3) / 4 : Nat)) s'.mem
          (by rw [← Int.add_assoc]; exact hreg) (by omega) (by omega) fun y hy => ?_,
        fun _ => ⟨by omega, ?_⟩, fun m hm => hp m fun y h1 h2 => hm y (by omega) (by rw [hhp]; exact h2)⟩
      · rw [ho.mem y (by omega)]; exact wr32_far (by omega)
      · rw [ha, hhp]; unfold ArgSlot.bytes
        rw [if_neg (by rw [ht]; decide), if_neg (by rw [ht]; decide), if_pos ht]; omega

theorem Blocks.lower {hi : Int} : ∀ {l : List (ArgSlot × Cell)} {lo lo' : Int}, Blocks lo hi l → lo' ≤ lo → Blocks lo' hi l
  | [], _, _, h, k => Int.le_trans k h
  | (x, p) :: l, lo, lo', h, k => by
    unfold Blocks at h ⊢
    split
    · rename_i ht; rw [if_pos ht] at h; exact h.lower k
    · rename_i ht; rw [if_neg ht] at h; exact ⟨by omega, h.2⟩

/-- All arguments: no room, or they are passed. -/
theorem marshalAll_ok {H : Host} : ∀ {xs : List ArgSlot} {s : State}, Layout s → (∀ x ∈ xs, ValidArg H x) →
    (∃ s' e, marshalAll H xs s = .fail s' e ∧ Marshalled s s') ∨
    ∃ s' ps, marshalAll H xs s = .ok s' ps ∧ Marshalled s s' ∧ ps.length = xs.length ∧ Blocks s.hp s'.hp (xs.zip ps) ∧
      ∀ m, (∀ y, s.hp ≤ y → y < s'.hp → m y = s'.mem y) → ∀ q ∈ xs.zip ps, Passed H q.1 q.2 m
  | [], s, L, _ => Or.inr ⟨s, [], rfl, .refl L, rfl, Int.le_refl _, fun _ _ _ h => by simp at h⟩
  | x :: xs, s, L, V => by
    unfold marshalAll
    rcases marshal_ok L (V x (by simp)) with ⟨e, h⟩ | ⟨s1, p, h, P⟩
    · left; exact ⟨s, e, bind_fail h, .refl L⟩
    · rw [bind_ok h]
      rcases marshalAll_ok (xs := xs) P.ok.lay (fun y hy => V y (by simp [hy])) with ⟨s2, e, h2, M⟩ | ⟨s2, ps, h2, M, hl, B, Q⟩
      · left; exact ⟨s2, e, bind_fail h2, P.ok.trans M⟩
      · right
        refine ⟨s2, p :: ps, by rw [bind_ok h2]; rfl, P.ok.trans M, by simp [hl], ?_, fun m hm q hq => ?_⟩
        · rw [List.zip_cons_cons]; unfold Blocks
          have := P.ok.regs.2.2.2
          split
          · exact B.lower this
          · rename_i ht
            exact ⟨(P.block ht).1, B.lower (P.block ht).2⟩
        · rw [List.zip_cons_cons] at hq
          have h1 := P.ok.regs.2.2.2
          have h2 := M.regs.2.2.2
          rcases List.mem_cons.1 hq with rfl | hq
          · refine P.passed m fun y k1 k2 => ?_
            rw [hm y k1 (by omega), M.mem y (Or.inl k2)]
          · exact Q m (fun y k1 k2 => hm y (by omega) k2) q hq

theorem hostWrite_ok {s : State} {a : Int} {n : Nat} {u : BitVec 64} {H : Host} {bs : List (BitVec 8)} (hH : H u = some bs)
    (hn : n ≤ bs.length) (hm : s.inMem a n) :
    ∃ H1, hostWrite s a n u H = some H1 ∧ (∀ j, j < n → H1.byte u j = some (s.mem (a + j))) ∧
      (∀ k j, (k = u → n ≤ j) → H1.byte k j = H.byte k j) ∧
      ∀ k bs, H k = some bs → ∃ bs', H1 k = some bs' ∧ bs'.length = bs.length := by
  unfold hostWrite
  rw [hH]
  simp only
  rw [if_pos ⟨hn, hm⟩]
  refine ⟨_, rfl, fun j hj => ?_, fun k j hk => ?_, fun k bs' hk => ?_⟩
  · unfold Host.byte
    simp only [if_true, Option.bind_some]
    rw [List.getElem?_append_left (by simpa using hj), List.getElem?_map, List.getElem?_range hj]
    rfl
  · unfold Host.byte
    by_cases e : k = u
    · subst e
      simp only [if_true, hH, Option.bind_some]
      have := hk rfl
      rw [List.getElem?_append_right (by simpa using this), List.getElem?_drop]
      simp only [List.length_map, List.length_range]
      rw [show n + (j - n) = j by omega]
    · simp only [if_neg e]
  · by_cases e : k = u
    · subst e
      rw [hH] at hk; cases hk
      exact ⟨_, if_pos rfl, by simp; omega⟩
    · exact ⟨bs', by simp only [if_neg e]; exact hk, rfl⟩

/-- What makes an argument fit to be copied back. -/
def Fit (s : State) (H : Host) (q : ArgSlot × Cell) : Prop :=
  q.1.back → q.1.extent = q.1.bytes ∧ (∃ bs, H q.1.u = some bs ∧ q.1.bytes ≤ bs.length) ∧ s.inMem q.2.toInt q.1.bytes

theorem copyBack_ok {s : State} : ∀ {l : List (ArgSlot × Cell)} {H : Host}, (∀ q ∈ l, Fit s H q) →
    ∃ H', copyBack s l H = some H' ∧ BroughtBack s.mem l H H'
  | [], H, _ => ⟨H, rfl, fun i x p j h => by simp at h, fun _ _ _ => rfl⟩
  | (x, p) :: l, H, F => by
    unfold copyBack
    by_cases hb : x.type ≠ argCell ∧ x.flags.getLsbD 0 = true
    · rw [if_pos hb]
      obtain ⟨he, ⟨bs, hH, hl⟩, hm⟩ := F (x, p) (by simp) hb
      obtain ⟨H1, h1, hw, hs, hlen⟩ := hostWrite_ok hH hl hm
      obtain ⟨H', h2, B⟩ := copyBack_ok (s := s) (l := l) (H := H1) fun q hq hqb => by
        obtain ⟨f1, ⟨bs', f2, f3⟩, f4⟩ := F q (by simp [hq]) hqb
        obtain ⟨bs'', f5, f6⟩ := hlen _ _ f2
        exact ⟨f1, ⟨bs'', f5, by omega⟩, f4⟩
      refine ⟨H', by rw [he, h1]; exact h2, ?_, ?_⟩
      · intro i x' p' j hi hb' hj hlater
        cases i with
        | zero =>
          simp only [List.getElem?_cons_zero, Option.some.injEq, Prod.mk.injEq] at hi
          obtain ⟨rfl, rfl⟩ := hi
          rw [B.same x.u j fun q hq hqb hqu => ?_, hw j hj]
          obtain ⟨i', hi', e'⟩ := List.getElem_of_mem hq
          exact hlater (i' + 1) q.1 q.2 (by omega)
            (by rw [List.getElem?_cons_succ, List.getElem?_eq_getElem hi', e']) hqb hqu
        | succ i =>
          rw [List.getElem?_cons_succ] at hi
          exact B.back i x' p' j hi hb' hj fun i' x2 p2 hlt hi' hb2 hu2 =>
            hlater (i' + 1) x2 p2 (by omega) (by rw [List.getElem?_cons_succ]; exact hi') hb2 hu2
      · intro k j hno
        rw [B.same k j fun q hq => hno q (by simp [hq]), hs k j fun e => hno (x, p) (by simp) hb e.symm]
    · rw [if_neg hb]
      obtain ⟨H', h2, B⟩ := copyBack_ok (s := s) (l := l) (H := H) fun q hq => F q (by simp [hq])
      refine ⟨H', h2, ?_, fun k j hno => B.same k j fun q hq => hno q (by simp [hq])⟩
      intro i x' p' j hi hb' hj hlater
      cases i with
      | zero =>
        simp only [List.getElem?_cons_zero, Option.some.injEq, Prod.mk.injEq] at hi
        obtain ⟨rfl, rfl⟩ := hi
        exact absurd hb' hb
      | succ i =>
        rw [List.getElem?_cons_succ] at hi
        exact B.back i x' p' j hi hb' hj fun i' x2 p2 hlt hi' hb2 hu2 =>
          hlater (i' + 1) x2 p2 (by omega) (by rw [List.getElem?_cons_succ]; exact hi') hb2 hu2

theorem Blocks.range {hi : Int} : ∀ {l : List (ArgSlot × Cell)} {lo : Int}, Blocks lo hi l →
    lo ≤ hi ∧ ∀ q ∈ l, q.1.type ≠ argCell → lo ≤ q.2.toInt ∧ q.2.toInt + q.1.bytes ≤ hi
  | [], _, h => ⟨h, by simp⟩
  | (x, p) :: l, lo, h => by
    unfold Blocks at h
    split at h
    · rename_i ht
      refine ⟨h.range.1, fun q hq hqt => ?_⟩
      rcases List.mem_cons.1 hq with rfl | hq
      · exact absurd ht hqt
      · exact h.range.2 q hq hqt
    · rename_i ht
      have r := h.2.range
      refine ⟨by omega, fun q hq hqt => ?_⟩
      rcases List.mem_cons.1 hq with rfl | hq
      · exact ⟨h.1, r.1⟩
      · have := r.2 q hq hqt; omega

theorem ValidArg.fit {s : State} {H : Host} {q : ArgSlot × Cell} (V : ValidArg H q.1)
    (hm : q.1.type ≠ argCell → s.inMem q.2.toInt q.1.bytes) : Fit s H q := by
  intro hb
  refine ⟨?_, ?_, hm hb.1⟩
  · cases V with
    | cell h => exact absurd h hb.1
    | ref bs h => simp [ArgSlot.extent, ArgSlot.bytes, h]
    | array bs h => simp [ArgSlot.extent, ArgSlot.bytes, h, argArray, argRef, argInt64]
    | chars bs h => simp [ArgSlot.extent, ArgSlot.bytes, h, argArray, argRef, argInt64, argChars]
  · cases V with
    | cell h => exact absurd h hb.1
    | ref bs h hH hl => exact ⟨bs, hH, by simpa [ArgSlot.bytes, h] using hl⟩
    | array bs h hH _ hl => exact ⟨bs, hH, by simpa [ArgSlot.bytes, h, argArray, argRef] using hl⟩
    | chars bs h hH _ hl => exact ⟨bs, hH, by simpa [ArgSlot.bytes, h, argArray, argRef, argChars] using hl hb.2⟩

end Verif.VM

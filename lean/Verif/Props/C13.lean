import Verif.Model.Strings
import Verif.Proofs.History

/-! C13: plain string copy; C14: UTF-8 aware string copy. -/
namespace Verif.VM

/-- Memory holds the bytes `str` at `a`, followed by a NUL; `str` has no NUL of its own. -/
structure HoldsString (m : Int → BitVec 8) (a : Int) (str : List (BitVec 8)) : Prop where
  bytes : ∀ i (h : i < str.length), m (a + i) = str[i]
  nul : m (a + str.length) = 0
  noNul : ∀ b ∈ str, b ≠ 0

/-- Nothing but the memory range `[a, a + n)` changed. -/
structure OnlyRange (s s' : State) (a n : Int) : Prop where
  regs : s' = { s with mem := s'.mem }
  mem : ∀ x, ¬ (a ≤ x ∧ x < a + n) → s'.mem x = s.mem x

theorem writeBytes_in (m : Int → BitVec 8) (a : Int) (bs : List (BitVec 8)) (i : Nat) (h : i < bs.length) :
    writeBytes m a bs (a + i) = bs[i] := by
  unfold writeBytes
  rw [if_pos (by omega), show (a + (i : Int) - a).toNat = i by omega, List.getD_eq_getElem?_getD, List.getElem?_eq_getElem h]
  rfl

theorem writeBytes_out (m : Int → BitVec 8) (a : Int) (bs : List (BitVec 8)) (x : Int)
    (h : ¬ (a ≤ x ∧ x < a + bs.length)) : writeBytes m a bs x = m x := by
  unfold writeBytes; rw [if_neg h]

theorem copyIn_ok (s : State) (a : Int) (bs : List (BitVec 8)) (h : s.inMem a bs.length) :
    copyIn a bs s = .ok { s with mem := writeBytes s.mem a bs } () := by
  unfold copyIn; rw [if_pos h]

/-- Copy `len` bytes and terminate, inside a buffer of `n` bytes. -/
theorem copy_terminate (s : State) (a : Int) (n k : Nat) (source : List (BitVec 8)) (hk : k ≤ source.length)
    (hkn : k < n) (hs : ∀ b ∈ source, b ≠ 0) :
    HoldsString (wr8 (writeBytes s.mem a (source.take k)) (a + k) 0) a (source.take k) ∧
    ∀ x, ¬ (a ≤ x ∧ x < a + n) → wr8 (writeBytes s.mem a (source.take k)) (a + k) 0 x = s.mem x := by
  have hl : (source.take k).length = k := by simp; omega
  refine ⟨⟨?_, ?_, ?_⟩, ?_⟩
  · intro i hi
    unfold wr8
    rw [if_neg (by omega), writeBytes_in _ _ _ i hi]
  · unfold wr8; rw [hl, if_pos rfl]
  · intro b hb; exact hs b (List.mem_of_mem_take hb)
  · intro x hx
    unfold wr8
    rw [if_neg (by omega), writeBytes_out _ _ _ _ (by rw [hl]; omega)]

/-- **C13.** Copying a host string into a buffer of `n > 0` bytes that lies in plugin memory either reports a
bad address without any effect, or succeeds, changes nothing outside the buffer, and leaves there a NUL
terminated string: the source cut to `n - 1` bytes, hence the source itself whenever it fits. -/
theorem C13_string_copy (s : State) (a : Int) (n : Nat) (source : List (BitVec 8)) (hn : 0 < n)
    (hs : ∀ b ∈ source, b ≠ 0) (hbuf : a + n ≤ s.memSize) :
    (badStringAddr s a ∧ stringToLocal a n source s = .fail s .invalidAddress) ∨
    ∃ s', stringToLocal a n source s = .ok s' () ∧ OnlyRange s s' a n ∧
      HoldsString s'.mem a (source.take (n - 1)) ∧ (source.length < n → HoldsString s'.mem a source) := by
  unfold stringToLocal
  by_cases hb : badStringAddr s a
  · exact Or.inl ⟨hb, by rw [if_pos hb]⟩
  · right
    rw [if_neg hb, if_neg (by omega)]
    have ha : 0 ≤ a := by unfold badStringAddr at hb; omega
    dsimp only
    generalize hk : (if source.length ≥ n then n - 1 else source.length) = k
    have h1 : k ≤ source.length := by split at hk <;> omega
    have h2 : k < n := by split at hk <;> omega
    have ht : source.take k = source.take (n - 1) := by
      split at hk
      · rw [← hk]
      · rw [← hk, List.take_length, List.take_of_length_le (by omega)]
    have hl : (source.take k).length = k := by simp; omega
    obtain ⟨c1, c2⟩ := copy_terminate s a n k source h1 h2 hs
    refine ⟨{ s with mem := wr8 (writeBytes s.mem a (source.take k)) (a + k) 0 }, ?_, ⟨rfl, c2⟩, ?_, ?_⟩
    · rw [bind_ok (copyIn_ok s a _ ⟨ha, by rw [hl]; omega⟩)]
      unfold storeRaw8
      rw [if_pos ⟨by omega, by show a + ↑k + 1 ≤ s.memSize; omega⟩]
    · rw [← ht]; exact c1
    · intro hfit
      have : source.take k = source := by rw [ht, List.take_of_length_le (by omega)]
      rw [this] at c1; rw [this]; exact c1

/-! ## C14 -/

/-- The UTF-8 encoding (Lean core's `String.utf8EncodeChar`) of a sequence of Unicode scalar values. -/
def utf8 (cs : List Char) : List (BitVec 8) := (cs.map fun c => (String.utf8EncodeChar c).map UInt8.toBitVec).flatten

/-- A continuation byte. -/
abbrev IsCont (b : BitVec 8) : Prop := b &&& 0xC0 = 0x80

/-- Shape of one encoded character: an ASCII byte, or a lead byte announcing the length, then continuation
bytes. -/
theorem utf8_char_shape (c : Char) :
    ∃ (b : BitVec 8) (rest : List (BitVec 8)), (String.utf8EncodeChar c).map UInt8.toBitVec = b :: rest ∧
      ¬ IsCont b ∧ (∀ x ∈ rest, IsCont x) ∧
      ((rest = [] ∧ b &&& 0x80 = 0) ∨ (rest ≠ [] ∧ b &&& 0x80 ≠ 0 ∧ leadLength b = rest.length + 1)) := by
  have conts : ∀ b : BitVec 8, b.toNat / 64 = 2 → IsCont b := by decide +kernel
  have ascii : ∀ b : BitVec 8, b.toNat < 128 → ¬ IsCont b ∧ b &&& 0x80 = 0 := by decide +kernel
  have lead2 : ∀ b : BitVec 8, b.toNat / 32 = 6 → ¬ IsCont b ∧ b &&& 0x80 ≠ 0 ∧ leadLength b = 2 := by decide +kernel
  have lead3 : ∀ b : BitVec 8, b.toNat / 16 = 14 → ¬ IsCont b ∧ b &&& 0x80 ≠ 0 ∧ leadLength b = 3 := by decide +kernel
  have lead4 : ∀ b : BitVec 8, b.toNat / 8 = 30 → ¬ IsCont b ∧ b &&& 0x80 ≠ 0 ∧ leadLength b = 4 := by decide +kernel
  have tn : ∀ x : Nat, x < 256 → (UInt8.ofNat x).toBitVec.toNat = x := by
    intro x hx
    simp [UInt8.toNat_toBitVec, Nat.mod_eq_of_lt hx]
  unfold String.utf8EncodeChar
  dsimp only
  generalize c.val.toNat = v
  split
  · obtain ⟨h1, h2⟩ := ascii (UInt8.ofNat v).toBitVec (by rw [tn _ (by omega)]; omega)
    exact ⟨_, [], rfl, h1, by simp, Or.inl ⟨rfl, h2⟩⟩
  split
  · obtain ⟨h1, h2, h3⟩ := lead2 (UInt8.ofNat (v / 64 % 0x20 + 0xc0)).toBitVec (by rw [tn _ (by omega)]; omega)
    refine ⟨_, _, rfl, h1, ?_, Or.inr ⟨by simp, h2, h3⟩⟩
    intro x hx
    simp only [List.map_cons, List.map_nil, List.mem_cons, List.not_mem_nil, or_false] at hx
    subst hx
    exact conts _ (by rw [tn _ (by omega)]; omega)
  split
  · obtain ⟨h1, h2, h3⟩ := lead3 (UInt8.ofNat (v / 4096 % 0x10 + 0xe0)).toBitVec (by rw [tn _ (by omega)]; omega)
    refine ⟨_, _, rfl, h1, ?_, Or.inr ⟨by simp, h2, h3⟩⟩
    intro x hx
    simp only [List.map_cons, List.map_nil, List.mem_cons, List.not_mem_nil, or_false] at hx
    rcases hx with hx | hx <;> (subst hx; exact conts _ (by rw [tn _ (by omega)]; omega))
  · obtain ⟨h1, h2, h3⟩ := lead4 (UInt8.ofNat (v / 262144 % 0x08 + 0xf0)).toBitVec (by rw [tn _ (by omega)]; omega)
    refine ⟨_, _, rfl, h1, ?_, Or.inr ⟨by simp, h2, h3⟩⟩
    intro x hx
    simp only [List.map_cons, List.map_nil, List.mem_cons, List.not_mem_nil, or_false] at hx
    rcases hx with hx | hx | hx <;> (subst hx; exact conts _ (by rw [tn _ (by omega)]; omega))

/-- The backwards walk stops at the first byte that is no continuation byte. -/
theorem checkValidChar_walk (m : Int → BitVec 8) (p : Nat) (hp : ¬ IsCont (m p)) :
    ∀ (j count : Nat), (∀ i : Nat, p < i → i ≤ p + j → IsCont (m i)) →
      checkValidChar m (p + j + 1) count =
        some (if leadLength (m p) ≠ count + j then count + j else 0) := by
  intro j
  induction j with
  | zero => intro count _; unfold checkValidChar; rw [if_neg hp]; rfl
  | succ j ih =>
    intro count h
    unfold checkValidChar
    have h1 := h (p + (j + 1)) (by omega) (by omega)
    rw [if_pos h1, show p + (j + 1) = p + j + 1 by omega, ih (count + 1) (fun i h1 h2 => h i h1 (by omega)),
      show count + 1 + j = count + (j + 1) by omega]

/-- Cutting an encoded text: the whole characters that fit, and the beginning of the next one. -/
theorem utf8_cut : ∀ (cs : List Char) (n : Nat), n < (utf8 cs).length →
    ∃ (k : Nat) (c : Char) (part : List (BitVec 8)), k < cs.length ∧ cs[k]? = some c ∧
      (utf8 cs).take n = utf8 (cs.take k) ++ part ∧
      part.length < ((String.utf8EncodeChar c).map UInt8.toBitVec).length ∧
      part = ((String.utf8EncodeChar c).map UInt8.toBitVec).take part.length
  | [], n, h => by simp [utf8] at h
  | c :: cs, n, h => by
    have e : utf8 (c :: cs) = (String.utf8EncodeChar c).map UInt8.toBitVec ++ utf8 cs := by simp [utf8]
    generalize hc : (String.utf8EncodeChar c).map UInt8.toBitVec = bs at e
    rcases Nat.lt_or_ge n bs.length with hlt | hge
    · refine ⟨0, c, bs.take n, by simp, rfl, ?_, by rw [hc]; simp; omega, ?_⟩
      · rw [e, List.take_append_of_le_length (by omega)]; simp [utf8]
      · rw [hc]; simp [List.length_take, Nat.min_eq_left (Nat.le_of_lt hlt)]
    · rw [e, List.length_append] at h
      obtain ⟨k, d, part, h1, h2, h3, h4, h5⟩ := utf8_cut cs (n - bs.length) (by omega)
      refine ⟨k + 1, d, part, by simpa using h1, by simpa using h2, ?_, h4, h5⟩
      rw [e, List.take_append, List.take_of_length_le hge, h3]
      simp [utf8, hc]

theorem utf8_take_succ {cs : List Char} {k : Nat} {c : Char} (h : cs[k]? = some c) :
    utf8 (cs.take (k + 1)) = utf8 (cs.take k) ++ (String.utf8EncodeChar c).map UInt8.toBitVec := by
  rw [List.take_add_one, h]
  simp [utf8]

/-- The longest prefix of whole characters of `cs` that fits in `room` bytes has `k` characters. -/
structure LongestPrefix (cs : List Char) (room k : Nat) : Prop where
  le : k ≤ cs.length
  fits : (utf8 (cs.take k)).length ≤ room
  longest : ∀ j, k < j → j ≤ cs.length → room < (utf8 (cs.take j)).length

theorem utf8_take_mono (cs : List Char) : ∀ (d j : Nat), (utf8 (cs.take j)).length ≤ (utf8 (cs.take (j + d))).length := by
  intro d
  induction d with
  | zero => intro j; exact Nat.le_refl _
  | succ d ih =>
    intro j
    refine Nat.le_trans (ih j) ?_
    cases h : cs[j + d]? with
    | none =>
      rw [List.getElem?_eq_none_iff] at h
      rw [List.take_of_length_le h, List.take_of_length_le (by omega)]; exact Nat.le_refl _
    | some c => rw [show j + (d + 1) = j + d + 1 by omega, utf8_take_succ h, List.length_append]; omega

theorem utf8_take_prefix (cs : List Char) (k : Nat) : utf8 cs = utf8 (cs.take k) ++ utf8 (cs.drop k) := by
  unfold utf8
  rw [← List.flatten_append, ← List.map_append, List.take_append_drop]

theorem utf8_append (a b : List Char) : utf8 (a ++ b) = utf8 a ++ utf8 b := by simp [utf8]

/-- A copy of `len` bytes, terminated after `k` of them. -/
theorem copy_cut (s : State) (a : Int) (n len k : Nat) (source : List (BitVec 8)) (hl : len ≤ source.length)
    (hk : k ≤ len) (hkn : len < n) (hs : ∀ b ∈ source, b ≠ 0) :
    HoldsString (wr8 (writeBytes s.mem a (source.take len)) (a + k) 0) a (source.take k) ∧
    ∀ x, ¬ (a ≤ x ∧ x < a + n) → wr8 (writeBytes s.mem a (source.take len)) (a + k) 0 x = s.mem x := by
  have h1 : (source.take len).length = len := by simp; omega
  have h2 : (source.take k).length = k := by simp; omega
  refine ⟨⟨?_, ?_, ?_⟩, ?_⟩
  · intro i hi
    rw [h2] at hi
    unfold wr8
    rw [if_neg (by omega), writeBytes_in _ _ _ i (by omega)]
    simp
  · unfold wr8; rw [h2, if_pos rfl]
  · intro b hb; exact hs b (List.mem_of_mem_take hb)
  · intro x hx
    unfold wr8
    rw [if_neg (by omega), writeBytes_out _ _ _ _ (by rw [h1]; omega)]

/-- The check after a copy that ends in the (possibly cut) multi-byte character `b :: r`. -/
theorem check_tail (m : Int → BitVec 8) (a : Int) (ha : 0 ≤ a) (pre r : List (BitVec 8)) (b : BitVec 8)
    (hb : ¬ IsCont b) (hr : ∀ x ∈ r, IsCont x) (hh : b &&& 0x80 ≠ 0) :
    let w := pre ++ b :: r
    writeBytes m a w (a + w.length - 1) &&& 0x80 ≠ 0 ∧
    checkValidChar (writeBytes m a w) (a + w.length).toNat 1 =
      some (if leadLength b ≠ r.length + 1 then r.length + 1 else 0) := by
  intro w
  have contHigh : ∀ x : BitVec 8, IsCont x → x &&& 0x80 ≠ 0 := by decide +kernel
  have hw : w.length = pre.length + 1 + r.length := by simp [w]; omega
  have hat : ∀ i (h : i < w.length), writeBytes m a w (a + i) = w[i] := fun i h => writeBytes_in m a w i h
  have hlead : writeBytes m a w (a + pre.length) = b := by
    rw [hat pre.length (by omega)]; simp [w]
  have hcont : ∀ i : Nat, i < r.length → IsCont (writeBytes m a w (a + ((pre.length + 1 + i : Nat) : Int))) := by
    intro i hi
    rw [hat _ (by omega)]
    apply hr
    simp only [w]
    rw [List.getElem_append_right (by omega)]
    have : pre.length + 1 + i - pre.length = i + 1 := by omega
    simp only [this, List.getElem_cons_succ]
    exact List.getElem_mem _
  constructor
  · by_cases h0 : r = []
    · subst h0
      have : a + (w.length : Int) - 1 = a + pre.length := by rw [hw]; simp; omega
      rw [this, hlead]; exact hh
    · have h1 : 0 < r.length := List.length_pos_iff.2 h0
      have : a + (w.length : Int) - 1 = a + ((pre.length + 1 + (r.length - 1) : Nat) : Int) := by rw [hw]; omega
      rw [this]
      exact contHigh _ (hcont _ (by omega))
  · have e : (a + (w.length : Int)).toNat = (a + pre.length).toNat + r.length + 1 := by omega
    rw [e]
    have hp : (((a + pre.length).toNat : Nat) : Int) = a + pre.length := by omega
    rw [checkValidChar_walk _ (a + pre.length).toNat (by rw [hp, hlead]; exact hb) r.length 1 ?_, hp, hlead, Nat.add_comm 1]
    intro i h1 h2
    have := hcont (i - ((a + pre.length).toNat + 1)) (by omega)
    have e2 : a + ((pre.length + 1 + (i - ((a + pre.length).toNat + 1)) : Nat) : Int) = i := by omega
    rwa [e2] at this

theorem utf8_nonempty {cs : List Char} (h : cs ≠ []) : 0 < (utf8 cs).length := by
  cases cs with
  | nil => exact absurd rfl h
  | cons c cs =>
    obtain ⟨b, rest, e, _⟩ := utf8_char_shape c
    simp [utf8, e]

/-- **C14 (partial).** Copying a UTF-8 text into a buffer of `n ≥ 2` bytes inside plugin memory, at an address the
VM accepts, succeeds, changes nothing outside the buffer and leaves a NUL terminated string: exactly the
longest prefix of whole characters that fits in `n - 1` bytes; the reported count is its length.  Missing:
`n = 1` (see `C14_one_byte_buffer_corrupts`), and an empty text at address 0 (see
`C14_empty_text_reads_before_memory`). -/
theorem C14_utf8_copy_partial (s : State) (a : Int) (n : Nat) (cs : List Char) (hn : 2 ≤ n) (hn64 : n < 2 ^ 64)
    (hs : ∀ b ∈ utf8 cs, b ≠ 0) (hbuf : a + n ≤ s.memSize) (haddr : ¬ badStringAddr s a)
    (hne : cs ≠ [] ∨ 0 < a) :
    ∃ s' k, LongestPrefix cs (n - 1) k ∧
      stringToLocalUTF8 a n (utf8 cs) s = .ok s' (some (utf8 (cs.take k)).length) ∧
      OnlyRange s s' a n ∧ HoldsString s'.mem a (utf8 (cs.take k)) := by
  have ha : 0 ≤ a := by unfold badStringAddr at haddr; omega
  -- the run, once the number of dropped bytes is known
  have run : ∀ (len d k : Nat), len = (if (utf8 cs).length ≥ n then n - 1 else (utf8 cs).length) →
      d ≤ len → utf8 (cs.take k) = (utf8 cs).take (len - d) → 0 ≤ a + len - 1 →
      (if writeBytes s.mem a ((utf8 cs).take len) (a + len - 1) &&& 0x80 ≠ 0 ∧ (utf8 cs).length ≥ n then
        checkValidChar (writeBytes s.mem a ((utf8 cs).take len)) (a + len).toNat 1 else some 0) = some d →
      LongestPrefix cs (n - 1) k →
      ∃ s' k, LongestPrefix cs (n - 1) k ∧
        stringToLocalUTF8 a n (utf8 cs) s = .ok s' (some (utf8 (cs.take k)).length) ∧
        OnlyRange s s' a n ∧ HoldsString s'.mem a (utf8 (cs.take k)) := by
    intro len d k hlen hd hk h0 hdrop hp
    have hl1 : len ≤ (utf8 cs).length := by split at hlen <;> omega
    have hl2 : len < n := by split at hlen <;> omega
    have hl : ((utf8 cs).take len).length = len := by simp; omega
    have hl3 : ((utf8 cs).take (len - d)).length = len - d := by simp; omega
    obtain ⟨c1, c2⟩ := copy_cut s a n len (len - d) (utf8 cs) hl1 (by omega) hl2 hs
    refine ⟨{ s with mem := wr8 (writeBytes s.mem a ((utf8 cs).take len)) (a + (len - d : Nat)) 0 }, k, hp, ?_, ⟨rfl, c2⟩, ?_⟩
    · unfold stringToLocalUTF8
      rw [if_neg haddr, if_neg (by omega)]
      dsimp only
      rw [← hlen, copyIn_ok s a _ ⟨ha, by rw [hl]; omega⟩]
      dsimp only
      rw [if_neg (by simp only [State.inMem]; omega), hdrop]
      dsimp only
      unfold storeRaw8
      rw [if_pos ⟨by omega, by show a + ↑len - ↑d + 1 ≤ s.memSize; omega⟩]
      dsimp only
      have e3 : (((len : Int) - (d : Int)) % 2 ^ 64).toNat = len - d := by
        rw [Int.emod_eq_of_lt (by omega) (by omega)]; omega
      rw [show a + (len : Int) - (d : Int) = a + ((len - d : Nat) : Int) by omega, hk, hl3, e3]
    · rw [hk]; exact c1
  rcases Nat.lt_or_ge (utf8 cs).length n with hfit | hlong
  · -- everything fits
    refine run (utf8 cs).length 0 cs.length (by rw [if_neg (by omega)]) (by omega) (by simp) ?_ ?_ ?_
    · rcases hne with h | h
      · have := utf8_nonempty h; omega
      · omega
    · rw [if_neg (by omega)]
    · exact ⟨Nat.le_refl _, by rw [List.take_length]; omega, fun j h1 h2 => by omega⟩
  · -- the text is cut
    obtain ⟨k, c, part, h1, h2, h3, h4, h5⟩ := utf8_cut cs (n - 1) (by omega)
    have hlt : ((utf8 cs).take (n - 1)).length = n - 1 := by simp; omega
    have hsum : (utf8 (cs.take k)).length + part.length = n - 1 := by
      rw [← hlt, h3, List.length_append]
    have hpre : utf8 (cs.take k) = (utf8 cs).take (n - 1 - part.length) := by
      have e : n - 1 - part.length = (utf8 (cs.take k)).length := by omega
      rw [e]
      conv => rhs; rw [utf8_take_prefix cs k]
      rw [List.take_left]
    have hlp : LongestPrefix cs (n - 1) k := by
      refine ⟨Nat.le_of_lt h1, by omega, fun j hj hj2 => ?_⟩
      have e := utf8_take_succ h2
      have hm := utf8_take_mono cs (j - (k + 1)) (k + 1)
      rw [show k + 1 + (j - (k + 1)) = j by omega] at hm
      rw [e, List.length_append] at hm
      omega
    refine run (n - 1) part.length k (by rw [if_pos hlong]) (by omega) hpre (by omega) ?_ hlp
    obtain ⟨b, rest, hc, hb1, hb2, hb3⟩ := utf8_char_shape c
    by_cases hpart : part = []
    · -- the cut is between two characters
      subst hpart
      simp only [List.length_nil, Nat.add_zero, List.append_nil] at hsum h3 ⊢
      obtain ⟨k', rfl⟩ : ∃ k', k = k' + 1 := by
        cases k with
        | zero => simp [utf8] at hsum; omega
        | succ k' => exact ⟨k', rfl⟩
      obtain ⟨c', hc'⟩ : ∃ c', cs[k']? = some c' := ⟨cs[k'], List.getElem?_eq_getElem (by omega)⟩
      obtain ⟨b', rest', hd, hb1', hb2', hb3'⟩ := utf8_char_shape c'
      rw [utf8_take_succ hc', hd] at h3
      rw [h3]
      have hw : (utf8 (cs.take k') ++ b' :: rest').length = n - 1 := by rw [← h3, hlt]
      rcases hb3' with ⟨hr, hz⟩ | ⟨hr, hz, hl⟩
      · rw [if_neg]
        subst hr
        intro hcon
        apply hcon.1
        have := writeBytes_in s.mem a (utf8 (cs.take k') ++ [b']) (utf8 (cs.take k')).length (by simp)
        rw [show a + ((n - 1 : Nat) : Int) - 1 = a + ((utf8 (cs.take k')).length : Int) by
          rw [← hw]; simp; omega, this]
        simpa using hz
      · obtain ⟨t1, t2⟩ := check_tail s.mem a ha (utf8 (cs.take k')) rest' b' hb1' hb2' hz
        rw [hw] at t1 t2
        rw [if_pos ⟨t1, hlong⟩, t2, if_neg (by omega)]
    · -- the cut splits a character
      have hpl : 0 < part.length := List.length_pos_iff.2 hpart
      rw [hc] at h4 h5
      simp only [List.length_cons] at h4
      obtain ⟨q, hq⟩ : ∃ q, part.length = q + 1 := ⟨part.length - 1, by omega⟩
      have hpe : part = b :: rest.take q := by
        rw [h5, hq, List.take_succ_cons]
      have hql : (rest.take q).length = q := by simp; omega
      rcases hb3 with ⟨hr, _⟩ | ⟨hr, hz, hl⟩
      · rw [hr, List.length_nil] at h4; omega
      · obtain ⟨t1, t2⟩ := check_tail s.mem a ha (utf8 (cs.take k)) (rest.take q) b hb1
          (fun x hx => hb2 x (List.mem_of_mem_take hx)) hz
        rw [← hpe, ← h3, hlt] at t1 t2
        rw [if_pos ⟨t1, hlong⟩, t2, hql, hl, if_pos (by omega), hq]

/-- A state with a stray byte in front of a buffer at address 100. -/
def strayState : State := init (fun x => if x = 99 then 0xC3 else 0) 200 20000 true true

/-- **C14 is false for a one-byte buffer.** If the text does not fit and the byte in front of the buffer is not
ASCII, that byte, outside the buffer, is overwritten and the reported count is 2^64 - 1. -/
theorem C14_one_byte_buffer_corrupts :
    strayState.mem 99 = 0xC3 ∧ ∃ s' r, stringToLocalUTF8 100 1 [0x41] strayState = .ok s' r ∧
      (s'.mem 99 == 0 && r == some (2 ^ 64 - 1)) = true :=
  ⟨rfl, Res.exists_ok (p := fun (s' : State) r => s'.mem 99 == 0 && r == some (2 ^ 64 - 1)) (by decide +kernel)⟩

/-- Copying an empty text to address 0 reads the byte in front of plugin memory. -/
theorem C14_empty_text_reads_before_memory (n : Nat) (hn : 2 ≤ n) (hn2 : n < 200) :
    ¬ badStringAddr strayState 0 ∧ stringToLocalUTF8 0 n [] strayState = .ub := by
  refine ⟨by decide, ?_⟩
  unfold stringToLocalUTF8
  rw [if_neg (by decide), if_neg (by omega)]
  dsimp only
  rw [if_neg (show ¬ ([] : List (BitVec 8)).length ≥ n by simp; omega)]
  rfl

/-! ### Non-vacuity -/

example : ∃ s' r, stringToLocal 100 4 [0x41, 0x42, 0x43, 0x44, 0x45] strayState = .ok s' r ∧
    (s'.mem 102 == 0x43 && s'.mem 103 == 0 && s'.mem 104 == 0) = true :=
  Res.exists_ok (p := fun (s' : State) _ => s'.mem 102 == 0x43 && s'.mem 103 == 0 && s'.mem 104 == 0) (by decide +kernel)

/-- "aé€" -/
def sampleText : List Char := ['a', 'é', '€']

example : utf8 sampleText = [0x61, 0xC3, 0xA9, 0xE2, 0x82, 0xAC] := by decide +kernel
-- cut inside the last character: three bytes are kept
example : ∃ s' r, stringToLocalUTF8 100 6 (utf8 sampleText) strayState = .ok s' r ∧
    (s'.mem 102 == 0xA9 && s'.mem 103 == 0 && r == some 3) = true :=
  Res.exists_ok (p := fun (s' : State) r => s'.mem 102 == 0xA9 && s'.mem 103 == 0 && r == some 3) (by decide +kernel)
example : ¬ badStringAddr strayState 100 := by decide
example : LongestPrefix sampleText 5 2 :=
  ⟨by decide, by decide +kernel, fun j h1 h2 => by
    have : j = 3 := by simp [sampleText] at h2; omega
    subst this; decide +kernel⟩

end Verif.VM

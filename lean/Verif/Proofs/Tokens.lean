import Verif.Spec.Tokens
namespace Verif.Tokens
open Verif.Text (Byte isSpace isNewline isDigit NumTok Body prefixOf tokenOf Follows lexNumber)

theorem range_iff (b : Byte) (lo hi : Char) (h : hi.toNat < 128) :
    (∃ c : Char, b = ch c ∧ lo ≤ c ∧ c ≤ hi) ↔ lo.toNat ≤ b.toNat ∧ b.toNat ≤ hi.toNat := by
  constructor
  · rintro ⟨c, rfl, h1, h2⟩
    have h1' : lo.toNat ≤ c.toNat := h1
    have h2' : c.toNat ≤ hi.toNat := h2
    have : (ch c).toNat = c.toNat := by
      show (BitVec.ofNat 8 c.toNat).toNat = _
      rw [BitVec.toNat_ofNat]; omega
    omega
  · rintro ⟨h1, h2⟩
    have hn : (Char.ofNat b.toNat).toNat = b.toNat := by
      have hv : b.toNat.isValidChar := Or.inl (by omega)
      rw [Char.ofNat, dif_pos hv]; rfl
    refine ⟨Char.ofNat b.toNat, ?_, ?_, ?_⟩
    · show b = BitVec.ofNat 8 (Char.ofNat b.toNat).toNat
      rw [hn]; simp
    · show lo.toNat ≤ (Char.ofNat b.toNat).toNat
      omega
    · show (Char.ofNat b.toNat).toNat ≤ hi.toNat
      omega

theorem letter_iff (b : Byte) : Letter b ↔ isLetter b = true := by
  have h1 := range_iff b 'a' 'z' (by decide)
  have h2 := range_iff b 'A' 'Z' (by decide)
  simp only [isLetter, decide_eq_true_eq]
  constructor
  · rintro ⟨c, hb, hc | hc⟩
    · exact Or.inr (h1.mp ⟨c, hb, hc⟩)
    · exact Or.inl (h2.mp ⟨c, hb, hc⟩)
  · rintro (h | h)
    · obtain ⟨c, hb, hc⟩ := h2.mpr h; exact ⟨c, hb, Or.inr hc⟩
    · obtain ⟨c, hb, hc⟩ := h1.mpr h; exact ⟨c, hb, Or.inl hc⟩

theorem startsName_iff (b : Byte) : StartsName b ↔ isAlpha b = true := by
  simp only [StartsName, letter_iff, isAlpha, Bool.or_eq_true, beq_iff_eq, or_assoc]

theorem inName_iff (b : Byte) : InName b ↔ isWord b = true := by
  have h := range_iff b '0' '9' (by decide)
  have e : isDigit b = true ↔ '0'.toNat ≤ b.toNat ∧ b.toNat ≤ '9'.toNat := by
    simp only [isDigit, decide_eq_true_eq]; exact Iff.rfl
  simp only [InName, letter_iff, isWord, Bool.or_eq_true, beq_iff_eq, or_assoc, h, e]

theorem not_inName_iff (b : Byte) : ¬ InName b ↔ isWord b = false := by
  rw [inName_iff, Bool.not_eq_true]

theorem mc_some {b : Byte} {s r : List Byte} (h : mc b s = some r) : s = b :: r := by
  cases s with
  | nil => cases h
  | cons c s =>
    simp only [mc] at h
    split at h
    · rename_i hc; cases h; rw [hc]
    · cases h

theorem mc_none {b : Byte} {s : List Byte} (h : mc b s = none) : ∀ r, s ≠ b :: r := by
  intro r hs
  rw [hs] at h
  simp [mc] at h

theorem operators_eq : operators = [[42], [42, 61], [47], [47, 61], [37], [37, 61], [43], [43, 61], [43, 43], [45], [45, 61], [45, 45], [60], [60, 61], [60, 60], [60, 60, 61], [62], [62, 61], [62, 62], [62, 62, 61], [62, 62, 62], [62, 62, 62, 61], [38], [38, 61], [38, 38], [94], [94, 61], [124], [124, 61], [124, 124], [61], [61, 61], [33], [33, 61], [46], [46, 46], [46, 46, 46], [58], [58, 58]] := by decide +kernel

/-- The operators with a given first byte. -/
theorem op_cases {u s : List Byte} (hu : u ∈ operators) (hp : u <+: s) :
    u ∈ operators.filter (fun v => v.head? == s.head?) := by
  refine List.mem_filter.mpr ⟨hu, ?_⟩
  have hne : u ≠ [] := by
    intro h; rw [h, operators_eq] at hu; revert hu; decide
  obtain ⟨t, rfl⟩ := hp
  cases u with
  | nil => exact absurd rfl hne
  | cons a u => simp

/-- `t` is the longest operator that the text starts with. -/
def Longest (s : List Byte) (p : List Byte × List Byte) : Prop :=
  s = p.1 ++ p.2 ∧ p.1 ∈ operators ∧ ∀ u ∈ operators, u <+: s → u.length ≤ p.1.length

theorem longest_of {k : Byte} {r : List Byte} {p : List Byte × List Byte} (us : List (List Byte))
    (hf : operators.filter (fun v => v.head? == some k) = us) (h1 : k :: r = p.1 ++ p.2) (h2 : p.1 ∈ us)
    (h3 : ∀ u ∈ us, u <+: k :: r → u.length ≤ p.1.length) : Longest (k :: r) p := by
  refine ⟨h1, ?_, fun u hu hp => ?_⟩
  · rw [← hf] at h2; exact (List.mem_filter.mp h2).1
  · have := op_cases hu hp
    simp only [List.head?_cons] at this
    rw [hf] at this
    exact h3 u this hp

theorem orEq_longest {k : Byte} (r : List Byte)
    (hf : operators.filter (fun v => v.head? == some k) = [[k], [k, ch '=']]) : Longest (k :: r) (orEq k r) := by
  unfold orEq
  cases h : mc (ch '=') r with
  | some r' =>
    refine longest_of _ hf (by rw [mc_some h]; rfl) (by simp) ?_
    intro u hu hp
    simp only [List.mem_cons, List.not_mem_nil, or_false] at hu
    rcases hu with rfl | rfl <;> simp
  | none =>
    refine longest_of _ hf rfl (by simp) ?_
    intro u hu hp
    simp only [List.mem_cons, List.not_mem_nil, or_false] at hu
    rcases hu with rfl | rfl
    · simp
    · obtain ⟨t, ht⟩ := hp
      simp only [List.cons_append, List.nil_append, List.cons.injEq, true_and] at ht
      exact absurd ht.symm (mc_none h t)

theorem orEqTwice_longest {k : Byte} (r : List Byte)
    (hf : operators.filter (fun v => v.head? == some k) = [[k], [k, ch '='], [k, k]]) :
    Longest (k :: r) (orEqTwice k r) := by
  unfold orEqTwice
  cases h : mc (ch '=') r with
  | some r' =>
    refine longest_of _ hf (by rw [mc_some h]; rfl) (by simp) ?_
    intro u hu hp
    simp only [List.mem_cons, List.not_mem_nil, or_false] at hu
    rcases hu with rfl | rfl | rfl <;> simp
  | none =>
    cases h2 : mc k r with
    | some r' =>
      refine longest_of _ hf (by rw [mc_some h2]; rfl) (by simp) ?_
      intro u hu hp
      simp only [List.mem_cons, List.not_mem_nil, or_false] at hu
      rcases hu with rfl | rfl | rfl <;> simp
    | none =>
      refine longest_of _ hf rfl (by simp) ?_
      intro u hu hp
      simp only [List.mem_cons, List.not_mem_nil, or_false] at hu
      rcases hu with rfl | rfl | rfl
      · simp
      · obtain ⟨t, ht⟩ := hp
        simp only [List.cons_append, List.nil_append, List.cons.injEq, true_and] at ht
        exact absurd ht.symm (mc_none h t)
      · obtain ⟨t, ht⟩ := hp
        simp only [List.cons_append, List.nil_append, List.cons.injEq, true_and] at ht
        exact absurd ht.symm (mc_none h2 t)

def lexLess (r : List Byte) : List Byte × List Byte :=
  match mc (ch '<') r with
  | some r1 =>
    match mc (ch '=') r1 with
    | some r2 => (str "<<=", r2)
    | none => (str "<<", r1)
  | none => orEq (ch '<') r

def lexMore (r : List Byte) : List Byte × List Byte :=
  match mc (ch '>') r with
  | some r1 =>
    match mc (ch '>') r1 with
    | some r2 =>
      match mc (ch '=') r2 with
      | some r3 => (str ">>>=", r3)
      | none => (str ">>>", r2)
    | none =>
      match mc (ch '=') r1 with
      | some r2 => (str ">>=", r2)
      | none => (str ">>", r1)
  | none => orEq (ch '>') r

def lexDot (r : List Byte) : List Byte × List Byte :=
  match mc (ch '.') r with
  | some r1 =>
    match mc (ch '.') r1 with
    | some r2 => (str "...", r2)
    | none => (str "..", r1)
  | none => (str ".", r)

def lexColon (r : List Byte) : List Byte × List Byte :=
  match mc (ch ':') r with
  | some r1 => (str "::", r1)
  | none => (str ":", r)

theorem mc_cons (b c : Byte) (r : List Byte) : mc b (c :: r) = if c = b then some r else none := rfl

theorem less_longest (r : List Byte) : Longest (ch '<' :: r) (lexLess r) := by
  have hf : operators.filter (fun v => v.head? == some (ch '<')) = [[60], [60, 61], [60, 60], [60, 60, 61]] := by
    decide +kernel
  have k1 : ch '<' = 60 := rfl
  have k2 : ch '=' = 61 := rfl
  have e1 : str "<<=" = [60, 60, 61] := by decide +kernel
  have e2 : str "<<" = [60, 60] := by decide +kernel
  rw [k1] at hf ⊢
  simp only [lexLess, orEq, k1, k2, e1, e2]
  cases r with
  | nil => refine longest_of _ hf ?_ ?_ ?_ <;> simp [mc]
  | cons a r =>
    by_cases ha : a = 60#8
    · subst ha
      cases r with
      | nil => refine longest_of _ hf ?_ ?_ ?_ <;> simp [mc]
      | cons b r =>
        by_cases hb : b = 61#8
        · subst hb
          refine longest_of _ hf ?_ ?_ ?_ <;> simp [mc]
        · refine longest_of _ hf ?_ ?_ ?_ <;> simp [mc, hb, Ne.symm hb]
    · by_cases hb : a = 61#8
      · subst hb
        refine longest_of _ hf ?_ ?_ ?_ <;> simp [mc]
      · refine longest_of _ hf ?_ ?_ ?_ <;> simp [mc, ha, hb, Ne.symm ha, Ne.symm hb]

theorem more_longest (r : List Byte) : Longest (ch '>' :: r) (lexMore r) := by
  have hf : operators.filter (fun v => v.head? == some (ch '>')) =
      [[62], [62, 61], [62, 62], [62, 62, 61], [62, 62, 62], [62, 62, 62, 61]] := by decide +kernel
  have k1 : ch '>' = 62 := rfl
  have k2 : ch '=' = 61 := rfl
  have e1 : str ">>>=" = [62, 62, 62, 61] := by decide +kernel
  have e2 : str ">>>" = [62, 62, 62] := by decide +kernel
  have e3 : str ">>=" = [62, 62, 61] := by decide +kernel
  have e4 : str ">>" = [62, 62] := by decide +kernel
  rw [k1] at hf ⊢
  simp only [lexMore, orEq, k1, k2, e1, e2, e3, e4]
  cases r with
  | nil => refine longest_of _ hf ?_ ?_ ?_ <;> simp [mc]
  | cons a r =>
    by_cases ha : a = 62#8
    · subst ha
      cases r with
      | nil => refine longest_of _ hf ?_ ?_ ?_ <;> simp [mc]
      | cons b r =>
        by_cases hb : b = 62#8
        · subst hb
          cases r with
          | nil => refine longest_of _ hf ?_ ?_ ?_ <;> simp [mc]
          | cons d r =>
            by_cases hd : d = 61#8
            · subst hd
              refine longest_of _ hf ?_ ?_ ?_ <;> simp [mc]
            · refine longest_of _ hf ?_ ?_ ?_ <;> simp [mc, hd, Ne.symm hd]
        · by_cases hd : b = 61#8
          · subst hd
            refine longest_of _ hf ?_ ?_ ?_ <;> simp [mc]
          · refine longest_of _ hf ?_ ?_ ?_ <;> simp [mc, hb, hd, Ne.symm hb, Ne.symm hd]
    · by_cases hb : a = 61#8
      · subst hb
        refine longest_of _ hf ?_ ?_ ?_ <;> simp [mc]
      · refine longest_of _ hf ?_ ?_ ?_ <;> simp [mc, ha, hb, Ne.symm ha, Ne.symm hb]

theorem dot_longest (r : List Byte) : Longest (ch '.' :: r) (lexDot r) := by
  have hf : operators.filter (fun v => v.head? == some (ch '.')) = [[46], [46, 46], [46, 46, 46]] := by decide +kernel
  have k1 : ch '.' = 46 := rfl
  have e1 : str "..." = [46, 46, 46] := by decide +kernel
  have e2 : str ".." = [46, 46] := by decide +kernel
  have e3 : str "." = [46] := by decide +kernel
  rw [k1] at hf ⊢
  simp only [lexDot, k1, e1, e2, e3]
  cases r with
  | nil => refine longest_of _ hf ?_ ?_ ?_ <;> simp [mc]
  | cons a r =>
    by_cases ha : a = 46#8
    · subst ha
      cases r with
      | nil => refine longest_of _ hf ?_ ?_ ?_ <;> simp [mc]
      | cons b r =>
        by_cases hb : b = 46#8
        · subst hb
          refine longest_of _ hf ?_ ?_ ?_ <;> simp [mc]
        · refine longest_of _ hf ?_ ?_ ?_ <;> simp [mc, hb, Ne.symm hb]
    · refine longest_of _ hf ?_ ?_ ?_ <;> simp [mc, ha, Ne.symm ha]

theorem colon_longest (r : List Byte) : Longest (ch ':' :: r) (lexColon r) := by
  have hf : operators.filter (fun v => v.head? == some (ch ':')) = [[58], [58, 58]] := by decide +kernel
  have k1 : ch ':' = 58 := rfl
  have e1 : str "::" = [58, 58] := by decide +kernel
  have e2 : str ":" = [58] := by decide +kernel
  rw [k1] at hf ⊢
  simp only [lexColon, k1, e1, e2]
  cases r with
  | nil => refine longest_of _ hf ?_ ?_ ?_ <;> simp [mc]
  | cons a r =>
    by_cases ha : a = 58#8
    · subst ha
      refine longest_of _ hf ?_ ?_ ?_ <;> simp [mc]
    · refine longest_of _ hf ?_ ?_ ?_ <;> simp [mc, ha, Ne.symm ha]

def opHeads : List Byte := [ch '*', ch '/', ch '%', ch '+', ch '-', ch '<', ch '>', ch '&', ch '^', ch '|', ch '=', ch '!', ch '.', ch ':']

theorem lexOp_none {c : Byte} (h : c ∉ opHeads) (r : List Byte) : lexOp c r = none := by
  simp only [opHeads, List.mem_cons, List.not_mem_nil, or_false, not_or] at h
  obtain ⟨h1, h2, h3, h4, h5, h6, h7, h8, h9, h10, h11, h12, h13, h14⟩ := h
  rw [lexOp, if_neg h1, if_neg h2, if_neg h3, if_neg h4, if_neg h5, if_neg h6, if_neg h7, if_neg h8, if_neg h9,
    if_neg h10, if_neg h11, if_neg h12, if_neg h13, if_neg h14]

theorem lexOp_some {c : Byte} (h : c ∈ opHeads) (r : List Byte) : ∃ p, lexOp c r = some p ∧ Longest (c :: r) p := by
  simp only [opHeads, List.mem_cons, List.not_mem_nil, or_false] at h
  rcases h with rfl | rfl | rfl | rfl | rfl | rfl | rfl | rfl | rfl | rfl | rfl | rfl | rfl | rfl
  · exact ⟨_, rfl, orEq_longest r (by decide +kernel)⟩
  · exact ⟨_, rfl, orEq_longest r (by decide +kernel)⟩
  · exact ⟨_, rfl, orEq_longest r (by decide +kernel)⟩
  · exact ⟨_, rfl, orEqTwice_longest r (by decide +kernel)⟩
  · exact ⟨_, rfl, orEqTwice_longest r (by decide +kernel)⟩
  · refine ⟨lexLess r, ?_, less_longest r⟩
    rw [lexLess]
    show (match mc (ch '<') r with
      | some r1 => match mc (ch '=') r1 with | some r2 => some (str "<<=", r2) | none => some (str "<<", r1)
      | none => some (orEq (ch '<') r)) = _
    split
    · split <;> rfl
    · rfl
  · refine ⟨lexMore r, ?_, more_longest r⟩
    rw [lexMore]
    show (match mc (ch '>') r with
      | some r1 =>
        match mc (ch '>') r1 with
        | some r2 => match mc (ch '=') r2 with | some r3 => some (str ">>>=", r3) | none => some (str ">>>", r2)
        | none => match mc (ch '=') r1 with | some r2 => some (str ">>=", r2) | none => some (str ">>", r1)
      | none => some (orEq (ch '>') r)) = _
    split
    · split
      · split <;> rfl
      · split <;> rfl
    · rfl
  · exact ⟨_, rfl, orEqTwice_longest r (by decide +kernel)⟩
  · exact ⟨_, rfl, orEq_longest r (by decide +kernel)⟩
  · exact ⟨_, rfl, orEqTwice_longest r (by decide +kernel)⟩
  · exact ⟨_, rfl, orEq_longest r (by decide +kernel)⟩
  · exact ⟨_, rfl, orEq_longest r (by decide +kernel)⟩
  · refine ⟨lexDot r, ?_, dot_longest r⟩
    rw [lexDot]
    show (match mc (ch '.') r with
      | some r1 => match mc (ch '.') r1 with | some r2 => some (str "...", r2) | none => some (str "..", r1)
      | none => some (str ".", r)) = _
    split
    · split <;> rfl
    · rfl
  · refine ⟨lexColon r, ?_, colon_longest r⟩
    rw [lexColon]
    show (match mc (ch ':') r with | some r1 => some (str "::", r1) | none => some (str ":", r)) = _
    split <;> rfl

end Verif.Tokens

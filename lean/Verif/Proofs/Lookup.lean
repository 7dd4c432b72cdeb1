import Verif.Model.Lookup

/-! C strings in a byte region. -/
namespace Verif.Image

theorem cstr_some {names : Bytes} {off : Nat} {c : Bytes} :
    cstr names off = some c ↔ ∃ rest, names.drop off = c ++ 0 :: rest ∧ (0 : BitVec 8) ∉ c := by
  unfold cstr
  generalize names.drop off = l
  induction l generalizing c with
  | nil => simp
  | cons b l ih =>
    by_cases hb : b = 0
    · subst hb
      simp only [List.mem_cons, true_or, if_true, ne_eq, not_true_eq_false, decide_false, Bool.false_eq_true,
        not_false_eq_true, List.takeWhile_cons_of_neg, Option.some.injEq]
      constructor
      · rintro rfl; exact ⟨l, rfl, by simp⟩
      · rintro ⟨rest, h, hn⟩
        cases c with
        | nil => rfl
        | cons x c =>
          simp only [List.cons_append, List.cons.injEq] at h
          exact absurd (h.1 ▸ List.mem_cons_self ..) hn
    · have hb' : ¬ ((0 : BitVec 8) = b) := fun h => hb h.symm
      simp only [List.mem_cons, hb', false_or]
      rw [List.takeWhile_cons_of_pos (by simpa using hb)]
      by_cases h0 : (0 : BitVec 8) ∈ l
      · rw [if_pos h0]
        have ih' : ∀ c, l.takeWhile (· ≠ 0) = c ↔ ∃ rest, l = c ++ 0 :: rest ∧ (0 : BitVec 8) ∉ c := by
          intro c
          have := @ih c
          rw [if_pos h0] at this
          simpa using this
        constructor
        · intro h
          simp only [Option.some.injEq] at h
          subst h
          obtain ⟨rest, h1, h2⟩ := (ih' _).1 rfl
          refine ⟨rest, by rw [List.cons_append, ← h1], ?_⟩
          simp only [List.mem_cons, hb', false_or]
          exact h2
        · rintro ⟨rest, h1, h2⟩
          cases c with
          | nil => simp only [List.nil_append, List.cons.injEq] at h1; exact absurd h1.1 hb
          | cons x c =>
            simp only [List.cons_append, List.cons.injEq] at h1
            simp only [List.mem_cons, not_or] at h2
            rw [(ih' c).2 ⟨rest, h1.2, h2.2⟩, h1.1]
      · rw [if_neg h0]
        simp only [reduceCtorEq, false_iff]
        rintro ⟨rest, h1, h2⟩
        cases c with
        | nil => simp only [List.nil_append, List.cons.injEq] at h1; exact absurd h1.1 hb
        | cons x c =>
          simp only [List.cons_append, List.cons.injEq] at h1
          apply h0
          rw [h1.2]
          simp

theorem validated_cstr {names : Bytes} {offs : List Nat} (hv : namesValidated names offs) {off : Nat}
    (h : off ∈ offs) : ∃ c, cstr names off = some c := by
  have hlt := hv.2 off h
  have hne : names ≠ [] := by intro hc; subst hc; simp at hlt
  have hlast := hv.1 hne
  have : (0 : BitVec 8) ∈ names.drop off := by
    have hd : (names.drop off).getLast? = some 0 := by
      rw [List.getLast?_drop, if_neg (by omega)]; exact hlast
    exact List.mem_of_getLast? hd
  unfold cstr
  rw [if_pos this]
  exact ⟨_, rfl⟩

end Verif.Image

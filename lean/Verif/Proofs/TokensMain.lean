import Verif.Proofs.Tokens
namespace Verif.Tokens
open Verif.Text (Byte isSpace isNewline isDigit NumTok Body prefixOf tokenOf Follows lexNumber)

theorem lineComment_ok : ∀ (body : List Byte) (prev : Byte) (b : Byte) (r : List Byte),
    (∀ x ∈ body, x ≠ 0 ∧ isNewline x = false) → isNewline b = true →
    ((body.filter fun x => !isSpace x).getLast?).getD prev ≠ ch '\\' →
    lineComment prev (body ++ b :: r) = some (b :: r)
  | [], prev, b, r, _, hb, hl => by
    have hl' : prev ≠ ch '\\' := hl
    simp [lineComment, hb, hl']
  | c :: body, prev, b, r, h, hb, hl => by
    obtain ⟨h0, hn⟩ := h c (by simp)
    have hc : ¬ (c = 0 ∨ isNewline c = true) := by
      rintro (h | h)
      · exact h0 h
      · rw [hn] at h; cases h
    rw [List.cons_append, lineComment, if_neg hc]
    apply lineComment_ok body _ b r (fun x hx => h x (List.mem_cons_of_mem _ hx)) hb
    cases hs : isSpace c with
    | true => simpa [hs] using hl
    | false =>
      simp only [Bool.false_eq_true, if_false]
      rw [List.filter_cons_of_pos (by simp [hs]), List.getLast?_cons] at hl
      simpa using hl

theorem blockComment_ok : ∀ (body g : List Byte), 0 ∉ body → ¬ str "*/" <:+: body →
    blockComment (body ++ str "*/" ++ g) = some g
  | [], g, _, _ => by
    have e : str "*/" = [ch '*', ch '/'] := by decide +kernel
    rw [e]
    simp only [List.nil_append, List.cons_append, blockComment]
    rw [if_neg (by decide), if_pos trivial]
    simp [mc]
  | c :: body, g, h0, hc => by
    have e : str "*/" = [ch '*', ch '/'] := by decide +kernel
    have hrec := blockComment_ok body g (fun h => h0 (List.mem_cons_of_mem _ h))
      (fun h => hc (h.trans (List.suffix_cons c body).isInfix))
    have hc0 : c ≠ 0 := fun h => h0 (by rw [h]; exact List.mem_cons_self)
    simp only [List.cons_append, blockComment]
    rw [if_neg hc0]
    split
    · rename_i hstar
      have hmc : mc (ch '/') (body ++ str "*/" ++ g) = none := by
        rw [e]
        cases body with
        | nil =>
          simp only [List.nil_append, List.cons_append, mc]
          rw [if_neg (by decide)]
        | cons d body =>
          simp only [List.cons_append, mc]
          rw [if_neg]
          intro hd
          apply hc
          rw [e, hstar, hd]
          exact ⟨[], body, rfl⟩
      rw [hmc]
      exact hrec
    · exact hrec

theorem newline_ne {b : Byte} (h : isNewline b = true) : isBlank b = false := by
  simp [isBlank, h]

theorem newline_cases {b : Byte} (h : isNewline b = true) : b = 13 ∨ b = 10 := by
  simp only [isNewline, decide_eq_true_eq] at h
  rcases h with h | h
  · exact Or.inl (BitVec.eq_of_toNat_eq h)
  · exact Or.inr (BitVec.eq_of_toNat_eq h)

theorem findNext_blank {n : Nat} {bol : Bool} {b : Byte} {s : List Byte} (h : isBlank b = true) :
    findNext (n + 1) bol (b :: s) = findNext (n + 1) bol s := by
  simp only [findNext, List.dropWhile_cons_of_pos h]

theorem findNext_newline {n : Nat} {bol : Bool} {b : Byte} {s : List Byte} (h : isNewline b = true) :
    findNext (n + 1) bol (b :: s) = findNext n true (afterNewline b s) := by
  simp only [findNext]
  rw [List.dropWhile_cons_of_neg (by simp [newline_ne h])]
  simp only [h, if_true]

theorem findNext_line {n : Nat} {bol : Bool} {s r : List Byte} (h : lineComment (ch '/') s = some r) :
    findNext (n + 1) bol (ch '/' :: ch '/' :: s) = findNext n false r := by
  simp only [findNext]
  rw [List.dropWhile_cons_of_neg (by decide)]
  simp only [mc]
  rw [if_neg (by decide), if_pos trivial, if_pos trivial]
  simp only [h]

theorem findNext_block {n : Nat} {bol : Bool} {s r : List Byte} (h : blockComment s = some r) :
    findNext (n + 1) bol (ch '/' :: ch '*' :: s) = findNext n false r := by
  simp only [findNext]
  rw [List.dropWhile_cons_of_neg (by decide)]
  simp only [mc]
  rw [if_neg (by decide), if_pos trivial, if_neg (by decide), if_pos trivial]
  simp only [h]

theorem findNext_cont {n : Nat} {bol : Bool} {s r : List Byte} (h : continuation s = some r) :
    findNext (n + 1) bol (ch '\\' :: s) = findNext n true r := by
  simp only [findNext]
  rw [List.dropWhile_cons_of_neg (by decide)]
  simp only
  rw [if_neg (by decide), if_neg (by decide), if_neg (by decide), if_pos trivial]
  simp only [h]

/-- What does not start with white space. -/
def Solid (s : List Byte) : Prop := ∀ b, s.head? = some b → isSpace b = false

theorem afterNewline_gap {b : Byte} (hb : isNewline b = true) {g rest : List Byte} (hg : Gap g) (hs : Solid rest) :
    ∃ g', Gap g' ∧ g'.length ≤ g.length ∧ afterNewline b (g ++ rest) = g' ++ rest := by
  rcases newline_cases hb with rfl | rfl
  · cases hg with
    | nil =>
      refine ⟨[], .nil, Nat.le_refl _, ?_⟩
      cases rest with
      | nil => rfl
      | cons c rest =>
        have hc : c ≠ ch '\n' := by
          intro h
          have := hs c rfl
          rw [h] at this
          exact absurd this (by decide)
        simp only [afterNewline, List.nil_append, mc]
        rw [if_pos (by decide), if_neg hc]
        rfl
    | space c g hc hg =>
      by_cases h : c = ch '\n'
      · refine ⟨g, hg, Nat.le_succ _, ?_⟩
        simp only [afterNewline, List.cons_append, mc]
        rw [if_pos (by decide), if_pos h]
        rfl
      · refine ⟨c :: g, .space c g hc hg, Nat.le_refl _, ?_⟩
        simp only [afterNewline, List.cons_append, mc]
        rw [if_pos (by decide), if_neg h]
        rfl
    | line body g hb' hl hn hg =>
      have e : str "//" = [ch '/', ch '/'] := by decide +kernel
      refine ⟨_, .line body g hb' hl hn hg, Nat.le_refl _, ?_⟩
      rw [e]
      simp only [afterNewline, List.cons_append, mc]
      rw [if_pos (by decide), if_neg (by decide)]
      rfl
    | block body g hb' hc hg =>
      have e : str "/*" = [ch '/', ch '*'] := by decide +kernel
      refine ⟨_, .block body g hb' hc hg, Nat.le_refl _, ?_⟩
      rw [e]
      simp only [afterNewline, List.cons_append, mc]
      rw [if_pos (by decide), if_neg (by decide)]
      rfl
    | continued bs b g hbs hb' hg =>
      refine ⟨_, .continued bs b g hbs hb' hg, Nat.le_refl _, ?_⟩
      simp only [afterNewline, List.cons_append, mc]
      rw [if_pos (by decide), if_neg (by decide)]
      rfl
  · refine ⟨g, hg, Nat.le_refl _, ?_⟩
    simp only [afterNewline]
    rw [if_neg (by decide)]

theorem gap_skip : ∀ (k : Nat) (g : List Byte), g.length ≤ k → Gap g → ∀ (rest : List Byte), Solid rest →
    ∀ (n : Nat) (bol : Bool), (g ++ rest).length < n →
    ∃ n' bol', rest.length < n' ∧ findNext n bol (g ++ rest) = findNext n' bol' rest := by
  intro k
  induction k with
  | zero =>
    intro g hk _ rest _ n bol hn
    have : g = [] := List.length_eq_zero_iff.mp (Nat.le_zero.mp hk)
    subst this
    exact ⟨n, bol, hn, rfl⟩
  | succ k ih =>
    intro g hk hg rest hs n bol hn
    cases n with
    | zero => exact absurd hn (Nat.not_lt_zero _)
    | succ n =>
    cases hg with
    | nil => exact ⟨_, bol, hn, rfl⟩
    | space b g hb hg =>
      simp only [List.length_cons] at hk
      simp only [List.cons_append, List.length_cons] at hn
      cases hnl : isNewline b with
      | true =>
        obtain ⟨g', hg', hlen, he⟩ := afterNewline_gap hnl hg hs
        rw [List.cons_append, findNext_newline hnl, he]
        exact ih g' (by omega) hg' rest hs n true (by simp only [List.length_append] at hn ⊢; omega)
      | false =>
        rw [List.cons_append, findNext_blank (by simp [isBlank, hb, hnl])]
        exact ih g (by omega) hg rest hs (n + 1) bol (by omega)
    | line body g hb hl hnl hg =>
      have e : str "//" = [ch '/', ch '/'] := by decide +kernel
      rw [e] at hk hn ⊢
      simp only [List.cons_append, List.nil_append, List.length_cons, List.length_append] at hk hn
      obtain ⟨b, r, rfl, hb2⟩ := hnl
      have hlc := lineComment_ok body (ch '/') b (r ++ rest) hb hb2 (by
        cases hx : (body.filter fun x => !isSpace x).getLast? with
        | none => simp only [Option.getD_none]; decide
        | some x =>
          simp only [Option.getD_some]
          intro h
          rw [hx, h] at hl
          exact hl rfl)
      have ht : [ch '/', ch '/'] ++ body ++ b :: r ++ rest = ch '/' :: ch '/' :: (body ++ b :: (r ++ rest)) := by simp
      rw [ht, findNext_line hlc]
      have := ih (b :: r) (by simp only [List.length_cons] at hk ⊢; omega) hg rest hs n false
        (by simp only [List.cons_append, List.length_cons, List.length_append] at hn ⊢; omega)
      simpa using this
    | block body g hb hc hg =>
      have e : str "/*" = [ch '/', ch '*'] := by decide +kernel
      have e2 : (str "*/").length = 2 := by decide +kernel
      rw [e] at hk hn ⊢
      simp only [List.cons_append, List.nil_append, List.length_cons, List.length_append, e2] at hk hn
      have hbc := blockComment_ok body (g ++ rest) hb hc
      have ht : [ch '/', ch '*'] ++ body ++ str "*/" ++ g ++ rest = ch '/' :: ch '*' :: (body ++ str "*/" ++ (g ++ rest)) := by simp
      rw [ht, findNext_block hbc]
      exact ih g (by omega) hg rest hs n false (by simp only [List.length_append]; omega)
    | continued bs b g hbs hb hg =>
      simp only [List.cons_append, List.length_cons, List.length_append] at hk hn
      have hcont : continuation (bs ++ b :: (g ++ rest)) = some (afterNewline b (g ++ rest)) := by
        unfold continuation
        have : (bs ++ b :: (g ++ rest)).dropWhile isBlank = b :: (g ++ rest) := by
          rw [List.dropWhile_append_of_pos (by intro x hx; simp [isBlank, hbs x hx])]
          exact List.dropWhile_cons_of_neg (by simp [newline_ne hb])
        rw [this]
        simp [hb]
      obtain ⟨g', hg', hlen, he⟩ := afterNewline_gap hb hg hs
      have ht : ch '\\' :: bs ++ b :: g ++ rest = ch '\\' :: (bs ++ b :: (g ++ rest)) := by simp
      rw [ht, findNext_cont hcont, he]
      exact ih g' (by omega) hg' rest hs n true (by simp only [List.length_append]; omega)

/-- A byte that starts a token. -/
structure Starts (c : Byte) (r : List Byte) : Prop where
  range : 33 ≤ c.toNat ∧ c.toNat < 127
  plain : c ≠ ch '#' ∧ c ≠ ch '\\'
  slash : c = ch '/' → ∀ b, r.head? = some b → b ≠ ch '/' ∧ b ≠ ch '*'

theorem Starts.solid {c : Byte} {r : List Byte} (h : Starts c r) : Solid (c :: r) := by
  intro b hb
  simp only [List.head?_cons, Option.some.injEq] at hb
  subst hb
  have := h.range
  simp only [isSpace, decide_eq_false_iff_not]
  omega

theorem mc_head {b : Byte} {r : List Byte} (h : ∀ x, r.head? = some x → x ≠ b) : mc b r = none := by
  cases r with
  | nil => rfl
  | cons c r => simp only [mc]; rw [if_neg (h c rfl)]

theorem findNext_token {c : Byte} {r : List Byte} (h : Starts c r) (n : Nat) (bol : Bool) :
    findNext (n + 1) bol (c :: r) = .token c r := by
  have hsp : isSpace c = false := h.solid c rfl
  have hnl : isNewline c = false := by
    have := h.range
    simp only [isNewline, decide_eq_false_iff_not]; omega
  have h0 : c ≠ 0 := by
    intro h0
    have := h.range
    rw [h0] at this
    exact absurd this.1 (by decide)
  simp only [findNext]
  rw [List.dropWhile_cons_of_neg (by simp [isBlank, hsp])]
  simp only [hnl, Bool.false_eq_true, if_false]
  by_cases hs : c = ch '/'
  · rw [if_pos hs, mc_head (fun x hx => (h.slash hs x hx).1), mc_head (fun x hx => (h.slash hs x hx).2)]
  · rw [if_neg hs, if_neg h.plain.1, if_neg h.plain.2, if_neg h0, if_neg]
    have := h.range
    omega

theorem findNext_nil (n : Nat) (bol : Bool) : findNext (n + 1) bol [] = .eof := rfl

end Verif.Tokens

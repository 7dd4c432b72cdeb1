import Verif.Spec.Lines
namespace Verif.Lines

/-- The reader has read `i` of the tokens `S`, and has looked at `i + r.depth`.  The buffer is rotated
by `o`. -/
structure At (o : Nat) (S : List (Tok × Nat)) (r : Reader) (i : Nat) : Prop where
  small : r.depth ≤ 3
  bound : i + r.depth ≤ S.length
  ahead : r.ahead = S.drop (i + r.depth)
  len : r.slots.length = 4
  cursor : r.cursor = (o + i) % 4
  reading : r.reading = true
  fline : r.injected = false → ∀ h : 0 < i + r.depth, ∃ p, S[i + r.depth - 1]? = some p ∧ r.fline = p.2
  held : ∀ k, i ≤ k → k ≤ i + r.depth → 0 < k → ∃ p, S[k - 1]? = some p ∧ r.slots[(o + k) % 4]? = some p.1
  /-- what lies behind, as long as it is kept -/
  behind : ∀ k, i + r.depth < k + 4 → k ≤ i → 0 < k → ∃ p, S[k - 1]? = some p ∧ r.slots[(o + k) % 4]? = some p.1

theorem after_mod (o i : Nat) : after ((o + i) % 4) = (o + (i + 1)) % 4 := by
  unfold after maxDepth
  split <;> omega

theorem At.current {o : Nat} {S : List (Tok × Nat)} {r : Reader} {i : Nat} (h : At o S r i) (hi : 0 < i) : ∃ p, S[i - 1]? = some p ∧ r.current = p.1 := by
  obtain ⟨p, h1, h2⟩ := h.held i (Nat.le_refl _) (Nat.le_add_right _ _) hi
  refine ⟨p, h1, ?_⟩
  unfold Reader.current
  rw [h.cursor, List.getD_eq_getElem?_getD, h2]; rfl

theorem At.next {o : Nat} {S : List (Tok × Nat)} {r : Reader} {i : Nat} (h : At o S r i) (hd : 0 < r.depth) : ∃ p, S[i]? = some p ∧ r.next = p.1 := by
  obtain ⟨p, h1, h2⟩ := h.held (i + 1) (by omega) (by omega) (by omega)
  refine ⟨p, h1, ?_⟩
  unfold Reader.next
  rw [h.cursor, after_mod, List.getD_eq_getElem?_getD, h2]; rfl

theorem At.pop {o : Nat} {S : List (Tok × Nat)} {r : Reader} {i : Nat} (h : At o S r i) (hd : 0 < r.depth) : At o S r.pop (i + 1) := by
  have hs := h.small
  have hj : i + 1 + (r.depth - 1) = i + r.depth := by omega
  exact {
    small := by show r.depth - 1 ≤ 3; omega
    bound := by show i + 1 + (r.depth - 1) ≤ _; rw [hj]; exact h.bound
    ahead := by show r.ahead = S.drop (i + 1 + (r.depth - 1)); rw [hj]; exact h.ahead
    len := h.len
    cursor := by show after r.cursor = _; rw [h.cursor, after_mod]
    reading := h.reading
    fline := by
      show r.injected = false → ∀ h : 0 < i + 1 + (r.depth - 1), ∃ p, S[i + 1 + (r.depth - 1) - 1]? = some p ∧ r.fline = p.2
      rw [hj]; exact h.fline
    held := by
      intro k h1 h2 h3
      have h2 : k ≤ i + 1 + (r.depth - 1) := h2
      exact h.held k (by omega) (by omega) h3
    behind := by
      intro k h1 h2 h3
      have h1 : i + 1 + (r.depth - 1) < k + 4 := h1
      by_cases hk : k ≤ i
      · exact h.behind k (by omega) hk h3
      · exact h.held k (by omega) (by omega) h3 }

theorem At.fresh {o : Nat} {S : List (Tok × Nat)} {r : Reader} {i : Nat} {t : Tok} {f : Nat} {as : List (Tok × Nat)} (h : At o S r i) (hd : r.depth = 0) (ha : r.ahead = (t, f) :: as) :
    At o S { r.store t with ahead := as, fline := if r.injected then r.fline else f } (i + 1) := by
  have hah := h.ahead
  have hb := h.bound
  rw [hd, Nat.add_zero] at hah hb
  rw [ha] at hah
  have hlt : i < S.length := by
    rcases Nat.lt_or_ge i S.length with h | h
    · exact h
    · rw [List.drop_eq_nil_of_le h] at hah; cases hah
  have hget : S[i]? = some (t, f) := by
    rw [List.drop_eq_getElem_cons hlt] at hah
    rw [List.getElem?_eq_getElem hlt, ← (List.cons.inj hah).1]
  have hrest : as = S.drop (i + 1) := by
    rw [List.drop_eq_getElem_cons hlt] at hah
    exact (List.cons.inj hah).2
  have hc : after r.cursor = (o + (i + 1)) % 4 := by rw [h.cursor, after_mod]
  have hm : (o + (i + 1)) % 4 < r.slots.length := by rw [h.len]; exact Nat.mod_lt _ (by decide)
  have hset : ∀ k, (r.slots.set (after r.cursor) t)[k]? = if (o + (i + 1)) % 4 = k then some t else r.slots[k]? := by
    intro k
    rw [hc, List.getElem?_set, if_pos hm]
  have hkeep : ∀ k, 0 < k → k ≤ i + 1 → i + 1 < k + 4 →
      ∃ p, S[k - 1]? = some p ∧ (r.slots.set (after r.cursor) t)[(o + k) % 4]? = some p.1 := by
    intro k h1 h2 h3
    rw [hset]
    by_cases hk : k = i + 1
    · subst hk
      exact ⟨(t, f), hget, by rw [if_pos rfl]⟩
    · obtain ⟨p, e1, e2⟩ := h.behind k (by omega) (by omega) h1
      refine ⟨p, e1, ?_⟩
      rw [if_neg (by omega)]
      exact e2
  exact {
    small := by show r.depth ≤ 3; omega
    bound := by show i + 1 + r.depth ≤ _; omega
    ahead := by show as = S.drop (i + 1 + r.depth); rw [hd]; exact hrest
    len := by show (r.slots.set _ t).length = 4; rw [List.length_set]; exact h.len
    cursor := hc
    reading := h.reading
    fline := by
      intro hi hpos
      have hi : r.injected = false := hi
      show ∃ p, S[i + 1 + r.depth - 1]? = some p ∧ (if r.injected then r.fline else f) = p.2
      rw [hd, hi]
      exact ⟨(t, f), hget, rfl⟩
    held := by
      intro k h1 h2 h3
      have h2 : k ≤ i + 1 + r.depth := h2
      exact hkeep k h3 (by omega) (by omega)
    behind := by
      intro k h1 h2 h3
      have h1 : i + 1 + r.depth < k + 4 := h1
      exact hkeep k h3 h2 (by omega) }

theorem At.lex {o : Nat} {S : List (Tok × Nat)} {r : Reader} {i : Nat} (h : At o S r i) (hi : i < S.length) :
    ∃ p, S[i]? = some p ∧ r.lex.1 = p.1.id ∧ At o S r.lex.2 (i + 1) ∧ r.lex.2.current = p.1 ∧
      r.lex.2.injected = r.injected ∧ (r.lex.2.fline = r.fline ∨ r.injected = false) ∧ r.lex.2.depth = r.depth - 1 := by
  unfold Reader.lex
  by_cases hd : 0 < r.depth
  · rw [if_pos hd]
    have hp := h.pop hd
    obtain ⟨p, h1, h2⟩ := hp.current (Nat.succ_pos _)
    rw [Nat.add_sub_cancel] at h1
    exact ⟨p, h1, by rw [h2], hp, h2, rfl, Or.inl rfl, rfl⟩
  · rw [if_neg hd]
    have hd0 : r.depth = 0 := by omega
    have hah := h.ahead
    rw [hd0, Nat.add_zero, List.drop_eq_getElem_cons hi] at hah
    rw [hah]
    have hf := h.fresh hd0 (t := S[i].1) (f := S[i].2) (as := S.drop (i + 1)) hah
    obtain ⟨p, h1, h2⟩ := hf.current (Nat.succ_pos _)
    rw [Nat.add_sub_cancel] at h1
    have hp : p = S[i] := by
      rw [List.getElem?_eq_getElem hi] at h1
      exact (Option.some.inj h1).symm
    refine ⟨p, h1, by rw [hp], hf, h2, rfl, ?_, ?_⟩
    · show (if r.injected then r.fline else _) = r.fline ∨ _
      cases hj : r.injected
      · exact Or.inr rfl
      · exact Or.inl rfl
    · show r.depth = r.depth - 1
      omega

theorem At.push {o : Nat} {S : List (Tok × Nat)} {r : Reader} {i : Nat} (h : At o S r i) (hi : 0 < i) (hd : r.depth < 3)
    (hid : ∀ p ∈ S, p.1.id ≠ 0 ∧ p.1.id ≠ tEOL) : At o S r.push (i - 1) ∧ r.push.depth = r.depth + 1 ∧
      r.push.injected = r.injected ∧ r.push.fline = r.fline := by
  obtain ⟨p, h1, h2⟩ := h.current hi
  have hp := hid p (List.mem_of_getElem? h1)
  unfold Reader.push
  rw [if_neg (by rw [h2]; rintro (h | h); exact hp.1 h; exact hp.2 h)]
  have hj : i - 1 + (r.depth + 1) = i + r.depth := by omega
  refine ⟨{
    small := by show r.depth + 1 ≤ 3; omega
    bound := by show i - 1 + (r.depth + 1) ≤ _; rw [hj]; exact h.bound
    ahead := by show r.ahead = S.drop (i - 1 + (r.depth + 1)); rw [hj]; exact h.ahead
    len := h.len
    cursor := by
      show (if r.cursor = 0 then maxDepth - 1 else r.cursor - 1) = _
      rw [h.cursor]
      unfold maxDepth
      split <;> omega
    reading := h.reading
    fline := by
      show r.injected = false → ∀ h : 0 < i - 1 + (r.depth + 1), ∃ p, S[i - 1 + (r.depth + 1) - 1]? = some p ∧ r.fline = p.2
      rw [hj]; exact h.fline
    held := by
      intro k h1 h2 h3
      have h2 : k ≤ i - 1 + (r.depth + 1) := h2
      by_cases hk : i ≤ k
      · exact h.held k hk (by omega) h3
      · exact h.behind k (by omega) (by omega) h3
    behind := by
      intro k h1 h2 h3
      have h1 : i - 1 + (r.depth + 1) < k + 4 := h1
      exact h.behind k (by omega) (by omega) h3 }, rfl, rfl, rfl⟩

/-- After reading and giving back. -/
theorem At.lexPush {o : Nat} {S : List (Tok × Nat)} {r : Reader} {i : Nat} (h : At o S r i) (hi : i < S.length) (hid : ∀ p ∈ S, p.1.id ≠ 0 ∧ p.1.id ≠ tEOL) :
    At o S r.lex.2.push i ∧ 0 < r.lex.2.push.depth ∧ (r.depth ≤ 1 → r.lex.2.push.depth = 1) ∧
      r.lex.2.push.injected = r.injected ∧ (r.lex.2.push.fline = r.fline ∨ r.injected = false) := by
  obtain ⟨p, h1, h2, h3, h4, h5, h6, h7⟩ := h.lex hi
  have hs := h.small
  obtain ⟨k1, k2, k3, k4⟩ := h3.push (Nat.succ_pos _) (by omega) hid
  rw [Nat.add_sub_cancel] at k1
  exact ⟨k1, by omega, by omega, by rw [k3, h5], by rw [k4]; exact h6⟩

theorem at_start (S : List (Tok × Nat)) (r : Reader) (ha : r.ahead = S) (hd : r.depth = 0) (hc : r.cursor < 4)
    (hs : r.slots.length = 4) (hr : r.reading = true) : At r.cursor S r 0 where
  small := by omega
  bound := by omega
  ahead := by rw [hd, ha]; rfl
  len := hs
  cursor := by omega
  reading := hr
  fline := fun _ h => by omega
  held := fun k _ h2 h3 => by omega
  behind := fun k _ h2 h3 => by omega

theorem track_at {o : Nat} {S : List (Tok × Nat)} (hid : ∀ p ∈ S, p.1.id ≠ 0 ∧ p.1.id ≠ tEOL) : ∀ (os : List Op) {r : Reader} {i j i' j' : Nat},
    At o S r i → j = i + r.depth → track S.length os (i, j) = some (i', j') →
      At o S (r.run os) i' ∧ j' = i' + (r.run os).depth ∧ (r.run os).injected = r.injected ∧ (r.injected = true → (r.run os).fline = r.fline) := by
  intro os
  induction os with
  | nil => intro r i j i' j' h hj ht; cases ht; exact ⟨h, hj, rfl, fun _ => rfl⟩
  | cons op os ih =>
    intro r i j i' j' h hj ht
    have hb := h.bound
    have hs := h.small
    cases op with
    | lex =>
      simp only [track] at ht
      by_cases h1 : i < j
      · rw [if_pos h1] at ht
        obtain ⟨p, e1, e2, e3, e4, e5, e6, e7⟩ := h.lex (by omega)
        have := ih e3 (by omega : j = i + 1 + r.lex.2.depth) ht
        rw [e5] at this
        exact ⟨this.1, this.2.1, this.2.2.1, fun hi => (this.2.2.2 hi).trans (e6.resolve_right (by rw [hi]; exact (fun h => nomatch h)))⟩
      · rw [if_neg h1] at ht
        by_cases h2 : j < S.length
        · rw [if_pos h2] at ht
          obtain ⟨p, e1, e2, e3, e4, e5, e6, e7⟩ := h.lex (by omega)
          have hji : j = i := by omega
          rw [hji] at ht
          have := ih e3 (by omega : i + 1 = i + 1 + r.lex.2.depth) ht
          rw [e5] at this
          exact ⟨this.1, this.2.1, this.2.2.1, fun hi => (this.2.2.2 hi).trans (e6.resolve_right (by rw [hi]; exact (fun h => nomatch h)))⟩
        · rw [if_neg h2] at ht; cases ht
    | push =>
      simp only [track] at ht
      by_cases h1 : 0 < i ∧ j < i + 3
      · rw [if_pos h1] at ht
        obtain ⟨e1, e2, e3, e4⟩ := h.push h1.1 (by omega) hid
        have := ih e1 (by omega : j = i - 1 + r.push.depth) ht
        rw [e3, e4] at this
        exact this
      · rw [if_neg h1] at ht; cases ht

/-- What `peek_same_line` gives. -/
theorem At.peek {o : Nat} {S : List (Tok × Nat)} {r : Reader} {i : Nat} (h : At o S r i) (hi : 0 < i) (hd : 0 < r.depth) (hid : ∀ p ∈ S, p.1.id ≠ 0 ∧ p.1.id ≠ tEOL)
    {p q : Tok × Nat} (hp : S[i - 1]? = some p) (hq : S[i]? = some q) :
    (r.peekSameLine.1 = if p.1.file = q.1.file ∧ (p.1.line = r.fline ∨ q.1.line = p.1.line) then q.1.id else tEOL) ∧
      At o S r.peekSameLine.2 i := by
  obtain ⟨p', h1, h2⟩ := h.current hi
  obtain ⟨q', h3, h4⟩ := h.next hd
  rw [hp] at h1; cases h1
  rw [hq] at h3; cases h3
  have hqid := hid q (List.mem_of_getElem? hq)
  unfold Reader.peekSameLine
  rw [h2, h4]
  by_cases hc : 0 < r.depth ∧ p.1.line = r.fline ∧ p.1.file = q.1.file
  · rw [if_pos hc, if_neg hqid.1, if_pos ⟨hc.2.2, Or.inl hc.2.1⟩]
    exact ⟨rfl, h⟩
  · rw [if_neg hc]
    have hlt : i < S.length := by
      rcases Nat.lt_or_ge i S.length with h | h
      · exact h
      · rw [List.getElem?_eq_none h] at hq; cases hq
    obtain ⟨q', e1, e2, e3, e4, e5, e6, e7⟩ := h.lex hlt
    rw [hq] at e1; cases e1
    obtain ⟨k1, k2, _⟩ := h.lexPush hlt hid
    obtain ⟨p', f1, f2⟩ := k1.current hi
    obtain ⟨q', f3, f4⟩ := k1.next k2
    rw [hp] at f1; cases f1
    rw [hq] at f3; cases f3
    simp only [e4, f2, f4]
    rw [if_neg (by rintro (h | h); exact hqid.1 h; exact hqid.2 h)]
    by_cases hl : q.1.line = p.1.line ∧ p.1.file = q.1.file
    · rw [if_pos hl, if_pos ⟨hl.2, Or.inr hl.1⟩]
      exact ⟨rfl, k1⟩
    · rw [if_neg hl, if_neg (by
        rintro ⟨g1, g2 | g2⟩
        · exact hc ⟨hd, g2, g1⟩
        · exact hl ⟨g2, g1⟩)]
      exact ⟨rfl, k1⟩

end Verif.Lines

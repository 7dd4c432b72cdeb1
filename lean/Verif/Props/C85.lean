import Verif.Proofs.LinesMain
/-
C85: tokens that are given back are read again, and a newline ends a statement.
-/
namespace Verif.Lines

/-- However the parser reads tokens and gives them back, at most three at a time, the current token is the
last one read and the next one is the one after it. -/
theorem C85_buffer (es : List Event) (h : Program es) (os : List Op) (i j : Nat)
    (ht : track (ids es).length os (0, 0) = some (i, j)) :
    (0 < i → (ids es)[i - 1]? = some ((start es).run os).current.id) ∧
      (i < (ids es).length → (ids es)[i]? = some ((start es).run os).lex.1) := by
  have hid := program_ids h
  have hlen : (stream { cur := { file := 0 } } es).length = (ids es).length := by
    rw [← stream_ids { cur := { file := 0 } } es, List.length_map]
  obtain ⟨hat, hj, _, _⟩ := track_at hid os (at_start _ (start es) rfl rfl (Nat.zero_lt_succ 3) rfl rfl) rfl (by rw [hlen]; exact ht)
  constructor
  · intro hi
    obtain ⟨p, h1, h2⟩ := hat.current hi
    rw [← stream_ids { cur := { file := 0 } } es, List.getElem?_map, h1, h2]; rfl
  · intro hi
    obtain ⟨p, h1, h2, _⟩ := hat.lex (by rw [hlen]; exact hi)
    rw [← stream_ids { cur := { file := 0 } } es, List.getElem?_map, h1, h2]; rfl

theorem match_term {S : List (Tok × Nat)} {r : Reader} {o i : Nat} (hat : At o S r i) (hi : 0 < i)
    (hid : ∀ p ∈ S, p.1.id ≠ 0 ∧ p.1.id ≠ tEOL) {p q : Tok × Nat} (hp : S[i - 1]? = some p) (hq : S[i]? = some q)
    (hT : q.1.id ≠ tTERM) (hb : q.1.id ≠ 59 ∧ q.1.id ≠ tENDEXPR) :
    ((r.match false tTERM).1 = true ↔ ¬ (p.1.file = q.1.file ∧ (p.1.line = r.lex.2.push.fline ∨ q.1.line = p.1.line))) ∧
      At o S (r.match false tTERM).2 i := by
  have hlt : i < S.length := by
    rcases Nat.lt_or_ge i S.length with h | h
    · exact h
    · rw [List.getElem?_eq_none h] at hq; cases hq
  obtain ⟨q', e1, e2, _⟩ := hat.lex hlt
  rw [hq] at e1; cases e1
  obtain ⟨k1, k2, _⟩ := hat.lexPush hlt hid
  obtain ⟨g1, g2⟩ := k1.peek hi k2 hid hp hq
  have hqid := hid q (List.mem_of_getElem? hq)
  unfold Reader.match
  simp only [e2]
  rw [if_neg (Ne.symm hT), if_pos trivial, if_neg (by rintro (h | h); exact hb.1 h; exact hb.2 h), if_neg (by decide),
    if_neg (by rw [k1.reading]; decide), g1]
  refine ⟨?_, g2⟩
  simp only [decide_eq_true_eq]
  by_cases hc : p.1.file = q.1.file ∧ (p.1.line = r.lex.2.push.fline ∨ q.1.line = p.1.line)
  · rw [if_pos hc]
    exact ⟨fun h => absurd h hqid.2, fun h => absurd hc h⟩
  · rw [if_neg hc]
    exact ⟨fun _ => hc, fun _ => rfl⟩

/-- Where semicolons are optional, a statement is ended by exactly the newlines that are not continued (or
the end of a file): between the token `a` just read and the next token `b`.  The next token stays to be
read. -/
theorem C85_newline_partial (pre mid post : List Event) (a b : Nat)
    (h : Program (pre ++ .token a :: mid ++ .token b :: post)) (hmid : ids mid = []) (os : List Op) (j : Nat)
    (ht : track (ids (pre ++ .token a :: mid ++ .token b :: post)).length os (0, 0) = some ((ids pre).length + 1, j))
    (hj : j ≤ (ids pre).length + 2) (hb : b ≠ 59 ∧ b ≠ tENDEXPR) :
    ((((start (pre ++ .token a :: mid ++ .token b :: post)).run os).match false tTERM).1 = true ↔ ¬ SameLine mid) ∧
      (((start (pre ++ .token a :: mid ++ .token b :: post)).run os).match false tTERM).2.lex.1 = b := by
  have hid := program_ids h
  obtain ⟨p, q, hp, hq, ha', hb', hsame, hdiff⟩ := adjacent h hmid
  have hlen : (stream { cur := { file := 0 } } (pre ++ .token a :: mid ++ .token b :: post)).length =
      (ids (pre ++ .token a :: mid ++ .token b :: post)).length := by
    rw [← stream_ids { cur := { file := 0 } } (pre ++ .token a :: mid ++ .token b :: post), List.length_map]
  obtain ⟨hat, hjd, hinj, _⟩ := track_at hid os (at_start _ (start _) rfl rfl (Nat.zero_lt_succ 3) rfl rfl) rfl (by rw [hlen]; exact ht)
  have hT : q.1.id ≠ tTERM := by
    rw [hb']
    refine (h.proper b ?_).2.2
    rw [ids_append]
    exact List.mem_append_right _ (List.mem_cons_self ..)
  have hlt : (ids pre).length + 1 < (stream { cur := { file := 0 } } (pre ++ .token a :: mid ++ .token b :: post)).length := by
    rcases Nat.lt_or_ge ((ids pre).length + 1) (stream { cur := { file := 0 } } (pre ++ .token a :: mid ++ .token b :: post)).length with h | h
    · exact h
    · rw [List.getElem?_eq_none h] at hq; cases hq
  obtain ⟨m1, m2⟩ := match_term hat (Nat.succ_pos _) hid hp hq hT (by rw [hb']; exact hb)
  refine ⟨?_, ?_⟩
  · rw [m1]
    obtain ⟨k1, k2, k3, k4, _⟩ := hat.lexPush hlt hid
    have hd1 := k3 (by omega)
    obtain ⟨q', f1, f2⟩ := k1.fline (by rw [k4, hinj]; rfl) (by omega)
    rw [hd1, Nat.add_sub_cancel, hq] at f1
    cases f1
    rw [f2]
    by_cases hs : SameLine mid
    · exact ⟨fun h => absurd ⟨(hsame hs).1, Or.inr (hsame hs).2⟩ h, fun h => absurd hs h⟩
    · refine ⟨fun _ => hs, fun _ => ?_⟩
      rintro ⟨h1, h2⟩
      have := hdiff hs h1
      omega
  · obtain ⟨q', e1, e2, _⟩ := m2.lex hlt
    rw [hq] at e1; cases e1
    rw [e2, hb']

/-- A semicolon ends a statement on any line, and is taken. -/
theorem C85_semicolon (pre mid post : List Event) (a : Nat) (needSemicolon : Bool)
    (h : Program (pre ++ .token a :: mid ++ .token 59 :: post)) (hmid : ids mid = []) (os : List Op) (j : Nat)
    (ht : track (ids (pre ++ .token a :: mid ++ .token 59 :: post)).length os (0, 0) = some ((ids pre).length + 1, j)) :
    (((start (pre ++ .token a :: mid ++ .token 59 :: post)).run os).match needSemicolon tTERM).1 = true ∧
      (((start (pre ++ .token a :: mid ++ .token 59 :: post)).run os).match needSemicolon tTERM).2.current.id = 59 := by
  have hid := program_ids h
  obtain ⟨p, q, hp, hq, ha', hb', _, _⟩ := adjacent h hmid
  have hlen : (stream { cur := { file := 0 } } (pre ++ .token a :: mid ++ .token 59 :: post)).length =
      (ids (pre ++ .token a :: mid ++ .token 59 :: post)).length := by
    rw [← stream_ids { cur := { file := 0 } } (pre ++ .token a :: mid ++ .token 59 :: post), List.length_map]
  obtain ⟨hat, hjd, hinj, _⟩ := track_at hid os (at_start _ (start _) rfl rfl (Nat.zero_lt_succ 3) rfl rfl) rfl (by rw [hlen]; exact ht)
  have hlt : (ids pre).length + 1 < (stream { cur := { file := 0 } } (pre ++ .token a :: mid ++ .token 59 :: post)).length := by
    rcases Nat.lt_or_ge ((ids pre).length + 1) (stream { cur := { file := 0 } } (pre ++ .token a :: mid ++ .token 59 :: post)).length with h | h
    · exact h
    · rw [List.getElem?_eq_none h] at hq; cases hq
  obtain ⟨q', e1, e2, e3, e4, _⟩ := hat.lex hlt
  rw [hq] at e1; cases e1
  unfold Reader.match
  simp only [e2, hb']
  rw [if_neg (by decide), if_pos trivial, if_pos (Or.inl trivial)]
  exact ⟨rfl, by rw [e4]; exact hb'⟩

/-- Where semicolons are needed, nothing else ends a statement. -/
theorem C85_needed (pre mid post : List Event) (a b : Nat)
    (h : Program (pre ++ .token a :: mid ++ .token b :: post)) (hmid : ids mid = []) (os : List Op) (j : Nat)
    (ht : track (ids (pre ++ .token a :: mid ++ .token b :: post)).length os (0, 0) = some ((ids pre).length + 1, j))
    (hb : b ≠ 59 ∧ b ≠ tENDEXPR) :
    (((start (pre ++ .token a :: mid ++ .token b :: post)).run os).match true tTERM).1 = false ∧
      (((start (pre ++ .token a :: mid ++ .token b :: post)).run os).match true tTERM).2.lex.1 = b := by
  have hid := program_ids h
  obtain ⟨p, q, hp, hq, ha', hb', _, _⟩ := adjacent h hmid
  have hlen : (stream { cur := { file := 0 } } (pre ++ .token a :: mid ++ .token b :: post)).length =
      (ids (pre ++ .token a :: mid ++ .token b :: post)).length := by
    rw [← stream_ids { cur := { file := 0 } } (pre ++ .token a :: mid ++ .token b :: post), List.length_map]
  obtain ⟨hat, hjd, hinj, _⟩ := track_at hid os (at_start _ (start _) rfl rfl (Nat.zero_lt_succ 3) rfl rfl) rfl (by rw [hlen]; exact ht)
  have hlt : (ids pre).length + 1 < (stream { cur := { file := 0 } } (pre ++ .token a :: mid ++ .token b :: post)).length := by
    rcases Nat.lt_or_ge ((ids pre).length + 1) (stream { cur := { file := 0 } } (pre ++ .token a :: mid ++ .token b :: post)).length with h | h
    · exact h
    · rw [List.getElem?_eq_none h] at hq; cases hq
  have hT : b ≠ tTERM := by
    refine (h.proper b ?_).2.2
    rw [ids_append]
    exact List.mem_append_right _ (List.mem_cons_self ..)
  obtain ⟨q', e1, e2, _⟩ := hat.lex hlt
  rw [hq] at e1; cases e1
  obtain ⟨k1, k2, _⟩ := hat.lexPush hlt hid
  obtain ⟨q', f1, f2, _⟩ := k1.lex hlt
  rw [hq] at f1; cases f1
  unfold Reader.match
  simp only [e2, hb']
  rw [if_neg (Ne.symm hT), if_pos trivial, if_neg (by rintro (h | h); exact hb.1 h; exact hb.2 h), if_pos trivial]
  exact ⟨rfl, by rw [f2, hb']⟩

/-- The end of all files ends a statement where semicolons are optional. -/
theorem C85_end (es : List Event) (h : Program es) (os : List Op)
    (ht : track (ids es).length os (0, 0) = some ((ids es).length, (ids es).length)) :
    (((start es).run os).match false tTERM).1 = true := by
  have hid := program_ids h
  have hlen : (stream { cur := { file := 0 } } es).length = (ids es).length := by
    rw [← stream_ids { cur := { file := 0 } } es, List.length_map]
  obtain ⟨hat, hjd, hinj, _⟩ := track_at hid os (at_start _ (start es) rfl rfl (Nat.zero_lt_succ 3) rfl rfl) rfl (by rw [hlen]; exact ht)
  have hd : ((start es).run os).depth = 0 := by omega
  have ha : ((start es).run os).ahead = [] := by
    rw [hat.ahead, hd, ← hlen]; exact List.drop_length ..
  have hl : ((start es).run os).lex = (0, { ((start es).run os).store {} with reading := false }) := by
    unfold Reader.lex
    rw [if_neg (by omega), ha]
    have : ((start es).run os).injected = false := hinj
    simp only [this]
    rfl
  have hcur : ({ ((start es).run os).store {} with reading := false } : Reader).current.id = 0 := by
    unfold Reader.current
    show ((((start es).run os).slots.set (after ((start es).run os).cursor) ({} : Tok)).getD (after ((start es).run os).cursor) {}).id = 0
    rw [List.getD_eq_getElem?_getD, List.getElem?_set]
    split
    · split <;> rfl
    · rename_i h; exact absurd rfl h
  unfold Reader.match
  rw [hl]
  simp only
  rw [if_neg (by decide), if_pos trivial, if_neg (by decide), if_neg (by decide)]
  unfold Reader.push
  rw [if_pos (Or.inl hcur), if_pos rfl]

/-- The same where the body of a function was set aside (the tokens `m` to `m + k`) and is parsed later, with the
lexer at line `r.fline` of the main file; but only if the token `a` is not on a line with that number. -/
theorem C85_cached_partial (pre mid post : List Event) (a b : Nat)
    (h : Program (pre ++ .token a :: mid ++ .token b :: post)) (hmid : ids mid = [])
    (m k : Nat) (hm : m ≤ (ids pre).length ∧ (ids pre).length + 1 < m + k) (r : Reader) (hr : r.depth = 0 ∧ r.cursor < 4 ∧ r.slots.length = 4)
    (body : List Tok) (hbody : body = (((stream { cur := { file := 0 } } (pre ++ .token a :: mid ++ .token b :: post)).drop m).take k).map (·.1))
    (os : List Op) (j : Nat) (ht : track body.length os (0, 0) = some ((ids pre).length - m + 1, j))
    (hb : b ≠ 59 ∧ b ≠ tENDEXPR)
    (hline : (pre.foldl Place.step { cur := { file := 0 } }).cur.tokline ≠ r.fline) :
    ((((r.inject body).run os).match false tTERM).1 = true ↔ ¬ SameLine mid) ∧
      (((r.inject body).run os).match false tTERM).2.lex.1 = b := by
  have hid := program_ids h
  obtain ⟨p, q, hp, hq, ha', hb', hsame, hdiff⟩ := adjacent h hmid
  have hpl : p.1.line = (pre.foldl Place.step { cur := { file := 0 } }).cur.tokline := by
    have hl : (stream { cur := { file := 0 } } pre).length = (ids pre).length := by
      rw [← stream_ids { cur := { file := 0 } } pre, List.length_map]
    rw [List.append_assoc, stream_append, ← hl, List.getElem?_append_right (Nat.le_refl _), Nat.sub_self] at hp
    cases hp; rfl
  have hT : q.1.id ≠ tTERM := by
    rw [hb']
    refine (h.proper b ?_).2.2
    rw [ids_append]
    exact List.mem_append_right _ (List.mem_cons_self ..)
  have hget : ∀ n, n < k → (body.map (fun t => (t, 0)))[n]? = (stream { cur := { file := 0 } } (pre ++ .token a :: mid ++ .token b :: post))[m + n]?.map (fun x => (x.1, 0)) := by
    intro n hn
    rw [hbody, List.map_map, List.getElem?_map, List.getElem?_take, if_pos hn, List.getElem?_drop]
    rfl
  have hid2 : ∀ x ∈ body.map (fun t => (t, 0)), x.1.id ≠ 0 ∧ x.1.id ≠ tEOL := by
    intro x hx
    obtain ⟨t, ht, rfl⟩ := List.mem_map.mp hx
    rw [hbody] at ht
    obtain ⟨y, hy, rfl⟩ := List.mem_map.mp ht
    exact hid y (List.mem_of_mem_drop (List.mem_of_mem_take hy))
  have hat0 := at_start (body.map (fun t => (t, 0))) (r.inject body) rfl hr.1 hr.2.1 hr.2.2 rfl
  obtain ⟨hat, hjd, hinj, hfl⟩ := track_at hid2 os hat0 (by show 0 = 0 + r.depth; omega) (by rw [List.length_map]; exact ht)
  have hfl := hfl rfl
  have hp2 : (body.map (fun t => (t, 0)))[(ids pre).length - m + 1 - 1]? = some (p.1, 0) := by
    rw [Nat.add_sub_cancel, hget _ (by omega), show m + ((ids pre).length - m) = (ids pre).length by omega, hp]; rfl
  have hq2 : (body.map (fun t => (t, 0)))[(ids pre).length - m + 1]? = some (q.1, 0) := by
    rw [hget _ (by omega), show m + ((ids pre).length - m + 1) = (ids pre).length + 1 by omega, hq]; rfl
  have hlt : (ids pre).length - m + 1 < (body.map (fun t => (t, 0))).length := by
    rcases Nat.lt_or_ge ((ids pre).length - m + 1) (body.map (fun t => (t, 0))).length with h | h
    · exact h
    · rw [List.getElem?_eq_none h] at hq2; cases hq2
  obtain ⟨m1, m2⟩ := match_term hat (Nat.succ_pos _) hid2 hp2 hq2 hT (by show q.1.id ≠ 59 ∧ q.1.id ≠ tENDEXPR; rw [hb']; exact hb)
  refine ⟨?_, ?_⟩
  · rw [m1]
    obtain ⟨k1, k2, k3, k4, k5⟩ := hat.lexPush hlt hid2
    have hf : ((r.inject body).run os).lex.2.push.fline = r.fline := by
      rcases k5 with h | h
      · rw [h, hfl]; rfl
      · rw [hinj] at h; cases h
    rw [hf]
    by_cases hs : SameLine mid
    · exact ⟨fun h => absurd ⟨(hsame hs).1, Or.inr (hsame hs).2⟩ h, fun h => absurd hs h⟩
    · refine ⟨fun _ => hs, fun _ => ?_⟩
      rintro ⟨h1, h2⟩
      have := hdiff hs h1
      have h2 : p.1.line = r.fline ∨ q.1.line = p.1.line := h2
      rcases h2 with h2 | h2
      · exact hline (hpl ▸ h2)
      · omega
  · obtain ⟨q', e1, e2, _⟩ := m2.lex hlt
    rw [hq2] at e1; cases e1
    rw [e2]; exact hb'

/-! ### Where the code does not keep the property -/

/-- A file with a function of two statements, each on its own line, included by a main file of two lines. -/
def exInclude : List Event := [.enter 1, .token 123, .newline false, .token 1000, .newline false, .token 1001, .token 59,
  .newline false, .token 125, .leave, .newline false, .token 77]

/-- The reader when the files have been read to the end. -/
def exReader : Reader := (start exInclude).run [.lex, .lex, .lex, .lex, .lex, .lex, .lex]

/-- The tokens of the function. -/
def exTokens : List Tok := ((stream { cur := { file := 0 } } exInclude).take 5).map (·.1)

/-- In a body that was set aside, the newline after a token is not seen when the token's line, in an included file,
has the number of the last line of the main file: the compiler asks for a semicolon that is not needed. -/
theorem C85_cached_line_lost : Program exInclude ∧ exReader.fline = 2 ∧
    ((exReader.inject exTokens).run [.lex, .lex]).current = ⟨1000, 1, 2⟩ ∧
    (((exReader.inject exTokens).run [.lex, .lex]).match false tTERM).1 = false := by
  refine ⟨⟨by decide, by decide, by decide⟩, by decide, by decide, by decide⟩

/-- A file of one line, included twice in the same function. -/
def exTwice : List Event := [.enter 1, .token 1000, .leave, .newline false, .enter 1, .token 1001, .leave, .newline false]

/-- The end of the line is not seen between two inclusions of the same file. -/
theorem C85_included_twice : wellFormed true 0 exTwice = true ∧
    (((start exTwice).run [.lex]).match false tTERM).1 = false := by
  refine ⟨by decide, by decide⟩

/-! ### The hypotheses are met -/

/-- `a` newline `b` backslash-newline `c`. -/
def exLines : List Event := [.token 97, .newline false, .token 98, .newline true, .token 99, .newline false]

example : Program exLines := ⟨by decide, by decide, by decide⟩
example : track 3 [.lex, .lex, .push] (0, 0) = some (1, 2) := by decide
example : (((start exLines).run [.lex, .lex, .push]).match false tTERM).1 = true := by decide
example : (((start exLines).run [.lex, .lex, .push, .lex]).match false tTERM).1 = false := by decide
example : SameLine [.newline true] ∧ ¬ SameLine [.newline false] := by
  refine ⟨by intro e he; simpa using he, fun h => ?_⟩
  have := h (.newline false) (by simp)
  cases this
/-- In the same file as above, the line after the other one is seen to end. -/
example : (((exReader.inject exTokens).run [.lex]).match false tTERM).1 = true := by decide

end Verif.Lines

import Verif.Proofs.TokensWritten
namespace Verif.Tokens
open Verif.Text (Byte isSpace isNewline isDigit NumTok Body prefixOf tokenOf Follows lexNumber)

/-- What reading with or without tags gives where caching gives `(t, rest)`. -/
def Agrees (f : Bool) (t : Tok) (rest : List Byte) (t' : Tok) (rest' : List Byte) : Prop :=
  ((∀ w, t ≠ .maybeLabel w) ∧ t' = t ∧ rest' = rest) ∨
  ∃ w r, t = .maybeLabel w ∧ rest = ch ':' :: r ∧ mc (ch ':') r = none ∧
    ((f = true ∧ t' = .label w ∧ rest' = r) ∨ (f = false ∧ t' = .symbol w ∧ rest' = rest))

theorem lexSymbol_agrees (f : Bool) (w r : List Byte) :
    Agrees f (lexSymbol .caching w r).1 (lexSymbol .caching w r).2 (lexSymbol (.reading f) w r).1 (lexSymbol (.reading f) w r).2 := by
  unfold lexSymbol
  cases h : colonNext r with
  | none =>
    simp only
    left
    split
    · exact ⟨fun _ => (fun h => nomatch h), rfl, rfl⟩
    · exact ⟨fun _ => (fun h => nomatch h), rfl, rfl⟩
  | some r' =>
    simp only
    right
    unfold colonNext at h
    cases hm : mc (ch ':') r with
    | none => rw [hm] at h; cases h
    | some r1 =>
      rw [hm] at h
      simp only at h
      cases hm2 : mc (ch ':') r1 with
      | some _ => rw [hm2] at h; cases h
      | none =>
        rw [hm2] at h
        have h : some r1 = some r' := h
        cases h
        refine ⟨w, r', rfl, mc_some hm, hm2, ?_⟩
        cases f
        · exact Or.inr ⟨rfl, rfl, rfl⟩
        · exact Or.inl ⟨rfl, rfl, rfl⟩

theorem lexWord_agrees (f : Bool) {c : Byte} {r : List Byte} {t : Tok} {rest : List Byte}
    (h : lexWord .caching c r = some (t, rest)) :
    ∃ t' rest', lexWord (.reading f) c r = some (t', rest') ∧ Agrees f t rest t' rest' := by
  have same : ∀ {u : Tok} {x : List Byte}, (∀ w, u ≠ .maybeLabel w) → some (u, x) = some (t, rest) →
      ∃ t' rest', some (u, x) = some (t', rest') ∧ Agrees f t rest t' rest' := by
    intro u x hu he
    cases he
    exact ⟨_, _, rfl, Or.inl ⟨hu, rfl, rfl⟩⟩
  unfold lexWord at h ⊢
  simp only at h ⊢
  by_cases h1 : c :: r.takeWhile isWord = [ch '@']
  · rw [if_pos h1] at h ⊢
    exact same (fun _ => (fun h => nomatch h)) h
  · rw [if_neg h1] at h ⊢
    by_cases h2 : c :: r.takeWhile isWord = str "defined" ∨ c :: r.takeWhile isWord = str "__LINE__"
    · rw [if_pos h2] at h; cases h
    · rw [if_neg h2] at h ⊢
      by_cases h3 : (c ≠ ch '@' ∧ (r.takeWhile isWord).all (fun b => !isDigit b) = true) ∧ c :: r.takeWhile isWord ∈ unimplemented
      · rw [if_pos h3] at h; cases h
      · rw [if_neg h3] at h ⊢
        by_cases h4 : (c ≠ ch '@' ∧ (r.takeWhile isWord).all (fun b => !isDigit b) = true) ∧ c :: r.takeWhile isWord ∈ keywords
        · rw [if_pos h4] at h ⊢
          by_cases h5 : c :: r.takeWhile isWord = str "int" ∨ c :: r.takeWhile isWord = str "void"
          · rw [if_pos h5] at h ⊢
            cases hm : mc (ch ':') (r.dropWhile isWord) with
            | none => rw [hm] at h; exact same (fun _ => (fun h => nomatch h)) h
            | some _ => rw [hm] at h; exact same (fun _ => (fun h => nomatch h)) h
          · rw [if_neg h5] at h ⊢
            exact same (fun _ => (fun h => nomatch h)) h
        · rw [if_neg h4] at h ⊢
          have := lexSymbol_agrees f (c :: r.takeWhile isWord) (r.dropWhile isWord)
          rw [Option.some.injEq] at h
          rw [h] at this
          exact ⟨_, _, rfl, this⟩

theorem lexInto_agrees (f : Bool) {c : Byte} {r : List Byte} {t : Tok} {rest : List Byte}
    (h : lexInto .caching c r = some (t, rest)) :
    ∃ t' rest', lexInto (.reading f) c r = some (t', rest') ∧ Agrees f t rest t' rest' := by
  by_cases ha : isAlpha c = true
  · rw [lexInto_word ha] at h ⊢
    exact lexWord_agrees f h
  · have e : ∀ m, lexInto m c r = lexInto .caching c r := by
      intro m
      unfold lexInto
      simp only [if_neg ha]
    rw [e]
    refine ⟨t, rest, h, Or.inl ⟨?_, rfl, rfl⟩⟩
    intro w hw
    subst hw
    unfold lexInto at h
    split at h
    · split at h <;> cases h
    · split at h
      · cases h
      · split at h
        · cases h
        · cases h

theorem next_agrees (f : Bool) {bol : Bool} {s : List Byte} {t : Tok} {rest : List Byte}
    (h : next .caching bol s = .token t rest) :
    ∃ t' rest', next (.reading f) bol s = .token t' rest' ∧ Agrees f t rest t' rest' := by
  unfold next at h ⊢
  cases hf : findNext (s.length + 1) bol s with
  | eof => rw [hf] at h; cases h
  | other => rw [hf] at h; cases h
  | token c r =>
    rw [hf] at h
    simp only at h ⊢
    cases hl : lexInto .caching c r with
    | none => rw [hl] at h; cases h
    | some p =>
      rw [hl] at h
      obtain ⟨t0, r0⟩ := p
      cases h
      obtain ⟨t', rest', h1, h2⟩ := lexInto_agrees f hl
      rw [h1]
      exact ⟨t', rest', rfl, h2⟩

theorem next_colon {m : Mode} {bol : Bool} {r : List Byte} (h : mc (ch ':') r = none) :
    next m bol (ch ':' :: r) = .token (.punct (str ":")) r := by
  unfold next
  have hs : Starts (ch ':') r := ⟨by decide, by decide, fun h => absurd h (by decide)⟩
  rw [findNext_token hs]
  simp only
  have : lexInto m (ch ':') r = some (.punct (str ":"), r) := by
    unfold lexInto
    rw [if_neg (by decide)]
    have : lexOp (ch ':') r = some (str ":", r) := by
      unfold lexOp
      repeat rw [if_neg (by decide)]
      rw [if_pos rfl, h]
    rw [this]
  rw [this]

/-- The cache `C` holds the tokens of `s` up to `rest`. -/
def Holds (C : List Tok) (s rest : List Byte) : Prop :=
  (∃ n d, 0 < d ∧ cacheBody n d s = some (C, rest)) ∨ (C = [] ∧ s = rest)

theorem holds_step {C : List Tok} {s rest : List Byte} (h : Holds C s rest) (hc : C ≠ []) (f : Bool) :
    ∃ t C' s', injected f C = some (t, C') ∧ next (.reading f) false s = .token t s' ∧ Holds C' s' rest := by
  rcases h with ⟨n, d, hd, h⟩ | ⟨h, _⟩
  · cases n with
    | zero => cases h
    | succ n =>
      simp only [cacheBody] at h
      cases hn : next .caching false s with
      | eof => rw [hn] at h; cases h; exact absurd rfl hc
      | other => rw [hn] at h; cases h
      | token t r =>
        rw [hn] at h
        simp only at h
        obtain ⟨t', r', h1, h2⟩ := next_agrees f hn
        rcases h2 with ⟨hnl, rfl, rfl⟩ | ⟨w, r1, rfl, rfl, hm, h2⟩
        · have hi : ∀ ts, injected f (t' :: ts) = some (t', ts) := by
            intro ts
            cases t' with
            | maybeLabel w => exact absurd rfl (hnl w)
            | _ => rfl
          by_cases h0 : (if t' = .punct (str "{") then d + 1 else if t' = .punct (str "}") then d - 1 else d) = 0
          · rw [if_pos h0] at h
            cases h
            exact ⟨t', [], rest, hi [], h1, Or.inr ⟨rfl, rfl⟩⟩
          · rw [if_neg h0] at h
            cases hb : cacheBody n (if t' = .punct (str "{") then d + 1 else if t' = .punct (str "}") then d - 1 else d) r' with
            | none => rw [hb] at h; cases h
            | some p =>
              rw [hb] at h
              cases h
              exact ⟨t', p.1, r', hi _, h1, Or.inl ⟨n, _, Nat.pos_of_ne_zero h0, hb⟩⟩
        · have hdep : ∀ x : Nat, (if (Tok.maybeLabel w) = .punct (str "{") then d + 1 else if (Tok.maybeLabel w) = .punct (str "}") then x else d) = d := by
            intro x
            rw [if_neg (by simp), if_neg (by simp)]
          simp only [hdep] at h
          rw [if_neg (by omega)] at h
          cases hb : cacheBody n d (ch ':' :: r1) with
          | none => rw [hb] at h; cases h
          | some p =>
            rw [hb] at h
            cases h
            rcases h2 with ⟨rfl, rfl, rfl⟩ | ⟨rfl, rfl, rfl⟩
            · cases n with
              | zero => cases hb
              | succ n =>
                simp only [cacheBody, next_colon hm] at hb
                rw [if_neg (by decide : ¬ Tok.punct (str ":") = .punct (str "{")), if_neg (by decide : ¬ Tok.punct (str ":") = .punct (str "}")),
                  if_neg (by omega)] at hb
                cases hb2 : cacheBody n d r' with
                | none => rw [hb2] at hb; cases hb
                | some q =>
                  rw [hb2] at hb
                  cases hb
                  refine ⟨_, q.1, r', ?_, h1, Or.inl ⟨n, d, hd, hb2⟩⟩
                  simp only [injected, if_pos trivial]
            · exact ⟨_, p.1, _, rfl, h1, Or.inl ⟨n, d, hd, hb⟩⟩
  · exact absurd h hc

/-- When the cache is used up, the text has come to the end of the body, or there is nothing left of it. -/
theorem holds_nil {s rest : List Byte} (h : Holds [] s rest) :
    s = rest ∨ (rest = [] ∧ next .caching false s = .eof) := by
  rcases h with ⟨n, d, hd, h⟩ | ⟨_, h⟩
  · cases n with
    | zero => cases h
    | succ n =>
      simp only [cacheBody] at h
      cases hn : next .caching false s with
      | eof => rw [hn] at h; cases h; exact Or.inr ⟨rfl, rfl⟩
      | other => rw [hn] at h; cases h
      | token t r =>
        rw [hn] at h
        simp only at h
        by_cases h0 : (if t = .punct (str "{") then d + 1 else if t = .punct (str "}") then d - 1 else d) = 0
        · rw [if_pos h0] at h; cases h
        · rw [if_neg h0] at h
          cases hb : cacheBody n (if t = .punct (str "{") then d + 1 else if t = .punct (str "}") then d - 1 else d) r with
          | none => rw [hb] at h; cases h
          | some p => rw [hb] at h; cases h
  · exact Or.inl h

theorem reads {rest : List Byte} : ∀ (fs : List Bool) {C : List Tok} {s : List Byte}, Holds C s rest →
    ∀ {ts C'}, readCache fs C = some (ts, C') → ∃ s', readText fs s = some (ts, s') ∧ Holds C' s' rest := by
  intro fs
  induction fs with
  | nil => intro C s h ts C' hr; cases hr; exact ⟨s, rfl, h⟩
  | cons f fs ih =>
    intro C s h ts C' hr
    simp only [readCache] at hr
    by_cases hc : C = []
    · subst hc; simp only [injected] at hr; cases hr
    · obtain ⟨t, C1, s1, h1, h2, h3⟩ := holds_step h hc f
      rw [h1] at hr
      simp only at hr
      cases hb : readCache fs C1 with
      | none => rw [hb] at hr; cases hr
      | some p =>
        rw [hb] at hr
        cases hr
        obtain ⟨s', h4, h5⟩ := ih h3 hb
        refine ⟨s', ?_, h5⟩
        simp only [readText, h2, h4]
        rfl

theorem never_stuck {rest : List Byte} : ∀ (fs : List Bool) {C : List Tok} {s : List Byte}, Holds C s rest →
    readCache fs C = none → ∃ k ts, k < fs.length ∧ readCache (fs.take k) C = some (ts, []) := by
  intro fs
  induction fs with
  | nil => intro C s _ hr; cases hr
  | cons f fs ih =>
    intro C s h hr
    by_cases hc : C = []
    · subst hc; exact ⟨0, [], Nat.succ_pos _, rfl⟩
    · obtain ⟨t, C1, s1, h1, h2, h3⟩ := holds_step h hc f
      simp only [readCache, h1] at hr
      cases hb : readCache fs C1 with
      | some p => rw [hb] at hr; cases hr
      | none =>
        obtain ⟨k, ts, hk, hk2⟩ := ih h3 hb
        refine ⟨k + 1, t :: ts, Nat.succ_lt_succ hk, ?_⟩
        simp only [List.take_succ_cons, readCache, h1, hk2]
        rfl

theorem source_step {t : Tok} {ts : List Tok} {s : List Byte} (h : Source (t :: ts) s) :
    ∃ rest, (∀ m bol, next m bol s = .token t rest) ∧ Source ts rest ∧ rest.length < s.length := by
  cases h with
  | cons g x rest t ts hg hx hr =>
    have := written_pos hx
    exact ⟨rest, fun m bol => next_source hg hx, hr, by simp only [List.length_append]; omega⟩

theorem cacheBody_step {t : Tok} {n d : Nat} {s rest : List Byte} (h : next .caching false s = .token t rest)
    (hd : (if t = .punct (str "{") then d + 1 else if t = .punct (str "}") then d - 1 else d) ≠ 0) :
    cacheBody (n + 1) d s = (cacheBody n (if t = .punct (str "{") then d + 1 else if t = .punct (str "}") then d - 1 else d) rest).map
      fun p => (t :: p.1, p.2) := by
  simp only [cacheBody, h]
  rw [if_neg hd]

theorem cacheBody_balanced {b : List Tok} (hb : Balanced b) :
    ∀ (d n : Nat) (s : List Byte) (more : List Tok), Source (b ++ more) s → s.length < n →
      ∃ s' n', Source more s' ∧ s'.length < n' ∧
        cacheBody n (d + 1) s = (cacheBody n' (d + 1) s').map fun p => (b ++ p.1, p.2) := by
  induction hb with
  | nil =>
    intro d n s more hs hn
    refine ⟨s, n, hs, hn, ?_⟩
    cases cacheBody n (d + 1) s <;> rfl
  | other t ts ht h ih =>
    intro d n s more hs hn
    obtain ⟨rest, h1, h2, h3⟩ := source_step hs
    cases n with
    | zero => exact absurd hn (Nat.not_lt_zero _)
    | succ n =>
      obtain ⟨s', n', i1, i2, i3⟩ := ih d n rest more h2 (by omega)
      refine ⟨s', n', i1, i2, ?_⟩
      have hd : (if t = .punct (str "{") then d + 1 + 1 else if t = .punct (str "}") then d + 1 - 1 else d + 1) = d + 1 := by
        rw [if_neg ht.1, if_neg ht.2]
      rw [cacheBody_step (h1 _ _) (by rw [hd]; omega), hd, i3]
      cases cacheBody n' (d + 1) s' <;> rfl
  | block a b _ _ iha ihb =>
    intro d n s more hs hn
    rw [List.append_assoc, List.cons_append] at hs
    obtain ⟨rest, h1, h2, h3⟩ := source_step hs
    cases n with
    | zero => exact absurd hn (Nat.not_lt_zero _)
    | succ n =>
      obtain ⟨s1, n1, i1, i2, i3⟩ := iha (d + 1) n rest _ h2 (by omega)
      obtain ⟨rest2, k1, k2, k3⟩ := source_step i1
      cases n1 with
      | zero => exact absurd i2 (Nat.not_lt_zero _)
      | succ n1 =>
        obtain ⟨s', n', j1, j2, j3⟩ := ihb d n1 rest2 more k2 (by omega)
        refine ⟨s', n', j1, j2, ?_⟩
        have e1 : (if Tok.punct (str "{") = .punct (str "{") then d + 1 + 1 else if Tok.punct (str "{") = .punct (str "}") then d + 1 - 1 else d + 1) = d + 1 + 1 :=
          if_pos rfl
        have e2 : (if Tok.punct (str "}") = .punct (str "{") then d + 1 + 1 + 1 else if Tok.punct (str "}") = .punct (str "}") then d + 1 + 1 - 1 else d + 1 + 1) = d + 1 := by
          rw [if_neg (by decide), if_pos rfl]; omega
        rw [cacheBody_step (h1 _ _) (by rw [e1]; omega), e1, i3, cacheBody_step (k1 _ _) (by rw [e2]; omega), e2, j3]
        cases cacheBody n' (d + 1) s' with
        | none => rfl
        | some p => simp

theorem cacheBody_source {b more : List Tok} (hb : Balanced b) {s : List Byte}
    (hs : Source (b ++ .punct (str "}") :: more) s) :
    ∃ rest, cacheBody (s.length + 1) 1 s = some (b ++ [.punct (str "}")], rest) ∧ Source more rest := by
  obtain ⟨s', n', h1, h2, h3⟩ := cacheBody_balanced hb 0 (s.length + 1) s _ hs (Nat.lt_succ_self _)
  obtain ⟨rest, k1, k2, k3⟩ := source_step h1
  refine ⟨rest, ?_, k2⟩
  rw [h3]
  cases n' with
  | zero => exact absurd h2 (Nat.not_lt_zero _)
  | succ n' =>
    simp only [cacheBody, k1]
    rw [if_neg (by decide : ¬ Tok.punct (str "}") = .punct (str "{")), if_pos trivial, if_pos rfl]
    rfl

end Verif.Tokens

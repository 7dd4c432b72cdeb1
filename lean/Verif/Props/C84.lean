import Verif.Proofs.TokensCache
/-
C84: a program's text is read as the tokens it is written with.
-/
namespace Verif.Tokens
open Verif.Text (Byte isSpace isNewline isDigit NumTok Body prefixOf tokenOf Follows)

/-- The tokens of a text are those it is written with, whatever white space and comments are between
them, and whether or not tags are allowed. -/
theorem C84_tokens (tags : Bool) (ts : List Tok) (s : List Byte) (h : Source ts s) : tokens tags s = some ts :=
  lexAll_source h (s.length + 1) true (Nat.lt_succ_self _)

/-- A text can be taken apart in one way only. -/
theorem C84_unique (ts ts' : List Tok) (s : List Byte) (h : Source ts s) (h' : Source ts' s) : ts = ts' :=
  Option.some.inj ((C84_tokens true ts s h).symm.trans (C84_tokens true ts' s h'))

/-- Where several operators could be read, the longest is. -/
theorem C84_longest (m : Mode) (bol : Bool) (s u : List Byte) (hu : u ∈ operators) (hp : u <+: s)
    (hc : ¬ str "//" <+: s ∧ ¬ str "/*" <+: s) :
    ∃ t ∈ operators, ∃ rest, s = t ++ rest ∧ (∀ v ∈ operators, v <+: s → v.length ≤ t.length) ∧
      next m bol s = .token (.punct t) rest := by
  have hhead : ∀ u ∈ operators, ∃ c ∈ opHeads, u.head? = some c := by decide +kernel
  obtain ⟨c, hc1, hc2⟩ := hhead u hu
  cases u with
  | nil => cases hc2
  | cons d u =>
    simp only [List.head?_cons, Option.some.injEq] at hc2
    subst hc2
    obtain ⟨z, hz⟩ := hp
    obtain ⟨⟨t, rest⟩, h1, h2⟩ := lexOp_some hc1 (u ++ z)
    have hs : d :: (u ++ z) = s := hz
    rw [hs] at h2
    obtain ⟨e1, e2, e3⟩ := h2
    refine ⟨t, e2, rest, e1, e3, ?_⟩
    rw [e1] at hc
    have x1 : str "//" = [ch '/', ch '/'] := by decide +kernel
    have x2 : str "/*" = [ch '/', ch '*'] := by decide +kernel
    have hw : Written (.punct t) t rest := by
      refine .operator t rest e2 (by rw [← e1]; exact e3) ?_
      intro ht b hb
      have x3 : str "/" = [ch '/'] := by decide +kernel
      rw [ht, x3, x1, x2] at hc
      cases rest with
      | nil => cases hb
      | cons b' rest =>
        simp only [List.head?_cons, Option.some.injEq] at hb
        subst hb
        constructor
        · rintro rfl; exact hc.1 ⟨rest, rfl⟩
        · rintro rfl; exact hc.2 ⟨rest, rfl⟩
    rw [e1]
    exact next_source (g := []) .nil hw

/-- The body of a function is set aside up to the brace that closes it, and what comes after is read
next. -/
theorem C84_body (b more : List Tok) (s : List Byte) (hb : Balanced b)
    (hs : Source (b ++ .punct (str "}") :: more) s) :
    ∃ rest, cacheBody (s.length + 1) 1 s = some (b ++ [.punct (str "}")], rest) ∧ Source more rest :=
  cacheBody_source hb hs

/-- Tokens that were set aside are read back as if they were read from the text, for every sequence of
the parser's choices on whether a name and a colon are a tag; and when all have been read the text is
where the body ended. -/
theorem C84_cached (n d : Nat) (s rest : List Byte) (C : List Tok) (hd : 0 < d)
    (h : cacheBody n d s = some (C, rest)) (flags : List Bool) (ts C' : List Tok)
    (hr : readCache flags C = some (ts, C')) :
    ∃ s', readText flags s = some (ts, s') ∧ (C' = [] → s' = rest ∨ (rest = [] ∧ next .caching false s' = .eof)) := by
  obtain ⟨s', h1, h2⟩ := reads flags (Or.inl ⟨n, d, hd, h⟩) hr
  exact ⟨s', h1, fun hn => holds_nil (hn ▸ h2)⟩

/-- Reading what was set aside fails only at its end. -/
theorem C84_cached_all (n d : Nat) (s rest : List Byte) (C : List Tok) (hd : 0 < d)
    (h : cacheBody n d s = some (C, rest)) (flags : List Bool) (hr : readCache flags C = none) :
    ∃ k ts, k < flags.length ∧ readCache (flags.take k) C = some (ts, []) :=
  never_stuck flags (Or.inl ⟨n, d, hd, h⟩) hr

/-! ### The hypotheses are met -/

/-- `a>>=b` and a comment. -/
def exText : List Byte := str "a>>=b/* c */;"

example : Source [.symbol (str "a"), .punct (str ">>="), .symbol (str "b"), .punct (str ";")] exText := by
  have name : ∀ w, w = str "a" ∨ w = str "b" → IsName w := by
    rintro w (rfl | rfl)
    · exact ⟨⟨ch 'a', [], by decide +kernel, (startsName_iff _).mpr (by decide), by simp⟩, by decide +kernel, by decide +kernel⟩
    · exact ⟨⟨ch 'b', [], by decide +kernel, (startsName_iff _).mpr (by decide), by simp⟩, by decide +kernel, by decide +kernel⟩
  have e : exText = [] ++ str "a" ++ ([] ++ str ">>=" ++ ([] ++ str "b" ++ ((str "/*" ++ str " c " ++ str "*/" ++ []) ++ str ";" ++ []))) := by
    decide +kernel
  rw [e]
  refine .cons [] _ _ _ _ .nil (.symbol _ _ (name _ (Or.inl rfl)) ?_ ?_) ?_
  · intro b hb
    have : ([] ++ str ">>=" ++ ([] ++ str "b" ++ ((str "/*" ++ str " c " ++ str "*/" ++ []) ++ str ";" ++ []))).head? = some (ch '>') := by
      decide +kernel
    rw [this] at hb; cases hb; exact (not_inName_iff _).mpr (by decide)
  · intro r hr
    have : ([] ++ str ">>=" ++ ([] ++ str "b" ++ ((str "/*" ++ str " c " ++ str "*/" ++ []) ++ str ";" ++ []))).head? = some (ch '>') := by
      decide +kernel
    rw [hr] at this; exact absurd this (by simp only [List.head?_cons]; decide)
  refine .cons [] _ _ _ _ .nil (.operator _ _ (by decide +kernel) (by decide +kernel) (by decide +kernel)) ?_
  refine .cons [] _ _ _ _ .nil (.symbol _ _ (name _ (Or.inr rfl)) ?_ ?_) ?_
  · intro b hb
    have : ((str "/*" ++ str " c " ++ str "*/" ++ []) ++ str ";" ++ []).head? = some (ch '/') := by decide +kernel
    rw [this] at hb; cases hb; exact (not_inName_iff _).mpr (by decide)
  · intro r hr
    have : ((str "/*" ++ str " c " ++ str "*/" ++ []) ++ str ";" ++ []).head? = some (ch '/') := by decide +kernel
    rw [hr] at this; exact absurd this (by simp only [List.head?_cons]; decide)
  have sg : str ";" = [ch ';'] := by decide +kernel
  have hsg : Written (.punct (str ";")) (str ";") [] := by
    rw [sg]; exact .sign _ _ (by unfold IsSign; decide +kernel)
  exact .cons _ _ _ _ _ (.block _ _ (by decide +kernel) (by decide +kernel) .nil) hsg (.nil [] .nil)

example : tokens true exText = some [.symbol (str "a"), .punct (str ">>="), .symbol (str "b"), .punct (str ";")] := by
  decide +kernel

/-- A number, a keyword and both kinds of comment. -/
example : tokens false (str "while(x_1<=0x1F)// y\n{--n;}") = some [.keyword (str "while"), .punct (str "("),
    .symbol (str "x_1"), .punct (str "<="), .number (.number 31), .punct (str ")"), .punct (str "{"),
    .punct (str "--"), .symbol (str "n"), .punct (str ";"), .punct (str "}")] := by
  decide +kernel

/-- `x ? a : b;` and `Tag:v` in the body of a function. -/
def exBody : List Byte := str "x?a:b;{Tag:v;}}f"

example : cacheBody 30 1 exBody = some ([.symbol (str "x"), .punct (str "?"), .maybeLabel (str "a"),
    .punct (str ":"), .symbol (str "b"), .punct (str ";"), .punct (str "{"), .maybeLabel (str "Tag"), .punct (str ":"),
    .symbol (str "v"), .punct (str ";"), .punct (str "}"), .punct (str "}")], str "f") := by
  decide +kernel

/-- With tags off after the question mark, and on in the block. -/
example : (readText [true, true, false, false, true, true, true, true, true, true, true, true] exBody) =
    some ([.symbol (str "x"), .punct (str "?"), .symbol (str "a"), .punct (str ":"), .symbol (str "b"),
      .punct (str ";"), .punct (str "{"), .label (str "Tag"), .symbol (str "v"), .punct (str ";"), .punct (str "}"),
      .punct (str "}")], str "f") := by
  decide +kernel

end Verif.Tokens

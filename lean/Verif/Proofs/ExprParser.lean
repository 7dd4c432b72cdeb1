import Verif.Spec.ExprGrammar

/-! The expression parser: fuel, and that what it accepts is written according to the grammar. -/
namespace Verif.Parse

/-! ## Fuel -/

/-- `y` is what `x` gives with more fuel. -/
def Le {α : Type} (x y : Out α) : Prop := x ≠ .fuel → y = x

theorem Le.refl {α : Type} (x : Out α) : Le x x := fun _ => rfl

theorem Le.fuel {α : Type} {y : Out α} : Le .fuel y := fun h => absurd rfl h

theorem Le.trans {α : Type} {x y z : Out α} (h1 : Le x y) (h2 : Le y z) : Le x z := by
  intro h
  have := h1 h
  rw [h2 (by rw [this]; exact h), this]

theorem Le.bind {α β : Type} {x x' : Out α} {f f' : α → List Tok → Out β} (h : Le x x') (hf : ∀ a r, Le (f a r) (f' a r)) :
    Le (x.bind f) (x'.bind f') := by
  intro hn
  cases x with
  | ok a r => rw [h (by nofun)]; exact hf a r hn
  | reject => rw [h (by nofun)]; rfl
  | fuel => exact absurd rfl hn

/-- The statement of monotonicity for all functions. -/
structure Mono (semi : Bool) (f : Nat) : Prop where
  hier14 : ∀ tg ts, Le (hier14 semi f tg ts) (hier14 semi (f + 1) tg ts)
  hier13 : ∀ tg ts, Le (hier13 semi f tg ts) (hier13 semi (f + 1) tg ts)
  plnge : ∀ k tg ts, Le (plnge semi f k tg ts) (plnge semi (f + 1) k tg ts)
  plngeLoop : ∀ k tg a ts, Le (plngeLoop semi f k tg a ts) (plngeLoop semi (f + 1) k tg a ts)
  plngeRel : ∀ tg ts, Le (plngeRel semi f tg ts) (plngeRel semi (f + 1) tg ts)
  hier2 : ∀ tg ts, Le (hier2 semi f tg ts) (hier2 semi (f + 1) tg ts)
  hier1 : ∀ tg ts, Le (hier1 semi f tg ts) (hier1 semi (f + 1) tg ts)
  suffixes : ∀ tg b ts, Le (suffixes semi f tg b ts) (suffixes semi (f + 1) tg b ts)
  primary : ∀ tg ts, Le (primary semi f tg ts) (primary semi (f + 1) tg ts)
  exprs : ∀ tg ts, Le (exprs semi f tg ts) (exprs semi (f + 1) tg ts)
  call : ∀ tg ts, Le (call semi f tg ts) (call semi (f + 1) tg ts)
  args : ∀ tg n ts, Le (args semi f tg n ts) (args semi (f + 1) tg n ts)
  value : ∀ tg n nm ts, Le (value semi f tg n nm ts) (value semi (f + 1) tg n nm ts)
  moreArgs : ∀ tg n a ts, Le (moreArgs semi f tg n a ts) (moreArgs semi (f + 1) tg n a ts)

theorem mono (semi : Bool) : ∀ f, Mono semi f
  | 0 => by constructor <;> intros <;> exact Le.fuel
  | f+1 => by
    have M := mono semi f
    constructor
    · intro tg ts
      rw [hier14, hier14.eq_2 semi tg ts (f + 1)]
      refine (M.hier13 tg ts).bind fun a r => ?_
      split
      · exact (M.hier14 _ _).bind fun _ _ => .refl _
      · exact .refl _
    · intro tg ts
      rw [hier13, hier13.eq_2 semi tg ts (f + 1)]
      refine (M.plnge 12 tg ts).bind fun a r => ?_
      split
      · refine (M.hier13 _ _).bind fun _ _ => (Le.refl _).bind fun _ _ => (M.hier13 _ _).bind fun _ _ => .refl _
      · exact .refl _
    · intro k tg ts
      rw [plnge, plnge.eq_2 semi k tg ts (f + 1)]
      split
      · exact M.hier2 _ _
      · split
        · exact (M.plnge _ _ _).bind fun _ _ => (M.plngeRel _ _).bind fun _ _ => .refl _
        · exact (M.plnge _ _ _).bind fun _ _ => M.plngeLoop _ _ _ _
    · intro k tg a ts
      rw [plngeLoop, plngeLoop.eq_2 semi k tg a ts (f + 1)]
      split
      · exact (M.plnge _ _ _).bind fun _ _ => M.plngeLoop _ _ _ _
      · exact .refl _
    · intro tg ts
      rw [plngeRel, plngeRel.eq_2 semi tg ts (f + 1)]
      split
      · exact (M.plnge _ _ _).bind fun _ _ => (M.plngeRel _ _).bind fun _ _ => .refl _
      · exact .refl _
    · intro tg ts
      unfold hier2
      split
      · exact (M.hier2 _ _).bind fun _ _ => .refl _
      · exact (M.hier2 _ _).bind fun _ _ => .refl _
      · exact (M.hier2 _ _).bind fun _ _ => .refl _
      · exact (M.hier2 _ _).bind fun _ _ => .refl _
      · split
        · exact (M.hier2 _ _).bind fun _ _ => .refl _
        · exact (M.hier1 _ _).bind fun _ _ => .refl _
    · intro tg ts
      unfold hier1
      split
      · exact (Le.refl _).bind fun _ _ => (M.hier14 _ _).bind fun _ _ => (Le.refl _).bind fun _ _ => M.suffixes _ _ _
      · exact (M.primary _ _).bind fun _ _ => M.suffixes _ _ _
    · intro tg b ts
      unfold suffixes
      split
      · exact (Le.refl _).bind fun _ _ => M.suffixes _ _ _
      · exact (M.hier14 _ _).bind fun _ _ => (Le.refl _).bind fun _ _ => M.suffixes _ _ _
      · exact (M.call _ _).bind fun _ _ => M.suffixes _ _ _
      · exact .refl _
    · intro tg ts
      unfold primary
      split
      · exact (M.exprs _ _).bind fun _ _ => .refl _
      · exact .refl _
      · exact .refl _
      · exact .refl _
    · intro tg ts
      unfold exprs
      refine (M.hier14 tg ts).bind fun a r => ?_
      split
      · exact (M.exprs _ _).bind fun _ _ => .refl _
      · exact .refl _
    · intro tg ts
      unfold call
      split
      · exact .refl _
      · exact M.args _ _ _
    · intro tg n ts
      unfold args
      split
      · exact (Le.refl _).bind fun _ _ => (Le.refl _).bind fun _ _ => M.value _ _ _ _
      · split
        · exact .refl _
        · exact M.value _ _ _ _
    · intro tg n nm ts
      unfold value
      split
      · exact M.moreArgs _ _ _ _
      · exact (M.hier14 _ _).bind fun _ _ => M.moreArgs _ _ _ _
    · intro tg n a ts
      unfold moreArgs
      split
      · exact .refl _
      · exact (M.args _ _ _).bind fun _ _ => .refl _
      · exact .refl _

theorem Out.bind_ok {α β : Type} {x : Out α} {f : α → List Tok → Out β} {b : β} {r : List Tok} :
    x.bind f = .ok b r ↔ ∃ a r', x = .ok a r' ∧ f a r' = .ok b r := by
  cases x with
  | ok a r1 =>
    constructor
    · intro h; exact ⟨a, r1, rfl, h⟩
    · rintro ⟨_, _, h, h'⟩; cases h; exact h'
  | reject => simp [Out.bind]
  | fuel => simp [Out.bind]

theorem need_ok {α : Type} {t : Tok} {a b : α} {ts r : List Tok} : need t a ts = .ok b r ↔ b = a ∧ ts = t :: r := by
  unfold need
  split
  · rename_i t' r'
    split
    · rename_i h; subst h
      constructor
      · intro h; cases h; exact ⟨rfl, rfl⟩
      · rintro ⟨rfl, h⟩; cases h; rfl
    · rename_i h
      constructor
      · intro h; cases h
      · rintro ⟨_, h'⟩; cases h'; exact absurd rfl h
  · constructor
    · intro h; cases h
    · rintro ⟨_, h⟩; cases h

theorem needSymbol_ok {tg : Bool} {s : Nat} {ts r : List Tok} :
    needSymbol tg ts = .ok s r ↔ ∃ c, (tg = false ∨ c = false) ∧ ts = .sym s c :: r := by
  unfold needSymbol
  split
  · rename_i s' c r'
    split
    · rename_i h
      constructor
      · intro h; cases h
      · rintro ⟨c', hc, h'⟩
        cases h'
        cases tg <;> cases c <;> simp_all
    · rename_i h
      constructor
      · intro h'; cases h'
        exact ⟨c, by cases tg <;> cases c <;> simp_all, rfl⟩
      · rintro ⟨c', hc, h'⟩; cases h'; rfl
  · rename_i hx
    constructor
    · intro h; cases h
    · rintro ⟨c', hc, h'⟩; exact absurd h' (hx _ _ _)

theorem nextop_some {k : Nat} {ts r : List Tok} {o : BinOp} : nextop k ts = some (o, r) ↔ ts = .op o :: r ∧ o ∈ opList k := by
  unfold nextop
  split
  · rename_i o' r'
    split
    · rename_i h
      constructor
      · intro h'; cases h'; exact ⟨rfl, by simpa using h⟩
      · rintro ⟨h', _⟩; cases h'; rfl
    · rename_i h
      constructor
      · intro h'; cases h'
      · rintro ⟨h', ho⟩; cases h'; exact absurd (by simpa using ho) h
  · rename_i hx
    constructor
    · intro h; cases h
    · rintro ⟨h', _⟩; exact absurd h' (hx _ _)

theorem mem_opList {k : Nat} {o : BinOp} : o ∈ opList k ↔ prec o = k := by
  constructor
  · unfold opList
    split <;> cases o <;> simp [prec]
  · rintro rfl
    cases o <;> simp [prec, opList]

/-! ## Soundness -/

/-- From `ts`, `p` was read and `rest` is left. -/
def Read (semi tg : Bool) (p : Phrase) (ts rest : List Tok) : Prop := ∃ pre, ts = pre ++ rest ∧ Writes semi tg p pre

structure Sound (semi : Bool) (f : Nat) : Prop where
  hier14 : ∀ tg ts e r, hier14 semi f tg ts = .ok e r → Read semi tg (.ex 14 e) ts r
  hier13 : ∀ tg ts e r, hier13 semi f tg ts = .ok e r → Read semi tg (.ex 13 e) ts r
  plnge : ∀ k tg ts e r, 2 ≤ k → k ≤ 12 → plnge semi f k tg ts = .ok e r → Read semi tg (.ex k e) ts r
  plngeLoop : ∀ k tg a ts e r, 3 ≤ k → k ≤ 12 → k ≠ 9 → plngeLoop semi f k tg a ts = .ok e r →
    ∀ l, Writes semi tg (.ex k a) l → ∃ pre, ts = pre ++ r ∧ Writes semi tg (.ex k e) (l ++ pre)
  plngeRel : ∀ tg ts cs r, plngeRel semi f tg ts = .ok cs r → (cs = [] ∧ ts = r) ∨ Read semi tg (.cmps cs) ts r
  hier2 : ∀ tg ts e r, hier2 semi f tg ts = .ok e r → Read semi tg (.ex 2 e) ts r
  hier1 : ∀ tg ts e r, hier1 semi f tg ts = .ok e r → Read semi tg (.ex 1 e) ts r
  suffixes : ∀ tg b ts e r, suffixes semi f tg b ts = .ok e r →
    ∀ l, Writes semi tg (.ex 1 b) l → ∃ pre, ts = pre ++ r ∧ Writes semi tg (.ex 1 e) (l ++ pre)
  primary : ∀ tg ts e r, primary semi f tg ts = .ok e r → Read semi tg (.ex 0 e) ts r
  exprs : ∀ tg ts es r, exprs semi f tg ts = .ok es r → Read semi tg (.list es) ts r
  call : ∀ tg ts as r, call semi f tg ts = .ok as r → Read semi tg (.call as) ts r
  args : ∀ tg n ts as r, args semi f tg n ts = .ok as r → Read semi tg (.args n as) ts r
  value : ∀ tg n nm ts as r, value semi f tg n nm ts = .ok as r → (n = nm.isSome) → ∀ l, (match nm with
      | none => l = []
      | some s => ∃ c, (tg = false ∨ c = false) ∧ l = [.dot false, .sym s c, .asg .plain]) →
    ∀ n0, (n0 = true → n = true) → ∃ pre, ts = pre ++ r ∧ Writes semi tg (.args n0 as) (l ++ pre)
  moreArgs : ∀ tg n a ts as r, moreArgs semi f tg n a ts = .ok as r → ∀ l, Writes semi tg (.arg n a) l →
    ∀ n0, (n0 = true → n = true) → ∃ pre, ts = pre ++ r ∧ Writes semi tg (.args n0 as) (l ++ pre)

theorem app_one {l r : List Tok} {t : Tok} : l ++ t :: r = (l ++ [t]) ++ r := by simp

theorem list_one {semi tg : Bool} {es : List Ex} {ts : List Tok} (h : Writes semi tg (.list es) ts) :
    (∃ e, es = [e] ∧ Writes semi tg (.ex 14 e) ts) ∨ 2 ≤ es.length := by
  cases h with
  | one h => exact Or.inl ⟨_, rfl, h⟩
  | more _ h2 =>
    right
    cases h2 <;> simp

theorem cmps_ne {semi tg : Bool} {cs : List (BinOp × Ex)} {ts : List Tok} (h : Writes semi tg (.cmps cs) ts) : cs ≠ [] := by
  cases h <;> simp

theorem mkComma_two {es : List Ex} (h : 2 ≤ es.length) : mkComma es = .comma es := by
  unfold mkComma
  split
  · simp at h
  · rfl

theorem mkRel_two {a : Ex} {cs : List (BinOp × Ex)} (h : 2 ≤ cs.length) : mkRel a cs = .chain a cs := by
  unfold mkRel
  split
  · simp at h
  · simp at h
  · rfl

theorem sound (semi : Bool) : ∀ f, Sound semi f
  | 0 => by
    constructor
    all_goals intros
    all_goals (rename_i h; try cases h)
    all_goals simp_all [Verif.Parse.plngeLoop, Verif.Parse.suffixes, Verif.Parse.value, Verif.Parse.moreArgs]
  | f+1 => by
    have S := sound semi f
    constructor
    · intro tg ts e r h
      rw [hier14, Out.bind_ok] at h
      obtain ⟨a, r1, h1, h⟩ := h
      obtain ⟨l, rfl, hl⟩ := S.hier13 _ _ _ _ h1
      split at h
      · rw [Out.bind_ok] at h
        obtain ⟨b, r2, h2, h⟩ := h
        cases h
        obtain ⟨m, rfl, hm⟩ := S.hier14 _ _ _ _ h2
        exact ⟨_, by simp, .asg _ hl hm⟩
      · cases h
        exact ⟨_, rfl, .up (by decide) hl⟩
    · intro tg ts e r h
      rw [hier13, Out.bind_ok] at h
      obtain ⟨c, r1, h1, h⟩ := h
      obtain ⟨l, rfl, hl⟩ := S.plnge _ _ _ _ _ (by decide) (by decide) h1
      split at h
      · rw [Out.bind_ok] at h
        obtain ⟨a, r2, h2, h⟩ := h
        obtain ⟨m, rfl, hm⟩ := S.hier13 _ _ _ _ h2
        rw [Out.bind_ok] at h
        obtain ⟨a', r3, h3, h⟩ := h
        rw [need_ok] at h3
        obtain ⟨rfl, rfl⟩ := h3
        rw [Out.bind_ok] at h
        obtain ⟨b, r4, h4, h⟩ := h
        cases h
        obtain ⟨n, rfl, hn⟩ := S.hier13 _ _ _ _ h4
        exact ⟨_, by simp, .tern hl hm hn⟩
      · cases h
        exact ⟨_, rfl, .up (by decide) hl⟩
    · intro k tg ts e r hk2 hk h
      rw [plnge] at h
      split at h
      · have : k = 2 := by omega
        subst this
        exact S.hier2 _ _ _ _ h
      · split at h
        · rename_i h9
          subst h9
          rw [Out.bind_ok] at h
          obtain ⟨a, r1, h1, h⟩ := h
          obtain ⟨l, rfl, hl⟩ := S.plnge _ _ _ _ _ (by decide) (by decide) h1
          rw [Out.bind_ok] at h
          obtain ⟨cs, r2, h2, h⟩ := h
          cases h
          rcases S.plngeRel _ _ _ _ h2 with ⟨rfl, rfl⟩ | ⟨m, rfl, hm⟩
          · exact ⟨_, rfl, .up (by decide) hl⟩
          · refine ⟨l ++ m, by simp, ?_⟩
            match cs, hm with
            | [], hm => exact absurd rfl (cmps_ne hm)
            | [(o, b)], hm => exact .rel o hl hm
            | c1 :: c2 :: cs, hm =>
              rw [mkRel_two (by simp)]
              exact .chain (by simp) hl hm
        · rename_i h2 h9
          rw [Out.bind_ok] at h
          obtain ⟨a, r1, h1, h⟩ := h
          obtain ⟨l, rfl, hl⟩ := S.plnge _ _ _ _ _ (by omega) (by omega) h1
          obtain ⟨k', rfl⟩ : ∃ k', k = k' + 1 := ⟨k - 1, by omega⟩
          obtain ⟨m, rfl, hm⟩ := S.plngeLoop _ _ _ _ _ _ (by omega) (by omega) h9 h l (.up (by omega) hl)
          exact ⟨l ++ m, by simp, hm⟩
    · intro k tg a ts e r hk3 hk h9 h l hl
      rw [plngeLoop] at h
      split at h
      · rename_i o r1 hn
        rw [nextop_some, mem_opList] at hn
        obtain ⟨rfl, ho⟩ := hn
        rw [Out.bind_ok] at h
        obtain ⟨b, r2, h2, h⟩ := h
        obtain ⟨m, rfl, hm⟩ := S.plnge _ _ _ _ _ (by omega) (by omega) h2
        obtain ⟨k', rfl⟩ : ∃ k', k = k' + 1 := ⟨k - 1, by omega⟩
        obtain ⟨n, rfl, hn⟩ := S.plngeLoop _ _ _ _ _ _ (by omega) (by omega) h9 h _ (.bin o ho (by omega) hl hm)
        exact ⟨.op o :: m ++ n, by simp, by simpa using hn⟩
      · cases h
        exact ⟨[], rfl, by simpa using hl⟩
    · intro tg ts cs r h
      rw [plngeRel] at h
      split at h
      · rename_i o r1 hn
        rw [nextop_some, mem_opList] at hn
        obtain ⟨rfl, ho⟩ := hn
        rw [Out.bind_ok] at h
        obtain ⟨b, r2, h2, h⟩ := h
        obtain ⟨m, rfl, hm⟩ := S.plnge _ _ _ _ _ (by omega) (by omega) h2
        rw [Out.bind_ok] at h
        obtain ⟨cs', r3, h3, h⟩ := h
        cases h
        right
        rcases S.plngeRel _ _ _ _ h3 with ⟨rfl, rfl⟩ | ⟨n, rfl, hn⟩
        · exact ⟨_, by simp, .cmp1 o ho hm⟩
        · exact ⟨_, by simp, .cmps o ho hm hn⟩
      · cases h
        exact Or.inl ⟨rfl, rfl⟩
    · intro tg ts e r h
      unfold Verif.Parse.hier2 at h
      split at h
      · rw [Out.bind_ok] at h
        obtain ⟨a, r1, h1, h⟩ := h
        cases h
        obtain ⟨l, rfl, hl⟩ := S.hier2 _ _ _ _ h1
        exact ⟨Tok.inc _ _ :: l, rfl, .pre _ _ hl⟩
      · rw [Out.bind_ok] at h
        obtain ⟨a, r1, h1, h⟩ := h
        cases h
        obtain ⟨l, rfl, hl⟩ := S.hier2 _ _ _ _ h1
        exact ⟨Tok.tilde :: l, by simp, .un .inv hl⟩
      · rw [Out.bind_ok] at h
        obtain ⟨a, r1, h1, h⟩ := h
        cases h
        obtain ⟨l, rfl, hl⟩ := S.hier2 _ _ _ _ h1
        exact ⟨Tok.op .sub :: l, by simp, .un .neg hl⟩
      · rw [Out.bind_ok] at h
        obtain ⟨a, r1, h1, h⟩ := h
        cases h
        obtain ⟨l, rfl, hl⟩ := S.hier2 _ _ _ _ h1
        exact ⟨Tok.bang :: l, by simp, .un .not hl⟩
      · split at h
        · rw [Out.bind_ok] at h
          obtain ⟨a, r1, h1, h⟩ := h
          cases h
          obtain ⟨l, rfl, hl⟩ := S.hier2 _ _ _ _ h1
          exact ⟨_, by simp, .tag _ hl⟩
        · rw [Out.bind_ok] at h
          obtain ⟨a, r1, h1, h⟩ := h
          obtain ⟨l, rfl, hl⟩ := S.hier1 _ _ _ _ h1
          split at h
          · split at h
            · cases h
              exact ⟨_, rfl, .up (by decide) hl⟩
            · rename_i hnl
              cases h
              refine ⟨_, app_one, .post _ _ ?_ hl⟩
              rw [Classical.not_and_iff_not_or_not] at hnl
              rcases hnl with h | h
              · exact Or.inl (by simpa using h)
              · exact Or.inr (by simpa using h)
          · cases h
            exact ⟨_, rfl, .up (by decide) hl⟩
    · intro tg ts e r h
      unfold Verif.Parse.hier1 at h
      split at h
      · rename_i t r0
        rw [Out.bind_ok] at h
        obtain ⟨_, r1, h1, h⟩ := h
        rw [need_ok] at h1
        obtain ⟨_, rfl⟩ := h1
        rw [Out.bind_ok] at h
        obtain ⟨a, r2, h2, h⟩ := h
        obtain ⟨l, rfl, hl⟩ := S.hier14 _ _ _ _ h2
        rw [Out.bind_ok] at h
        obtain ⟨_, r3, h3, h⟩ := h
        rw [need_ok] at h3
        obtain ⟨rfl, rfl⟩ := h3
        obtain ⟨m, rfl, hm⟩ := S.suffixes _ _ _ _ _ h _ (.cast t hl)
        exact ⟨_, by simp, hm⟩
      · rw [Out.bind_ok] at h
        obtain ⟨a, r1, h1, h⟩ := h
        obtain ⟨l, rfl, hl⟩ := S.primary _ _ _ _ h1
        obtain ⟨m, rfl, hm⟩ := S.suffixes _ _ _ _ _ h l (.up (by decide) hl)
        exact ⟨_, by simp, hm⟩
    · intro tg b ts e r h l hl
      unfold Verif.Parse.suffixes at h
      split at h
      · rename_i d _
        rw [Out.bind_ok] at h
        obtain ⟨s, r1, h1, h⟩ := h
        rw [needSymbol_ok] at h1
        obtain ⟨c, hc, rfl⟩ := h1
        obtain ⟨m, rfl, hm⟩ := S.suffixes _ _ _ _ _ h _ (.field d s hc hl)
        exact ⟨.dot d :: .sym s c :: m, by simp, by simpa using hm⟩
      · rw [Out.bind_ok] at h
        obtain ⟨i, r1, h1, h⟩ := h
        obtain ⟨n, rfl, hn⟩ := S.hier14 _ _ _ _ h1
        rw [Out.bind_ok] at h
        obtain ⟨_, r3, h3, h⟩ := h
        rw [need_ok] at h3
        obtain ⟨rfl, rfl⟩ := h3
        obtain ⟨m, rfl, hm⟩ := S.suffixes _ _ _ _ _ h _ (.index hl hn)
        exact ⟨.lbr :: n ++ .rbr :: m, by simp, by simpa using hm⟩
      · rw [Out.bind_ok] at h
        obtain ⟨as, r1, h1, h⟩ := h
        obtain ⟨n, rfl, hn⟩ := S.call _ _ _ _ h1
        obtain ⟨m, rfl, hm⟩ := S.suffixes _ _ _ _ _ h _ (.call hl hn)
        exact ⟨.lpar :: n ++ m, by simp, by simpa using hm⟩
      · cases h
        exact ⟨[], rfl, by simpa using hl⟩
    · intro tg ts e r h
      unfold Verif.Parse.primary at h
      split at h
      · rw [Out.bind_ok] at h
        obtain ⟨es, r1, h1, h⟩ := h
        rw [need_ok] at h
        obtain ⟨rfl, rfl⟩ := h
        obtain ⟨l, rfl, hl⟩ := S.exprs _ _ _ _ h1
        rcases list_one hl with ⟨e, rfl, he⟩ | h2
        · exact ⟨_, by simp, .paren he⟩
        · rw [mkComma_two h2]
          exact ⟨_, by simp, .comma h2 hl⟩
      · rename_i s c r0
        split at h
        · cases h
        · rename_i hc
          cases h
          exact ⟨[.sym s c], rfl, .sym s (by cases tg <;> cases c <;> simp_all)⟩
      · cases h
        exact ⟨_, rfl, .lit _⟩
      · cases h
    · intro tg ts es r h
      rw [exprs, Out.bind_ok] at h
      obtain ⟨e, r1, h1, h⟩ := h
      obtain ⟨l, rfl, hl⟩ := S.hier14 _ _ _ _ h1
      split at h
      · rw [Out.bind_ok] at h
        obtain ⟨es', r2, h2, h⟩ := h
        cases h
        obtain ⟨m, rfl, hm⟩ := S.exprs _ _ _ _ h2
        exact ⟨_, by simp, .more hl hm⟩
      · cases h
        exact ⟨_, rfl, .one hl⟩
    · intro tg ts as r h
      unfold Verif.Parse.call at h
      split at h
      · cases h
        exact ⟨_, rfl, .noArgs⟩
      · obtain ⟨l, rfl, hl⟩ := S.args _ _ _ _ _ h
        exact ⟨l, rfl, .someArgs hl⟩
    · intro tg n ts as r h
      unfold Verif.Parse.args at h
      split at h
      · rw [Out.bind_ok] at h
        obtain ⟨s, r1, h1, h⟩ := h
        rw [needSymbol_ok] at h1
        obtain ⟨c, hc, rfl⟩ := h1
        rw [Out.bind_ok] at h
        obtain ⟨_, r3, h3, h⟩ := h
        rw [need_ok] at h3
        obtain ⟨rfl, rfl⟩ := h3
        obtain ⟨m, rfl, hm⟩ := S.value _ _ _ _ _ _ h rfl _ ⟨c, hc, rfl⟩ n (fun _ => rfl)
        exact ⟨_, by simp, hm⟩
      · split at h
        · cases h
        · rename_i hn
          obtain ⟨m, rfl, hm⟩ := S.value _ _ _ _ _ _ h rfl [] rfl n (by intro h; exact absurd h hn)
          exact ⟨_, rfl, by simpa using hm⟩
    · intro tg n nm ts as r h hn l hl n0 h0
      unfold Verif.Parse.value at h
      split at h
      · rename_i r0
        cases nm with
        | none =>
          subst hl hn
          obtain ⟨m, rfl, hm⟩ := S.moreArgs _ _ _ _ _ _ h _ .dflt n0 h0
          exact ⟨_, rfl, by simpa using hm⟩
        | some s =>
          obtain ⟨c, hc, rfl⟩ := hl
          subst hn
          obtain ⟨m, rfl, hm⟩ := S.moreArgs _ _ _ _ _ _ h _ (.namedDflt s hc) n0 h0
          exact ⟨.under :: m, rfl, by simpa using hm⟩
      · rw [Out.bind_ok] at h
        obtain ⟨e, r1, h1, h⟩ := h
        obtain ⟨p, rfl, hp⟩ := S.hier14 _ _ _ _ h1
        cases nm with
        | none =>
          subst hl hn
          obtain ⟨m, rfl, hm⟩ := S.moreArgs _ _ _ _ _ _ h _ (.pos hp) n0 h0
          exact ⟨p ++ m, by simp, by simpa using hm⟩
        | some s =>
          obtain ⟨c, hc, rfl⟩ := hl
          subst hn
          obtain ⟨m, rfl, hm⟩ := S.moreArgs _ _ _ _ _ _ h _ (.named s hc hp) n0 h0
          exact ⟨p ++ m, by simp, by simpa using hm⟩
    · intro tg n a ts as r h l hl n0 h0
      unfold Verif.Parse.moreArgs at h
      split at h
      · cases h
        exact ⟨[.rpar], rfl, .lastArg h0 hl⟩
      · rw [Out.bind_ok] at h
        obtain ⟨as', r1, h1, h⟩ := h
        cases h
        obtain ⟨m, rfl, hm⟩ := S.args _ _ _ _ _ h1
        exact ⟨.comma :: m, by simp, by simpa using Writes.moreArgs h0 hl hm⟩
      · cases h

end Verif.Parse

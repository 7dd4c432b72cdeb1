import Verif.Proofs.ExprParser

/-! The expression parser ends, and reads everything that is written according to the grammar. -/
namespace Verif.Parse

/-! ## Termination -/

theorem Out.bind_fuel {α β : Type} {x : Out α} {f : α → List Tok → Out β} (h1 : x ≠ .fuel)
    (h2 : ∀ a r, x = .ok a r → f a r ≠ .fuel) : x.bind f ≠ .fuel := by
  cases x with
  | ok a r => exact h2 a r rfl
  | reject => nofun
  | fuel => exact absurd rfl h1

theorem need_fuel {α : Type} {t : Tok} {a : α} {ts : List Tok} : need t a ts ≠ .fuel := by
  unfold need
  split
  · split <;> nofun
  · nofun

theorem needSymbol_fuel {tg : Bool} {ts : List Tok} : needSymbol tg ts ≠ .fuel := by
  unfold needSymbol
  split
  · split <;> nofun
  · nofun

theorem Read.len {semi tg : Bool} {p : Phrase} {ts r : List Tok} (h : Read semi tg p ts r) : r.length ≤ ts.length := by
  obtain ⟨l, rfl, _⟩ := h
  simp

structure Term (semi : Bool) (f : Nat) : Prop where
  hier14 : ∀ tg ts, 20 * ts.length + 16 ≤ f → hier14 semi f tg ts ≠ .fuel
  hier13 : ∀ tg ts, 20 * ts.length + 15 ≤ f → hier13 semi f tg ts ≠ .fuel
  plnge : ∀ k tg ts, 2 ≤ k → k ≤ 12 → 20 * ts.length + k + 2 ≤ f → plnge semi f k tg ts ≠ .fuel
  plngeLoop : ∀ k tg a ts, 3 ≤ k → k ≤ 12 → 20 * ts.length + 1 ≤ f → plngeLoop semi f k tg a ts ≠ .fuel
  plngeRel : ∀ tg ts, 20 * ts.length + 1 ≤ f → plngeRel semi f tg ts ≠ .fuel
  hier2 : ∀ tg ts, 20 * ts.length + 3 ≤ f → hier2 semi f tg ts ≠ .fuel
  hier1 : ∀ tg ts, 20 * ts.length + 2 ≤ f → hier1 semi f tg ts ≠ .fuel
  suffixes : ∀ tg b ts, 20 * ts.length + 1 ≤ f → suffixes semi f tg b ts ≠ .fuel
  primary : ∀ tg ts, 20 * ts.length + 1 ≤ f → primary semi f tg ts ≠ .fuel
  exprs : ∀ tg ts, 20 * ts.length + 17 ≤ f → exprs semi f tg ts ≠ .fuel
  call : ∀ tg ts, 20 * ts.length + 19 ≤ f → call semi f tg ts ≠ .fuel
  args : ∀ tg n ts, 20 * ts.length + 18 ≤ f → args semi f tg n ts ≠ .fuel
  value : ∀ tg n nm ts, 20 * ts.length + 17 ≤ f → value semi f tg n nm ts ≠ .fuel
  moreArgs : ∀ tg n a ts, 20 * ts.length + 1 ≤ f → moreArgs semi f tg n a ts ≠ .fuel

theorem term (semi : Bool) : ∀ f, Term semi f
  | 0 => by constructor <;> intros <;> omega
  | f+1 => by
    have T := term semi f
    have S := sound semi f
    constructor
    · intro tg ts hf
      unfold Verif.Parse.hier14
      refine Out.bind_fuel (T.hier13 _ _ (by omega)) fun a r h1 => ?_
      have := (S.hier13 _ _ _ _ h1).len
      split
      · simp only [List.length_cons] at this
        exact Out.bind_fuel (T.hier14 _ _ (by omega)) fun _ _ _ => by nofun
      · nofun
    · intro tg ts hf
      unfold Verif.Parse.hier13
      refine Out.bind_fuel (T.plnge _ _ _ (by omega) (by omega) (by omega)) fun a r h1 => ?_
      have := (S.plnge _ _ _ _ _ (by omega) (by omega) h1).len
      split
      · simp only [List.length_cons] at this
        refine Out.bind_fuel (T.hier13 _ _ (by omega)) fun _ _ h2 => ?_
        have := (S.hier13 _ _ _ _ h2).len
        refine Out.bind_fuel need_fuel fun _ _ h3 => ?_
        rw [need_ok] at h3
        obtain ⟨_, rfl⟩ := h3
        simp only [List.length_cons] at this
        exact Out.bind_fuel (T.hier13 _ _ (by omega)) fun _ _ _ => by nofun
      · nofun
    · intro k tg ts hk2 hk hf
      unfold Verif.Parse.plnge
      split
      · exact T.hier2 _ _ (by omega)
      · split
        · refine Out.bind_fuel (T.plnge _ _ _ (by omega) (by omega) (by omega)) fun a r h1 => ?_
          have := (S.plnge _ _ _ _ _ (by omega) (by omega) h1).len
          exact Out.bind_fuel (T.plngeRel _ _ (by omega)) fun _ _ _ => by nofun
        · refine Out.bind_fuel (T.plnge _ _ _ (by omega) (by omega) (by omega)) fun a r h1 => ?_
          have := (S.plnge _ _ _ _ _ (by omega) (by omega) h1).len
          exact T.plngeLoop _ _ _ _ (by omega) (by omega) (by omega)
    · intro k tg a ts hk3 hk hf
      unfold Verif.Parse.plngeLoop
      split
      · rename_i o r hn
        rw [nextop_some] at hn
        obtain ⟨rfl, _⟩ := hn
        simp only [List.length_cons] at hf
        refine Out.bind_fuel (T.plnge _ _ _ (by omega) (by omega) (by omega)) fun a r h1 => ?_
        have := (S.plnge _ _ _ _ _ (by omega) (by omega) h1).len
        exact T.plngeLoop _ _ _ _ (by omega) (by omega) (by omega)
      · nofun
    · intro tg ts hf
      unfold Verif.Parse.plngeRel
      split
      · rename_i o r hn
        rw [nextop_some] at hn
        obtain ⟨rfl, _⟩ := hn
        simp only [List.length_cons] at hf
        refine Out.bind_fuel (T.plnge _ _ _ (by omega) (by omega) (by omega)) fun a r h1 => ?_
        have := (S.plnge _ _ _ _ _ (by omega) (by omega) h1).len
        exact Out.bind_fuel (T.plngeRel _ _ (by omega)) fun _ _ _ => by nofun
      · nofun
    · intro tg ts hf
      unfold Verif.Parse.hier2
      split
      · simp only [List.length_cons] at hf
        exact Out.bind_fuel (T.hier2 _ _ (by omega)) fun _ _ _ => by nofun
      · simp only [List.length_cons] at hf
        exact Out.bind_fuel (T.hier2 _ _ (by omega)) fun _ _ _ => by nofun
      · simp only [List.length_cons] at hf
        exact Out.bind_fuel (T.hier2 _ _ (by omega)) fun _ _ _ => by nofun
      · simp only [List.length_cons] at hf
        exact Out.bind_fuel (T.hier2 _ _ (by omega)) fun _ _ _ => by nofun
      · split
        · simp only [List.length_cons] at hf
          exact Out.bind_fuel (T.hier2 _ _ (by omega)) fun _ _ _ => by nofun
        · refine Out.bind_fuel (T.hier1 _ _ (by omega)) fun _ _ _ => ?_
          split
          · split <;> nofun
          · nofun
    · intro tg ts hf
      unfold Verif.Parse.hier1
      split
      · refine Out.bind_fuel need_fuel fun _ _ h3 => ?_
        rw [need_ok] at h3
        obtain ⟨_, rfl⟩ := h3
        simp only [List.length_cons] at hf
        refine Out.bind_fuel (T.hier14 _ _ (by omega)) fun _ _ h2 => ?_
        have := (S.hier14 _ _ _ _ h2).len
        refine Out.bind_fuel need_fuel fun _ _ h3 => ?_
        rw [need_ok] at h3
        obtain ⟨_, rfl⟩ := h3
        simp only [List.length_cons] at this
        exact T.suffixes _ _ _ (by omega)
      · refine Out.bind_fuel (T.primary _ _ (by omega)) fun _ _ h2 => ?_
        have := (S.primary _ _ _ _ h2).len
        exact T.suffixes _ _ _ (by omega)
    · intro tg b ts hf
      unfold Verif.Parse.suffixes
      split
      · simp only [List.length_cons] at hf
        refine Out.bind_fuel needSymbol_fuel fun _ _ h3 => ?_
        rw [needSymbol_ok] at h3
        obtain ⟨_, _, rfl⟩ := h3
        simp only [List.length_cons] at hf
        exact T.suffixes _ _ _ (by omega)
      · simp only [List.length_cons] at hf
        refine Out.bind_fuel (T.hier14 _ _ (by omega)) fun _ _ h2 => ?_
        have := (S.hier14 _ _ _ _ h2).len
        refine Out.bind_fuel need_fuel fun _ _ h3 => ?_
        rw [need_ok] at h3
        obtain ⟨_, rfl⟩ := h3
        simp only [List.length_cons] at this
        exact T.suffixes _ _ _ (by omega)
      · simp only [List.length_cons] at hf
        refine Out.bind_fuel (T.call _ _ (by omega)) fun _ _ h2 => ?_
        have := (S.call _ _ _ _ h2).len
        exact T.suffixes _ _ _ (by omega)
      · nofun
    · intro tg ts hf
      unfold Verif.Parse.primary
      split
      · simp only [List.length_cons] at hf
        exact Out.bind_fuel (T.exprs _ _ (by omega)) fun _ _ _ => need_fuel
      · split <;> nofun
      · nofun
      · nofun
    · intro tg ts hf
      unfold Verif.Parse.exprs
      refine Out.bind_fuel (T.hier14 _ _ (by omega)) fun _ _ h2 => ?_
      have := (S.hier14 _ _ _ _ h2).len
      split
      · simp only [List.length_cons] at this
        exact Out.bind_fuel (T.exprs _ _ (by omega)) fun _ _ _ => by nofun
      · nofun
    · intro tg ts hf
      unfold Verif.Parse.call
      split
      · nofun
      · exact T.args _ _ _ (by omega)
    · intro tg n ts hf
      unfold Verif.Parse.args
      split
      · simp only [List.length_cons] at hf
        refine Out.bind_fuel needSymbol_fuel fun _ _ h3 => ?_
        rw [needSymbol_ok] at h3
        obtain ⟨_, _, rfl⟩ := h3
        refine Out.bind_fuel need_fuel fun _ _ h3 => ?_
        rw [need_ok] at h3
        obtain ⟨_, rfl⟩ := h3
        simp only [List.length_cons] at hf
        exact T.value _ _ _ _ (by omega)
      · split
        · nofun
        · exact T.value _ _ _ _ (by omega)
    · intro tg n nm ts hf
      unfold Verif.Parse.value
      split
      · simp only [List.length_cons] at hf
        exact T.moreArgs _ _ _ _ (by omega)
      · refine Out.bind_fuel (T.hier14 _ _ (by omega)) fun _ _ h2 => ?_
        have := (S.hier14 _ _ _ _ h2).len
        exact T.moreArgs _ _ _ _ (by omega)
    · intro tg n a ts hf
      unfold Verif.Parse.moreArgs
      split
      · nofun
      · simp only [List.length_cons] at hf
        exact Out.bind_fuel (T.args _ _ _ (by omega)) fun _ _ _ => by nofun
      · nofun

/-! ## Completeness -/

/-- With enough fuel the result is `a` with `r` left. -/
def Ev {α : Type} (g : Nat → Out α) (a : α) (r : List Tok) : Prop := ∃ n, ∀ f, n ≤ f → g f = .ok a r

theorem Ev.pure {α : Type} {a : α} {r : List Tok} : Ev (fun _ => .ok a r) a r := ⟨0, fun _ _ => rfl⟩

theorem Ev.bind {α β : Type} {g : Nat → Out α} {h : Nat → α → List Tok → Out β} {a : α} {b : β} {r r' : List Tok}
    (h1 : Ev g a r) (h2 : Ev (fun f => h f a r) b r') : Ev (fun f => (g f).bind (h f)) b r' := by
  obtain ⟨n, h1⟩ := h1
  obtain ⟨m, h2⟩ := h2
  refine ⟨max n m, fun f hf => ?_⟩
  show (g f).bind (h f) = _
  rw [h1 f (by omega)]
  exact h2 f (by omega)

theorem Ev.succ {α : Type} {g g' : Nat → Out α} {a : α} {r : List Tok} (h : ∀ f, g (f + 1) = g' f) (h1 : Ev g' a r) : Ev g a r := by
  obtain ⟨n, h1⟩ := h1
  refine ⟨n + 1, fun f hf => ?_⟩
  obtain ⟨f', rfl⟩ : ∃ f', f = f' + 1 := ⟨f - 1, by omega⟩
  rw [h, h1 f' (by omega)]

theorem Ev.unique {α : Type} {g : Nat → Out α} {a b : α} {r r' : List Tok} (h1 : Ev g a r) (h2 : Ev g b r') : a = b ∧ r = r' := by
  obtain ⟨n, h1⟩ := h1
  obtain ⟨m, h2⟩ := h2
  have a1 := h1 (max n m) (by omega)
  rw [h2 (max n m) (by omega)] at a1
  cases a1
  exact ⟨rfl, rfl⟩

/-- The tokens that continue an expression of a level. -/
def cont (semi : Bool) (k : Nat) : Tok → Bool
  | .dot _ | .lbr | .lpar => 1 ≤ k
  | .inc _ nl => 2 ≤ k ∧ ¬ (nl = true ∧ semi = false)
  | .op o => prec o ≤ k
  | .quest => 13 ≤ k
  | .asg _ => 14 ≤ k
  | _ => false

/-- The tokens do not continue an expression of the level. -/
def NoCont (semi : Bool) (k : Nat) (rest : List Tok) : Prop := ∀ t r, rest = t :: r → cont semi k t = false

theorem cont_mono {semi : Bool} {k j : Nat} {t : Tok} (hk : k ≤ j) (h : cont semi j t = false) : cont semi k t = false := by
  cases t <;> simp_all [cont] <;> grind

theorem NoCont.mono {semi : Bool} {k j : Nat} {r : List Tok} (hk : k ≤ j) (h : NoCont semi j r) : NoCont semi k r :=
  fun t r' ht => cont_mono hk (h t r' ht)

theorem NoCont.cons {semi : Bool} {k : Nat} {t : Tok} {r : List Tok} (h : cont semi k t = false) : NoCont semi k (t :: r) := by
  intro t' r' h'; cases h'; exact h

/-- The parsing function of a level. -/
def lev (semi : Bool) (k f : Nat) (tg : Bool) (ts : List Tok) : Out Ex :=
  if k = 0 then primary semi f tg ts
  else if k = 1 then hier1 semi f tg ts
  else if k = 13 then hier13 semi f tg ts
  else if k = 14 then hier14 semi f tg ts
  else plnge semi f k tg ts

theorem lev_plnge {semi tg : Bool} {k : Nat} {ts : List Tok} (hk : 2 ≤ k ∧ k ≤ 12) :
    (fun f => lev semi k f tg ts) = fun f => plnge semi f k tg ts := by
  funext f
  unfold lev
  rw [if_neg (by omega), if_neg (by omega), if_neg (by omega), if_neg (by omega)]

/-- Read at a level, whatever follows that does not continue it. -/
def Full (semi tg : Bool) (k : Nat) (e : Ex) (ts : List Tok) : Prop :=
  ∀ rest, NoCont semi k rest → Ev (fun f => lev semi k f tg (ts ++ rest)) e rest

/-- At a level with a loop: the loop goes on with `e` as what was read so far. -/
def Strong (semi tg : Bool) (k : Nat) (e : Ex) (ts : List Tok) : Prop :=
  if k = 1 then ∀ rest e' r', Ev (fun f => suffixes semi f tg e rest) e' r' → Ev (fun f => hier1 semi f tg (ts ++ rest)) e' r'
  else if 3 ≤ k ∧ k ≤ 12 ∧ k ≠ 9 then
    ∀ rest e' r', NoCont semi (k - 1) rest → Ev (fun f => plngeLoop semi f k tg e rest) e' r' →
      Ev (fun f => plnge semi f k tg (ts ++ rest)) e' r'
  else Full semi tg k e ts

theorem nextop_none {semi : Bool} {k : Nat} {rest : List Tok} (h : NoCont semi k rest) : nextop k rest = none := by
  cases hn : nextop k rest with
  | none => rfl
  | some x =>
    obtain ⟨o, r⟩ := x
    rw [nextop_some, mem_opList] at hn
    obtain ⟨rfl, ho⟩ := hn
    have := h _ _ rfl
    simp [cont, ho] at this

theorem suffixes_done {semi tg : Bool} {e : Ex} {rest : List Tok} (h : NoCont semi 1 rest) :
    Ev (fun f => suffixes semi f tg e rest) e rest := by
  refine .succ (g' := fun _ => .ok e rest) (fun f => ?_) .pure
  show suffixes semi (f + 1) tg e rest = _
  unfold suffixes
  split
  · exact absurd (h _ _ rfl) (by simp [cont])
  · exact absurd (h _ _ rfl) (by simp [cont])
  · exact absurd (h _ _ rfl) (by simp [cont])
  · rfl

theorem loop_done {semi tg : Bool} {k : Nat} {e : Ex} {rest : List Tok} (h : NoCont semi k rest) :
    Ev (fun f => plngeLoop semi f k tg e rest) e rest := by
  refine .succ (g' := fun _ => .ok e rest) (fun f => ?_) .pure
  show plngeLoop semi (f + 1) k tg e rest = _
  unfold plngeLoop
  rw [nextop_none h]

theorem Strong.full {semi tg : Bool} {k : Nat} {e : Ex} {ts : List Tok} (h : Strong semi tg k e ts) : Full semi tg k e ts := by
  unfold Strong at h
  split at h
  · rename_i hk
    subst hk
    intro rest hr
    exact h rest e rest (suffixes_done hr)
  · split at h
    · rename_i hk
      intro rest hr
      have := h rest e rest (hr.mono (by omega)) (loop_done hr)
      rw [lev_plnge (by omega)]
      exact this
    · exact h

/-- First tokens of expressions of a level. -/
def starts (k : Nat) (tg : Bool) : Tok → Bool
  | .lit _ | .lpar => true
  | .sym _ c => (!tg || !c) || 2 ≤ k
  | .viewAs _ => 1 ≤ k
  | .inc _ _ | .tilde | .bang | .op .sub => 2 ≤ k
  | _ => false

theorem starts_mono {k j : Nat} {tg : Bool} {t : Tok} (hk : k ≤ j) (h : starts k tg t = true) : starts j tg t = true := by
  unfold starts at h ⊢
  split <;> simp_all <;> grind

/-- How a phrase starts. -/
def Head (tg : Bool) : Phrase → List Tok → Prop
  | .ex k _, ts => ∃ t r, ts = t :: r ∧ starts k tg t = true
  | .args _ _, ts | .arg _ _, ts => ∃ t r, ts = t :: r ∧ (starts 14 tg t = true ∨ t = .dot false ∨ t = .under)
  | _, _ => True

theorem starts_un {tg : Bool} {k : Nat} (o : UnOp) (h : 2 ≤ k) : starts k tg o.tok = true := by
  cases o <;> simp [UnOp.tok, starts, h]

theorem head {semi tg : Bool} {p : Phrase} {ts : List Tok} (h : Writes semi tg p ts) : Head tg p ts := by
  induction h with
  | lit n => exact ⟨_, _, rfl, rfl⟩
  | sym s h => exact ⟨_, _, rfl, by rcases h with h | h <;> simp [starts, h]⟩
  | paren => exact ⟨_, _, rfl, rfl⟩
  | comma => exact ⟨_, _, rfl, rfl⟩
  | cast => exact ⟨_, _, rfl, rfl⟩
  | field _ _ _ _ ih => obtain ⟨t, r, rfl, h⟩ := ih; exact ⟨_, _, rfl, h⟩
  | index _ _ ih => obtain ⟨t, r, rfl, h⟩ := ih; exact ⟨_, _, rfl, h⟩
  | call _ _ ih => obtain ⟨t, r, rfl, h⟩ := ih; exact ⟨_, _, rfl, h⟩
  | pre => exact ⟨_, _, rfl, rfl⟩
  | un o => exact ⟨_, _, rfl, starts_un o (by decide)⟩
  | tag => exact ⟨_, _, rfl, rfl⟩
  | post _ _ _ _ ih => obtain ⟨t, r, rfl, h⟩ := ih; exact ⟨_, _, rfl, starts_mono (by decide) h⟩
  | bin _ _ _ _ _ ih => obtain ⟨t, r, rfl, h⟩ := ih; exact ⟨_, _, rfl, h⟩
  | rel _ _ _ ih => obtain ⟨t, r, rfl, h⟩ := ih; exact ⟨_, _, rfl, starts_mono (by decide) h⟩
  | chain _ _ _ ih => obtain ⟨t, r, rfl, h⟩ := ih; exact ⟨_, _, rfl, starts_mono (by decide) h⟩
  | tern _ _ _ ih => obtain ⟨t, r, rfl, h⟩ := ih; exact ⟨_, _, rfl, starts_mono (by decide) h⟩
  | asg _ _ _ ih => obtain ⟨t, r, rfl, h⟩ := ih; exact ⟨_, _, rfl, starts_mono (by decide) h⟩
  | up _ _ ih => obtain ⟨t, r, rfl, h⟩ := ih; exact ⟨_, _, rfl, starts_mono (by omega) h⟩
  | lastArg _ _ ih => obtain ⟨t, r, rfl, h⟩ := ih; exact ⟨_, _, rfl, h⟩
  | moreArgs _ _ _ ih => obtain ⟨t, r, rfl, h⟩ := ih; exact ⟨_, _, rfl, h⟩
  | pos _ ih => obtain ⟨t, r, rfl, h⟩ := ih; exact ⟨_, _, rfl, Or.inl h⟩
  | dflt => exact ⟨_, _, rfl, Or.inr (Or.inr rfl)⟩
  | named => exact ⟨_, _, rfl, Or.inr (Or.inl rfl)⟩
  | namedDflt => exact ⟨_, _, rfl, Or.inr (Or.inl rfl)⟩
  | _ => trivial

/-! ### Steps of the functions -/

section
variable {semi tg : Bool}

theorem ev_hier14_up {ts rest : List Tok} {e : Ex} (h : Ev (fun f => hier13 semi f tg ts) e rest) (hr : NoCont semi 14 rest) :
    Ev (fun f => hier14 semi f tg ts) e rest := by
  refine .succ (fun f => hier14.eq_2 ..) (h.bind ?_)
  split
  · exact absurd (hr _ _ rfl) (by simp [cont])
  · exact .pure

theorem ev_hier14_asg {ts r rest : List Tok} {o : AsgOp} {a b : Ex} (h : Ev (fun f => hier13 semi f tg ts) a (.asg o :: r))
    (h2 : Ev (fun f => hier14 semi f tg r) b rest) : Ev (fun f => hier14 semi f tg ts) (.asg o a b) rest :=
  .succ (fun f => hier14.eq_2 ..) (h.bind (h2.bind .pure))

theorem ev_hier13_up {ts rest : List Tok} {e : Ex} (h : Ev (fun f => plnge semi f 12 tg ts) e rest) (hr : NoCont semi 13 rest) :
    Ev (fun f => hier13 semi f tg ts) e rest := by
  refine .succ (fun f => hier13.eq_2 ..) (h.bind ?_)
  split
  · exact absurd (hr _ _ rfl) (by simp [cont])
  · exact .pure

theorem ev_need {α : Type} {t : Tok} {a : α} {r : List Tok} : Ev (fun _ => need t a (t :: r)) a r :=
  ⟨0, fun _ _ => need_ok.2 ⟨rfl, rfl⟩⟩

theorem ev_sym {s : Nat} {c : Bool} {r : List Tok} (h : tg = false ∨ c = false) : Ev (fun _ => needSymbol tg (.sym s c :: r)) s r :=
  ⟨0, fun _ _ => needSymbol_ok.2 ⟨c, h, rfl⟩⟩

theorem ev_hier13_tern {ts r1 r2 rest : List Tok} {c a b : Ex} (h : Ev (fun f => plnge semi f 12 tg ts) c (.quest :: r1))
    (h1 : Ev (fun f => hier13 semi f false r1) a (.colon :: r2)) (h2 : Ev (fun f => hier13 semi f tg r2) b rest) :
    Ev (fun f => hier13 semi f tg ts) (.tern c a b) rest :=
  .succ (fun f => hier13.eq_2 ..) (h.bind (h1.bind (ev_need.bind (h2.bind .pure))))

theorem ev_plnge_two {ts rest : List Tok} {e : Ex} (h : Ev (fun f => hier2 semi f tg ts) e rest) :
    Ev (fun f => plnge semi f 2 tg ts) e rest :=
  .succ (fun f => by rw [plnge, if_pos (by decide)]) h

theorem ev_plnge {k : Nat} {ts r rest : List Tok} {a e : Ex} (h3 : 3 ≤ k) (h9 : k ≠ 9) (h : Ev (fun f => plnge semi f (k - 1) tg ts) a r)
    (h2 : Ev (fun f => plngeLoop semi f k tg a r) e rest) : Ev (fun f => plnge semi f k tg ts) e rest :=
  .succ (fun f => by rw [plnge, if_neg (by omega), if_neg h9]) (h.bind h2)

theorem ev_loop {k : Nat} {r r' rest : List Tok} {o : BinOp} {a b e : Ex} (ho : prec o = k) (h : Ev (fun f => plnge semi f (k - 1) tg r) b r')
    (h2 : Ev (fun f => plngeLoop semi f k tg (.bin o a b) r') e rest) : Ev (fun f => plngeLoop semi f k tg a (.op o :: r)) e rest := by
  have hn : nextop k (.op o :: r) = some (o, r) := nextop_some.2 ⟨rfl, mem_opList.2 ho⟩
  refine .succ (g' := fun f => (plnge semi f (k - 1) tg r).bind fun b r => plngeLoop semi f k tg (.bin o a b) r) (fun f => ?_) (h.bind h2)
  rw [plngeLoop, hn]

theorem ev_plnge_nine {ts r rest : List Tok} {a : Ex} {cs : List (BinOp × Ex)} (h : Ev (fun f => plnge semi f 8 tg ts) a r)
    (h2 : Ev (fun f => plngeRel semi f tg r) cs rest) : Ev (fun f => plnge semi f 9 tg ts) (mkRel a cs) rest :=
  .succ (fun f => by rw [plnge, if_neg (by decide), if_pos rfl]) (h.bind (h2.bind (h := fun _ cs r => .ok (mkRel a cs) r) .pure))

theorem ev_rel_done {rest : List Tok} (h : NoCont semi 9 rest) : Ev (fun f => plngeRel semi f tg rest) [] rest := by
  refine .succ (g' := fun _ => .ok [] rest) (fun f => ?_) .pure
  rw [plngeRel, nextop_none h]

theorem ev_rel {r r' rest : List Tok} {o : BinOp} {b : Ex} {cs : List (BinOp × Ex)} (ho : prec o = 9)
    (h : Ev (fun f => plnge semi f 8 tg r) b r') (h2 : Ev (fun f => plngeRel semi f tg r') cs rest) :
    Ev (fun f => plngeRel semi f tg (.op o :: r)) ((o, b) :: cs) rest := by
  have hn : nextop 9 (.op o :: r) = some (o, r) := nextop_some.2 ⟨rfl, mem_opList.2 ho⟩
  refine .succ (g' := fun f => (plnge semi f 8 tg r).bind fun b r => (plngeRel semi f tg r).bind fun cs r => .ok ((o, b) :: cs) r)
    (fun f => ?_) (h.bind (h2.bind .pure))
  rw [plngeRel, hn]

/-- The part of hier2 after hier1. -/
def postfixOf (semi : Bool) (e : Ex) (r : List Tok) : Out Ex :=
  match r with
  | .inc d nl :: r' => if nl ∧ ¬ semi then .ok e r else .ok (.post d e) r'
  | _ => .ok e r

theorem hier2_default {t : Tok} {r : List Tok} (h : starts 1 tg t = true) (f : Nat) :
    hier2 semi (f + 1) tg (t :: r) = (hier1 semi f tg (t :: r)).bind (postfixOf semi) := by
  unfold hier2
  split
  · rename_i heq; cases heq; simp [starts] at h
  · rename_i heq; cases heq; simp [starts] at h
  · rename_i heq; cases heq; simp [starts] at h
  · rename_i heq; cases heq; simp [starts] at h
  · split
    · rename_i heq; cases heq; simp [starts] at h
    · rfl

theorem ev_hier2_up {t : Tok} {r rest : List Tok} {e : Ex} (ht : starts 1 tg t = true) (h : Ev (fun f => hier1 semi f tg (t :: r)) e rest)
    (hr : NoCont semi 2 rest) : Ev (fun f => hier2 semi f tg (t :: r)) e rest := by
  refine .succ (hier2_default ht) (h.bind ?_)
  unfold postfixOf
  split
  · rename_i d nl r'
    have := hr _ _ rfl
    simp [cont] at this
    rw [if_pos (by simp [this])]
    exact .pure
  · exact .pure

theorem ev_hier2_post {t : Tok} {r rest : List Tok} {e : Ex} {d nl : Bool} (ht : starts 1 tg t = true)
    (h : Ev (fun f => hier1 semi f tg (t :: r)) e (.inc d nl :: rest)) (hn : nl = false ∨ semi = true) :
    Ev (fun f => hier2 semi f tg (t :: r)) (.post d e) rest := by
  refine .succ (hier2_default ht) (h.bind ?_)
  unfold postfixOf
  simp only
  rw [if_neg (by rcases hn with h | h <;> simp [h])]
  exact .pure

theorem ev_hier2_pre {r rest : List Tok} {e : Ex} {d nl : Bool} (h : Ev (fun f => hier2 semi f tg r) e rest) :
    Ev (fun f => hier2 semi f tg (.inc d nl :: r)) (.pre d e) rest :=
  .succ (g' := fun f => (hier2 semi f tg r).bind fun e r => .ok (.pre d e) r) (fun f => (hier2.eq_def ..).trans rfl) (h.bind .pure)

theorem ev_hier2_un {r rest : List Tok} {e : Ex} {o : UnOp} (h : Ev (fun f => hier2 semi f tg r) e rest) :
    Ev (fun f => hier2 semi f tg (o.tok :: r)) (.un o e) rest :=
  .succ (g' := fun f => (hier2 semi f tg r).bind fun e r => .ok (.un o e) r) (fun f => by cases o <;> exact (hier2.eq_def ..).trans rfl) (h.bind .pure)

theorem ev_hier2_tag {r rest : List Tok} {e : Ex} {s : Nat} (h : Ev (fun f => hier2 semi f true r) e rest) :
    Ev (fun f => hier2 semi f true (.sym s true :: .colon :: r)) (.tag s e) rest :=
  .succ (g' := fun f => (hier2 semi f true r).bind fun e r => .ok (.tag s e) r) (fun f => (hier2.eq_def ..).trans rfl) (h.bind .pure)

theorem ev_hier1 {t : Tok} {ts r rest : List Tok} {e e' : Ex} (ht : starts 0 tg t = true)
    (h : Ev (fun f => primary semi f tg (t :: ts)) e r) (h2 : Ev (fun f => suffixes semi f tg e r) e' rest) :
    Ev (fun f => hier1 semi f tg (t :: ts)) e' rest := by
  refine .succ (g' := fun f => (primary semi f tg (t :: ts)).bind fun e r => suffixes semi f tg e r) (fun f => ?_) (h.bind h2)
  unfold hier1
  split
  · rename_i heq; cases heq; simp [starts] at ht
  · rfl

theorem ev_cast {t : Nat} {ts r rest : List Tok} {e e' : Ex} (h : Ev (fun f => hier14 semi f tg ts) e (.rpar :: r))
    (h2 : Ev (fun f => suffixes semi f tg (.cast t e) r) e' rest) :
    Ev (fun f => hier1 semi f tg (.viewAs t :: .lpar :: ts)) e' rest :=
  .succ (g' := fun f => (need .lpar () (.lpar :: ts)).bind fun _ r => (hier14 semi f tg r).bind fun e r =>
      (need .rpar e r).bind fun e r => suffixes semi f tg (.cast t e) r) (fun f => (hier1.eq_def ..).trans rfl)
    (ev_need.bind (h.bind (ev_need.bind h2)))

theorem ev_field {d c : Bool} {s : Nat} {r rest : List Tok} {b e' : Ex} (hc : tg = false ∨ c = false)
    (h2 : Ev (fun f => suffixes semi f tg (.field d b s) r) e' rest) :
    Ev (fun f => suffixes semi f tg b (.dot d :: .sym s c :: r)) e' rest :=
  .succ (g' := fun f => (needSymbol tg (.sym s c :: r)).bind fun s r => suffixes semi f tg (.field d b s) r)
    (fun f => (suffixes.eq_def ..).trans rfl) ((ev_sym hc).bind h2)

theorem ev_index {ts r rest : List Tok} {b i e' : Ex} (h : Ev (fun f => hier14 semi f tg ts) i (.rbr :: r))
    (h2 : Ev (fun f => suffixes semi f tg (.index b i) r) e' rest) :
    Ev (fun f => suffixes semi f tg b (.lbr :: ts)) e' rest :=
  .succ (g' := fun f => (hier14 semi f tg ts).bind fun i r => (need .rbr i r).bind fun i r => suffixes semi f tg (.index b i) r)
    (fun f => (suffixes.eq_def ..).trans rfl) (h.bind (ev_need.bind h2))

theorem ev_callsuffix {ts r rest : List Tok} {b e' : Ex} {as : List Arg} (h : Ev (fun f => call semi f tg ts) as r)
    (h2 : Ev (fun f => suffixes semi f tg (.call b as) r) e' rest) :
    Ev (fun f => suffixes semi f tg b (.lpar :: ts)) e' rest :=
  .succ (g' := fun f => (call semi f tg ts).bind fun as r => suffixes semi f tg (.call b as) r)
    (fun f => (suffixes.eq_def ..).trans rfl) (h.bind h2)

theorem ev_primary_par {ts rest : List Tok} {es : List Ex} (h : Ev (fun f => exprs semi f true ts) es (.rpar :: rest)) :
    Ev (fun f => primary semi f tg (.lpar :: ts)) (mkComma es) rest :=
  .succ (g' := fun f => (exprs semi f true ts).bind fun es r => need .rpar (mkComma es) r) (fun f => (primary.eq_def ..).trans rfl) (h.bind ev_need)

theorem ev_exprs_one {ts rest : List Tok} {e : Ex} (h : Ev (fun f => hier14 semi f tg ts) e rest) (hc : ∀ r, rest ≠ .comma :: r) :
    Ev (fun f => exprs semi f tg ts) [e] rest := by
  refine .succ (fun f => exprs.eq_2 ..) (h.bind ?_)
  split
  · exact absurd rfl (hc _)
  · exact .pure

theorem ev_exprs_more {ts r rest : List Tok} {e : Ex} {es : List Ex} (h : Ev (fun f => hier14 semi f tg ts) e (.comma :: r))
    (h2 : Ev (fun f => exprs semi f tg r) es rest) : Ev (fun f => exprs semi f tg ts) (e :: es) rest :=
  .succ (fun f => exprs.eq_2 ..) (h.bind (h2.bind .pure))

def mkArg (nm : Option Nat) (e : Ex) : Arg := match nm with | some s => .named s e | none => .pos e

theorem ev_value {t : Tok} {n : Bool} {nm : Option Nat} {ts r rest : List Tok} {e : Ex} {as : List Arg} (ht : starts 14 tg t = true)
    (h : Ev (fun f => hier14 semi f tg (t :: ts)) e r)
    (h2 : Ev (fun f => moreArgs semi f tg n (mkArg nm e) r) as rest) :
    Ev (fun f => value semi f tg n nm (t :: ts)) as rest := by
  refine .succ (g' := fun f => (hier14 semi f tg (t :: ts)).bind fun e r =>
    moreArgs semi f tg n (mkArg nm e) r) (fun f => ?_) (h.bind h2)
  unfold value
  split
  · rename_i heq; cases heq; simp [starts] at ht
  · rfl

end

/-- What it is to be read, for every phrase. -/
def Comp (semi tg : Bool) : Phrase → List Tok → Prop
  | .ex k e, ts => Strong semi tg k e ts
  | .list es, ts => ∀ rest, NoCont semi 14 rest → (∀ r, rest ≠ .comma :: r) → Ev (fun f => exprs semi f tg (ts ++ rest)) es rest
  | .cmps cs, ts => ∀ rest, NoCont semi 9 rest → Ev (fun f => plngeRel semi f tg (ts ++ rest)) cs rest
  | .call as, ts => ∀ rest, Ev (fun f => call semi f tg (ts ++ rest)) as rest
  | .args n as, ts => ∀ rest, Ev (fun f => args semi f tg n (ts ++ rest)) as rest
  | .arg n a, ts => ∀ n0, (n0 = true → n = true) → ∀ rest as r, NoCont semi 14 rest →
      Ev (fun f => moreArgs semi f tg n a rest) as r → Ev (fun f => args semi f tg n0 (ts ++ rest)) as r

theorem Strong.ex14 {semi tg : Bool} {e : Ex} {ts rest : List Tok} (h : Strong semi tg 14 e ts) (hr : NoCont semi 14 rest) :
    Ev (fun f => hier14 semi f tg (ts ++ rest)) e rest := h.full rest hr

theorem Strong.ex13 {semi tg : Bool} {e : Ex} {ts rest : List Tok} (h : Strong semi tg 13 e ts) (hr : NoCont semi 13 rest) :
    Ev (fun f => hier13 semi f tg (ts ++ rest)) e rest := h.full rest hr

theorem Strong.plnge {semi tg : Bool} {k : Nat} {e : Ex} {ts rest : List Tok} (h : Strong semi tg k e ts) (hk : 2 ≤ k ∧ k ≤ 12)
    (hr : NoCont semi k rest) : Ev (fun f => plnge semi f k tg (ts ++ rest)) e rest := by
  have := h.full rest hr
  rw [lev_plnge hk] at this
  exact this

theorem Strong.hier2 {semi tg : Bool} {e : Ex} {ts rest : List Tok} (h : Strong semi tg 2 e ts) (hr : NoCont semi 2 rest) :
    Ev (fun f => hier2 semi f tg (ts ++ rest)) e rest := by
  obtain ⟨n, h⟩ := h.plnge (by decide) hr
  refine ⟨n, fun f hf => ?_⟩
  have := h (f + 1) (by omega)
  simp only at this
  rw [Verif.Parse.plnge, if_pos (by decide)] at this
  exact this

theorem Strong.suffix {semi tg : Bool} {e e' : Ex} {ts rest r' : List Tok} (h : Strong semi tg 1 e ts)
    (h2 : Ev (fun f => suffixes semi f tg e rest) e' r') : Ev (fun f => hier1 semi f tg (ts ++ rest)) e' r' := h rest e' r' h2

theorem Strong.mk2 {semi tg : Bool} {e : Ex} {ts : List Tok}
    (h : ∀ rest, NoCont semi 2 rest → Ev (fun f => Verif.Parse.hier2 semi f tg (ts ++ rest)) e rest) : Strong semi tg 2 e ts :=
  fun rest hr => ev_plnge_two (h rest hr)

theorem Strong.mkLoop {semi tg : Bool} {k : Nat} {e : Ex} {ts : List Tok} (hk : 3 ≤ k ∧ k ≤ 12 ∧ k ≠ 9)
    (h : ∀ rest e' r', NoCont semi (k - 1) rest → Ev (fun f => plngeLoop semi f k tg e rest) e' r' →
      Ev (fun f => Verif.Parse.plnge semi f k tg (ts ++ rest)) e' r') : Strong semi tg k e ts := by
  unfold Strong
  rw [if_neg (by omega), if_pos hk]
  exact h

theorem Strong.loop {semi tg : Bool} {k : Nat} {e : Ex} {ts : List Tok} (h : Strong semi tg k e ts) (hk : 3 ≤ k ∧ k ≤ 12 ∧ k ≠ 9) :
    ∀ rest e' r', NoCont semi (k - 1) rest → Ev (fun f => plngeLoop semi f k tg e rest) e' r' →
      Ev (fun f => Verif.Parse.plnge semi f k tg (ts ++ rest)) e' r' := by
  unfold Strong at h
  rw [if_neg (by omega), if_pos hk] at h
  exact h

theorem noCont_zero {semi : Bool} {rest : List Tok} : NoCont semi 0 rest := by
  intro t r _
  cases t with
  | op o => cases o <;> rfl
  | _ => rfl

theorem Strong.up {semi tg : Bool} {k : Nat} {e : Ex} {ts : List Tok} (hk : k < 14) (hw : Writes semi tg (.ex k e) ts)
    (h : Strong semi tg k e ts) : Strong semi tg (k + 1) e ts := by
  obtain ⟨t, r0, hts, hst⟩ := head hw
  by_cases h0 : k = 0
  · subst h0 hts
    intro rest e' r' h2
    exact ev_hier1 hst (h.full rest noCont_zero) h2
  by_cases h1 : k = 1
  · subst h1 hts
    refine Strong.mk2 fun rest hr => ?_
    exact ev_hier2_up hst (h.full rest (hr.mono (by decide))) hr
  by_cases h8 : k = 8
  · subst h8
    intro rest hr
    exact ev_plnge_nine (h.plnge (by decide) (hr.mono (by decide))) (ev_rel_done hr)
  by_cases h12 : k = 12
  · subst h12
    intro rest hr
    exact ev_hier13_up (h.plnge (by decide) (hr.mono (by decide))) hr
  by_cases h13 : k = 13
  · subst h13
    intro rest hr
    exact ev_hier14_up (h.ex13 (hr.mono (by decide))) hr
  refine Strong.mkLoop (by omega) fun rest e' r' hr h2 => ?_
  exact ev_plnge (by omega) (by omega) (h.plnge (by omega) hr) h2

theorem comp {semi tg : Bool} {p : Phrase} {ts : List Tok} (h : Writes semi tg p ts) : Comp semi tg p ts := by
  induction h with
  | lit n =>
    intro rest _
    exact .succ (g' := fun _ => .ok (.lit n) rest) (fun f => (primary.eq_def ..).trans rfl) .pure
  | @sym tg c s h =>
    intro rest _
    refine .succ (g' := fun _ => .ok (.sym s) rest) (fun f => ?_) .pure
    show primary _ _ _ _ = _
    unfold primary
    show (if tg = true ∧ c = true then _ else _) = _
    rw [if_neg (by rcases h with h | h <;> simp [h])]
    rfl
  | @paren tg e ts _ ih =>
    intro rest _
    have := ih.ex14 (rest := .rpar :: rest) (.cons rfl)
    have := ev_primary_par (tg := tg) (ev_exprs_one this (by simp))
    simpa [lev, mkComma] using this
  | @comma tg es ts h2 _ ih =>
    intro rest _
    have := ev_primary_par (tg := tg) (ih (.rpar :: rest) (.cons rfl) (by simp))
    rw [mkComma_two h2] at this
    simpa [lev] using this
  | cast t _ ih =>
    intro rest e' r' h2
    have := ev_cast (ih.ex14 (rest := .rpar :: rest) (.cons rfl)) h2
    simpa using this
  | field d s hc _ ih =>
    intro rest e' r' h2
    have := ih.suffix (ev_field hc h2)
    simpa using this
  | index _ _ ih1 ih2 =>
    intro rest e' r' h2
    have := ih1.suffix (ev_index (ih2.ex14 (rest := .rbr :: rest) (.cons rfl)) h2)
    simpa using this
  | call _ _ ih1 ih2 =>
    intro rest e' r' h2
    have := ih1.suffix (ev_callsuffix (ih2 rest) h2)
    simpa using this
  | pre d nl _ ih => exact Strong.mk2 fun rest hr => ev_hier2_pre (ih.hier2 hr)
  | un o _ ih => exact Strong.mk2 fun rest hr => ev_hier2_un (ih.hier2 hr)
  | tag s _ ih => exact Strong.mk2 fun rest hr => ev_hier2_tag (ih.hier2 hr)
  | @post tg e l d nl hn hw ih =>
    obtain ⟨t, r0, hts, hst⟩ := head hw
    subst hts
    refine Strong.mk2 fun rest hr => ?_
    have := ev_hier2_post (d := d) hst (ih.full (.inc d nl :: rest) (.cons rfl)) hn
    simpa using this
  | @bin tg a b l r k o ho h9 _ _ ih1 ih2 =>
    have hk : 2 ≤ k ∧ k ≤ 11 := by cases o <;> simp [prec] at ho <;> omega
    refine Strong.mkLoop (by omega) fun rest e' r' hr h2 => ?_
    have := ih1.loop (by omega) (.op o :: (r ++ rest)) e' r' (.cons (by simp [cont]; omega))
      (ev_loop ho (ih2.plnge (by omega) hr) h2)
    simpa using this
  | rel o hw1 hw2 ih1 ih2 =>
    intro rest hr
    rename_i tg a b l r
    have h1 : ∃ r1, r = .op o :: r1 ∧ prec o = 9 := by
      cases hw2 with
      | cmp1 _ h => exact ⟨_, rfl, h⟩
      | cmps _ _ _ h => exact absurd rfl (cmps_ne h)
    obtain ⟨r1, rfl, ho⟩ := h1
    have := ev_plnge_nine (ih1.plnge (by decide) (rest := .op o :: r1 ++ rest) (.cons (by simp [cont, ho]))) (ih2 rest hr)
    simpa [lev, mkRel] using this
  | chain h2 hw1 hw2 ih1 ih2 =>
    intro rest hr
    rename_i tg a cs l r
    have h1 : ∃ o r1, r = .op o :: r1 ∧ prec o = 9 := by
      cases hw2 with
      | cmp1 _ h => exact ⟨_, _, rfl, h⟩
      | cmps _ h _ _ => exact ⟨_, _, rfl, h⟩
    obtain ⟨o, r1, rfl, ho⟩ := h1
    have := ev_plnge_nine (ih1.plnge (by decide) (rest := .op o :: r1 ++ rest) (.cons (by simp [cont, ho]))) (ih2 rest hr)
    rw [mkRel_two h2] at this
    simpa [lev] using this
  | tern _ _ _ ih1 ih2 ih3 =>
    intro rest hr
    rename_i l m r _ _ _
    have := ev_hier13_tern (ih1.plnge (by decide) (rest := .quest :: (m ++ .colon :: (r ++ rest))) (.cons rfl))
      (ih2.ex13 (.cons rfl)) (ih3.ex13 hr)
    simpa [lev] using this
  | asg o _ _ ih1 ih2 =>
    intro rest hr
    rename_i l r _ _
    have := ev_hier14_asg (ih1.ex13 (rest := .asg o :: (r ++ rest)) (.cons rfl)) (ih2.ex14 hr)
    simpa [lev] using this
  | up hk hw ih => exact ih.up hk hw
  | one _ ih => exact fun rest hr hc => ev_exprs_one (ih.ex14 hr) hc
  | more _ _ ih1 ih2 =>
    intro rest hr hc
    rename_i l r _ _
    have := ev_exprs_more (ih1.ex14 (rest := .comma :: (r ++ rest)) (.cons rfl)) (ih2 rest hr hc)
    simpa using this
  | cmp1 o ho _ ih =>
    intro rest hr
    exact ev_rel ho (ih.plnge (by decide) (hr.mono (by decide))) (ev_rel_done hr)
  | cmps o ho hw1 hw2 ih1 ih2 =>
    intro rest hr
    rename_i tg b cs l r
    have h1 : ∃ o r1, r = .op o :: r1 ∧ prec o = 9 := by
      cases hw2 with
      | cmp1 _ h => exact ⟨_, _, rfl, h⟩
      | cmps _ h _ _ => exact ⟨_, _, rfl, h⟩
    obtain ⟨o', r1, rfl, ho'⟩ := h1
    have := ev_rel ho (ih1.plnge (by decide) (rest := .op o' :: r1 ++ rest) (.cons (by simp [cont, ho']))) (ih2 rest hr)
    simpa using this
  | noArgs =>
    intro rest
    exact .succ (g' := fun _ => .ok [] rest) (fun f => (Verif.Parse.call.eq_def ..).trans rfl) .pure
  | @someArgs tg as r hw ih =>
    intro rest
    obtain ⟨t, r0, hts, hst⟩ := head hw
    subst hts
    refine .succ (g' := fun f => args semi f tg false (t :: r0 ++ rest)) (fun f => ?_) (ih rest)
    show Verif.Parse.call _ _ _ (t :: (r0 ++ rest)) = _
    unfold Verif.Parse.call
    split
    · rename_i heq; cases heq; simp [starts] at hst
    · rfl
  | lastArg hn _ ih =>
    intro rest
    have := ih _ hn (.rpar :: rest) _ rest (.cons rfl)
      (.succ (g' := fun _ => .ok [_] rest) (fun f => (Verif.Parse.moreArgs.eq_def ..).trans rfl) .pure)
    simpa using this
  | @moreArgs tg n n' a as l r hn _ _ ih1 ih2 =>
    intro rest
    have := ih1 _ hn (.comma :: (r ++ rest)) (a :: as) rest (.cons rfl)
      (.succ (g' := fun f => (args semi f tg n' (r ++ rest)).bind fun as r => .ok (a :: as) r)
        (fun f => (Verif.Parse.moreArgs.eq_def ..).trans rfl) ((ih2 rest).bind .pure))
    simpa using this
  | @pos tg e ts hw ih =>
    intro n0 h0 rest as r hr h2
    obtain ⟨t, r0, hts, hst⟩ := head hw
    subst hts
    have hn0 : n0 = false := by cases n0 <;> simp_all
    subst hn0
    refine .succ (g' := fun f => value semi f tg false none (t :: r0 ++ rest)) (fun f => ?_) (ev_value hst (ih.ex14 hr) h2)
    show args _ _ _ _ (t :: (r0 ++ rest)) = _
    unfold args
    split
    · rename_i heq; cases heq; simp [starts] at hst
    · rfl
  | @dflt tg =>
    intro n0 h0 rest as r hr h2
    have hn0 : n0 = false := by cases n0 <;> simp_all
    subst hn0
    refine .succ (g' := fun f => value semi f tg false none (.under :: rest)) (fun f => ?_)
      (.succ (g' := fun f => moreArgs semi f tg false .dflt rest) (fun f => (value.eq_def ..).trans rfl) h2)
    show args _ _ _ _ (.under :: rest) = _
    unfold args
    rfl
  | @named tg c e ts s hc hw ih =>
    intro n0 h0 rest as r hr h2
    obtain ⟨t, r0, hts, hst⟩ := head hw
    subst hts
    have hv := ev_value (n := true) (nm := some s) hst (ih.ex14 hr) h2
    exact .succ (g' := fun f => (needSymbol tg (.sym s c :: .asg .plain :: (t :: r0 ++ rest))).bind fun s r =>
        (need (.asg .plain) s r).bind fun s r => value semi f tg true (some s) r)
      (fun f => (args.eq_def ..).trans rfl) ((ev_sym hc).bind (ev_need.bind hv))
  | @namedDflt tg c s hc =>
    intro n0 h0 rest as r hr h2
    have hv : Ev (fun f => value semi f tg true (some s) (.under :: rest)) as r :=
      .succ (g' := fun f => moreArgs semi f tg true .dflt rest) (fun f => (value.eq_def ..).trans rfl) h2
    exact .succ (g' := fun f => (needSymbol tg (.sym s c :: .asg .plain :: .under :: rest)).bind fun s r =>
        (need (.asg .plain) s r).bind fun s r => value semi f tg true (some s) r)
      (fun f => (args.eq_def ..).trans rfl) ((ev_sym hc).bind (ev_need.bind hv))

end Verif.Parse

import Verif.Proofs.CondSim

/-! Lemmas on conditional compilation: reading ends, and directives that do not match are reported. -/
namespace Verif.Cond

variable {T C σ : Type} {n : Nat}

section
variable {asserts : Bool} {L : Lang T C σ} {files : Fin n → List (Line T C n)}

/-! ### Reading ends -/

/-- The lines of the files not yet read. -/
def ahead (files : Fin n → List (Line T C n)) (seen : List (Fin n)) : List (Fin n) → Nat
  | [] => 0
  | f :: fs => (if f ∈ seen then 0 else 2 * (files f).length) + ahead files seen fs

def pending : List (List (Line T C n) × Nat) → Nat
  | [] => 0
  | (r, _) :: l => 2 * r.length + 1 + pending l

def size (files : Fin n → List (Line T C n)) (s : St T C σ n) : Nat :=
  2 * s.cur.length + (if s.skipping then 1 else 0) + pending s.saved + ahead files s.seen (List.finRange n)

theorem ahead_notin (f : Fin n) (seen : List (Fin n)) : ∀ l : List (Fin n), f ∉ l → ahead files (f :: seen) l = ahead files seen l
  | [], _ => rfl
  | g :: l, h => by
    have h1 : g ≠ f := fun e => h (by rw [e]; exact List.mem_cons_self)
    have h2 : f ∉ l := fun e => h (List.mem_cons_of_mem _ e)
    simp only [ahead, List.mem_cons, h1, false_or, ahead_notin f seen l h2]

theorem ahead_cons (f : Fin n) (seen : List (Fin n)) (hs : f ∉ seen) : ∀ l : List (Fin n), l.Nodup → f ∈ l →
    ahead files (f :: seen) l + 2 * (files f).length = ahead files seen l
  | [], _, h => nomatch h
  | g :: l, hd, h => by
    obtain ⟨hg, hl⟩ := List.nodup_cons.1 hd
    by_cases e : f = g
    · subst e
      simp only [ahead, List.mem_cons, true_or, if_true, hs, if_false, ahead_notin f seen l hg]
      omega
    · have hne : g ≠ f := fun x => e x.symm
      have := ahead_cons f seen hs l hl (by rcases List.mem_cons.1 h with x | x; exact absurd x e; exact x)
      simp only [ahead, List.mem_cons, hne, false_or]
      omega

theorem step_size {s s' : St T C σ n} (h : step asserts L files s = .more s') : size files s' < size files s := by
  unfold step at h
  cases hc : s.cur with
  | nil =>
    rw [hc] at h
    by_cases hk : s.skipping = true
    · simp only [hk, if_true, Next.more.injEq] at h
      subst h
      simp only [size, hc, hk, if_true]
      simp
    · have hk : s.skipping = false := by simpa using hk
      simp only [hk, Bool.false_eq_true, if_false, handleEof] at h
      split at h
      · cases h
      · rename_i hs
        split at h
        · cases h
        · cases h
          simp only [size, hc, hs, hk, pending, List.length_nil, Bool.false_eq_true, if_false]
          omega
  | cons l rest =>
    rw [hc] at h
    by_cases hk : s.skipping = true
    · simp only [hk, if_true, skipLine] at h
      have key : ∀ (b : Bool), 2 * rest.length + (if b then 1 else 0) < 2 * (rest.length + 1) + 1 := by intro b; cases b <;> simp <;> omega
      have fin : ∀ s'' : St T C σ n, s''.cur = rest → s''.saved = s.saved → s''.seen = s.seen → size files s'' < size files s := by
        intro s'' a b c
        simp only [size, a, b, c, hc, hk, List.length_cons, if_true]
        have := key s''.skipping
        omega
      repeat' split at h
      all_goals first | (cases h; done) | (cases h; exact fin _ rfl rfl rfl)
    · have hk : s.skipping = false := by simpa using hk
      simp only [hk, Bool.false_eq_true, if_false, parseLine] at h
      have key : ∀ (b : Bool), 2 * rest.length + (if b then 1 else 0) < 2 * (rest.length + 1) := by intro b; cases b <;> simp <;> omega
      have fin : ∀ s'' : St T C σ n, s''.cur = rest → s''.saved = s.saved → s''.seen = s.seen → size files s'' < size files s := by
        intro s'' a b c
        simp only [size, a, b, c, hc, hk, List.length_cons, Bool.false_eq_true, if_false]
        have := key s''.skipping
        omega
      cases l with
      | incl f =>
        simp only at h
        split at h
        · cases h; exact fin _ rfl rfl rfl
        · rename_i hn
          split at h
          · cases h
          · cases h
            have := ahead_cons (files := files) f s.seen hn _ (List.nodup_finRange n) (List.mem_finRange f)
            simp only [size, hc, hk, List.length_cons, Bool.false_eq_true, if_false, pending]
            omega
      | endinput =>
        cases h
        simp only [size, hc, hk, List.length_cons, Bool.false_eq_true, if_false, List.length_nil]
        omega
      | text t => cases h; exact fin _ rfl rfl rfl
      | dif c =>
        simp only at h
        split at h
        · cases h
        · cases h; exact fin _ rfl rfl rfl
      | delse =>
        simp only at h
        split at h <;> (cases h; exact fin _ rfl rfl rfl)
      | delseif c =>
        simp only at h
        split at h <;> (cases h; exact fin _ rfl rfl rfl)
      | dendif =>
        simp only at h
        split at h <;> (cases h; exact fin _ rfl rfl rfl)

theorem run_ends (s : St T C σ n) : ∃ m r, run asserts L files m s = some r := by
  generalize hk : size files s = k
  induction k using Nat.strongRecOn generalizing s with
  | _ k ih =>
    subst hk
    cases e : step asserts L files s with
    | more s' =>
      obtain ⟨m, r, h⟩ := ih _ (step_size e) s' rfl
      exact ⟨m + 1, r, by simp only [run, e, h]⟩
    | done s' => exact ⟨1, .done s', by simp only [run, e]⟩
    | crash => exact ⟨1, .crash, by simp only [run, e]⟩

/-! ### Directives that match -/

/-- The directives of `l` match, inside `d` open sections. -/
def balanced : List (Line T C n) → Nat → Bool
  | [], d => d == 0
  | .dif _ :: l, d => balanced l (d + 1)
  | .dendif :: l, d => d != 0 && balanced l (d - 1)
  | .delse :: l, d => d != 0 && balanced l d
  | .delseif _ :: l, d => d != 0 && balanced l d
  | .text _ :: l, d => balanced l d
  | .incl _ :: l, d => balanced l d
  | .endinput :: l, d => balanced l d

/-- Lines whose directives match are a block; inside `d + 1` sections, a block, the end of a section and more. -/
theorem balanced_block : ∀ (l : List (Line T C n)) (d : Nat), balanced l d = true →
    (d = 0 → ∃ b : Block T C n, l = b.lines) ∧
    (∀ e, d = e + 1 → ∃ (b : Block T C n) (ch : Chain T C n) (l' : List (Line T C n)), l = b.lines ++ (ch.lines ++ l') ∧ l'.length < l.length ∧ balanced l' e = true)
  | [], d, h => ⟨fun _ => ⟨.nil, rfl⟩, fun e he => by subst he; simp [balanced] at h⟩
  | .text t :: l, d, h => by
    obtain ⟨h0, h1⟩ := balanced_block l d h
    refine ⟨fun e => ?_, fun e he => ?_⟩
    · obtain ⟨b, hb⟩ := h0 e; exact ⟨.text t b, by rw [Block.lines, hb]⟩
    · obtain ⟨b, ch, l', hb, hl, hn⟩ := h1 e he
      exact ⟨.text t b, ch, l', by rw [Block.lines, hb]; rfl, by simp only [List.length_cons]; omega, hn⟩
  | .incl t :: l, d, h => by
    obtain ⟨h0, h1⟩ := balanced_block l d h
    refine ⟨fun e => ?_, fun e he => ?_⟩
    · obtain ⟨b, hb⟩ := h0 e; exact ⟨.incl t b, by rw [Block.lines, hb]⟩
    · obtain ⟨b, ch, l', hb, hl, hn⟩ := h1 e he
      exact ⟨.incl t b, ch, l', by rw [Block.lines, hb]; rfl, by simp only [List.length_cons]; omega, hn⟩
  | .endinput :: l, d, h => by
    obtain ⟨h0, h1⟩ := balanced_block l d h
    refine ⟨fun e => ?_, fun e he => ?_⟩
    · obtain ⟨b, hb⟩ := h0 e; exact ⟨.endinput b, by rw [Block.lines, hb]⟩
    · obtain ⟨b, ch, l', hb, hl, hn⟩ := h1 e he
      exact ⟨.endinput b, ch, l', by rw [Block.lines, hb]; rfl, by simp only [List.length_cons]; omega, hn⟩
  | .dendif :: l, d, h => by
    simp only [balanced, Bool.and_eq_true, bne_iff_ne] at h
    refine ⟨fun e => absurd e h.1, fun e he => ?_⟩
    subst he
    exact ⟨.nil, .endif, l, rfl, by simp only [List.length_cons]; omega, h.2⟩
  | .delse :: l, d, h => by
    simp only [balanced, Bool.and_eq_true, bne_iff_ne] at h
    obtain ⟨-, h1⟩ := balanced_block l d h.2
    refine ⟨fun e => absurd e h.1, fun e he => ?_⟩
    obtain ⟨b, ch, l', hb, hl, hn⟩ := h1 e he
    exact ⟨.nil, .els b ch, l', by simp only [Block.lines, Chain.lines, hb, List.nil_append, List.cons_append, List.append_assoc],
      by simp only [List.length_cons]; omega, hn⟩
  | .delseif c :: l, d, h => by
    simp only [balanced, Bool.and_eq_true, bne_iff_ne] at h
    obtain ⟨-, h1⟩ := balanced_block l d h.2
    refine ⟨fun e => absurd e h.1, fun e he => ?_⟩
    obtain ⟨b, ch, l', hb, hl, hn⟩ := h1 e he
    exact ⟨.nil, .elif c b ch, l', by simp only [Block.lines, Chain.lines, hb, List.nil_append, List.cons_append, List.append_assoc],
      by simp only [List.length_cons]; omega, hn⟩
  | .dif c :: l, d, h => by
    simp only [balanced] at h
    obtain ⟨-, h1⟩ := balanced_block l (d + 1) h
    obtain ⟨b, ch, l', hb, hl, hn⟩ := h1 d rfl
    obtain ⟨k0, k1⟩ := balanced_block l' d hn
    refine ⟨fun e => ?_, fun e he => ?_⟩
    · obtain ⟨b2, hb2⟩ := k0 e
      exact ⟨.cond c b ch b2, by rw [Block.lines, hb, hb2]⟩
    · obtain ⟨b2, ch2, l2, hb2, hl2, hn2⟩ := k1 e he
      exact ⟨.cond c b ch b2, ch2, l2, by simp only [Block.lines, hb, hb2, List.cons_append, List.append_assoc],
        by simp only [List.length_cons]; omega, hn2⟩
termination_by l => l.length

/-! ### Directives that do not match are reported -/

theorem isSkipping_mid {X : List Flags} {f : Flags} {fs : List Flags} : isSkipping (X ++ f :: fs) (fs.length + 1) = some f.skip := by
  induction X with
  | nil => exact isSkipping_top
  | cons x X ih => exact isSkipping_cons ih (by simp)

/-- The state of the lexer before a line. -/
def Inv (s : St T C σ n) : Prop :=
  (s.skipping = false ∧ s.level = s.stack.length ∧ ∀ f ∈ s.stack, f.skip = false) ∨
  (s.skipping = true ∧ ∃ X f fs, s.stack = X ++ f :: fs ∧ s.level = fs.length + 1 ∧ f.skip = true ∧ ∀ g ∈ fs, g.skip = false)

/-- Where a line takes the lexer. -/
structure After (s s' : St T C σ n) (l : Line T C n) (rest : List (Line T C n)) : Prop where
  cur : s'.cur = rest
  saved : s'.saved = s.saved
  seen : ∀ f, f ∈ s.seen → f ∈ s'.seen
  inv : Inv s'
  errs : ∃ E, s'.errs = s.errs ++ E ∧ (E = [] → balanced rest s'.stack.length = true → balanced (l :: rest) s.stack.length = true)

theorem skip_after {s : St T C σ n} {l : Line T C n} {rest : List (Line T C n)} (hi : Inv s) (hk : s.skipping = true) :
    ∃ s', skipLine L s l rest = .more s' ∧ After s s' l rest := by
  obtain ⟨h, -⟩ | ⟨-, X, f, fs, hst, hlv, hf, hfs⟩ := hi
  · rw [hk] at h; cases h
  have hsame : Inv { s with cur := rest } := .inr ⟨hk, X, f, fs, hst, hlv, hf, hfs⟩
  have hlen : s.stack.length = X.length + (fs.length + 1) := by rw [hst]; simp
  cases l with
  | text t => exact ⟨_, rfl, rfl, rfl, fun _ h => h, hsame, [], (List.append_nil _).symm, fun _ h => h⟩
  | incl t => exact ⟨_, rfl, rfl, rfl, fun _ h => h, hsame, [], (List.append_nil _).symm, fun _ h => h⟩
  | endinput => exact ⟨_, rfl, rfl, rfl, fun _ h => h, hsame, [], (List.append_nil _).symm, fun _ h => h⟩
  | dif c =>
    exact ⟨_, rfl, rfl, rfl, fun _ h => h, .inr ⟨hk, {} :: X, f, fs, by rw [hst]; rfl, hlv, hf, hfs⟩, [], (List.append_nil _).symm, fun _ h => h⟩
  | delse =>
    have hb : balanced rest s.stack.length = true → balanced (.delse :: rest) s.stack.length = true := by
      intro h; simp only [balanced, Bool.and_eq_true, bne_iff_ne]; exact ⟨by omega, h⟩
    cases X with
    | nil =>
      rw [List.nil_append] at hst
      simp only [skipLine, hst]
      by_cases h1 : f.handled = true
      · rw [if_pos h1]
        exact ⟨_, rfl, rfl, rfl, fun _ h => h, .inr ⟨hk, [], f, fs, rfl, hlv, hf, hfs⟩, [60], rfl, fun h => nomatch h⟩
      · rw [if_neg h1]
        by_cases h2 : (!f.parse) = true
        · rw [if_pos h2, hlv, isSkipping_top]
          refine ⟨_, rfl, rfl, rfl, fun _ h => h, .inl ⟨rfl, rfl, ?_⟩, [], (List.append_nil _).symm, fun _ h => hb (by rw [hst]; exact h)⟩
          intro g hg
          rcases List.mem_cons.1 hg with e | e
          · rw [e]
          · exact hfs g e
        · rw [if_neg h2]
          exact ⟨_, rfl, rfl, rfl, fun _ h => h, .inr ⟨hk, [], f, fs, rfl, hlv, hf, hfs⟩, [], (List.append_nil _).symm,
            fun _ h => hb (by rw [hst]; exact h)⟩
    | cons x X =>
      rw [List.cons_append] at hst
      simp only [skipLine, hst]
      by_cases h1 : x.handled = true
      · rw [if_pos h1]
        exact ⟨_, rfl, rfl, rfl, fun _ h => h, .inr ⟨hk, x :: X, f, fs, rfl, hlv, hf, hfs⟩, [60], rfl, fun h => nomatch h⟩
      · rw [if_neg h1]
        by_cases h2 : (!x.parse) = true
        · rw [if_pos h2, hlv]
          have : isSkipping ({ skip := false, parse := x.parse, handled := true } :: (X ++ f :: fs)) (fs.length + 1) = some f.skip :=
            isSkipping_mid (X := _ :: X)
          rw [this, hf]
          exact ⟨_, rfl, rfl, rfl, fun _ h => h, .inr ⟨rfl, _ :: X, f, fs, rfl, rfl, hf, hfs⟩, [], (List.append_nil _).symm,
            fun _ h => hb (by rw [hst]; exact h)⟩
        · rw [if_neg h2]
          exact ⟨_, rfl, rfl, rfl, fun _ h => h, .inr ⟨hk, x :: X, f, fs, rfl, hlv, hf, hfs⟩, [], (List.append_nil _).symm,
            fun _ h => hb (by rw [hst]; exact h)⟩
  | delseif c =>
    have hb : balanced rest s.stack.length = true → balanced (.delseif c :: rest) s.stack.length = true := by
      intro h; simp only [balanced, Bool.and_eq_true, bne_iff_ne]; exact ⟨by omega, h⟩
    cases X with
    | nil =>
      rw [List.nil_append] at hst
      simp only [skipLine, hst]
      by_cases h1 : f.handled = true
      · rw [if_pos h1]
        exact ⟨_, rfl, rfl, rfl, fun _ h => h, .inr ⟨hk, [], f, fs, rfl, hlv, hf, hfs⟩, [61], rfl, fun h => nomatch h⟩
      · rw [if_neg h1]
        by_cases h2 : (!f.parse) = true
        · have : ¬ (s.level ≠ (f :: fs).length) := by simp [hlv]
          rw [if_pos h2, if_neg this, hlv, isSkipping_top]
          by_cases hv : L.eval s.env c = true
          · refine ⟨_, rfl, rfl, rfl, fun _ h => h, .inl ⟨by simp [hv], rfl, ?_⟩, [], (List.append_nil _).symm, fun _ h => hb (by rw [hst]; exact h)⟩
            intro g hg
            rcases List.mem_cons.1 hg with e | e
            · rw [e]; simp [hv]
            · exact hfs g e
          · exact ⟨_, rfl, rfl, rfl, fun _ h => h, .inr ⟨by simpa using hv, [], _, fs, rfl, rfl, by simpa using hv, hfs⟩, [], (List.append_nil _).symm,
              fun _ h => hb (by rw [hst]; exact h)⟩
        · rw [if_neg h2]
          exact ⟨_, rfl, rfl, rfl, fun _ h => h, .inr ⟨hk, [], f, fs, rfl, hlv, hf, hfs⟩, [], (List.append_nil _).symm,
            fun _ h => hb (by rw [hst]; exact h)⟩
    | cons x X =>
      rw [List.cons_append] at hst
      simp only [skipLine, hst]
      by_cases h1 : x.handled = true
      · rw [if_pos h1]
        exact ⟨_, rfl, rfl, rfl, fun _ h => h, .inr ⟨hk, x :: X, f, fs, rfl, hlv, hf, hfs⟩, [61], rfl, fun h => nomatch h⟩
      · rw [if_neg h1]
        have : s.level ≠ (x :: (X ++ f :: fs)).length := by simp only [hlv, List.length_cons, List.length_append]; omega
        have hgo : After s { s with cur := rest, stack := x :: (X ++ f :: fs) } (.delseif c) rest :=
          ⟨rfl, rfl, fun _ h => h, .inr ⟨hk, x :: X, f, fs, rfl, hlv, hf, hfs⟩, [], (List.append_nil _).symm,
            fun _ h => hb (by rw [hst]; exact h)⟩
        by_cases h2 : (!x.parse) = true
        · rw [if_pos h2, if_pos this]
          exact ⟨_, rfl, hgo⟩
        · rw [if_neg h2]
          exact ⟨_, rfl, hgo⟩
  | dendif =>
    have hb : balanced rest (s.stack.length - 1) = true → balanced (.dendif :: rest) s.stack.length = true := by
      intro h; simp only [balanced, Bool.and_eq_true, bne_iff_ne]; exact ⟨by omega, h⟩
    cases X with
    | nil =>
      rw [List.nil_append] at hst
      simp only [skipLine, hst]
      rw [if_pos (show fs.length < s.level by omega), isSkipping_clean hfs]
      exact ⟨_, rfl, rfl, rfl, fun _ h => h, .inl ⟨rfl, rfl, hfs⟩, [], (List.append_nil _).symm, fun _ h => hb (by rw [hst]; exact h)⟩
    | cons x X =>
      rw [List.cons_append] at hst
      simp only [skipLine, hst]
      rw [if_neg (show ¬ (X ++ f :: fs).length < s.level by simp only [hlv, List.length_cons, List.length_append]; omega), hlv, isSkipping_mid, hf]
      exact ⟨_, rfl, rfl, rfl, fun _ h => h, .inr ⟨rfl, X, f, fs, rfl, rfl, hf, hfs⟩, [], (List.append_nil _).symm,
        fun _ h => hb (by rw [hst]; exact h)⟩

/-- A line that is not skipped and reads no other file. -/
theorem parse_after {s : St T C σ n} {l : Line T C n} {rest : List (Line T C n)} (hi : Inv s) (hk : s.skipping = false)
    (he : l ≠ .endinput) (hin : ∀ f, l = .incl f → f ∈ s.seen) :
    ∃ s', parseLine asserts L files s l rest = .more s' ∧ After s s' l rest := by
  obtain ⟨-, hlv, hcl⟩ | ⟨h, -⟩ := hi
  rotate_left
  · rw [hk] at h; cases h
  cases l with
  | text t => exact ⟨_, rfl, rfl, rfl, fun _ h => h, .inl ⟨hk, hlv, hcl⟩, [], (List.append_nil _).symm, fun _ h => h⟩
  | incl f =>
    refine ⟨{ s with cur := rest }, ?_, rfl, rfl, fun _ h => h, .inl ⟨hk, hlv, hcl⟩, [], (List.append_nil _).symm, fun _ h => h⟩
    simp only [parseLine, if_pos (hin f rfl)]
  | endinput => exact absurd rfl he
  | dif c =>
    have : isSkipping ({ skip := !L.eval s.env c, parse := L.eval s.env c } :: s.stack) (s.stack.length + 1) = some (!L.eval s.env c) :=
      isSkipping_top
    simp only [parseLine]
    rw [this]
    refine ⟨_, rfl, rfl, rfl, fun _ h => h, ?_, [], (List.append_nil _).symm, fun _ h => h⟩
    by_cases hv : L.eval s.env c = true
    · refine .inl ⟨by simp [hv], rfl, fun g hg => ?_⟩
      rcases List.mem_cons.1 hg with e | e
      · rw [e]; simp [hv]
      · exact hcl g e
    · exact .inr ⟨by simpa using hv, [], _, s.stack, rfl, rfl, by simpa using hv, hcl⟩
  | delse =>
    simp only [parseLine]
    cases hst : s.stack with
    | nil =>
      exact ⟨_, rfl, rfl, rfl, fun _ h => h, .inl ⟨hk, by rw [hlv, hst], by simp⟩, [26], rfl, fun h => nomatch h⟩
    | cons f fs =>
      refine ⟨_, rfl, rfl, rfl, fun _ h => h, .inr ⟨rfl, [], _, fs, rfl, by rw [hlv, hst]; rfl, rfl,
        fun g hg => hcl g (by rw [hst]; exact List.mem_cons_of_mem _ hg)⟩, if f.handled then [60] else [], ?_, ?_⟩
      · simp only; split <;> simp
      · intro _ h
        simp only [balanced, Bool.and_eq_true, bne_iff_ne]
        exact ⟨by rw [hst]; simp, by rw [hst]; exact h⟩
  | delseif c =>
    simp only [parseLine]
    cases hst : s.stack with
    | nil =>
      exact ⟨_, rfl, rfl, rfl, fun _ h => h, .inl ⟨hk, by rw [hlv, hst], by simp⟩, [26], rfl, fun h => nomatch h⟩
    | cons f fs =>
      refine ⟨_, rfl, rfl, rfl, fun _ h => h, .inr ⟨rfl, [], _, fs, rfl, by rw [hlv, hst]; rfl, rfl,
        fun g hg => hcl g (by rw [hst]; exact List.mem_cons_of_mem _ hg)⟩, if f.handled then [61] else [], ?_, ?_⟩
      · simp only; split <;> simp
      · intro _ h
        simp only [balanced, Bool.and_eq_true, bne_iff_ne]
        exact ⟨by rw [hst]; simp, by rw [hst]; exact h⟩
  | dendif =>
    simp only [parseLine]
    cases hst : s.stack with
    | nil =>
      exact ⟨_, rfl, rfl, rfl, fun _ h => h, .inl ⟨hk, by rw [hlv, hst], by simp⟩, [26], rfl, fun h => nomatch h⟩
    | cons f fs =>
      refine ⟨_, rfl, rfl, rfl, fun _ h => h, .inl ⟨hk, ?_, fun g hg => hcl g (by rw [hst]; exact List.mem_cons_of_mem _ hg)⟩, [],
        (List.append_nil _).symm, ?_⟩
      · show (if fs.length < s.level then fs.length else s.level) = fs.length
        rw [if_pos (by rw [hlv, hst]; simp)]
      · intro _ h
        simp only [balanced, Bool.and_eq_true, bne_iff_ne]
        exact ⟨by rw [hst]; simp, by rw [hst]; exact h⟩

/-- Files that have been read already do not matter. -/
theorem step_congr {main : Fin n} {files' : Fin n → List (Line T C n)} (hf : ∀ f, f ≠ main → files f = files' f) {s : St T C σ n}
    (hs : main ∈ s.seen) : step asserts L files s = step asserts L files' s := by
  unfold step
  split
  · rfl
  · split
    · rfl
    · rename_i l rest _ _
      cases l with
      | incl f =>
        simp only [parseLine]
        by_cases h : f ∈ s.seen
        · simp only [if_pos h]
        · have : f ≠ main := fun e => h (by rw [e]; exact hs)
          simp only [if_neg h, hf f this]
      | _ => rfl

theorem step_seen {s s' : St T C σ n} (h : step asserts L files s = .more s') {f : Fin n} (hf : f ∈ s.seen) : f ∈ s'.seen := by
  unfold step at h
  split at h
  · split at h
    · cases h; exact hf
    · simp only [handleEof] at h
      split at h
      · cases h
      · split at h
        · cases h
        · cases h; exact hf
  · split at h
    · simp only [skipLine] at h
      repeat' split at h
      all_goals first | (cases h; done) | (cases h; exact hf)
    · rename_i l rest _ _
      cases l with
      | incl g =>
        simp only [parseLine] at h
        split at h
        · cases h; exact hf
        · split at h
          · cases h
          · cases h; exact List.mem_cons_of_mem _ hf
      | dif c =>
        simp only [parseLine] at h
        split at h
        · cases h
        · cases h; exact hf
      | delse => simp only [parseLine] at h; split at h <;> (cases h; exact hf)
      | delseif c => simp only [parseLine] at h; split at h <;> (cases h; exact hf)
      | dendif => simp only [parseLine] at h; split at h <;> (cases h; exact hf)
      | text t => cases h; exact hf
      | endinput => cases h; exact hf

theorem Steps.congr {main : Fin n} {files' : Fin n → List (Line T C n)} (hf : ∀ f, f ≠ main → files f = files' f) {s s' : St T C σ n}
    (h : Steps asserts L files' s s') (hs : main ∈ s.seen) : Steps asserts L files s s' := by
  induction h with
  | refl => exact .refl _
  | step e _ ih => exact .step ((step_congr hf hs).trans e) (ih (step_seen e hs))

/-- The main file is read to its end; with no report, its directives match. -/
theorem run_main {main : Fin n} {blocks : Fin n → Block T C n} (hf : ∀ f, f ≠ main → files f = (blocks f).lines) :
    ∀ (l : List (Line T C n)) (s : St T C σ n), s.cur = l → s.saved = [] → Inv s → main ∈ s.seen → .endinput ∉ l →
      ∃ s', (∃ m, run asserts L files m s = some (.done s')) ∧ ∃ E, s'.errs = s.errs ++ E ∧ (E = [] → balanced l s.stack.length = true)
  | [], s, hc, hs, hi, hm, _ => by
    have hdone : ∀ s : St T C σ n, s.cur = [] → s.saved = [] → s.skipping = false →
        ∃ s', (∃ m, run asserts L files m s = some (.done s')) ∧
          ∃ E, s'.errs = s.errs ++ E ∧ (E = [] → balanced ([] : List (Line T C n)) s.stack.length = true) := by
      intro s hc hs hk
      refine ⟨{ s with errs := if s.stack.isEmpty then s.errs else s.errs ++ [1] }, ⟨1, ?_⟩, if s.stack.isEmpty then [] else [1], ?_, ?_⟩
      · simp only [run, step, handleEof]
        rw [hc, hs]
        simp only [hk, Bool.false_eq_true, if_false]
      · simp only; split <;> simp
      · cases s.stack with
        | nil => intro _; rfl
        | cons f fs => intro h; cases h
    by_cases hk : s.skipping = true
    · obtain ⟨s', ⟨m, hm'⟩, h⟩ := hdone { s with skipping := false } hc hs rfl
      exact ⟨s', ⟨m + 1, by
        have e : step asserts L files s = .more { s with skipping := false } := by unfold step; rw [hc]; simp only [hk, if_true, ← hc]
        simp only [run, e]; exact hm'⟩, h⟩
    · exact hdone s hc hs (by simpa using hk)
  | l :: rest, s, hc, hs, hi, hm, hne => by
    have hstep : ∃ s1, Steps asserts L files s s1 ∧ After s s1 l rest := by
      by_cases hk : s.skipping = true
      · obtain ⟨s1, h1, h2⟩ := skip_after (L := L) (l := l) (rest := rest) hi hk
        exact ⟨s1, .step (by simp only [step, hc, hk, if_true]; exact h1) (.refl _), h2⟩
      · have hk : s.skipping = false := by simpa using hk
        have hl : l ≠ .endinput := fun e => hne (by rw [e]; exact List.mem_cons_self)
        by_cases hin : ∀ f, l = .incl f → f ∈ s.seen
        · obtain ⟨s1, h1, h2⟩ := parse_after (asserts := asserts) (L := L) (files := files) (rest := rest) hi hk hl hin
          exact ⟨s1, .step (by simp only [step, hc, hk, Bool.false_eq_true, if_false]; exact h1) (.refl _), h2⟩
        · simp only [Classical.not_forall] at hin
          obtain ⟨f, hfl, hfs⟩ := hin
          subst hfl
          have hcl : Clean s := by
            obtain h | ⟨h, -⟩ := hi
            · exact ⟨h.1, h.2.1, h.2.2⟩
            · rw [hk] at h; cases h
          obtain ⟨s1, E, h1, p, e, -, -⟩ := sim_incl (asserts := asserts) (L := L) (blocks := blocks) n f s rest hc hcl (unread_le _) hfs
          obtain ⟨g1, g2⟩ := p.go rfl
          refine ⟨s1, h1.congr hf hm, g1, p.saved, p.seen, .inl ⟨p.clean.mode, p.clean.level, p.clean.flags⟩, E, e, fun _ h => ?_⟩
          rw [g2] at h; exact h
    obtain ⟨s1, h1, a⟩ := hstep
    obtain ⟨s', hr, E2, e2, b2⟩ := run_main hf rest s1 a.cur (a.saved.trans hs) a.inv (a.seen _ hm)
      (fun h => hne (List.mem_cons_of_mem _ h))
    obtain ⟨E1, e1, b1⟩ := a.errs
    refine ⟨s', h1.run hr, E1 ++ E2, by rw [e2, e1, List.append_assoc], fun hE => ?_⟩
    obtain ⟨x, y⟩ := List.append_eq_nil_iff.1 hE
    exact b1 x (b2 y)

end
end Verif.Cond

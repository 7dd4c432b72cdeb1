import Verif.Proofs.Macro

/-! Reading a text comes to an end, unless a macro is entered that is in use. -/
namespace Verif.Macro

variable {L : Lexis} {ms : List Macro}

/-! ### The order -/

/-- Lists of at most `k` numbers. -/
def Below (k : Nat) (a b : List Nat) : Prop := a.length ≤ k ∧ a < b

theorem acc_below : ∀ (k : Nat) (l : List Nat), Acc (Below k) l := by
  intro k
  have hnil (k : Nat) : Acc (Below k) [] := ⟨_, fun a h => absurd h.2 (List.not_lt_nil a)⟩
  induction k with
  | zero =>
    intro l
    refine ⟨_, fun a h => ?_⟩
    have : a = [] := List.length_eq_zero_iff.mp (Nat.le_zero.mp h.1)
    subst this
    exact hnil 0
  | succ k ih =>
    intro l
    cases l with
    | nil => exact hnil _
    | cons b bs =>
      revert bs
      induction b using Nat.strongRecOn with
      | ind b ihb =>
        intro bs
        induction ih bs with
        | intro bs _ ihs =>
          refine ⟨_, fun a h => ?_⟩
          obtain ⟨h1, h2⟩ := h
          cases a with
          | nil => exact hnil _
          | cons a as =>
            rcases List.cons_lt_cons_iff.mp h2 with h3 | ⟨rfl, h3⟩
            · exact ihb a h3 as
            · exact ihs as ⟨by simpa using h1, h3⟩

theorem lt_append (p : List Nat) {a : Nat} {as : List Nat} : p < p ++ a :: as := by
  induction p with
  | nil => exact List.nil_lt_cons ..
  | cons x p ih => exact List.cons_lt_cons_iff.mpr (.inr ⟨rfl, ih⟩)

theorem append_lt (p : List Nat) {a b : Nat} (h : a < b) (x y : List Nat) : p ++ a :: x < p ++ b :: y := by
  induction p with
  | nil => exact List.cons_lt_cons_iff.mpr (.inl h)
  | cons z p ih => exact List.cons_lt_cons_iff.mpr (.inr ⟨rfl, ih⟩)

theorem nodup_length : ∀ {a b : List (List Char)}, a.Nodup → (∀ x ∈ a, x ∈ b) → a.length ≤ b.length
  | [], _, _, _ => Nat.zero_le _
  | x :: a, b, h, hs => by
    have h1 : x ∈ b := hs x (List.mem_cons_self ..)
    have h2 := List.nodup_cons.mp h
    have := nodup_length (a := a) (b := b.erase x) h2.2 (fun y hy => by
      refine (List.mem_erase_of_ne ?_).mpr (hs y (List.mem_cons_of_mem _ hy))
      rintro rfl
      exact h2.1 hy)
    have h3 := List.length_erase_of_mem h1
    have h4 := List.length_pos_of_mem h1
    simp only [List.length_cons]
    omega

/-- The lengths of the texts, from the file inwards. -/
def measure (frames : List Frame) : List Nat := (frames.map (·.text.length + 1)).reverse

theorem measure_cons (f : Frame) (fs : List Frame) : measure (f :: fs) = measure fs ++ [f.text.length + 1] := by simp [measure]

theorem measure_append (ex : List Frame) (f : Frame) (fs : List Frame) :
    measure (ex ++ f :: fs) = measure fs ++ (f.text.length + 1) :: measure ex := by simp [measure]

/-! ### The states -/

structure Good (ms : List Macro) (st : St) : Prop where
  used : st.used = st.frames.filterMap (·.owner)
  nodup : st.used.Nodup
  names : ∀ w ∈ st.used, w ∈ ms.map (·.name)
  depth : st.frames.length ≤ st.used.length + 1

theorem Good.bound {st : St} (h : Good ms st) : (measure st.frames).length ≤ ms.length + 1 := by
  have := nodup_length h.nodup h.names
  have := h.depth
  simp [measure] at *
  omega

theorem Good.retext {st : St} {f : Frame} {fs : List Frame} (h : Good ms st) (hf : st.frames = f :: fs) (t : List Char) (p : List Tok) :
    Good ms { st with frames := { f with text := t } :: fs, pushed := p } := by
  obtain ⟨h1, h2, h3, h4⟩ := h
  rw [hf] at h1 h4
  exact ⟨by simpa [List.filterMap_cons] using h1, h2, h3, by simpa using h4⟩

theorem Good.repush {st : St} (h : Good ms st) (p : List Tok) : Good ms { st with pushed := p } := ⟨h.1, h.2, h.3, h.4⟩

theorem Good.leave {st : St} {f : Frame} {fs : List Frame} (h : Good ms st) (hf : st.frames = f :: fs) : Good ms (st.leave f fs) := by
  obtain ⟨h1, h2, h3, h4⟩ := h
  rw [hf] at h1 h4
  cases ho : f.owner with
  | none =>
    simp only [List.filterMap_cons, ho] at h1
    simp only [List.length_cons] at h4
    refine ⟨?_, ?_, ?_, ?_⟩ <;> simp only [St.leave, ho, Option.map_none, Option.getD_none]
    · exact h1
    · exact h2
    · exact h3
    · omega
  | some w =>
    simp only [List.filterMap_cons, ho] at h1
    have e : st.used.erase w = fs.filterMap (·.owner) := by rw [h1]; simp
    refine ⟨?_, ?_, ?_, ?_⟩ <;> simp only [St.leave, ho, Option.map_some, Option.getD_some]
    · exact e
    · exact h2.erase w
    · exact fun v hv => h3 v (List.mem_of_mem_erase hv)
    · rw [e]
      rw [h1] at h4
      simp only [List.length_cons] at h4
      omega

theorem Good.enter {st : St} (h : Good ms st) {w : List Char} (hw : w ∉ st.used) (hn : w ∈ ms.map (·.name)) (t : List Char) :
    Good ms (st.enter w t) := by
  obtain ⟨h1, h2, h3, h4⟩ := h
  refine ⟨?_, ?_, ?_, ?_⟩ <;> simp only [St.enter, hw, if_false]
  · simp [List.filterMap_cons, ← h1]
  · exact List.nodup_cons.mpr ⟨hw, h2⟩
  · intro v hv
    rcases List.mem_cons.mp hv with rfl | hv
    · exact hn
    · exact h3 v hv
  · simp; omega

theorem find_name {w : List Char} {m : Macro} (h : find ms w = some m) : w ∈ ms.map (·.name) := by
  have h1 := List.mem_of_find?_eq_some h
  have h2 := List.find?_some h
  simp only [beq_iff_eq] at h2
  exact h2 ▸ List.mem_map_of_mem h1

/-! ### Lengths -/

theorem newline_length {s r : List Char} (h : newline? s = some r) : r.length ≤ s.length := by
  unfold newline? at h
  split at h <;> simp at h <;> subst h <;> simp <;> omega

theorem continuation_length {s r : List Char} (h : continuation? s = some r) : r.length ≤ s.length := by
  cases s with
  | nil => simp [continuation?] at h
  | cons c s =>
    have h1 := newline_length h
    have h2 := (List.dropWhile_sublist (l := s) fun c => isSpace c && !isNewline c).length_le
    simp
    omega

theorem blockComment_length (s : List Char) : (blockComment s).length ≤ s.length := by
  induction s using blockComment.induct with
  | case1 => simp [blockComment]
  | case2 s => simp [blockComment]; omega
  | case3 c s h ih =>
    rw [blockComment]
    · simp; omega
    · exact h

theorem skimArg_length : ∀ (n k : Nat) (closer : Bool) (text : List Char) (st : Option (List Char)) (s : List Char),
    (skimArg n k closer text st s).2.length ≤ s.length := by
  intro n
  induction n with
  | zero => intro k closer text st s; simp [skimArg]
  | succ n ih =>
    intro k closer text st s
    cases s with
    | nil => simp [skimArg]
    | cons c s =>
      rw [skimArg.eq_def]
      simp only []
      split
      · have := ih k (c != '"') text (st.map (· ++ [c])) s
        simp; omega
      · split
        · refine Nat.le_trans (ih ..) ?_
          have h1 := (List.dropWhile_sublist (l := s.drop 1) fun c => !isNewline c).length_le
          simp [lineComment] at *
          omega
        · split
          · refine Nat.le_trans (ih ..) ?_
            have := blockComment_length (s.drop 1)
            simp at *
            omega
          · split
            · rename_i r hr
              refine Nat.le_trans (ih ..) ?_
              exact newline_length hr
            · split
              · rename_i r hr
                refine Nat.le_trans (ih ..) ?_
                split at hr
                · exact continuation_length hr
                · cases hr
              · split
                · exact Nat.le_refl _
                · refine Nat.le_trans (ih ..) ?_
                  simp

theorem skimArgs_length : ∀ {ns : List Nat} {s : List Char} {as : List (Nat × List Char)} {r : List Char}, skimArgs ns s = some (as, r) →
    r.length ≤ s.length
  | [], _, _, _, h => by simp [skimArgs] at h
  | [n], s, as, r, h => by
    have := skimArg_length s.length 0 false [] none s
    rw [skimArgs] at h
    revert this h
    generalize skimArg s.length 0 false [] none s = p
    obtain ⟨a, x⟩ := p
    intro h this
    simp only [] at this h
    split at h
    · simp only [Option.some.injEq, Prod.mk.injEq] at h
      obtain ⟨_, rfl⟩ := h
      simp at this
      omega
    · cases h
  | n :: m :: ns, s, as, r, h => by
    have := skimArg_length s.length 0 false [] none s
    rw [skimArgs] at h
    · revert this h
      generalize skimArg s.length 0 false [] none s = p
      obtain ⟨a, x⟩ := p
      intro h this
      simp only [] at this h
      split at h
      · simp only [Option.map_eq_some_iff, Prod.mk.injEq] at h
        obtain ⟨⟨as', r'⟩, h1, _, rfl⟩ := h
        have := skimArgs_length h1
        simp at *
        omega
      · cases h
    · intro h; cases h

theorem rest_length (s : List Char) : (L.rest s).length ≤ s.length := by simp [Lexis.rest]

theorem arguments_length {ns : List Nat} {s : List Char} {as : List (Nat × List Char)} {r : List Char} (h : arguments L ns s = some (as, r)) :
    r.length ≤ s.length := by
  unfold arguments at h
  split at h
  · split at h
    · rename_i hr
      simp only [Option.some.injEq, Prod.mk.injEq] at h
      obtain ⟨_, rfl⟩ := h
      have := rest_length (L := L) s
      rw [hr] at this
      simp at this
      omega
    · cases h
  · exact skimArgs_length h

/-! ### The end -/

/-- The texts around `fs` are as before, and `fs` has at most `k` characters left. -/
def Over (o : Option (List Char)) (k : Nat) (fs : List Frame) (s : St) : Prop :=
  ∃ ex t, s.frames = ex ++ ⟨t, o⟩ :: fs ∧ t.length ≤ k

theorem Over.lt {o : Option (List Char)} {k : Nat} {fs : List Frame} {s : St} (h : Over o k fs s) {f : Frame} (hk : k < f.text.length) :
    measure s.frames < measure (f :: fs) := by
  obtain ⟨ex, t, h1, h2⟩ := h
  rw [h1, measure_append, measure_cons]
  exact append_lt _ (by simp; omega) _ _

def Post (eof : Bool) (ms : List Macro) (st : St) : Res → Prop
  | .bad | .again => True
  | .tok _ s => Good ms s ∧ measure s.frames < measure st.frames ∧
      (eof = false → ∀ f fs, st.frames = f :: fs → Over f.owner f.text.length fs s)
  | .zero s => Good ms s ∧ (eof = true → s.frames = [] ∨ measure s.frames < measure st.frames) ∧
      (eof = false → ∀ f fs, st.frames = f :: fs → Over f.owner f.text.length fs s)

theorem Over.mono {o : Option (List Char)} {k l : Nat} {fs : List Frame} {s : St} (h : Over o k fs s) (hk : k ≤ l) : Over o l fs s := by
  obtain ⟨ex, t, h1, h2⟩ := h
  exact ⟨ex, t, h1, Nat.le_trans h2 hk⟩

/-- The new state is reached from one that lies over the old one. -/
theorem Post.of_over {eof : Bool} {st st' : St} {f : Frame} {fs : List Frame} (hf : st.frames = f :: fs) {k : Nat} (hk : k < f.text.length)
    (ho : Over f.owner k fs st') {res : Res} (h : Post eof ms st' res) : Post eof ms st res := by
  have hlt : measure st'.frames < measure st.frames := by rw [hf]; exact ho.lt hk
  have key : ∀ s : St, (∀ g gs, st'.frames = g :: gs → Over g.owner g.text.length gs s) → Over f.owner f.text.length fs s := by
    intro s hs
    obtain ⟨ex, t, h1, h2⟩ := ho
    cases ex with
    | nil =>
      obtain ⟨ex', t', h3, h4⟩ := hs _ _ h1
      exact ⟨ex', t', h3, by simp at h4; omega⟩
    | cons g ex =>
      obtain ⟨ex', t', h3, h4⟩ := hs _ _ h1
      exact ⟨ex' ++ ⟨t', g.owner⟩ :: ex, t, by rw [h3]; simp, by omega⟩
  cases res with
  | bad => trivial
  | again => trivial
  | tok t s =>
    obtain ⟨h1, h2, h3⟩ := h
    refine ⟨h1, List.lt_trans h2 hlt, fun he f' fs' hf' => ?_⟩
    rw [hf] at hf'
    cases hf'
    exact key s (h3 he)
  | zero s =>
    obtain ⟨h1, h2, h3⟩ := h
    refine ⟨h1, fun he => (h2 he).imp id fun h => List.lt_trans h hlt, fun he f' fs' hf' => ?_⟩
    rw [hf] at hf'
    cases hf'
    exact key s (h3 he)

theorem word_length {c : Char} {cs : List Char} {s : List Char} (h : L.rest s = c :: cs) : (cs.dropWhile wordChar).length < s.length := by
  have h1 := rest_length (L := L) s
  have h2 := (List.dropWhile_sublist (l := cs) wordChar).length_le
  rw [h] at h1
  simp at h1
  omega

theorem lexNew_ends : ∀ (l : List Nat) (st : St), measure st.frames = l → Good ms st → ∀ eof, ∃ n res,
    lexNew true L ms n eof st = some res ∧ Post eof ms st res := by
  intro l
  induction acc_below (ms.length + 1) l with
  | intro l _ ih =>
    intro st hl hg eof
    have next : ∀ st' : St, Good ms st' → measure st'.frames < measure st.frames → ∀ eof, ∃ n res,
        lexNew true L ms n eof st' = some res ∧ Post eof ms st' res :=
      fun st' h1 h2 => ih _ ⟨h1.bound, hl ▸ h2⟩ st' rfl h1
    cases hf : st.frames with
    | nil =>
      refine ⟨1, .zero st, by rw [lexNew, hf], hg, fun _ => .inl hf, fun _ f fs h => ?_⟩
      rw [hf] at h
      cases h
    | cons f fs =>
      cases hr : L.rest f.text with
      | nil =>
        cases eof with
        | true =>
          have hlt : measure (st.leave f fs).frames < measure st.frames := by
            rw [hf, measure_cons]
            exact lt_append _
          obtain ⟨n, res, h1, h2⟩ := next _ (hg.leave hf) hlt true
          refine ⟨n + 1, res, by rw [lexNew_done hf hr]; exact h1, ?_⟩
          cases res with
          | bad => trivial
          | again => trivial
          | tok t s => exact ⟨h2.1, List.lt_trans h2.2.1 hlt, (fun h => nomatch h)⟩
          | zero s => exact ⟨h2.1, fun he => (h2.2.1 he).imp id fun h => List.lt_trans h hlt, (fun h => nomatch h)⟩
        | false =>
          refine ⟨1, .zero { st with frames := { f with text := [] } :: fs }, ?_, ?_, (fun h => nomatch h), fun _ f' fs' hf' => ?_⟩
          · rw [lexNew, hf]
            simp only [hr]
            rfl
          · exact hg.retext hf [] st.pushed
          · rw [hf] at hf'
            cases hf'
            exact ⟨[], [], rfl, Nat.zero_le _⟩
      | cons c cs =>
        by_cases hw : wordStart c = true
        · have hword : Word L f.text (c :: cs.takeWhile wordChar) (cs.dropWhile wordChar) := ⟨c, cs, hr, hw, rfl, rfl⟩
          have hlen := word_length hr
          generalize (c :: cs.takeWhile wordChar) = w at hword
          generalize cs.dropWhile wordChar = r at hword hlen
          have hg1 := hg.retext hf r st.pushed
          have hov : Over f.owner r.length fs { st with frames := { f with text := r } :: fs } := ⟨[], r, rfl, Nat.le_refl _⟩
          have hlt1 : measure ({ f with text := r } :: fs) < measure st.frames := by rw [hf]; exact hov.lt hlen
          cases hfind : (if reserved w = true ∨ w ∈ st.used then none else find ms w) with
          | none =>
            refine ⟨1, _, lexNew_word hf hword hfind 0 eof, hg1, hlt1, fun _ f' fs' hf' => ?_⟩
            rw [hf] at hf'
            cases hf'
            exact hov.mono (by omega)
          | some m =>
            have hcond : ¬ (reserved w = true ∨ w ∈ st.used) := by
              intro h
              rw [if_pos h] at hfind
              cases hfind
            have hname : w ∈ ms.map (·.name) := by
              rw [if_neg hcond] at hfind
              exact find_name hfind
            cases hp : m.params with
            | none =>
              have hg2 := hg1.enter (w := w) (fun h => hcond (.inr h)) hname m.substitute
              have hov2 : Over f.owner r.length fs (({ st with frames := { f with text := r } :: fs } : St).enter w m.substitute) :=
                ⟨[⟨m.substitute, some w⟩], r, rfl, Nat.le_refl _⟩
              obtain ⟨n, res, h1, h2⟩ := next _ hg2 (by rw [hf]; exact hov2.lt hlen) eof
              exact ⟨n + 1, res, by rw [lexNew_object hf hword hfind hp]; exact h1, h2.of_over hf hlen hov2⟩
            | some ps =>
              obtain ⟨n, res, h1, h2⟩ := next _ hg1 hlt1 false
              cases res with
              | bad => exact ⟨n + 1, .bad, by rw [lexNew_params hf hword hfind hp, h1], trivial⟩
              | again => exact ⟨n + 1, .again, by rw [lexNew_params hf hword hfind hp, h1], trivial⟩
              | zero s =>
                refine ⟨n + 1, .zero s, by rw [lexNew_params hf hword hfind hp, h1], h2.1, fun _ => .inr ?_, fun _ f' fs' hf' => ?_⟩
                · rw [hf]
                  exact (h2.2.2 rfl _ _ rfl).lt hlen
                · rw [hf] at hf'
                  cases hf'
                  exact (h2.2.2 rfl _ _ rfl).mono (by simp; omega)
              | tok t s =>
                obtain ⟨hgs, hlts, hovs⟩ := h2
                have hovs := hovs rfl _ _ rfl
                by_cases ht : t = .other ['(']
                · cases hsf : s.frames with
                  | nil => exact ⟨n + 1, .bad, by rw [lexNew_params hf hword hfind hp, h1]; simp [ht, hsf], trivial⟩
                  | cons g gs =>
                    cases harg : arguments L ps g.text with
                    | none => exact ⟨n + 1, .bad, by rw [lexNew_params hf hword hfind hp, h1]; simp [ht, hsf, harg], trivial⟩
                    | some p =>
                      obtain ⟨as, r'⟩ := p
                      by_cases hin : w ∈ s.used
                      · exact ⟨n + 1, .again, by rw [lexNew_params hf hword hfind hp, h1]; simp [ht, hsf, harg, hin], trivial⟩
                      · have hg3 := (hgs.retext hsf r' s.pushed).enter (w := w) hin hname (perform m.substitute as 0 m.positions)
                        have hov3 : Over f.owner r.length fs (({ s with frames := { g with text := r' } :: gs } : St).enter w
                            (perform m.substitute as 0 m.positions)) := by
                          obtain ⟨ex, tx, e1, e2⟩ := hovs
                          have hl' := arguments_length harg
                          rw [hsf] at e1
                          cases ex with
                          | nil =>
                            cases e1
                            exact ⟨[⟨_, some w⟩], r', rfl, Nat.le_trans hl' e2⟩
                          | cons g' ex =>
                            cases e1
                            exact ⟨⟨_, some w⟩ :: { g with text := r' } :: ex, tx, rfl, e2⟩
                        obtain ⟨k, res, h3, h4⟩ := next _ hg3 (by rw [hf]; exact hov3.lt hlen) eof
                        refine ⟨max n k + 1, res, ?_, h4.of_over hf hlen hov3⟩
                        rw [lexNew_params hf hword hfind hp, lexNew_le h1 (Nat.le_max_left n k)]
                        simp only [ht, if_true, hsf, harg, hin, and_false, if_false]
                        exact lexNew_le h3 (Nat.le_max_right n k)
                · refine ⟨n + 1, .tok (.word w) { s with pushed := t :: s.pushed }, ?_, hgs.repush _, List.lt_trans hlts hlt1,
                    fun _ f' fs' hf' => ?_⟩
                  · rw [lexNew_params hf hword hfind hp, h1]
                    simp [ht]
                  · rw [hf] at hf'
                    cases hf'
                    exact Over.mono hovs (by simp; omega)
        · have hw' : wordStart c = false := by simpa using hw
          have ho : Other L f.text ((c :: cs).take (L.len (c :: cs))) ((c :: cs).drop (L.len (c :: cs))) := ⟨c, cs, hr, hw', rfl, rfl⟩
          have hlen : ((c :: cs).drop (L.len (c :: cs))).length < f.text.length := by
            have h1 := rest_length (L := L) f.text
            have h2 : 1 ≤ L.len (c :: cs) := by
              unfold Lexis.len
              split
              · exact Nat.le_refl _
              · exact Nat.le_max_left ..
            rw [hr] at h1
            simp only [List.length_drop, List.length_cons] at *
            omega
          have hov : Over f.owner ((c :: cs).drop (L.len (c :: cs))).length fs
              { st with frames := { f with text := (c :: cs).drop (L.len (c :: cs)) } :: fs } := ⟨[], _, rfl, Nat.le_refl _⟩
          refine ⟨1, _, lexNew_other hf ho 0 eof, hg.retext hf _ st.pushed, ?_, fun _ f' fs' hf' => ?_⟩
          · rw [hf]
            exact hov.lt hlen
          · rw [hf] at hf'
            cases hf'
            exact hov.mono (by omega)

theorem run_ends : ∀ (l : List Nat) (p : List Tok) (st : St), measure st.frames = l → st.pushed = p → Good ms st →
    ∃ n r, run true L ms n st = some r := by
  intro l
  induction acc_below (ms.length + 1) l with
  | intro l _ ih =>
    intro p
    induction p with
    | cons t p ihp =>
      intro st hl hp hg
      obtain ⟨n, r, h⟩ := ihp { st with pushed := p } hl rfl (hg.repush p)
      refine ⟨n + 1, r.cons t, ?_⟩
      rw [run]
      simp only [lex, hp, h]
      rfl
    | nil =>
      intro st hl hp hg
      obtain ⟨n, res, h1, h2⟩ := lexNew_ends (L := L) l st hl hg true
      have e (k : Nat) (hk : n ≤ k) : lex true L ms k st = some res := by
        simp only [lex, hp]
        exact lexNew_le h1 hk
      cases res with
      | bad => exact ⟨n + 1, .error, by rw [run, e n (Nat.le_refl _)]⟩
      | again => exact ⟨n + 1, .again, by rw [run, e n (Nat.le_refl _)]⟩
      | tok t s =>
        obtain ⟨m, r, h3⟩ := ih _ ⟨h2.1.bound, hl ▸ h2.2.1⟩ s.pushed s rfl rfl h2.1
        refine ⟨max n m + 1, r.cons t, ?_⟩
        rw [run, e _ (Nat.le_max_left n m)]
        simp only [run_le h3 (Nat.le_max_right n m)]
        rfl
      | zero s =>
        by_cases hs : s.frames = []
        · exact ⟨n + 1, .tokens [], by rw [run, e n (Nat.le_refl _)]; simp [hs]⟩
        · obtain ⟨m, r, h3⟩ := ih _ ⟨h2.1.bound, hl ▸ (h2.2.1 rfl).resolve_left hs⟩ s.pushed s rfl rfl h2.1
          refine ⟨max n m + 1, r.cons .zero, ?_⟩
          rw [run, e _ (Nat.le_max_left n m)]
          simp only [hs, if_false, run_le h3 (Nat.le_max_right n m)]
          rfl

theorem good_start (text : List Char) : Good ms (start text) :=
  ⟨rfl, List.nodup_nil, (fun _ h => nomatch h), Nat.le_refl _⟩

/-! ### The code -/

theorem lexNew_code : ∀ {n : Nat} {eof : Bool} {st : St} {r : Res}, lexNew true L ms n eof st = some r → r ≠ .again →
    lexNew false L ms n eof st = some r := by
  intro n
  induction n with
  | zero => intro eof st r h; simp [lexNew] at h
  | succ n ih =>
    intro eof st r h hr
    rw [lexNew] at h ⊢
    cases hf : st.frames with
    | nil => rw [hf] at h; exact h
    | cons f fs =>
      rw [hf] at h
      simp only [] at h ⊢
      cases hrest : L.rest f.text with
      | nil =>
        rw [hrest] at h
        simp only [] at h ⊢
        cases eof with
        | false => exact h
        | true => exact ih h hr
      | cons c cs =>
        rw [hrest] at h
        simp only [] at h ⊢
        by_cases hw : wordStart c = true
        · rw [if_pos hw] at h ⊢
          split at h
          · exact h
          · rename_i m hm
            split at h
            · exact ih h hr
            · rename_i ps hp
              split at h
              · cases h
              · rename_i hi; rw [ih hi (by simp)]; exact h
              · cases h; exact absurd rfl hr
              · rename_i hi; rw [ih hi (by simp)]; exact h
              · rename_i t s hi
                rw [ih hi (by simp)]
                simp only [] at h ⊢
                by_cases ht : t = .other ['(']
                · rw [if_pos ht] at h ⊢
                  split at h
                  · exact h
                  · rename_i g gs _
                    split at h
                    · exact h
                    · rename_i as r' _
                      split at h
                      · cases h; exact absurd rfl hr
                      · rw [if_neg (by simp)]
                        exact ih h hr
                · rw [if_neg ht] at h ⊢; exact h
        · rw [if_neg hw] at h ⊢; exact h

theorem run_code : ∀ {n : Nat} {st : St} {r : Out}, run true L ms n st = some r → r ≠ .again → run false L ms n st = some r := by
  intro n
  induction n with
  | zero => intro st r h; simp [run] at h
  | succ n ih =>
    intro st r h hr
    have key : ∀ x, lex true L ms n st = some x → x ≠ .again → lex false L ms n st = some x := by
      intro x hx hne
      unfold lex at hx ⊢
      split at hx
      · exact hx
      · exact lexNew_code hx hne
    have kt : ∀ (t : Tok) (o : Out), Out.cons t o = r → o ≠ .again := by
      rintro t o rfl rfl
      exact hr rfl
    rw [run] at h ⊢
    split at h
    · cases h
    · rename_i hi; rw [key _ hi (by simp)]; exact h
    · cases h; exact absurd rfl hr
    · rename_i t s hi
      rw [key _ hi (by simp)]
      simp only [Option.map_eq_some_iff] at h ⊢
      obtain ⟨a, h1, h2⟩ := h
      exact ⟨a, ih h1 (kt _ _ h2), h2⟩
    · rename_i s hi
      rw [key _ hi (by simp)]
      simp only [] at h ⊢
      by_cases hs : s.frames = []
      · rw [if_pos hs] at h ⊢; exact h
      · rw [if_neg hs] at h ⊢
        simp only [Option.map_eq_some_iff] at h ⊢
        obtain ⟨a, h1, h2⟩ := h
        exact ⟨a, ih h1 (kt _ _ h2), h2⟩

end Verif.Macro

import Verif.Model.Cond

/-! Lemmas on conditional compilation: the lines of a block leave what the block means. -/
namespace Verif.Cond

variable {T C σ : Type} {n : Nat}

section
variable (asserts : Bool) (L : Lang T C σ) (files : Fin n → List (Line T C n))

inductive Steps : St T C σ n → St T C σ n → Prop
  | refl (s) : Steps s s
  | step {s s' s''} (h : step asserts L files s = .more s') (t : Steps s' s'') : Steps s s''

variable {asserts L files}

theorem Steps.trans {a b c : St T C σ n} (h : Steps asserts L files a b) (k : Steps asserts L files b c) : Steps asserts L files a c := by
  induction h with
  | refl => exact k
  | step e _ ih => exact .step e (ih k)

theorem Steps.run {a b : St T C σ n} {r : Next T C σ n} (h : Steps asserts L files a b)
    (k : ∃ m, run asserts L files m b = some r) : ∃ m, run asserts L files m a = some r := by
  induction h with
  | refl => exact k
  | step e _ ih =>
    obtain ⟨m, hm⟩ := ih k
    exact ⟨m + 1, by simp only [Cond.run, e, hm]⟩

theorem run_mono {m : Nat} : ∀ {a : St T C σ n} {r}, run asserts L files m a = some r → ∀ k, run asserts L files (m + k) a = some r := by
  induction m with
  | zero => intro a r h; simp only [Cond.run] at h; cases h
  | succ m ih =>
    intro a r h k
    rw [Nat.add_right_comm]
    simp only [Cond.run] at h ⊢
    cases e : step asserts L files a with
    | more s => rw [e] at h; exact ih h k
    | done s => rw [e] at h; exact h
    | crash => rw [e] at h; exact h

theorem run_unique {m k : Nat} {a : St T C σ n} {r r'} (h : run asserts L files m a = some r) (h' : run asserts L files k a = some r') :
    r = r' := by
  have a1 := run_mono h k
  have a2 := run_mono h' m
  rw [Nat.add_comm] at a2
  rw [a1] at a2
  exact Option.some.inj a2

end

/-! ### How many files are still unread -/

def unread (seen : List (Fin n)) : Nat := ((List.finRange n).filter (fun f => decide (f ∉ seen))).length

theorem filter_le {α} (p q : α → Bool) (h : ∀ a, p a = true → q a = true) (l : List α) : (l.filter p).length ≤ (l.filter q).length := by
  induction l with
  | nil => exact Nat.le_refl _
  | cons a l ih =>
    simp only [List.filter_cons]
    cases hp : p a
    · cases hq : q a
      · simpa [hp, hq] using ih
      · simp only [if_true, List.length_cons]; simp only [Bool.false_eq_true, if_false]; omega
    · rw [h a hp]
      simp only [if_true, List.length_cons]; omega

theorem filter_lt {α} (p q : α → Bool) (h : ∀ a, p a = true → q a = true) (l : List α) (x : α) (hx : x ∈ l) (hp : p x = false) (hq : q x = true) :
    (l.filter p).length < (l.filter q).length := by
  induction l with
  | nil => cases hx
  | cons a l ih =>
    have hle := filter_le p q h l
    rcases List.mem_cons.1 hx with e | e
    · subst e
      simp only [List.filter_cons, hp, hq, if_true, List.length_cons, Bool.false_eq_true, if_false]; omega
    · have := ih e
      simp only [List.filter_cons]
      cases hp : p a
      · cases hq : q a
        · simpa [hp, hq] using this
        · simp only [if_true, List.length_cons, Bool.false_eq_true, if_false]; omega
      · rw [h a hp]
        simp only [if_true, List.length_cons]; omega

theorem unread_mono {a b : List (Fin n)} (h : ∀ f, f ∈ a → f ∈ b) : unread b ≤ unread a :=
  filter_le _ _ (fun x hx => by simp only [decide_eq_true_eq] at hx ⊢; exact fun c => hx (h x c)) _

theorem unread_cons {a : List (Fin n)} {f : Fin n} (h : f ∉ a) : unread (f :: a) < unread a :=
  filter_lt _ _ (fun x hx => by simp only [decide_eq_true_eq] at hx ⊢; exact fun c => hx (List.mem_cons_of_mem _ c)) _ f
    (List.mem_finRange f) (by simp) (by simp [h])

theorem unread_le (a : List (Fin n)) : unread a ≤ n := by
  have := List.length_filter_le (fun f => decide (f ∉ a)) (List.finRange n)
  rw [List.length_finRange] at this
  exact this

/-! ### Skipping -/

section
variable {asserts : Bool} {L : Lang T C σ} {files : Fin n → List (Line T C n)}

theorem isSkipping_cons {f : Flags} {fs : List Flags} {v : Nat} {b : Bool} (h : isSkipping fs v = some b) (hv : v ≤ fs.length) :
    isSkipping (f :: fs) v = some b := by
  unfold isSkipping at h ⊢
  by_cases h0 : v = 0
  · simp only [h0, if_true] at h ⊢; exact h
  · rw [if_neg h0] at h ⊢
    rw [if_pos hv] at h
    rw [if_pos (by simp only [List.length_cons]; omega)]
    have : (f :: fs).length - v = (fs.length - v) + 1 := by simp only [List.length_cons]; omega
    rw [this, List.getElem?_cons_succ]; exact h

theorem isSkipping_tail {f : Flags} {fs : List Flags} {v : Nat} {b : Bool} (h : isSkipping (f :: fs) v = some b) (hv : v ≤ fs.length) :
    isSkipping fs v = some b := by
  unfold isSkipping at h ⊢
  by_cases h0 : v = 0
  · simp only [h0, if_true] at h ⊢; exact h
  · rw [if_neg h0] at h ⊢
    rw [if_pos hv]
    rw [if_pos (by simp only [List.length_cons]; omega)] at h
    have : (f :: fs).length - v = (fs.length - v) + 1 := by simp only [List.length_cons]; omega
    rw [this, List.getElem?_cons_succ] at h; exact h

theorem isSkipping_top {f : Flags} {fs : List Flags} : isSkipping (f :: fs) (fs.length + 1) = some f.skip := by
  simp [isSkipping]

theorem isSkipping_clean {fs : List Flags} (h : ∀ f ∈ fs, f.skip = false) : isSkipping fs fs.length = some false := by
  cases fs with
  | nil => rfl
  | cons f fs => rw [List.length_cons, isSkipping_top, h f List.mem_cons_self]

mutual
/-- In a skipped section a block is passed over. -/
theorem skip_block (b : Block T C n) (s : St T C σ n) (rest : List (Line T C n)) (hc : s.cur = b.lines ++ rest) (hm : s.skipping = true)
    (hs : isSkipping s.stack s.level = some true) (hl : s.level ≤ s.stack.length) :
    ∃ E, Steps asserts L files s { s with cur := rest, errs := s.errs ++ E } ∧ (b.strict → E = []) := by
  match b with
  | .nil =>
    refine ⟨[], ?_, fun _ => rfl⟩
    have : { s with cur := rest, errs := s.errs ++ [] } = s := by
      simp only [List.append_nil]; rw [show rest = s.cur by rw [hc]; rfl]
    rw [this]; exact .refl _
  | .text t b =>
    rw [Block.lines, List.cons_append] at hc
    obtain ⟨E, h, h'⟩ := skip_block b { s with cur := b.lines ++ rest } rest rfl hm hs hl
    exact ⟨E, .step (by simp only [step, hc, hm, if_true, skipLine]) h, h'⟩
  | .incl t b =>
    rw [Block.lines, List.cons_append] at hc
    obtain ⟨E, h, h'⟩ := skip_block b { s with cur := b.lines ++ rest } rest rfl hm hs hl
    exact ⟨E, .step (by simp only [step, hc, hm, if_true, skipLine]) h, h'⟩
  | .endinput b =>
    rw [Block.lines, List.cons_append] at hc
    obtain ⟨E, h, h'⟩ := skip_block b { s with cur := b.lines ++ rest } rest rfl hm hs hl
    exact ⟨E, .step (by simp only [step, hc, hm, if_true, skipLine]) h, h'⟩
  | .cond c body ch b =>
    rw [Block.lines, List.cons_append, List.append_assoc, List.append_assoc] at hc
    obtain ⟨E1, h1, h1'⟩ := skip_block body { s with cur := body.lines ++ (ch.lines ++ (b.lines ++ rest)), stack := {} :: s.stack }
      (ch.lines ++ (b.lines ++ rest)) rfl hm (isSkipping_cons hs hl) (by simp only [List.length_cons]; omega)
    obtain ⟨E2, h2, h2'⟩ := skip_chain ch
      { s with cur := ch.lines ++ (b.lines ++ rest), stack := {} :: s.stack, errs := s.errs ++ E1 } {} s.stack (b.lines ++ rest) rfl rfl hm hs hl
    obtain ⟨E3, h3, h3'⟩ := skip_block b { s with cur := b.lines ++ rest, errs := s.errs ++ E1 ++ E2 } rest rfl hm hs hl
    refine ⟨E1 ++ E2 ++ E3, .step (by simp only [step, hc, hm, if_true, skipLine]) (h1.trans (h2.trans ?_)), ?_⟩
    · simpa only [List.append_assoc] using h3
    · intro hst
      rw [Block.strict] at hst
      rw [h1' hst.1, h2' hst.2.1 rfl, h3' hst.2.2]; rfl

/-- In a skipped section the rest of a section inside it is passed over. -/
theorem skip_chain (ch : Chain T C n) (s : St T C σ n) (f : Flags) (fs : List Flags) (rest : List (Line T C n)) (hc : s.cur = ch.lines ++ rest)
    (hf : s.stack = f :: fs) (hm : s.skipping = true) (hs : isSkipping fs s.level = some true) (hl : s.level ≤ fs.length) :
    ∃ E, Steps asserts L files s { s with cur := rest, stack := fs, errs := s.errs ++ E } ∧ (ch.strict → f.handled = false → E = []) := by
  match ch with
  | .endif =>
    rw [Chain.lines, List.cons_append, List.nil_append] at hc
    refine ⟨[], .step (s' := { s with cur := rest, stack := fs }) ?_ ?_, fun _ _ => rfl⟩
    · have hlt : ¬ fs.length < s.level := by omega
      simp only [step, hc, hm, if_true, skipLine, hf, if_neg hlt, hs]
    · rw [List.append_nil]; exact .refl _
  | .els body ch =>
    rw [Chain.lines, List.cons_append, List.append_assoc] at hc
    by_cases hh : f.handled = true
    · obtain ⟨E1, h1, -⟩ := skip_block body { s with cur := body.lines ++ (ch.lines ++ rest), errs := s.errs ++ [60] }
        (ch.lines ++ rest) rfl hm (by rw [hf]; exact isSkipping_cons hs hl) (by simp only [hf, List.length_cons]; omega)
      obtain ⟨E2, h2, -⟩ := skip_chain ch { s with cur := ch.lines ++ rest, errs := s.errs ++ [60] ++ E1 } f fs rest rfl hf hm hs hl
      refine ⟨[60] ++ E1 ++ E2, .step (by simp only [step, hc, hm, if_true, skipLine, hf, hh]) (h1.trans ?_), fun _ h => ?_⟩
      · simpa only [List.append_assoc] using h2
      · rw [hh] at h; cases h
    · have hh : f.handled = false := by simpa using hh
      by_cases hp : f.parse = true
      · obtain ⟨E1, h1, h1'⟩ := skip_block body { s with cur := body.lines ++ (ch.lines ++ rest) }
          (ch.lines ++ rest) rfl hm (by rw [hf]; exact isSkipping_cons hs hl) (by simp only [hf, List.length_cons]; omega)
        obtain ⟨E2, h2, h2'⟩ := skip_chain ch { s with cur := ch.lines ++ rest, errs := s.errs ++ E1 } f fs rest rfl hf hm hs hl
        refine ⟨E1 ++ E2, .step (by simp [step, hc, hm, skipLine, hf, hh, hp]) (h1.trans ?_), fun h _ => ?_⟩
        · simpa only [List.append_assoc] using h2
        · rw [Chain.strict] at h
          rw [h1' h.1, h2' (by rw [h.2]; exact trivial) hh]; rfl
      · have hp : f.parse = false := by simpa using hp
        let g : Flags := { handled := true }
        obtain ⟨E1, h1, h1'⟩ := skip_block body { s with cur := body.lines ++ (ch.lines ++ rest), stack := g :: fs }
          (ch.lines ++ rest) rfl hm (isSkipping_cons hs hl) (by simp only [List.length_cons]; omega)
        obtain ⟨E2, h2, -⟩ := skip_chain ch { s with cur := ch.lines ++ rest, stack := g :: fs, errs := s.errs ++ E1 } g fs rest rfl rfl hm hs hl
        have hstep : step asserts L files s = .more { s with cur := body.lines ++ (ch.lines ++ rest), stack := g :: fs } := by
          have hk := isSkipping_cons (f := g) hs hl
          simp only [step, hc, hm, if_true, skipLine, hf, hh, hp, Bool.not_false, Bool.false_eq_true, if_false]
          rw [show isSkipping ({ handled := true } :: fs) s.level = _ from hk]
        by_cases hend : ch = .endif
        · subst hend
          refine ⟨E1, .step hstep (h1.trans (.step ?_ (.refl _))), fun h _ => ?_⟩
          · have hlt : ¬ fs.length < s.level := by omega
            simp only [step, Chain.lines, List.cons_append, List.nil_append, hm, if_true, skipLine, if_neg hlt, hs]
          · rw [Chain.strict] at h; exact h1' h.1
        · refine ⟨E1 ++ E2, .step hstep (h1.trans ?_), fun h _ => ?_⟩
          · simpa only [List.append_assoc] using h2
          · rw [Chain.strict] at h; exact absurd h.2 hend
  | .elif c body ch =>
    rw [Chain.lines, List.cons_append, List.append_assoc] at hc
    by_cases hh : f.handled = true
    · obtain ⟨E1, h1, -⟩ := skip_block body { s with cur := body.lines ++ (ch.lines ++ rest), errs := s.errs ++ [61] }
        (ch.lines ++ rest) rfl hm (by rw [hf]; exact isSkipping_cons hs hl) (by simp only [hf, List.length_cons]; omega)
      obtain ⟨E2, h2, -⟩ := skip_chain ch { s with cur := ch.lines ++ rest, errs := s.errs ++ [61] ++ E1 } f fs rest rfl hf hm hs hl
      refine ⟨[61] ++ E1 ++ E2, .step (by simp only [step, hc, hm, if_true, skipLine, hf, hh]) (h1.trans ?_), fun _ h => ?_⟩
      · simpa only [List.append_assoc] using h2
      · rw [hh] at h; cases h
    · have hh : f.handled = false := by simpa using hh
      obtain ⟨E1, h1, h1'⟩ := skip_block body { s with cur := body.lines ++ (ch.lines ++ rest) }
        (ch.lines ++ rest) rfl hm (by rw [hf]; exact isSkipping_cons hs hl) (by simp only [hf, List.length_cons]; omega)
      obtain ⟨E2, h2, h2'⟩ := skip_chain ch { s with cur := ch.lines ++ rest, errs := s.errs ++ E1 } f fs rest rfl hf hm hs hl
      have hne : s.level ≠ (f :: fs).length := by simp only [List.length_cons]; omega
      refine ⟨E1 ++ E2, .step (s' := { s with cur := body.lines ++ (ch.lines ++ rest) }) ?_ (h1.trans ?_), fun h _ => ?_⟩
      · simp only [step, hc, hm, if_true, skipLine, hf, hh, Bool.false_eq_true, if_false]
        rw [if_pos hne]
        split <;> rfl
      · simpa only [List.append_assoc] using h2
      · rw [Chain.strict] at h
        rw [h1' h.1, h2' h.2 hh]; rfl
end

end
end Verif.Cond

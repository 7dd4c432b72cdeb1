import Verif.Proofs.Cond

/-! Lemmas on conditional compilation: reading the lines of a block keeps what the block means. -/
namespace Verif.Cond

variable {T C σ : Type} {n : Nat}

section
variable {asserts : Bool} {L : Lang T C σ} {files : Fin n → List (Line T C n)}

/-- The state of the lexer between two lines that are not skipped. -/
structure Clean (s : St T C σ n) : Prop where
  mode : s.skipping = false
  level : s.level = s.stack.length
  flags : ∀ f ∈ s.stack, f.skip = false

def St.kept (s : St T C σ n) : Kept T σ n := { env := s.env, seen := s.seen, out := s.out }

/-- What holds after a block, or the end of a section, that started with the stack `base`. -/
structure Post (s s' : St T C σ n) (base : List Flags) (rest : List (Line T C n)) (stop : Bool) : Prop where
  clean : Clean s'
  saved : s'.saved = s.saved
  seen : ∀ f, f ∈ s.seen → f ∈ s'.seen
  go : stop = false → s'.cur = rest ∧ s'.stack = base
  stop : stop = true → s'.cur = [] ∧ ∃ X, s'.stack = X ++ base

/-- A part of the section was kept: the rest of it is passed over. -/
theorem skip_rest (ch : Chain T C n) (s : St T C σ n) (f : Flags) (fs : List Flags) (rest : List (Line T C n)) (hc : s.cur = ch.lines ++ rest)
    (hf : s.stack = f :: fs) (hm : s.skipping = true) (hl : s.level = fs.length + 1) (hk : f.skip = true)
    (hp : f.parse = true ∨ f.handled = true) (hfs : ∀ g ∈ fs, g.skip = false) :
    ∃ E, Steps asserts L files s { s with cur := rest, skipping := false, stack := fs, level := fs.length, errs := s.errs ++ E } ∧
      (ch.strict → f.handled = false → E = []) ∧ (ch = .endif → E = []) := by
  have hsk : isSkipping s.stack s.level = some true := by rw [hf, hl, isSkipping_top, hk]
  have hlen : s.level ≤ s.stack.length := by rw [hf, hl]; exact Nat.le_refl _
  match ch with
  | .endif =>
    rw [Chain.lines, List.cons_append, List.nil_append] at hc
    refine ⟨[], .step ?_ (.refl _), fun _ _ => rfl, fun _ => rfl⟩
    have hlt : fs.length < s.level := by omega
    have hk := isSkipping_clean hfs
    simp only [step, hc, hm, if_true, skipLine, hf, if_pos hlt]
    rw [hk, List.append_nil]
  | .els body ch =>
    rw [Chain.lines, List.cons_append, List.append_assoc] at hc
    by_cases hh : f.handled = true
    · obtain ⟨E1, h1, -⟩ := skip_block (asserts := asserts) (L := L) (files := files) body
        { s with cur := body.lines ++ (ch.lines ++ rest), errs := s.errs ++ [60] } (ch.lines ++ rest) rfl hm hsk hlen
      obtain ⟨E2, h2, -⟩ := skip_rest ch { s with cur := ch.lines ++ rest, errs := s.errs ++ [60] ++ E1 } f fs rest rfl hf hm hl hk hp hfs
      refine ⟨[60] ++ E1 ++ E2, .step (by simp only [step, hc, hm, if_true, skipLine, hf, hh]) (h1.trans ?_), fun _ h => ?_, (fun h => nomatch h)⟩
      · simpa only [List.append_assoc] using h2
      · rw [hh] at h; cases h
    · have hh : f.handled = false := by simpa using hh
      have hp' : f.parse = true := hp.resolve_right (by simp [hh])
      obtain ⟨E1, h1, h1'⟩ := skip_block (asserts := asserts) (L := L) (files := files) body
        { s with cur := body.lines ++ (ch.lines ++ rest) } (ch.lines ++ rest) rfl hm hsk hlen
      obtain ⟨E2, h2, h2', -⟩ := skip_rest ch { s with cur := ch.lines ++ rest, errs := s.errs ++ E1 } f fs rest rfl hf hm hl hk hp hfs
      refine ⟨E1 ++ E2, .step (by simp [step, hc, hm, skipLine, hf, hh, hp']) (h1.trans ?_), fun h _ => ?_, (fun h => nomatch h)⟩
      · simpa only [List.append_assoc] using h2
      · rw [Chain.strict] at h
        rw [h1' h.1, h2' (by rw [h.2]; exact trivial) hh]; rfl
  | .elif c body ch =>
    rw [Chain.lines, List.cons_append, List.append_assoc] at hc
    by_cases hh : f.handled = true
    · obtain ⟨E1, h1, -⟩ := skip_block (asserts := asserts) (L := L) (files := files) body
        { s with cur := body.lines ++ (ch.lines ++ rest), errs := s.errs ++ [61] } (ch.lines ++ rest) rfl hm hsk hlen
      obtain ⟨E2, h2, -⟩ := skip_rest ch { s with cur := ch.lines ++ rest, errs := s.errs ++ [61] ++ E1 } f fs rest rfl hf hm hl hk hp hfs
      refine ⟨[61] ++ E1 ++ E2, .step (by simp only [step, hc, hm, if_true, skipLine, hf, hh]) (h1.trans ?_), fun _ h => ?_, (fun h => nomatch h)⟩
      · simpa only [List.append_assoc] using h2
      · rw [hh] at h; cases h
    · have hh : f.handled = false := by simpa using hh
      have hp' : f.parse = true := hp.resolve_right (by simp [hh])
      obtain ⟨E1, h1, h1'⟩ := skip_block (asserts := asserts) (L := L) (files := files) body
        { s with cur := body.lines ++ (ch.lines ++ rest) } (ch.lines ++ rest) rfl hm hsk hlen
      obtain ⟨E2, h2, h2', -⟩ := skip_rest ch { s with cur := ch.lines ++ rest, errs := s.errs ++ E1 } f fs rest rfl hf hm hl hk hp hfs
      refine ⟨E1 ++ E2, .step (by simp [step, hc, hm, skipLine, hf, hh, hp']) (h1.trans ?_), fun h _ => ?_, (fun h => nomatch h)⟩
      · simpa only [List.append_assoc] using h2
      · rw [Chain.strict] at h
        rw [h1' h.1, h2' h.2 hh]; rfl

/-- The part just read was kept: the rest of the section is passed over. -/
theorem parse_rest (ch : Chain T C n) (s : St T C σ n) (f : Flags) (fs : List Flags) (rest : List (Line T C n)) (hc : s.cur = ch.lines ++ rest)
    (hf : s.stack = f :: fs) (hcl : Clean s) (hp : f.parse = true ∨ f.handled = true) :
    ∃ E, Steps asserts L files s { s with cur := rest, stack := fs, level := fs.length, errs := s.errs ++ E } ∧
      (ch.strict → f.handled = false → E = []) ∧ (ch = .endif → E = []) := by
  obtain ⟨hm, hl, hcf⟩ := hcl
  rw [hf, List.length_cons] at hl
  have hfs : ∀ g ∈ fs, g.skip = false := fun g hg => hcf g (by rw [hf]; exact List.mem_cons_of_mem _ hg)
  match ch with
  | .endif =>
    rw [Chain.lines, List.cons_append, List.nil_append] at hc
    refine ⟨[], .step ?_ (.refl _), fun _ _ => rfl, fun _ => rfl⟩
    have hlt : fs.length < s.level := by omega
    simp only [step, hc, hm, Bool.false_eq_true, if_false, parseLine, hf, if_pos hlt, List.append_nil]
  | .els body ch =>
    rw [Chain.lines, List.cons_append, List.append_assoc] at hc
    let g : Flags := { f with skip := true, handled := true }
    let e0 := if f.handled = true then s.errs ++ [60] else s.errs
    have hsk : isSkipping (g :: fs) s.level = some true := by rw [hl, isSkipping_top]
    obtain ⟨E1, h1, h1'⟩ := skip_block (asserts := asserts) (L := L) (files := files) body
        { s with cur := body.lines ++ (ch.lines ++ rest), errs := e0, stack := g :: fs, skipping := true } (ch.lines ++ rest) rfl rfl hsk
        (by rw [hl]; exact Nat.le_refl _)
    obtain ⟨E2, h2, -, h2'⟩ := skip_rest (asserts := asserts) (L := L) (files := files) ch
        { s with cur := ch.lines ++ rest, errs := e0 ++ E1, stack := g :: fs, skipping := true } g fs rest
        rfl rfl rfl hl rfl (.inr rfl) hfs
    have hstep : step asserts L files s =
        .more { s with cur := body.lines ++ (ch.lines ++ rest), errs := e0, stack := g :: fs, skipping := true } := by
      simp only [step, hc, hm, Bool.false_eq_true, if_false, parseLine, hf]
      rfl
    refine ⟨(if f.handled then [60] else []) ++ E1 ++ E2, .step hstep (h1.trans ?_), fun h hh => ?_, (fun h => nomatch h)⟩
    · have : e0 ++ E1 ++ E2 = s.errs ++ ((if f.handled = true then [60] else []) ++ E1 ++ E2) := by
        simp only [e0]; split <;> simp
      rw [← this]

      simpa only [hm] using h2
    · rw [Chain.strict] at h
      rw [h1' h.1, h2' h.2, hh]; rfl
  | .elif c body ch =>
    rw [Chain.lines, List.cons_append, List.append_assoc] at hc
    let g : Flags := { f with skip := true }
    let e0 := if f.handled = true then s.errs ++ [61] else s.errs
    have hsk : isSkipping (g :: fs) s.level = some true := by rw [hl, isSkipping_top]
    obtain ⟨E1, h1, h1'⟩ := skip_block (asserts := asserts) (L := L) (files := files) body
        { s with cur := body.lines ++ (ch.lines ++ rest), errs := e0, stack := g :: fs, skipping := true } (ch.lines ++ rest) rfl rfl hsk
        (by rw [hl]; exact Nat.le_refl _)
    obtain ⟨E2, h2, h2', -⟩ := skip_rest (asserts := asserts) (L := L) (files := files) ch
        { s with cur := ch.lines ++ rest, errs := e0 ++ E1, stack := g :: fs, skipping := true } g fs rest
        rfl rfl rfl hl rfl hp hfs
    have hstep : step asserts L files s =
        .more { s with cur := body.lines ++ (ch.lines ++ rest), errs := e0, stack := g :: fs, skipping := true } := by
      simp only [step, hc, hm, Bool.false_eq_true, if_false, parseLine, hf]
      rfl
    refine ⟨(if f.handled then [61] else []) ++ E1 ++ E2, .step hstep (h1.trans ?_), fun h hh => ?_, (fun h => nomatch h)⟩
    · have : e0 ++ E1 ++ E2 = s.errs ++ ((if f.handled = true then [61] else []) ++ E1 ++ E2) := by
        simp only [e0]; split <;> simp
      rw [← this]
      simpa only [hm] using h2
    · rw [Chain.strict] at h
      rw [h1' h.1, h2' h.2 hh, hh]; rfl

variable {blocks : Fin n → Block T C n}

/-- Reading `b`, with files nested at most `d` deep, from a state between two lines. -/
def SimB (asserts : Bool) (L : Lang T C σ) (blocks : Fin n → Block T C n) (d : Nat) (b : Block T C n) : Prop :=
  ∀ (s : St T C σ n) (rest : List (Line T C n)), s.cur = b.lines ++ rest → Clean s → unread s.seen ≤ d →
    ∃ s' stop E, Steps asserts L (fun f => (blocks f).lines) s s' ∧ Post s s' s.stack rest stop ∧ s'.errs = s.errs ++ E ∧
      (b.strict → (∀ f, (blocks f).strict) → E = []) ∧
      (E = [] → b.keep L (keepFile L blocks d) s.kept = (s'.kept, stop))

/-- Looking for the part of a section to keep. -/
def SimC (asserts : Bool) (L : Lang T C σ) (blocks : Fin n → Block T C n) (d : Nat) (ch : Chain T C n) : Prop :=
  ∀ (s : St T C σ n) (fs : List Flags) (rest : List (Line T C n)), s.cur = ch.lines ++ rest → s.stack = { skip := true } :: fs →
    s.skipping = true → s.level = fs.length + 1 → (∀ g ∈ fs, g.skip = false) → unread s.seen ≤ d →
    ∃ s' stop E, Steps asserts L (fun f => (blocks f).lines) s s' ∧ Post s s' fs rest stop ∧ s'.errs = s.errs ++ E ∧
      (ch.strict → (∀ f, (blocks f).strict) → E = []) ∧
      (E = [] → ch.keep L (keepFile L blocks d) s.kept = (s'.kept, stop))

/-- Reading an included file for the first time. -/
def SimI (asserts : Bool) (L : Lang T C σ) (blocks : Fin n → Block T C n) (d : Nat) : Prop :=
  ∀ (f : Fin n) (s : St T C σ n) (rest : List (Line T C n)), s.cur = .incl f :: rest → Clean s → unread s.seen ≤ d → f ∉ s.seen →
    ∃ s' E, Steps asserts L (fun f => (blocks f).lines) s s' ∧ Post s s' s.stack rest false ∧ s'.errs = s.errs ++ E ∧
      ((∀ f, (blocks f).strict) → E = []) ∧
      (E = [] → keepFile L blocks d f { s.kept with seen := f :: s.seen } = s'.kept)

/-- A part that is kept, and the rest of its section. -/
theorem sim_part {d : Nat} {b : Block T C n} (hb : SimB asserts L blocks d b) (ch : Chain T C n) (s : St T C σ n) (f : Flags) (fs : List Flags)
    (rest : List (Line T C n)) (hc : s.cur = b.lines ++ (ch.lines ++ rest)) (hf : s.stack = f :: fs) (hcl : Clean s)
    (hp : f.parse = true ∨ f.handled = true) (hu : unread s.seen ≤ d) :
    ∃ s' stop E, Steps asserts L (fun f => (blocks f).lines) s s' ∧ Post s s' fs rest stop ∧ s'.errs = s.errs ++ E ∧
      (b.strict → ch.strict → (f.handled = false ∨ ch = .endif) → (∀ f, (blocks f).strict) → E = []) ∧
      (E = [] → b.keep L (keepFile L blocks d) s.kept = (s'.kept, stop)) := by
  obtain ⟨s1, stop, E1, h1, p1, e1, st1, k1⟩ := hb s _ hc hcl hu
  cases stop with
  | true =>
    obtain ⟨hcur, X, hX⟩ := p1.stop rfl
    refine ⟨s1, true, E1, h1, ⟨p1.clean, p1.saved, p1.seen, (fun h => nomatch h), fun _ => ⟨hcur, X ++ [f], by rw [hX, hf]; simp⟩⟩, e1,
      fun a _ _ d => st1 a d, k1⟩
  | false =>
    obtain ⟨hcur, hst⟩ := p1.go rfl
    rw [hf] at hst
    obtain ⟨E2, h2, x2, y2⟩ := parse_rest (asserts := asserts) (L := L) (files := fun f => (blocks f).lines) ch s1 f fs rest hcur hst p1.clean hp
    refine ⟨_, false, E1 ++ E2, h1.trans h2, ⟨⟨p1.clean.mode, rfl, fun g hg => p1.clean.flags g (by rw [hst]; exact List.mem_cons_of_mem _ hg)⟩,
      p1.saved, p1.seen, fun _ => ⟨rfl, rfl⟩, (fun h => nomatch h)⟩, by simp only [e1, List.append_assoc], ?_, ?_⟩
    · intro a b' c d
      rw [st1 a d]
      rcases c with c | c
      · rw [x2 b' c]; rfl
      · rw [y2 c]; rfl
    · intro h
      exact k1 (List.append_eq_nil_iff.1 h).1

mutual
theorem sim_block {d : Nat} (hI : SimI asserts L blocks d) (b : Block T C n) : SimB asserts L blocks d b := by
  intro s rest hc hcl hu
  match b with
  | .nil =>
    exact ⟨s, false, [], .refl _, ⟨hcl, rfl, fun _ h => h, fun _ => ⟨hc, rfl⟩, (fun h => nomatch h)⟩, (List.append_nil _).symm,
      fun _ _ => rfl, fun _ => rfl⟩
  | .text t b =>
    rw [Block.lines, List.cons_append] at hc
    obtain ⟨s', stop, E, h, p, e, st, k⟩ := sim_block hI b
      { s with cur := b.lines ++ rest, env := L.step s.env t, out := s.out ++ [t] } rest rfl ⟨hcl.mode, hcl.level, hcl.flags⟩ hu
    refine ⟨s', stop, E, .step (by simp only [step, hc, hcl.mode, Bool.false_eq_true, if_false, parseLine]) h, ⟨p.clean, p.saved, p.seen, p.go, p.stop⟩, e, st, k⟩
  | .endinput b =>
    rw [Block.lines, List.cons_append] at hc
    refine ⟨{ s with cur := [] }, true, [], .step (by simp only [step, hc, hcl.mode, Bool.false_eq_true, if_false, parseLine]) (.refl _),
      ⟨⟨hcl.mode, hcl.level, hcl.flags⟩, rfl, fun _ h => h, (fun h => nomatch h), fun _ => ⟨rfl, [], rfl⟩⟩, (List.append_nil _).symm,
      fun _ _ => rfl, fun _ => rfl⟩
  | .incl f b =>
    rw [Block.lines, List.cons_append] at hc
    by_cases hs : f ∈ s.seen
    · obtain ⟨s', stop, E, h, p, e, st, k⟩ := sim_block hI b { s with cur := b.lines ++ rest } rest rfl ⟨hcl.mode, hcl.level, hcl.flags⟩ hu
      refine ⟨s', stop, E, .step (by simp only [step, hc, hcl.mode, Bool.false_eq_true, if_false, parseLine, if_pos hs]) h,
        ⟨p.clean, p.saved, p.seen, p.go, p.stop⟩, e, st, fun hE => ?_⟩
      rw [Block.keep, if_pos (show f ∈ s.kept.seen from hs)]
      exact k hE
    · obtain ⟨s1, E1, h1, p1, e1, st1, k1⟩ := hI f s _ hc hcl hu hs
      obtain ⟨g1, g2⟩ := p1.go rfl
      obtain ⟨s', stop, E, h, p, e, st, k⟩ := sim_block hI b s1 rest g1 p1.clean (Nat.le_trans (unread_mono p1.seen) hu)
      rw [g2] at p
      refine ⟨s', stop, E1 ++ E, h1.trans h, ⟨p.clean, p.saved.trans p1.saved, fun x hx => p.seen x (p1.seen x hx), p.go, p.stop⟩,
        by rw [e, e1, List.append_assoc], fun a b' => by rw [st1 b', st a b']; rfl, fun hE => ?_⟩
      rw [Block.keep, if_neg (show f ∉ s.kept.seen from hs)]
      obtain ⟨hE1, hE2⟩ := List.append_eq_nil_iff.1 hE
      rw [show keepFile L blocks d f { env := s.kept.env, seen := f :: s.kept.seen, out := s.kept.out } = s1.kept from k1 hE1]
      exact k hE2
  | .cond c body ch b =>
    rw [Block.lines, List.cons_append, List.append_assoc, List.append_assoc] at hc
    -- the section itself
    have hsec : ∃ s' stop E, Steps asserts L (fun f => (blocks f).lines) s s' ∧ Post s s' s.stack (b.lines ++ rest) stop ∧
        s'.errs = s.errs ++ E ∧ (body.strict → ch.strict → (∀ f, (blocks f).strict) → E = []) ∧
        (E = [] → (if L.eval s.kept.env c then body.keep L (keepFile L blocks d) s.kept else ch.keep L (keepFile L blocks d) s.kept)
          = (s'.kept, stop)) := by
      have hlv : isSkipping ({ skip := !L.eval s.env c, parse := L.eval s.env c } :: s.stack) (s.stack.length + 1) = some (!L.eval s.env c) :=
        isSkipping_top
      by_cases hv : L.eval s.env c = true
      · obtain ⟨s', stop, E, h, p, e, st, k⟩ := sim_part (sim_block hI body) ch
          { s with cur := body.lines ++ (ch.lines ++ (b.lines ++ rest)), stack := { parse := true } :: s.stack, level := s.stack.length + 1 }
          { parse := true } s.stack (b.lines ++ rest) rfl rfl ⟨hcl.mode, rfl, fun g hg => by
            rcases List.mem_cons.1 hg with e | e
            · rw [e]
            · exact hcl.flags g e⟩ (.inl rfl) hu
        refine ⟨s', stop, E, .step ?_ h, ⟨p.clean, p.saved, p.seen, p.go, p.stop⟩, e, fun a b' f => st a b' (.inl rfl) f, fun hE => ?_⟩
        · simp only [step, hc, hcl.mode, Bool.false_eq_true, if_false, parseLine]
          rw [hlv]
          simp [hv]
        · rw [if_pos (show L.eval s.kept.env c = true from hv)]
          exact k hE
      · have hv : L.eval s.env c = false := by simpa using hv
        obtain ⟨s', stop, E, h, p, e, st, k⟩ := sim_block_skip hI body ch
          { s with cur := body.lines ++ (ch.lines ++ (b.lines ++ rest)), stack := { skip := true } :: s.stack, level := s.stack.length + 1, skipping := true }
          s.stack (b.lines ++ rest) rfl rfl rfl rfl hcl.flags hu
        refine ⟨s', stop, E, .step ?_ h, ⟨p.clean, p.saved, p.seen, p.go, p.stop⟩, e, st, fun hE => ?_⟩
        · simp only [step, hc, hcl.mode, Bool.false_eq_true, if_false, parseLine]
          rw [hlv]
          simp [hv]
        · rw [if_neg (by rw [show L.eval s.kept.env c = false from hv]; exact Bool.false_ne_true)]
          exact k hE
    obtain ⟨s1, stop, E1, h1, p1, e1, st1, k1⟩ := hsec
    cases stop with
    | true =>
      refine ⟨s1, true, E1, h1, ⟨p1.clean, p1.saved, p1.seen, (fun h => nomatch h), p1.stop⟩, e1, fun a f => ?_, fun hE => ?_⟩
      · rw [Block.strict] at a; exact st1 a.1 a.2.1 f
      · rw [Block.keep, k1 hE]
    | false =>
      obtain ⟨g1, g2⟩ := p1.go rfl
      obtain ⟨s', stop, E, h, p, e, st, k⟩ := sim_block hI b s1 rest g1 p1.clean (Nat.le_trans (unread_mono p1.seen) hu)
      rw [g2] at p
      refine ⟨s', stop, E1 ++ E, h1.trans h, ⟨p.clean, p.saved.trans p1.saved, fun x hx => p.seen x (p1.seen x hx), p.go, p.stop⟩,
        by rw [e, e1, List.append_assoc], fun a f => ?_, fun hE => ?_⟩
      · rw [Block.strict] at a; rw [st1 a.1 a.2.1 f, st a.2.2 f]; rfl
      · obtain ⟨hE1, hE2⟩ := List.append_eq_nil_iff.1 hE
        rw [Block.keep, k1 hE1]; exact k hE2

theorem sim_block_skip {d : Nat} (hI : SimI asserts L blocks d) (body : Block T C n) (ch : Chain T C n) (s : St T C σ n) (fs : List Flags)
    (rest : List (Line T C n)) (hc : s.cur = body.lines ++ (ch.lines ++ rest)) (hf : s.stack = { skip := true } :: fs)
    (hm : s.skipping = true) (hl : s.level = fs.length + 1) (hfs : ∀ g ∈ fs, g.skip = false) (hu : unread s.seen ≤ d) :
    ∃ s' stop E, Steps asserts L (fun f => (blocks f).lines) s s' ∧ Post s s' fs rest stop ∧ s'.errs = s.errs ++ E ∧
      (body.strict → ch.strict → (∀ f, (blocks f).strict) → E = []) ∧
      (E = [] → ch.keep L (keepFile L blocks d) s.kept = (s'.kept, stop)) := by
  obtain ⟨E1, h1, h1'⟩ := skip_block (asserts := asserts) (L := L) (files := fun f => (blocks f).lines) body s (ch.lines ++ rest) hc hm
    (by rw [hf, hl, isSkipping_top]) (by rw [hf, hl]; exact Nat.le_refl _)
  obtain ⟨s', stop, E, h, p, e, st, k⟩ := sim_chain hI ch { s with cur := ch.lines ++ rest, errs := s.errs ++ E1 } fs rest rfl hf hm hl hfs hu
  exact ⟨s', stop, E1 ++ E, h1.trans h, ⟨p.clean, p.saved, p.seen, p.go, p.stop⟩, by rw [e, List.append_assoc],
    fun a b f => by rw [h1' a, st b f]; rfl, fun hE => k (List.append_eq_nil_iff.1 hE).2⟩

theorem sim_chain {d : Nat} (hI : SimI asserts L blocks d) (ch : Chain T C n) : SimC asserts L blocks d ch := by
  intro s fs rest hc hf hm hl hfs hu
  match ch with
  | .endif =>
    rw [Chain.lines, List.cons_append, List.nil_append] at hc
    refine ⟨{ s with cur := rest, stack := fs, level := fs.length, skipping := false }, false, [], .step ?_ (.refl _),
      ⟨⟨rfl, rfl, hfs⟩, rfl, fun _ h => h, fun _ => ⟨rfl, rfl⟩, (fun h => nomatch h)⟩, (List.append_nil _).symm, fun _ _ => rfl, fun _ => rfl⟩
    have hlt : fs.length < s.level := by omega
    have hk := isSkipping_clean hfs
    simp only [step, hc, hm, if_true, skipLine, hf, if_pos hlt]
    rw [hk]
  | .els body ch =>
    rw [Chain.lines, List.cons_append, List.append_assoc] at hc
    obtain ⟨s', stop, E, h, p, e, st, k⟩ := sim_part (sim_block hI body) ch
      { s with cur := body.lines ++ (ch.lines ++ rest), stack := { handled := true } :: fs, skipping := false }
      { handled := true } fs rest rfl rfl ⟨rfl, hl, fun g hg => by
        rcases List.mem_cons.1 hg with e | e
        · rw [e]
        · exact hfs g e⟩ (.inr rfl) hu
    refine ⟨s', stop, E, .step ?_ h, ⟨p.clean, p.saved, p.seen, p.go, p.stop⟩, e, fun a f => ?_, k⟩
    · have : isSkipping ({ handled := true } :: fs) s.level = some false := by rw [hl, isSkipping_top]
      simp only [step, hc, hm, if_true, skipLine, hf, Bool.false_eq_true, if_false, Bool.not_false]
      rw [this]
    · rw [Chain.strict] at a
      exact st a.1 (by rw [a.2]; exact trivial) (.inr a.2) f
  | .elif c body ch =>
    rw [Chain.lines, List.cons_append, List.append_assoc] at hc
    have hne : ¬ (s.level ≠ (({ skip := true } : Flags) :: fs).length) := by simp only [List.length_cons]; omega
    have hlv : ∀ p, isSkipping ({ skip := !L.eval s.env c, parse := p } :: fs) s.level = some (!L.eval s.env c) := by
      intro p; rw [hl, isSkipping_top]
    by_cases hv : L.eval s.env c = true
    · obtain ⟨s', stop, E, h, p, e, st, k⟩ := sim_part (sim_block hI body) ch
        { s with cur := body.lines ++ (ch.lines ++ rest), stack := { parse := true } :: fs, skipping := false }
        { parse := true } fs rest rfl rfl ⟨rfl, hl, fun g hg => by
          rcases List.mem_cons.1 hg with e | e
          · rw [e]
          · exact hfs g e⟩ (.inl rfl) hu
      refine ⟨s', stop, E, .step ?_ h, ⟨p.clean, p.saved, p.seen, p.go, p.stop⟩, e, fun a f => ?_, fun hE => ?_⟩
      · simp only [step, hc, hm, if_true, skipLine, hf, Bool.false_eq_true, if_false, Bool.not_false]
        rw [if_neg hne, hlv]
        simp [hv]
      · rw [Chain.strict] at a; exact st a.1 a.2 (.inl rfl) f
      · rw [Chain.keep, if_pos (show L.eval s.kept.env c = true from hv)]; exact k hE
    · have hv : L.eval s.env c = false := by simpa using hv
      obtain ⟨s', stop, E, h, p, e, st, k⟩ := sim_block_skip hI body ch { s with cur := body.lines ++ (ch.lines ++ rest) } fs rest rfl hf hm hl hfs hu
      refine ⟨s', stop, E, .step ?_ h, ⟨p.clean, p.saved, p.seen, p.go, p.stop⟩, e, fun a f => ?_, fun hE => ?_⟩
      · simp only [step, hc, hm, if_true, skipLine, hf, Bool.false_eq_true, if_false, Bool.not_false]
        rw [if_neg hne, hlv]
        simp [hv]
      · rw [Chain.strict] at a; exact st a.1 a.2 f
      · rw [Chain.keep, if_neg (by rw [show L.eval s.kept.env c = false from hv]; exact Bool.false_ne_true)]
        exact k hE
end

theorem sim_incl : ∀ d, SimI asserts L blocks d
  | 0 => by
    intro f s rest _ _ hu hn
    have := unread_cons hn
    omega
  | d + 1 => by
    intro f s rest hc hcl hu hn
    have hun := unread_cons hn
    obtain ⟨s1, stop, E, h, p, e, st, k⟩ := sim_block (sim_incl d) (blocks f)
      { s with saved := (rest, s.stack.length) :: s.saved, cur := (blocks f).lines, seen := f :: s.seen } []
      (List.append_nil _).symm ⟨hcl.mode, hcl.level, hcl.flags⟩ (by show unread (f :: s.seen) ≤ d; omega)
    have hsk := isSkipping_clean hcl.flags
    have hstep : step asserts L (fun f => (blocks f).lines) s =
        .more { s with saved := (rest, s.stack.length) :: s.saved, cur := (blocks f).lines, seen := f :: s.seen } := by
      simp only [step, hc, hcl.mode, Bool.false_eq_true, if_false, parseLine, if_neg hn, hcl.level]
      rw [hsk]
      simp
    have hend : s1.cur = [] ∧ s1.stack.drop (s1.stack.length - s.stack.length) = s.stack := by
      cases stop with
      | true =>
        obtain ⟨a, X, hX⟩ := p.stop rfl
        refine ⟨a, ?_⟩
        rw [hX, List.length_append, Nat.add_sub_cancel]
        exact List.drop_left
      | false =>
        obtain ⟨a, b⟩ := p.go rfl
        refine ⟨a, ?_⟩
        rw [b, Nat.sub_self]; rfl
    obtain ⟨hcur, hdrop⟩ := hend
    have hsv : s1.saved = (rest, s.stack.length) :: s.saved := p.saved
    refine ⟨{ s1 with cur := rest, saved := s.saved, stack := s.stack, level := s.stack.length }, E,
      .step hstep (h.trans (.step ?_ (.refl _))), ⟨⟨p.clean.mode, rfl, hcl.flags⟩, rfl, fun x hx => p.seen x (List.mem_cons_of_mem _ hx),
        fun _ => ⟨rfl, rfl⟩, (fun h => nomatch h)⟩, e, fun hs => st (hs f) hs, fun hE => ?_⟩
    · simp only [step, hcur, p.clean.mode, Bool.false_eq_true, if_false, handleEof, hsv, hdrop]
      rw [hsk]
      simp
    · rw [keepFile]
      have := k hE
      rw [show St.kept { s with saved := (rest, s.stack.length) :: s.saved, cur := (blocks f).lines, seen := f :: s.seen } =
        { s.kept with seen := f :: s.seen } from rfl] at this
      rw [this]
      rfl

end
end Verif.Cond

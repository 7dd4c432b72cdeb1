import Verif.Proofs.CondEnd

/-!
C63: conditional compilation keeps exactly the text whose conditions hold.
-/
namespace Verif.Cond

variable {T C σ : Type} {n : Nat}

/-- The end of the main file. -/
theorem run_eof {asserts : Bool} {L : Lang T C σ} {files : Fin n → List (Line T C n)} {s : St T C σ n} (hc : s.cur = []) (hs : s.saved = [])
    (hk : s.skipping = false) :
    run asserts L files 1 s = some (.done { s with errs := if s.stack.isEmpty then s.errs else s.errs ++ [1] }) := by
  simp only [run, step, handleEof]
  rw [hc, hs]
  simp only [hk, Bool.false_eq_true, if_false]

theorem keepFile_pos {L : Lang T C σ} {blocks : Fin n → Block T C n} {f : Fin n} {k : Kept T σ n} : ∀ d, 0 < d →
    keepFile L blocks d f k = ((blocks f).keep L (keepFile L blocks (d - 1)) k).1
  | _ + 1, _ => rfl

/-- **C63 (kept).**  For every set of files whose sections are well formed, however they nest and include one another, with or without
assertions: the parser is given exactly the text that conditional compilation keeps, in order, with the same definitions and the same
files read.  Nothing is reported, but for an `#endinput` that ends the main file inside a section. -/
theorem C63_keeps_what_holds (asserts : Bool) (L : Lang T C σ) (blocks : Fin n → Block T C n) (main : Fin n) (env : σ)
    (hst : ∀ f, (blocks f).strict) :
    ∃ s : St T C σ n, (∃ m, run asserts L (fun f => (blocks f).lines) m (start (fun f => (blocks f).lines) main env) = some (.done s)) ∧
      ({ env := s.env, seen := s.seen, out := s.out } : Kept T σ n) = keepMain L blocks main env ∧
      (s.errs = [] ∨ s.errs = [1] ∧ ((blocks main).keep L (keepFile L blocks (n - 1)) { env := env, seen := [main], out := [] }).2 = true) := by
  have hn : unread [main] ≤ n - 1 := by
    have h1 := unread_cons (a := []) (f := main) (by simp)
    have h2 := unread_le (n := n) []
    omega
  have hn0 : n = n - 1 + 1 := by have := main.2; omega
  obtain ⟨s', stop, E, h, p, e, st, k⟩ := sim_block (asserts := asserts) (L := L) (sim_incl (blocks := blocks) (n - 1)) (blocks main)
    (start (fun f => (blocks f).lines) main env) [] (List.append_nil _).symm ⟨rfl, rfl, by intro f hf; cases hf⟩ hn
  have hE := st (hst main) hst
  have hk := k hE
  have hcur : s'.cur = [] := by cases stop; exact (p.go rfl).1; exact (p.stop rfl).1
  refine ⟨{ s' with errs := if s'.stack.isEmpty then s'.errs else s'.errs ++ [1] }, h.run ⟨1, run_eof hcur p.saved p.clean.mode⟩, ?_, ?_⟩
  · show s'.kept = _
    unfold keepMain
    rw [keepFile_pos _ (by omega)]
    exact (congrArg Prod.fst hk).symm
  · have he : s'.errs = [] := by rw [e, hE]; rfl
    cases stop with
    | false =>
      left
      simp only [he, (p.go rfl).2]
      rfl
    | true =>
      cases hs : s'.stack with
      | nil => left; simp [he]
      | cons f fs => right; exact ⟨by simp [he], congrArg Prod.snd hk⟩

/-- **C63 (one answer).**  However long it is let run, the lexer gives no other answer. -/
theorem C63_one_answer (asserts : Bool) (L : Lang T C σ) (files : Fin n → List (Line T C n)) (s : St T C σ n) (m m' : Nat) (r r')
    (h : run asserts L files m s = some r) (h' : run asserts L files m' s = some r') : r = r' := run_unique h h'

/-- **C63 (ends).**  Reading ends for any lines whatever, matched or not, and any includes, circular or not. -/
theorem C63_ends (asserts : Bool) (L : Lang T C σ) (files : Fin n → List (Line T C n)) (main : Fin n) (env : σ) :
    ∃ m r, run asserts L files m (start files main env) = some r := run_ends _

/-- **C63 (mismatches).**  When nothing is reported for a main file without `#endinput`, whatever its lines, its directives match, and the
parser is given what conditional compilation keeps.  The files it includes match their directives, and may repeat `#else`. -/
theorem C63_mismatch_reported (asserts : Bool) (L : Lang T C σ) (files : Fin n → List (Line T C n)) (main : Fin n) (env : σ)
    (hf : ∀ f, f ≠ main → ∃ b : Block T C n, files f = b.lines) (he : Line.endinput ∉ files main) (m : Nat) (s : St T C σ n)
    (h : run asserts L files m (start files main env) = some (.done s)) (hs : s.errs = []) :
    ∃ blocks : Fin n → Block T C n, (∀ f, files f = (blocks f).lines) ∧
      ({ env := s.env, seen := s.seen, out := s.out } : Kept T σ n) = keepMain L blocks main env := by
  have hb : ∃ blocks : Fin n → Block T C n, ∀ f, f ≠ main → files f = (blocks f).lines :=
    ⟨fun f => if h : f = main then .nil else (hf f h).choose, fun f hm => by simp only [dif_neg hm]; exact (hf f hm).choose_spec⟩
  obtain ⟨blocks, hb⟩ := hb
  obtain ⟨s', ⟨m', hr⟩, E, e, hbal⟩ := run_main (asserts := asserts) (L := L) (files := files) hb (files main) (start files main env) rfl rfl
    (.inl ⟨rfl, rfl, by intro f hf; cases hf⟩) List.mem_cons_self he
  have : s' = s := by have := run_unique hr h; cases this; rfl
  subst this
  have hE : E = [] := by rw [hs] at e; exact (List.append_eq_nil_iff.1 e.symm).2
  obtain ⟨b, hbm⟩ := (balanced_block _ _ (hbal hE)).1 rfl
  let blocks' : Fin n → Block T C n := fun f => if f = main then b else blocks f
  have hall : ∀ f, files f = (blocks' f).lines := by
    intro f
    by_cases hm : f = main
    · subst hm; simp only [blocks', if_true]; exact hbm
    · simp only [blocks', if_neg hm, hb f hm]
  have hfe : files = fun f => (blocks' f).lines := funext hall
  refine ⟨blocks', hall, ?_⟩
  have hn : unread [main] ≤ n - 1 := by
    have h1 := unread_cons (a := []) (f := main) (by simp)
    have h2 := unread_le (n := n) []
    omega
  have hn0 : n = n - 1 + 1 := by have := main.2; omega
  obtain ⟨s1, stop, E1, h1, p, e1, -, k⟩ := sim_block (asserts := asserts) (L := L) (sim_incl (blocks := blocks') (n - 1)) (blocks' main)
    (start files main env) [] (by rw [List.append_nil]; exact hall main) ⟨rfl, rfl, by intro f hf; cases hf⟩ hn
  have hcur : s1.cur = [] := by cases stop; exact (p.go rfl).1; exact (p.stop rfl).1
  have hrun := h1.run ⟨1, run_eof hcur p.saved p.clean.mode⟩
  obtain ⟨m2, hr2⟩ := hrun
  rw [← hfe] at hr2
  have hs1 := run_unique hr2 h
  injection hs1 with hs1
  have hE1 : E1 = [] := by
    have : s'.errs = if s1.stack.isEmpty then s1.errs else s1.errs ++ [1] := by rw [← hs1]
    rw [hs] at this
    split at this
    · rw [e1] at this; exact (List.append_eq_nil_iff.1 this.symm).2
    · exact absurd (List.append_eq_nil_iff.1 this.symm).2 (by simp)
  have hk := k hE1
  rw [← hs1]
  show s1.kept = _
  unfold keepMain
  rw [keepFile_pos _ (by omega)]
  exact (congrArg Prod.fst hk).symm

/-! ### A program -/

/-- Text: `#define k`, or a declaration.  A condition: `defined k`. -/
inductive Demo where
  | define (k : Nat)
  | decl (name : String)
deriving DecidableEq

def demo : Lang Demo Nat (List Nat) where
  eval env k := decide (k ∈ env)
  step
    | env, .define k => k :: env
    | env, .decl _ => env

/-- A header with a guard, that includes the main file again; `7` says that it was read. -/
def header : Block Demo Nat 2 :=
  .cond 7 (.endinput .nil) .endif (.text (.define 7) (.incl 0 (.cond 3 (.text (.decl "three") .nil)
    (.elif 4 (.text (.decl "four") .nil) (.els (.text (.decl "neither") .nil) .endif)) .nil)))

/-- `#define 4`, the header twice, and sections in sections. -/
def program : Block Demo Nat 2 :=
  .text (.define 4) (.incl 1 (.incl 1 (.cond 9
    (.cond 4 (.text (.decl "a") .nil) (.els (.text (.decl "b") .nil) .endif) .nil)
    (.elif 7 (.cond 9 (.text (.decl "c") .nil) (.elif 4 (.text (.decl "d") .nil) (.els (.text (.decl "e") .nil) .endif)) (.text (.decl "f") .nil))
      (.elif 4 (.text (.decl "g") .nil) (.els (.text (.decl "h") .nil) .endif)))
    (.text (.decl "i") .nil))))

def demoFiles : Fin 2 → Block Demo Nat 2
  | 0 => program
  | 1 => header

/-- The files meet the hypotheses, and what is kept is what a reader would expect. -/
example : (∀ f, (demoFiles f).strict) ∧
    (keepMain demo demoFiles 0 []).out = [.define 4, .define 7, .decl "four", .decl "d", .decl "f", .decl "i"] := by
  refine ⟨fun f => ?_, by decide +kernel⟩
  match f with
  | 0 => simp [demoFiles, program, Block.strict, Chain.strict]
  | 1 => simp [demoFiles, header, Block.strict, Chain.strict]

/-- What a run of the lexer gave the parser, and what it reported. -/
def told : Option (Next T C σ n) → Option (List T × List Nat)
  | some (.done s) => some (s.out, s.errs)
  | _ => none

example : told (run true demo (fun f => (demoFiles f).lines) 100 (start (fun f => (demoFiles f).lines) 0 [])) =
    some ([.define 4, .define 7, .decl "four", .decl "d", .decl "f", .decl "i"], []) := by decide +kernel

/-- A stray `#else`, a stray `#endif` and a missing `#endif` are reported. -/
example : told (run true demo (n := 1) (fun _ => [.delse, .text (.decl "a")]) 9 (start (fun _ => [.delse, .text (.decl "a")]) 0 [])) =
      some ([.decl "a"], [26]) ∧
    told (run true demo (n := 1) (fun _ => [.dif 3, .dendif, .dendif]) 9 (start (fun _ => [.dif 3, .dendif, .dendif]) 0 [])) = some ([], [26]) ∧
    told (run true demo (n := 1) (fun _ => [.dif 3, .dif 4, .dendif]) 9 (start (fun _ => [.dif 3, .dif 4, .dendif]) 0 [])) = some ([], [1]) := by
  decide +kernel

/-- An `#endinput` that ends the main file inside a section is reported as a missing `#endif`. -/
theorem C63_endinput_in_main :
    told (run true demo (n := 1) (fun _ => [.text (.define 3), .dif 3, .endinput, .dendif]) 9
      (start (fun _ => [.text (.define 3), .dif 3, .endinput, .dendif]) 0 [])) = some ([.define 3], [1]) := by decide +kernel

/-! ### Mismatches that are not reported -/

/-- Once a part was kept and an `#elseif` ended it, a second `#else`, and an `#elseif` after it, are not reported. -/
theorem C63_second_else_accepted :
    told (run true demo (n := 1) (fun _ => [.text (.define 3), .dif 3, .delseif 4, .delse, .delse, .delseif 5, .dendif]) 20
      (start (fun _ => [.text (.define 3), .dif 3, .delseif 4, .delse, .delse, .delseif 5, .dendif]) 0 [])) = some ([.define 3], []) := by
  decide +kernel

/-- The same directives are reported when no `#elseif` came first. -/
theorem C63_second_else_reported :
    told (run true demo (n := 1) (fun _ => [.text (.define 3), .dif 3, .delse, .delse, .delseif 5, .dendif]) 20
      (start (fun _ => [.text (.define 3), .dif 3, .delse, .delse, .delseif 5, .dendif]) 0 [])) = some ([.define 3], [60, 61]) := by
  decide +kernel

def openHeader : Fin 2 → List (Line Demo Nat 2)
  | 0 => [.incl 1, .text (.decl "a")]
  | 1 => [.dif 3, .text (.decl "b")]

/-- A missing `#endif` in an included file is not reported. -/
theorem C63_unclosed_header_accepted :
    told (run true demo openHeader 20 (start openHeader 0 [])) = some ([.decl "a"], []) := by decide +kernel

def closingHeader : Fin 2 → List (Line Demo Nat 2)
  | 0 => [.text (.define 3), .dif 3, .dif 3, .incl 1, .text (.decl "a"), .dendif]
  | 1 => [.dendif]

/-- A stray `#endif` in an included file fails an assertion.  Without assertions it closes a section of the file that includes it, and
nothing is reported. -/
theorem C63_closing_header :
    run true demo closingHeader 20 (start closingHeader 0 []) = some .crash ∧
    told (run false demo closingHeader 20 (start closingHeader 0 [])) = some ([.define 3, .decl "a"], []) := by
  refine ⟨?_, by decide +kernel⟩
  rfl

def confusedHeader : Fin 2 → List (Line Demo Nat 2)
  | 0 => [.text (.define 3), .dif 3, .dif 3, .incl 1, .delse, .dif 4, .delse, .text (.decl "a"), .dendif, .dendif]
  | 1 => [.dendif]

/-- … after which text inside a part that is not to be kept can be kept. -/
theorem C63_closing_header_keeps :
    told (run false demo confusedHeader 20 (start confusedHeader 0 [])) = some ([.define 3, .decl "a"], []) := by decide +kernel

/-! ### Which lines are directives, in skipped text -/

open Text (Byte isSpace isNewline)

/-- A line without slashes that is not a directive. -/
structure Quiet (l : List Byte) : Prop where
  slash : ∀ c ∈ l, c.toNat ≠ 47
  newline : ∀ c ∈ l, isNewline c = false
  first : ∀ a c b, l = a ++ c :: b → (∀ x ∈ a, isSpace x = true) → isSpace c = false → c.toNat ≠ 35

theorem skip_tail (tokens : Nat) (ht : tokens ≠ 0) (r : List Byte) : ∀ (tokens : Nat), tokens ≠ 0 → ∀ l : List Byte, (∀ c ∈ l, c.toNat ≠ 47) →
    (∀ c ∈ l, isNewline c = false) → skipText tokens (l ++ 10 :: r) = skipText 0 r
  | t, ht, [], _, _ => by rw [List.nil_append, skipText]; rfl
  | t, ht, c :: l, h1, h2 => by
    have hc := h1 c List.mem_cons_self
    rw [List.cons_append, skipText]
    simp only [h2 c List.mem_cons_self, Bool.false_eq_true, if_false, hc, false_and, ht, and_false]
    exact skip_tail tokens ‹_› r _ (by split <;> omega) l (fun x hx => h1 x (List.mem_cons_of_mem _ hx)) (fun x hx => h2 x (List.mem_cons_of_mem _ hx))

theorem skip_line (r : List Byte) : ∀ l : List Byte, Quiet l → skipText 0 (l ++ 10 :: r) = skipText 0 r
  | [], _ => by rw [List.nil_append, skipText]; rfl
  | c :: l, h => by
    have hc := h.slash c List.mem_cons_self
    rw [List.cons_append, skipText]
    simp only [h.newline c List.mem_cons_self, Bool.false_eq_true, if_false, hc, false_and]
    by_cases hs : isSpace c = true
    · have h35 : c.toNat ≠ 35 := by
        intro e; simp only [isSpace, decide_eq_true_eq] at hs; omega
      simp only [h35, false_and, if_false, hs, if_true]
      exact skip_line r l ⟨fun x hx => h.slash x (List.mem_cons_of_mem _ hx), fun x hx => h.newline x (List.mem_cons_of_mem _ hx),
        fun a x b e ha hx => h.first (c :: a) x b (by rw [e]; rfl)
          (by intro y hy; rcases List.mem_cons.1 hy with e | e; rw [e]; exact hs; exact ha y e) hx⟩
    · have hs : isSpace c = false := by simpa using hs
      have h35 : c.toNat ≠ 35 := h.first [] c l rfl (by intro x hx; cases hx) hs
      simp only [h35, false_and, if_false, hs, Bool.false_eq_true]
      exact skip_tail 1 (by decide) r _ (by omega) l (fun x hx => h.slash x (List.mem_cons_of_mem _ hx))
        (fun x hx => h.newline x (List.mem_cons_of_mem _ hx))

theorem skip_blanks (r : List Byte) : ∀ l : List Byte, (∀ c ∈ l, isSpace c = true) → skipText 0 (l ++ 35 :: r) = some (35 :: r)
  | [], _ => by
    rw [List.nil_append, skipText]
    have h1 : isNewline 35 = false := by decide
    have h2 : ¬ ((35 : Byte).toNat = 47) := by decide
    have h3 : (35 : Byte).toNat = 35 := by decide
    rw [if_neg (by rw [h1]; decide), if_neg (fun h => h2 h.1), if_neg (fun h => h2 h.1), if_pos ⟨h3, rfl⟩]
  | c :: l, h => by
    have hs := h c List.mem_cons_self
    have h47 : c.toNat ≠ 47 := by intro e; simp only [isSpace, decide_eq_true_eq] at hs; omega
    have h35 : c.toNat ≠ 35 := by intro e; simp only [isSpace, decide_eq_true_eq] at hs; omega
    rw [List.cons_append, skipText]
    have ih := skip_blanks r l (fun x hx => h x (List.mem_cons_of_mem _ hx))
    split
    · exact ih
    · simp only [h47, h35, false_and, if_false, hs, if_true]; exact ih

/-- **C63 (skipped text).**  In skipped text without slashes, any number of lines that are not directives are passed over, and a `#` with
only blanks before it on its line is a directive. -/
theorem C63_skipped_lines (lines : List (List Byte)) (blanks rest : List Byte) (hl : ∀ l ∈ lines, Quiet l)
    (hb : ∀ c ∈ blanks, isSpace c = true) :
    skipText 0 (lines.flatMap (fun l => l ++ [10]) ++ (blanks ++ 35 :: rest)) = some (35 :: rest) := by
  induction lines with
  | nil => exact skip_blanks rest blanks hb
  | cons l ls ih =>
    simp only [List.flatMap_cons, List.append_assoc, List.cons_append, List.nil_append]
    rw [skip_line _ l (hl l List.mem_cons_self)]
    have := ih (fun x hx => hl x (List.mem_cons_of_mem _ hx))
    simp only [List.flatMap_def] at this ⊢
    exact this

def bytes (s : String) : List Byte := s.toList.map fun c => BitVec.ofNat 8 c.toNat

/-- `x #if` and a line with no `#` are not directives. -/
example : Quiet (bytes "x #if 1") ∧ Quiet (bytes "  don't") ∧
    skipText 0 (bytes "x #if 1\n  don't\n\t#endif\n") = some (bytes "#endif\n") := by
  have q : ∀ l : List Byte, (l.all fun c => c.toNat != 47 && !isNewline c) = true → ((l.dropWhile isSpace).head?.all fun c => c.toNat != 35) = true →
      Quiet l := by
    intro l h1 h2
    rw [List.all_eq_true] at h1
    refine ⟨fun c hc => ?_, fun c hc => ?_, fun a c b e ha hs => ?_⟩
    · have := h1 c hc; simp only [Bool.and_eq_true, bne_iff_ne] at this; exact this.1
    · have := h1 c hc; simp only [Bool.and_eq_true, Bool.not_eq_true'] at this; exact this.2
    · have hd : l.dropWhile isSpace = c :: b := by
        rw [e]
        clear e h1 h2
        induction a with
        | nil => simp [List.dropWhile, hs]
        | cons x a ih => rw [List.cons_append, List.dropWhile_cons, if_pos (ha x List.mem_cons_self)]; exact ih (fun y hy => ha y (List.mem_cons_of_mem _ hy))
      rw [hd] at h2
      simpa using h2
  refine ⟨q _ (by decide +kernel) (by decide +kernel), q _ (by decide +kernel) (by decide +kernel), ?_⟩
  have := C63_skipped_lines [bytes "x #if 1", bytes "  don't"] (bytes "\t") (bytes "endif\n")
    (by
      intro l hl
      simp only [List.mem_cons, List.not_mem_nil, or_false] at hl
      rcases hl with e | e <;> subst e <;> exact q _ (by decide +kernel) (by decide +kernel))
    (by decide +kernel)
  exact this

theorem skip_none (tokens : Nat) (c : Byte) (l : List Byte) (h1 : isNewline c = false) (h2 : c.toNat ≠ 47) (h3 : c.toNat ≠ 35) :
    skipText tokens (c :: l) = skipText (if isSpace c then tokens else tokens + 1) l := by
  rw [skipText]
  simp only [h1, Bool.false_eq_true, if_false, h2, h3, false_and]

/-- In skipped text the start of a comment inside a string starts a comment: here it hides the `#endif`, and the rest of the file with it. -/
theorem C63_comment_in_skipped_string :
    skipText 0 (bytes "p = \"/*\";\n#endif\nint x;\n") = none := by
  have e : bytes "p = \"/*\";\n#endif\nint x;\n" = 112 :: 32 :: 61 :: 32 :: 34 :: 47 :: 42 :: bytes "\";\n#endif\nint x;\n" := by decide +kernel
  rw [e, skip_none _ _ _ (by decide) (by decide) (by decide), skip_none _ _ _ (by decide) (by decide) (by decide),
    skip_none _ _ _ (by decide) (by decide) (by decide), skip_none _ _ _ (by decide) (by decide) (by decide),
    skip_none _ _ _ (by decide) (by decide) (by decide), skipText]
  have h1 : isNewline 47 = false := by decide
  have h2 : (47 : Byte).toNat = 47 := by decide
  have h3 : (Text.peek (42 :: bytes "\";\n#endif\nint x;\n")).toNat = 42 := by decide
  have h4 : blockComment (bytes "\";\n#endif\nint x;\n") = [] := by decide +kernel
  simp only [h1, h2, h3, Bool.false_eq_true, if_false, List.tail_cons, h4]
  rw [if_neg (by decide), if_pos (by decide)]
  rw [skipText]

end Verif.Cond

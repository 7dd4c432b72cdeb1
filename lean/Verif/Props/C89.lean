import Verif.Proofs.FunTableMain
/-! C89: the output of the compiler says the truth about functions. -/
namespace Verif.FunTable
open Verif.Labels (Asm run items)
open Verif.Image (Bytes cstr lookups findCached)
open Verif.Smx (ascii)

/-- C89: for every program the earlier phases accept, and whatever other names are in the file: the code links, and code, tables and names agree (`Right`). -/
theorem C89_functions (fns : List Fn) (more : List Bytes) (g : Gen) (hP : Proper fns) (h : generate fns more = some g)
    (hs : g.pc ≤ 1073741823) : ∃ A w, run .init g.ops = some A ∧ Right fns g A w := by
  rw [pc_eq] at hs
  obtain ⟨A, h1, h2⟩ := right hP h hs
  exact ⟨A, _, h1, h2⟩

/-- C89: the code generator stops only for want of room: 4 GiB of names or half a billion functions. -/
theorem C89_generates (fns : List Fn) (more : List Bytes) (h : generate fns more = none) (hn : fns.length < 536870911)
    (hm : ∀ T s, (s ∈ more ∨ (∃ fn ∈ fns, s = fn.name ∨ (∃ a, s = tableName fn a) ∨ ∃ ps, fn.kind = .body ps ∧ .name s ∈ ps)) →
      Verif.Smx.NameTable.add T s ≠ none) : False := by
  have piece : ∀ g p, (∀ s, p = .name s → ∀ T, Verif.Smx.NameTable.add T s ≠ none) → emitPiece fns g p ≠ none := by
    intro g p hp
    cases p with
    | cell | value => nofun
    | name s =>
      simp only [emitPiece]
      split
      · rename_i hno; exact absurd hno (hp s rfl _)
      · nofun
    | call f n =>
      simp only [emitPiece, emitCall]
      split
      · rename_i name pub live hf
        have hadd : ∀ T, Verif.Smx.NameTable.add T name ≠ none := fun T =>
          hm T name (.inr ⟨_, List.mem_of_getElem? hf, .inl rfl⟩)
        split
        · split
          · rename_i hno
            exfalso
            unfold addNative at hno
            split at hno
            · rename_i h1; exact hadd _ h1
            · split at hno
              · rename_i h1; exact hadd _ h1
              · cases hno
          · nofun
        · nofun
      · nofun
  have pieces : ∀ (qs : List Piece) g, (∀ s, .name s ∈ qs → ∀ T, Verif.Smx.NameTable.add T s ≠ none) → emitPieces fns g qs ≠ none := by
    intro qs
    induction qs with
    | nil => nofun
    | cons p qs ih =>
      intro g hq
      simp only [emitPieces]
      split
      · rename_i h1
        exact absurd h1 (piece g p fun s hs => hq s (hs ▸ List.mem_cons_self ..))
      · exact ih _ fun s hs => hq s (List.mem_cons_of_mem _ hs)
  -- the pieces of a body leave the table of functions alone
  have keepPiece : ∀ g p g', emitPiece fns g p = some g' → g'.publics = g.publics := by
    intro g p g' hp
    cases p with
    | cell | value => cases hp; rfl
    | name s =>
      simp only [emitPiece] at hp
      split at hp
      · cases hp
      · cases hp; rfl
    | call f n =>
      simp only [emitPiece, emitCall] at hp
      split at hp
      · split at hp
        · split at hp
          · cases hp
          · rename_i g1 i h1
            cases hp
            unfold addNative at h1
            split at h1
            · cases h1
            · split at h1
              · cases h1
              · cases h1; rfl
        · cases hp; rfl
      · cases hp; rfl
  have keep : ∀ (qs : List Piece) g g', emitPieces fns g qs = some g' → g'.publics = g.publics := by
    intro qs
    induction qs with
    | nil => intro g g' hq; cases hq; rfl
    | cons p qs ih =>
      intro g g' hq
      simp only [emitPieces] at hq
      split at hq
      · cases hq
      · rename_i g1 h1; rw [ih _ _ hq, keepPiece _ _ _ h1]
  have all : ∀ (rest : List Fn) k g, (∀ fn ∈ rest, fn ∈ fns) → g.publics.length ≤ k → k + rest.length ≤ fns.length →
      emitFns fns g k rest ≠ none := by
    intro rest
    induction rest with
    | nil => nofun
    | cons fn rest ih =>
      intro k g hr hk hl
      have hfn := hr fn (List.mem_cons_self ..)
      rw [List.length_cons] at hl
      have hadd : ∀ T s, s = fn.name ∨ (∃ a, s = tableName fn a) ∨ (∃ ps, fn.kind = .body ps ∧ .name s ∈ ps) →
          Verif.Smx.NameTable.add T s ≠ none := fun T s hh => hm T s (.inr ⟨fn, hfn, hh⟩)
      have one : ∃ g', emitFn fns g k fn = some g' ∧ g'.publics.length ≤ k + 1 := by
        unfold emitFn
        split
        · rename_i ps h1 h2
          split
          · rename_i hno
            exfalso
            unfold addFunction at hno
            split at hno
            · rename_i h3; exact hadd _ _ (.inr (.inl ⟨_, rfl⟩)) h3
            · split at hno
              · rename_i h4; simp only [Gen.put] at h4; omega
              · split at hno
                · rename_i h5; exact hadd _ _ (.inl rfl) h5
                · cases hno
          · rename_i g1 ha
            split
            · rename_i hno
              exact absurd hno (pieces ps _ fun s hs T => hadd T s (.inr (.inr ⟨ps, h2, hs⟩)))
            · rename_i g2 hq
              refine ⟨_, rfl, ?_⟩
              show g2.publics.length ≤ _
              rw [keep _ _ _ hq]
              unfold addFunction at ha
              split at ha
              · cases ha
              · split at ha
                · cases ha
                · split at ha
                  · cases ha
                  · cases ha
                    simp [Gen.put]
                    omega
        · exact ⟨g, rfl, by omega⟩
      obtain ⟨g', h1, h2⟩ := one
      simp only [emitFns, h1]
      exact ih (k + 1) g' (fun fn hf => hr fn (List.mem_cons_of_mem _ hf)) h2 (by omega)
  unfold generate at h
  split at h
  · rename_i hno
    exact all fns 0 .init (fun _ => id) (Nat.le_refl _) (by omega) hno
  · rename_i g hg
    split at h
    · rename_i hno
      have fold : ∀ (ms : List Bytes) (T : Verif.Smx.NameTable), (∀ s ∈ ms, s ∈ more) →
          ms.foldlM (fun T s => (Verif.Smx.NameTable.add T s).map (·.2)) T ≠ none := by
        intro ms
        induction ms with
        | nil => intro T _; nofun
        | cons s ms ih =>
          intro T hs
          rw [List.foldlM_cons]
          cases h1 : T.add s with
          | none => exact absurd h1 (hm T s (.inl (hs s (List.mem_cons_self ..))))
          | some r => exact ih _ fun x hx => hs x (List.mem_cons_of_mem _ hx)
      exact fold more g.names (fun _ => id) hno
    · cases h

/-- C89: a function as a value is the function: the host, given the value, gets the entry of the function in the table, with its address, whatever it did before. -/
theorem C89_value (fns : List Fn) (g : Gen) (A : Asm) (w : Places) (h : Right fns g A w) (hn : g.publics.length ≤ 1073741824) (f : Nat) (fn : Fn)
    (ps : List Piece) (he : Emitted fns f fn ps) (nf : Bool) (hist : List Verif.Runtime.FnOp) :
    ∃ v off, (Verif.Runtime.getFunctionById (Verif.Runtime.runFns nf (.init g.publics.length) hist) (BitVec.ofNat 32 (2 * w.entry f + 1))).1 = some v ∧
      g.publics[v.index]? = some (w.address f, off) := by
  obtain ⟨off, ho⟩ := h.entry f fn ps he
  have hi := (List.getElem?_eq_some_iff.1 ho).1
  obtain ⟨id, v, h1, h2, h3, h4, _⟩ := Verif.Runtime.C27_round_trip nf g.publics.length (by omega) (w.entry f) hi hist []
  have hid : id = BitVec.ofNat 32 (2 * w.entry f + 1) := by
    unfold Verif.Runtime.getPublicByIndex at h1
    split at h1
    · cases h1
    · rw [← Option.some.inj h1]
      apply BitVec.eq_of_toNat_eq
      rw [Verif.Runtime.funcIdOf_toNat (by omega), BitVec.toNat_ofNat, Nat.mod_eq_of_lt (by omega)]
  rw [← hid]
  exact ⟨v, off, h2, by rw [h3]; exact ho⟩

/-! ### A program -/

/-- `native Print(); void Help() { Print(); Print(); } native Never(); public Start() { Help(); f = Help; Stop(); } public Stop() {}`, and a
function that is not used. -/
def prog : List Fn :=
  [⟨ascii "Print", false, true, .native⟩,
   ⟨ascii "Help", false, true, .body [.cell 137, .name (ascii "x"), .call 0 0, .cell 137, .call 0 0]⟩,
   ⟨ascii "Never", false, false, .native⟩,
   ⟨ascii "Start", true, true, .body [.call 1 0, .value 1, .call 4 0]⟩,
   ⟨ascii "Stop", true, true, .body []⟩,
   ⟨ascii "Unused", false, false, .body [.call 2 0]⟩]

/-- The code: 120 0 is the halt in front, 46 … 166 are the functions, at 8, 48 and 96. -/
example : (generate prog [ascii "y"]).map (fun g => (run .init g.ops).map (·.buf)) = some (some
    [120, 0, 46, 137, 135, 0, 0, 137, 135, 0, 0, 166, 46, 39, 0, 49, 8, 11, 1, 39, 0, 49, 96, 166, 46, 166]) := by decide +kernel

example : (generate prog [ascii "y"]).map (fun g => (g.publics.map (·.1), g.natives.length, g.methods.map (fun m => (m.start, m.stop)))) =
    some ([8, 48, 96], 1, [(8, 48), (48, 96), (96, 104)]) := by decide +kernel

theorem prog_emitted : ∀ f fn ps, Emitted prog f fn ps → (f = 1 ∧ fn.pub = false ∧ ps = [.cell 137, .name (ascii "x"), .call 0 0, .cell 137, .call 0 0]) ∨
    (f = 3 ∧ fn.name = ascii "Start" ∧ ps = [.call 1 0, .value 1, .call 4 0]) ∨ (f = 4 ∧ fn.name = ascii "Stop" ∧ ps = []) := by
  rintro f fn ps ⟨h1, h2, h3⟩
  have hf : f < 6 := (List.getElem?_eq_some_iff.1 h1).1
  match f, hf with
  | 0, _ => cases h1; cases h3
  | 1, _ => cases h1; cases h3; exact .inl ⟨rfl, rfl, rfl⟩
  | 2, _ => cases h1; cases h3
  | 3, _ => cases h1; cases h3; exact .inr (.inl ⟨rfl, rfl, rfl⟩)
  | 4, _ => cases h1; cases h3; exact .inr (.inr ⟨rfl, rfl, rfl⟩)
  | 5, _ => cases h1; cases h2

/-- The program is one the theorem is about. -/
theorem prog_proper : Proper prog := by
  have e1 : Emitted prog 1 _ _ := ⟨rfl, rfl, rfl⟩
  have e4 : Emitted prog 4 _ _ := ⟨rfl, rfl, rfl⟩
  refine ⟨?_, ?_, by decide +kernel, by decide +kernel, ?_⟩
  · intro g gn ps f nargs he hc
    rcases prog_emitted g gn ps he with ⟨_, _, rfl⟩ | ⟨_, _, rfl⟩ | ⟨_, _, rfl⟩
    · simp at hc; rcases hc with ⟨rfl, _⟩; exact .inl ⟨_, rfl, rfl⟩
    · simp at hc
      rcases hc with ⟨rfl, _⟩ | ⟨rfl, _⟩
      · exact .inr ⟨_, _, e1⟩
      · exact .inr ⟨_, _, e4⟩
    · cases hc
  · intro g gn ps f he hc
    rcases prog_emitted g gn ps he with ⟨_, _, rfl⟩ | ⟨_, _, rfl⟩ | ⟨_, _, rfl⟩
    · simp at hc
    · simp at hc; subst hc; exact ⟨_, _, e1⟩
    · cases hc
  · intro f fn ps f' fn' ps' he he' hp hp' hn
    rcases prog_emitted f fn ps he with ⟨_, h, _⟩ | ⟨rfl, h, _⟩ | ⟨rfl, h, _⟩
    · rw [h] at hp; cases hp
    · rcases prog_emitted f' fn' ps' he' with ⟨_, h', _⟩ | ⟨rfl, h', _⟩ | ⟨rfl, h', _⟩
      · rw [h'] at hp'; cases hp'
      · rfl
      · rw [h, h'] at hn; exact absurd hn (by decide +kernel)
    · rcases prog_emitted f' fn' ps' he' with ⟨_, h', _⟩ | ⟨rfl, h', _⟩ | ⟨rfl, h', _⟩
      · rw [h'] at hp'; cases hp'
      · rw [h, h'] at hn; exact absurd hn (by decide +kernel)
      · rfl

/-! ### Where the hypothesis matters -/

/-- Two public functions of one name, which a forward in front makes the compiler accept (`C71_two_bodies`): both are in the output, and the
host only ever finds the second. -/
theorem C89_same_name : (generate [⟨ascii "F", true, true, .body [.cell 137]⟩, ⟨ascii "F", true, true, .body []⟩] []).map (fun g =>
    (g.publics.map (·.1), (findCached g.names.write (g.publics.map (·.2)) [] (ascii "F")).map (·.2))) = some ([8, 20], some (some 1)) := by
  decide +kernel

end Verif.FunTable

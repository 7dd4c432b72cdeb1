import Verif.Model.StackUsage

/-! C52: the stack usage estimate. -/
namespace Verif.StackUsage

/-- A call chain: every function calls the next. -/
inductive Chain (g : List (Nat × List Nat)) : List Nat → Prop
  | one (f : Nat) : Chain g [f]
  | cons {f h : Nat} {ts l : List Nat} : find g f = some ts → h ∈ ts → Chain g (h :: l) → Chain g (f :: h :: l)

/-- What a chain uses. -/
def total (loc : Nat → Nat) (l : List Nat) : Nat := (l.map loc).sum

/-- No recursion: calls go down. -/
def Acyclic (g : List (Nat × List Nat)) : Prop := ∃ rank : Nat → Nat, ∀ f ts h, find g f = some ts → h ∈ ts → rank h < rank f

/-! ## Lemmas -/

theorem find_erase (g : List (Nat × List Nat)) (f h : Nat) : find (erase g f) h = if h = f then none else find g h := by
  unfold find erase
  induction g with
  | nil => simp [List.lookup]
  | cons e g ih =>
    obtain ⟨k, v⟩ := e
    by_cases hk : k = f
    · subst hk
      rw [List.filter_cons_of_neg (by simp), ih]
      by_cases hh : h = k
      · rw [if_pos hh, if_pos hh]
      · rw [if_neg hh, if_neg hh, List.lookup_cons, show (h == k) = false by simpa using hh]
    · rw [List.filter_cons_of_pos (by simpa using hk), List.lookup_cons, ih, List.lookup_cons]
      by_cases hh : h = k
      · subst hh
        simp [hk]
      · rw [show (h == k) = false by simpa using hh]

theorem weight_erase (g : List (Nat × List Nat)) (f : Nat) : weight (erase g f) ≤ weight g ∧
    (∀ ts, find g f = some ts → weight (erase g f) + ts.length + 1 ≤ weight g) := by
  induction g with
  | nil => exact ⟨Nat.le_refl _, by intro ts h; cases h⟩
  | cons e g ih =>
    obtain ⟨k, v⟩ := e
    obtain ⟨ih1, ih2⟩ := ih
    have hw : weight ((k, v) :: g) = v.length + 1 + weight g := by simp [weight]
    by_cases hk : k = f
    · subst hk
      have he : erase ((k, v) :: g) k = erase g k := by unfold erase; rw [List.filter_cons_of_neg (by simp)]
      rw [he, hw]
      refine ⟨by omega, ?_⟩
      intro ts h
      unfold find at h
      rw [List.lookup_cons_self] at h
      injection h with h
      subst h
      omega
    · have he : erase ((k, v) :: g) f = (k, v) :: erase g f := by unfold erase; rw [List.filter_cons_of_pos (by simpa using hk)]
      have hwe : weight ((k, v) :: erase g f) = v.length + 1 + weight (erase g f) := by simp [weight]
      rw [he, hw, hwe]
      refine ⟨by omega, ?_⟩
      intro ts h
      unfold find at h
      rw [List.lookup_cons, show (f == k) = false by simpa using fun h => hk h.symm] at h
      have := ih2 ts h
      omega

/-- Enough fuel, and the graph only shrinks. -/
theorem usage_terminates (loc : Nat → Nat) : ∀ (fuel : Nat) (c : CG) (caller : Nat) (targets : List Nat) (m : Nat), weight c.graph + targets.length < fuel →
    usage loc fuel c caller targets m ≠ .fuel ∧ ∀ c', usage loc fuel c caller targets m = .ok c' → weight c'.graph ≤ weight c.graph
  | 0, _, _, _, _, h => by omega
  | fuel+1, c, caller, [], m, h => by
    unfold usage
    split
    · exact ⟨nofun, nofun⟩
    · refine ⟨nofun, ?_⟩
      intro c' h
      injection h with h
      subst h
      exact Nat.le_refl _
  | fuel+1, c, caller, target :: rest, m, h => by
    rw [List.length_cons] at h
    have sub : ∃ r : Out, r = (if c.callee target = 0 then
        (find c.graph target).elim (.ok c) fun ts => usage loc fuel { c with graph := erase c.graph target } target ts.reverse 0
      else .ok c) ∧ r ≠ .fuel ∧ ∀ c', r = .ok c' → weight c'.graph ≤ weight c.graph := by
      refine ⟨_, rfl, ?_⟩
      have hsame : Out.ok c ≠ .fuel ∧ ∀ c', Out.ok c = .ok c' → weight c'.graph ≤ weight c.graph :=
        ⟨nofun, by intro c' h; injection h with h; subst h; exact Nat.le_refl _⟩
      split
      · cases hf : find c.graph target with
        | none => exact hsame
        | some ts =>
          have hw := (weight_erase c.graph target).2 ts hf
          obtain ⟨h1, h2⟩ := usage_terminates loc fuel { c with graph := erase c.graph target } target ts.reverse 0
            (by rw [List.length_reverse]; show weight (erase c.graph target) + _ < _; omega)
          refine ⟨h1, ?_⟩
          intro c' hc
          have : weight c'.graph ≤ weight (erase c.graph target) := h2 c' hc
          omega
      · exact hsame
    obtain ⟨r, hr, h1, h2⟩ := sub
    unfold usage
    simp only
    rw [← hr]
    cases r with
    | fuel => exact absurd rfl h1
    | fail => exact ⟨nofun, nofun⟩
    | ok c1 =>
      have hw := h2 c1 rfl
      simp only
      split
      · exact ⟨nofun, nofun⟩
      · obtain ⟨k1, k2⟩ := usage_terminates loc fuel { c1 with callee := fun f => if f = caller then max m (loc target + c1.callee target) else c1.callee f }
          caller rest (max m (loc target + c1.callee target)) (by show weight c1.graph + _ < _; omega)
        refine ⟨k1, ?_⟩
        intro c' hc
        have : weight c'.graph ≤ weight c1.graph := k2 c' hc
        omega

/-- The numbers of a function cover every chain from it. -/
def Done (g : List (Nat × List Nat)) (loc : Nat → Nat) (c : CG) (f : Nat) : Prop :=
  (∀ l, Chain g (f :: l) → total loc l ≤ c.callee f) ∧ loc f + c.callee f ≤ c.memory

theorem Done.mono {g : List (Nat × List Nat)} {loc : Nat → Nat} {c c' : CG} {f : Nat} (h : Done g loc c f) (h1 : c'.callee f = c.callee f)
    (h2 : c.memory ≤ c'.memory) : Done g loc c' f :=
  ⟨fun l hl => by rw [h1]; exact h.1 l hl, by rw [h1]; exact Nat.le_trans h.2 h2⟩

structure Inv (g : List (Nat × List Nat)) (loc : Nat → Nat) (rank : Nat → Nat) (c : CG) (caller : Nat) : Prop where
  sub : ∀ f ts, find c.graph f = some ts → find g f = some ts
  zero : ∀ f, (find c.graph f ≠ none ∨ find g f = none) → c.callee f = 0
  done : ∀ f, find g f ≠ none → find c.graph f = none → rank f < rank caller → Done g loc c f
  memory : ∀ f, loc f ≤ c.memory
  isNode : find g caller ≠ none
  caller : find c.graph caller = none


theorem usage_ok {g : List (Nat × List Nat)} {loc rank : Nat → Nat} (hrank : ∀ f ts h, find g f = some ts → h ∈ ts → rank h < rank f) :
    ∀ (fuel : Nat) (c : CG) (caller : Nat) (before targets : List Nat) (m : Nat) (c' : CG), Inv g loc rank c caller →
    find g caller = some (before ++ targets).reverse → (∀ t ∈ before, find c.graph t = none ∧ (Done g loc c t ∨ find g t = none)) → (∀ t ∈ before, loc t + c.callee t ≤ m) →
    c.callee caller = m → usage loc fuel c caller targets m = .ok c' →
    (∀ f ts, find c'.graph f = some ts → find c.graph f = some ts) ∧ (∀ f, find c.graph f = none → f ≠ caller → c'.callee f = c.callee f) ∧
    c.memory ≤ c'.memory ∧ (∀ f, find c.graph f ≠ none → find c'.graph f = none → Done g loc c' f) ∧ Done g loc c' caller ∧
    (∀ f, find c'.graph f ≠ none → c'.callee f = 0)
  | 0, _, _, _, _, _, _, _, _, _, _, _, h => by cases h
  | fuel+1, c, caller, before, [], m, c', hi, hg, hd, hm, hc, h => by
    unfold usage at h
    split at h
    · cases h
    · injection h with h
      subst h
      refine ⟨fun _ _ h => h, fun _ _ _ => rfl, Nat.le_max_right .., ?_, ⟨?_, Nat.le_max_left ..⟩, fun f hf => hi.zero f (Or.inl hf)⟩
      · intro f h1 h2
        exact absurd h2 h1
      · intro l hl
        show total loc l ≤ c.callee caller
        rw [hc]
        cases hl with
        | one => exact Nat.zero_le _
        | cons hf hmem hch =>
          rename_i t ts l
          rw [hg] at hf
          injection hf with hf
          subst hf
          rw [List.append_nil, List.mem_reverse] at hmem
          have h1 := hm t hmem
          have ht : total loc (t :: l) = loc t + total loc l := by simp [total]
          rw [ht]
          have h2 : total loc l ≤ c.callee t := by
            rcases (hd t hmem).2 with h | h
            · exact h.1 l hch
            · cases hch with
              | one => exact Nat.zero_le _
              | cons hf2 _ _ => rw [h] at hf2; cases hf2
          omega
  | fuel+1, c, caller, before, target :: rest, m, c', hi, hg, hd, hm, hc, h => by
    have htm : target ∈ (before ++ target :: rest).reverse := by simp
    have hr := hrank caller _ target hg htm
    have hne : target ≠ caller := by intro h; rw [h] at hr; omega
    -- the call for the target
    have sub : ∀ c1, (if c.callee target = 0 then
        (find c.graph target).elim (.ok c) fun ts => usage loc fuel { c with graph := erase c.graph target } target ts.reverse 0
      else .ok c) = .ok c1 →
        (∀ f ts, find c1.graph f = some ts → find c.graph f = some ts) ∧ (∀ f, find c.graph f = none → c1.callee f = c.callee f) ∧
        c.memory ≤ c1.memory ∧ (∀ f, find c.graph f ≠ none → find c1.graph f = none → Done g loc c1 f) ∧ (Done g loc c1 target ∨ find g target = none) ∧
        (∀ f, find c1.graph f ≠ none → c1.callee f = 0) ∧ find c1.graph target = none := by
      intro c1 h1
      have same : find c.graph target = none → Out.ok c = .ok c1 → (∀ f ts, find c1.graph f = some ts → find c.graph f = some ts) ∧ (∀ f, find c.graph f = none → c1.callee f = c.callee f) ∧
        c.memory ≤ c1.memory ∧ (∀ f, find c.graph f ≠ none → find c1.graph f = none → Done g loc c1 f) ∧ (Done g loc c1 target ∨ find g target = none) ∧
        (∀ f, find c1.graph f ≠ none → c1.callee f = 0) ∧ find c1.graph target = none := by
        intro hn h1
        injection h1 with h1
        subst h1
        refine ⟨fun _ _ h => h, fun _ _ => rfl, Nat.le_refl _, fun f h1 h2 => absurd h2 h1, ?_, fun f hf => hi.zero f (Or.inl hf), hn⟩
        by_cases hgt : find g target = none
        · exact Or.inr hgt
        · exact Or.inl (hi.done target hgt hn hr)
      split at h1
      · cases hf : find c.graph target with
        | none =>
          rw [hf] at h1
          exact same hf h1
        | some ts =>
          rw [hf] at h1
          rw [Option.elim_some] at h1
          have hgt := hi.sub target ts hf
          have key := usage_ok hrank fuel { c with graph := erase c.graph target } target [] ts.reverse 0 c1 ?_ ?_ ?_ ?_ ?_ h1
          · obtain ⟨k1, k2, k3, k4, k5, k6⟩ := key
            have hgr : ∀ f ts, find c1.graph f = some ts → f ≠ target ∧ find c.graph f = some ts := by
              intro f ts hfs
              have := k1 f ts hfs
              rw [show ({ c with graph := erase c.graph target } : CG).graph = erase c.graph target from rfl, find_erase] at this
              split at this
              · cases this
              · rename_i hft
                exact ⟨hft, this⟩
            refine ⟨fun f ts hfs => (hgr f ts hfs).2, ?_, k3, ?_, Or.inl k5, k6, ?_⟩
            · intro f hfn
              apply k2 f
              · show find (erase c.graph target) f = none
                rw [find_erase]
                split
                · rfl
                · exact hfn
              · intro h; subst h; rw [hf] at hfn; cases hfn
            · intro f h2 h3
              by_cases hft : f = target
              · subst hft; exact k5
              · apply k4 f _ h3
                show find (erase c.graph target) f ≠ none
                rw [find_erase, if_neg hft]
                exact h2
            · cases hx : find c1.graph target with
              | none => rfl
              | some ts => exact absurd rfl (hgr _ _ hx).1
          · refine ⟨?_, ?_, ?_, hi.memory, ?_, ?_⟩
            · intro f ts' hfs
              rw [show ({ c with graph := erase c.graph target } : CG).graph = erase c.graph target from rfl, find_erase] at hfs
              split at hfs
              · cases hfs
              · exact hi.sub f ts' hfs
            · intro f hfs
              apply hi.zero f
              rcases hfs with hfs | hfs
              · refine Or.inl ?_
                rw [show ({ c with graph := erase c.graph target } : CG).graph = erase c.graph target from rfl, find_erase] at hfs
                split at hfs
                · exact absurd rfl hfs
                · exact hfs
              · exact Or.inr hfs
            · intro f h2 h3 h4
              apply Done.mono (hi.done f h2 _ (by omega)) rfl (Nat.le_refl _)
              rw [show ({ c with graph := erase c.graph target } : CG).graph = erase c.graph target from rfl, find_erase] at h3
              rw [if_neg (by intro h; subst h; omega)] at h3
              exact h3
            · rw [hgt]; nofun
            · show find (erase c.graph target) target = none
              rw [find_erase, if_pos rfl]
          · rw [List.nil_append, List.reverse_reverse]; exact hgt
          · intro t ht; cases ht
          · intro t ht; cases ht
          · exact hi.zero target (Or.inl (by rw [hf]; nofun))
      · rename_i hcal
        refine same ?_ h1
        cases hf : find c.graph target with
        | none => rfl
        | some ts => exact absurd (hi.zero target (Or.inl (by rw [hf]; nofun))) hcal
    unfold usage at h
    simp only at h
    split at h
    case h_2 => cases h
    case h_3 => cases h
    rename_i c1 h1
    obtain ⟨s1, s2, s3, s4, s5, s6, s7⟩ := sub c1 h1
    split at h
    · cases h
    · have hcaller : find c1.graph caller = none := by
        cases hx : find c1.graph caller with
        | none => rfl
        | some ts => have := s1 _ _ hx; rw [hi.caller] at this; cases this
      have upd : ∀ f, f ≠ caller → (if f = caller then max m (loc target + c1.callee target) else c1.callee f) = c1.callee f :=
        fun f hf => if_neg hf
      have doneUpd : ∀ f, f ≠ caller → Done g loc c1 f →
          Done g loc { c1 with callee := fun f => if f = caller then max m (loc target + c1.callee target) else c1.callee f } f := by
        intro f hf hdn
        exact hdn.mono (upd f hf) (Nat.le_refl _)
      have key := usage_ok hrank fuel { c1 with callee := fun f => if f = caller then max m (loc target + c1.callee target) else c1.callee f }
        caller (before ++ [target]) rest (max m (loc target + c1.callee target)) c' ?_ ?_ ?_ ?_ ?_ h
      · obtain ⟨k1, k2, k3, k4, k5, k6⟩ := key
        have hnone : ∀ f, find c.graph f = none → find c1.graph f = none := by
          intro f hf
          cases hx : find c1.graph f with
          | none => rfl
          | some ts => have := s1 _ _ hx; rw [hf] at this; cases this
        refine ⟨fun f ts hf => s1 f ts (k1 f ts hf), ?_, Nat.le_trans s3 k3, ?_, k5, k6⟩
        · intro f hf hfc
          rw [k2 f (hnone f hf) hfc]
          exact (upd f hfc).trans (s2 f hf)
        · intro f h2 h3
          by_cases h4 : find c1.graph f = none
          · have hfc : f ≠ caller := by intro h; rw [h] at h2; exact h2 hi.caller
            exact (s4 f h2 h4).mono ((k2 f h4 hfc).trans (upd f hfc)) k3
          · exact k4 f h4 h3
      · refine ⟨fun f ts hf => hi.sub f ts (s1 f ts hf), ?_, ?_, fun f => Nat.le_trans (hi.memory f) s3, hi.isNode, hcaller⟩
        · intro f hf
          have hfc : f ≠ caller := by
            intro h
            subst h
            rcases hf with hf | hf
            · exact hf hcaller
            · exact hi.isNode hf
          refine (upd f hfc).trans ?_
          rcases hf with hf | hf
          · exact s6 f hf
          · have hn : find c.graph f = none := by
              cases hx : find c.graph f with
              | none => rfl
              | some ts => have := hi.sub _ _ hx; rw [hf] at this; cases this
            rw [s2 f hn]
            exact hi.zero f (Or.inr hf)
        · intro f h2 h3 h4
          have hfc : f ≠ caller := by intro h; rw [h] at h4; omega
          apply doneUpd f hfc
          by_cases h5 : find c.graph f = none
          · exact (hi.done f h2 h5 h4).mono (s2 f h5) s3
          · exact s4 f h5 h3
      · rw [hg, List.append_assoc]; rfl
      · intro t ht
        rcases List.mem_append.1 ht with ht | ht
        · have hr2 := hrank caller _ t hg (by simp [ht])
          have htc : t ≠ caller := by intro h; rw [h] at hr2; omega
          obtain ⟨h2, h3⟩ := hd t ht
          refine ⟨?_, h3.imp (fun h3 => doneUpd t htc (h3.mono (s2 t h2) s3)) id⟩
          show find c1.graph t = none
          cases hx : find c1.graph t with
          | none => rfl
          | some ts => have := s1 _ _ hx; rw [h2] at this; cases this
        · rw [List.mem_singleton] at ht
          subst ht
          exact ⟨s7, s5.imp (doneUpd t hne) id⟩
      · intro t ht
        rcases List.mem_append.1 ht with ht | ht
        · have hr2 := hrank caller _ t hg (by simp [ht])
          have htc : t ≠ caller := by intro h; rw [h] at hr2; omega
          have h2 := hm t ht
          show loc t + (if t = caller then _ else c1.callee t) ≤ _
          rw [upd t htc, s2 t (hd t ht).1]
          omega
        · rw [List.mem_singleton] at ht
          subst ht
          show loc t + (if t = caller then _ else c1.callee t) ≤ _
          rw [upd t hne]
          omega
      · exact if_pos rfl

theorem usage_memory (loc : Nat → Nat) : ∀ (fuel : Nat) (c : CG) (caller : Nat) (targets : List Nat) (m : Nat) (c' : CG), c.memory ≤ 268435455 →
    usage loc fuel c caller targets m = .ok c' → c'.memory ≤ 268435455
  | 0, _, _, _, _, _, _, h => by cases h
  | fuel+1, c, caller, [], m, c', hc, h => by
    unfold usage at h
    split at h
    · cases h
    · rename_i ht
      injection h with h
      subst h
      have : ¬ (loc caller + c.callee caller > 4294967295 ∨ loc caller + c.callee caller ≥ 268435455) := by simpa [tooMuch, maxCells] using ht
      show max _ _ ≤ _
      omega
  | fuel+1, c, caller, target :: rest, m, c', hc, h => by
    unfold usage at h
    simp only at h
    split at h
    case h_2 => cases h
    case h_3 => cases h
    rename_i c1 h1
    have h2 : c1.memory ≤ 268435455 := by
      split at h1
      · cases hf : find c.graph target with
        | none => rw [hf, Option.elim_none] at h1; injection h1 with h1; subst h1; exact hc
        | some ts =>
          rw [hf, Option.elim_some] at h1
          exact usage_memory loc fuel { c with graph := erase c.graph target } target _ _ c1 hc h1
      · injection h1 with h1; subst h1; exact hc
    split at h
    · cases h
    · refine usage_memory loc fuel _ caller rest _ c' ?_ h
      exact h2

theorem dynamic_le (memory : Nat) (custom : Int) (h1 : memory ≤ 268435455) (h2 : custom < 536870912) :
    (4 * memory : Int) ≤ dynamicMemorySize memory custom ∧ 4 * custom ≤ dynamicMemorySize memory custom := by
  unfold dynamicMemorySize maxCells
  simp only
  split <;> rw [Int.bmod_eq_of_le (by omega) (by omega)] <;> omega

/-! ## The theorems -/

/-- Part of C52: when no function calls itself, directly or not, and the estimate is made at all (it is refused with an error when it is too
large), then the memory size that is recorded, in bytes, holds the sum of what the functions use for every call chain that starts at the
function the computation starts at, and what any single function uses.  Missing: chains that start elsewhere (see `C52_other_chain`); and
`#pragma dynamic` must be below `2^29` (see `C52_pragma_wraps`). -/
theorem C52_chain_fits_partial (loc : Nat → Nat) (g : List (Nat × List Nat)) (memory : Nat) (custom : Int) (c : CG) (hac : Acyclic g)
    (hloc : ∀ f, loc f ≤ memory) (hmem : memory ≤ 268435455) (hcustom : custom < 536870912)
    (h : computeStackUsage loc g memory = .ok c) :
    (∀ f ts rest, g = (f, ts) :: rest → ∀ l, Chain g (f :: l) → (4 * total loc (f :: l) : Int) ≤ dynamicMemorySize c.memory custom) ∧
    (∀ f, (4 * loc f : Int) ≤ dynamicMemorySize c.memory custom) ∧ 4 * custom ≤ dynamicMemorySize c.memory custom := by
  cases g with
  | nil =>
    injection h with h
    subst h
    obtain ⟨d1, d2⟩ := dynamic_le memory custom hmem hcustom
    refine ⟨nofun, ?_, d2⟩
    intro f
    have := hloc f
    show _ ≤ dynamicMemorySize memory custom
    omega
  | cons e rest =>
    obtain ⟨f, ts⟩ := e
    obtain ⟨rank, hrank⟩ := hac
    have hf : find ((f, ts) :: rest) f = some ts := List.lookup_cons_self
    have hb := usage_memory loc _ _ _ _ _ c hmem h
    obtain ⟨_, _, k3, _, k5, _⟩ := usage_ok hrank _ ⟨erase ((f, ts) :: rest) f, fun _ => 0, memory⟩ f [] ts.reverse 0 c
      ⟨by
        intro h ts' hh
        rw [show (CG.mk (erase ((f, ts) :: rest) f) (fun _ => 0) memory).graph = erase ((f, ts) :: rest) f from rfl, find_erase] at hh
        split at hh
        · cases hh
        · exact hh, fun _ _ => rfl, by
        intro x h1 h2 h3
        rw [show (CG.mk (erase ((f, ts) :: rest) f) (fun _ => 0) memory).graph = erase ((f, ts) :: rest) f from rfl, find_erase] at h2
        split at h2
        · rename_i hx; subst hx; omega
        · exact absurd h2 h1, hloc, by rw [hf]; nofun, by
        show find (erase ((f, ts) :: rest) f) f = none
        rw [find_erase, if_pos rfl]⟩
      (by rw [List.nil_append, List.reverse_reverse]; exact hf) (by intro t ht; cases ht) (by intro t ht; cases ht) rfl h
    obtain ⟨d1, d2⟩ := dynamic_le c.memory custom hb hcustom
    refine ⟨?_, ?_, d2⟩
    · intro f' ts' rest' he l hl
      injection he with he1 he2
      injection he1 with he1 _
      subst he1
      have h1 := k5.1 l hl
      have h2 := k5.2
      have ht : total loc (f :: l) = loc f + total loc l := by simp [total]
      omega
    · intro x
      have h1 := hloc x
      have h2 : memory ≤ c.memory := k3
      omega

/-- The computation ends. -/
theorem C52_terminates (loc : Nat → Nat) (g : List (Nat × List Nat)) (memory : Nat) : computeStackUsage loc g memory ≠ .fuel := by
  unfold computeStackUsage
  split
  · nofun
  · rename_i f ts rest
    apply (usage_terminates loc _ _ f ts.reverse 0 _).1
    show weight (erase ((f, ts) :: rest) f) + ts.reverse.length < _
    have := (weight_erase ((f, ts) :: rest) f).2 ts List.lookup_cons_self
    rw [List.length_reverse]
    omega

/-- An example: `0` calls `1` and `2`, `1` calls `2` and `3`; function `n` uses `100 * (n + 1)` cells. -/
example : ∃ c, computeStackUsage (fun n => 100 * (n + 1)) [(0, [1, 2]), (1, [2, 3])] 400 = .ok c ∧ c.memory = 700 :=
  ⟨_, rfl, rfl⟩

example : Acyclic [(0, [1, 2]), (1, [2, 3])] := ⟨fun n => 10 - n, by
  intro f ts h hf hm
  unfold find at hf
  by_cases h0 : f = 0
  · subst h0; injection hf with hf; subst hf; simp at hm; show 10 - h < 10 - _; omega
  · by_cases h1 : f = 1
    · subst h1; injection hf with hf; subst hf; simp at hm; show 10 - h < 10 - _; omega
    · simp [List.lookup_cons, beq_eq_false_iff_ne.2 h0, beq_eq_false_iff_ne.2 h1] at hf⟩

example : Chain [(0, [1, 2]), (1, [2, 3])] [0, 1, 3] :=
  .cons (ts := [1, 2]) rfl (by decide) (.cons (ts := [2, 3]) rfl (by decide) (.one 3))

/-- C52 fails in general: a chain that does not start at the first entry is not counted.  Here `0` calls `1`, `2` calls `3`, and each of `2`
and `3` uses 10000 cells; the recorded size is 56384 bytes although the chain `2, 3` needs 80000. -/
theorem C52_other_chain : ∃ c, computeStackUsage (fun n => if n < 2 then 16 else 10000) [(0, [1]), (2, [3])] 10000 = .ok c ∧
    Chain [(0, [1]), (2, [3])] [2, 3] ∧ dynamicMemorySize c.memory 0 = 56384 ∧ 4 * total (fun n => if n < 2 then 16 else 10000) [2, 3] = 80000 :=
  ⟨_, rfl, .cons (ts := [3]) rfl (by decide) (.one 3), by decide +kernel, rfl⟩

/-- The same happens within one chain when the entry of a later function comes first. -/
theorem C52_later_entry_first : ∃ c, computeStackUsage (fun _ => 10000) [(1, [2]), (0, [1])] 10000 = .ok c ∧
    Chain [(1, [2]), (0, [1])] [0, 1, 2] ∧ dynamicMemorySize c.memory 0 = 96384 ∧ 4 * total (fun _ => 10000) [0, 1, 2] = 120000 :=
  ⟨_, rfl, .cons (ts := [1]) rfl (by decide) (.cons (ts := [2]) rfl (by decide) (.one 2)), by decide +kernel, rfl⟩

/-- `#pragma dynamic 1073741824` records no memory at all. -/
theorem C52_pragma_wraps (memory : Nat) (h : memory ≤ 268435455) : dynamicMemorySize memory 1073741824 = 0 := by
  unfold dynamicMemorySize maxCells
  simp only
  split <;> rw [show max _ (1073741824 : Int) = 1073741824 by omega] <;> decide

end Verif.StackUsage

import Verif.Model.Smx
import Verif.Proofs.Lookup

/-! What each validation step guarantees when it accepts. -/
namespace Verif.Smx
open Verif.Image (Bytes cstr cstr_some)

theorem V.bind_eq_ok {α β} {x : V α} {f : α → V β} {c : β} : (x >>= f) = .ok c ↔ ∃ a, x = .ok a ∧ f a = .ok c := by
  cases x with
  | ok a => exact ⟨fun h => ⟨a, rfl, h⟩, fun ⟨a', h, h'⟩ => by cases h; exact h'⟩
  | err => exact ⟨fun h => (by cases h), fun ⟨_, h, _⟩ => by cases h⟩
  | ub => exact ⟨fun h => (by cases h), fun ⟨_, h, _⟩ => by cases h⟩

theorem V.pure_eq_ok {α} {a c : α} : (pure a : V α) = .ok c ↔ a = c := by
  constructor
  · intro h; cases h; rfl
  · rintro rfl; rfl

theorem rejectIf_ok {c : Prop} [Decidable c] {u : Unit} : rejectIf c = .ok u ↔ ¬c := by
  unfold rejectIf
  split
  · rename_i h; simp [h]
  · rename_i h; simp [h]

theorem V.err_eq_ok {α} {a : α} : (V.err = V.ok a) ↔ False := ⟨fun h => (by cases h), False.elim⟩

theorem u8_ok {b : Bytes} {off n : Nat} (h : u8 b off = .ok n) : off < b.length ∧ ∃ x, b[off]? = some x ∧ x.toNat = n := by
  unfold u8 at h
  split at h
  · rename_i x hx
    cases h
    exact ⟨(List.getElem?_eq_some_iff.1 hx).1, x, hx, rfl⟩
  · cases h

theorem u32_ok {b : Bytes} {off n : Nat} (h : u32 b off = .ok n) : off + 4 ≤ b.length := by
  unfold u32 at h
  simp only [V.bind_eq_ok] at h
  obtain ⟨_, _, _, _, _, _, _, h4, _⟩ := h
  have := (u8_ok h4).1
  omega

/-- A range of the buffer. -/
def Inside (b : Bytes) (off len : Nat) : Prop := off + len ≤ b.length

theorem sectionOk_inside {b : Bytes} {s : Sec} (h : ¬ sectionOk b s = false) : Inside b s.dataoffs s.size := by
  unfold sectionOk at h
  simp only [decide_eq_false_iff_not, Decidable.not_not] at h
  unfold Inside
  omega

theorem readSections_ok {b : Bytes} {st d : Nat} : ∀ {n i last : Nat} {secs : List Sec} {last' : Nat},
    readSections b st d n i last = .ok (secs, last') → last ≤ last' ∧ ∀ s ∈ secs, st ≤ s.name ∧ s.name ≤ st + last'
  | 0, i, last, secs, last', h => by
    unfold readSections at h
    cases h
    exact ⟨Nat.le_refl _, by simp⟩
  | n+1, i, last, secs, last', h => by
    unfold readSections at h
    simp only [V.bind_eq_ok, rejectIf_ok] at h
    obtain ⟨nameoffs, _, offs, _, size, _, _, _, ⟨secs', l'⟩, h4, h5⟩ := h
    simp only [V.pure_eq_ok, Prod.mk.injEq] at h5
    obtain ⟨rfl, rfl⟩ := h5
    obtain ⟨h6, h7⟩ := readSections_ok h4
    have hle : last ≤ l' ∧ nameoffs ≤ l' := by
      split at h6 <;> omega
    refine ⟨hle.1, ?_⟩
    intro s hs
    rcases List.mem_cons.1 hs with rfl | hs
    · exact ⟨Nat.le_add_right .., Nat.add_le_add_left hle.2 _⟩
    · exact h7 s hs

theorem findTerminator_ok {b : Bytes} : ∀ {n i : Nat}, findTerminator b n i = .ok true →
    ∃ k, i ≤ k ∧ k < i + n ∧ b[k]? = some 0
  | 0, i, h => by cases h
  | n+1, i, h => by
    unfold findTerminator at h
    simp only [V.bind_eq_ok] at h
    obtain ⟨x, hx, h⟩ := h
    split at h
    · rename_i h0
      obtain ⟨hlt, y, hy, hy'⟩ := u8_ok hx
      refine ⟨i, Nat.le_refl _, by omega, ?_⟩
      rw [hy]
      congr 1
      apply BitVec.eq_of_toNat_eq
      rw [hy', h0]
      rfl
    · obtain ⟨k, h1, h2, h3⟩ := findTerminator_ok h
      exact ⟨k, by omega, by omega, h3⟩

/-- A C string of the buffer that ends before `stop`. -/
def StringBefore (b : Bytes) (off stop : Nat) : Prop :=
  ∃ name rest, b.drop off = name ++ 0 :: rest ∧ (0 : BitVec 8) ∉ name ∧ off + name.length < stop

theorem stringBefore_of {b : Bytes} {off k stop : Nat} (h1 : off ≤ k) (h2 : k < stop) (h3 : b[k]? = some 0) :
    StringBefore b off stop := by
  have hm : (b.drop off)[k - off]? = some 0 := by
    rw [List.getElem?_drop, show off + (k - off) = k by omega]; exact h3
  have hc : cstr b off = some ((b.drop off).takeWhile (· ≠ 0)) := by
    unfold cstr
    rw [if_pos (List.mem_of_getElem? hm)]
  obtain ⟨rest, h4, h5⟩ := cstr_some.1 hc
  refine ⟨_, rest, h4, h5, ?_⟩
  apply Decidable.byContradiction
  intro hge
  generalize hn : (b.drop off).takeWhile (· ≠ 0) = name at *
  rw [h4, List.getElem?_append_left (by omega)] at hm
  exact h5 (List.mem_of_getElem? hm)

theorem readContainer_ok {b : Bytes} {secs : List Sec} (h : readContainer b = .ok secs) :
    ∃ st d, u32 b 16 = .ok st ∧ u32 b 20 = .ok d ∧
      ∀ s ∈ secs, st ≤ s.name ∧ StringBefore b s.name d := by
  unfold readContainer at h
  simp only [V.bind_eq_ok, rejectIf_ok] at h
  obtain ⟨st, hst, _, _, n, hn, _, _, d, hd, ⟨secs', last⟩, h1, found, h2, _, h3, h4⟩ := h
  cases h4
  refine ⟨st, d, hst, hd, fun s hs => ?_⟩
  have h5 := (readSections_ok h1).2 s hs
  have : found = true := by simpa using h3
  subst this
  obtain ⟨k, hk1, hk2, hk3⟩ := findTerminator_ok h2
  exact ⟨h5.1, stringBefore_of (by omega) (by omega) hk3⟩

theorem findSection_ok {b : Bytes} {name : Bytes} : ∀ {secs : List Sec} {s : Sec},
    findSection b name secs = .ok (some s) → s ∈ secs
  | [], s, h => by cases h
  | t :: secs, s, h => by
    unfold findSection at h
    simp only [V.bind_eq_ok] at h
    obtain ⟨n, _, h⟩ := h
    split at h
    · cases h; exact List.mem_cons_self ..
    · exact List.mem_cons_of_mem _ (findSection_ok h)

theorem need_ok {b : Bytes} {name : String} {secs : List Sec} {s : Sec} (h : need b secs name = .ok s) :
    findSection b (ascii name) secs = .ok (some s) := by
  unfold need at h
  simp only [V.bind_eq_ok] at h
  obtain ⟨o, h1, h2⟩ := h
  cases o with
  | none => cases h2
  | some t => cases h2; exact h1

/-- A string section that holds only terminated strings. -/
def Terminated (b : Bytes) (s : Sec) : Prop :=
  Inside b s.dataoffs s.size ∧ (s.size ≠ 0 → b[s.dataoffs + s.size - 1]? = some 0)

theorem last_zero {b : Bytes} {off x : Nat} (h : u8 b off = .ok x) (h0 : ¬ x ≠ 0) : b[off]? = some 0 := by
  obtain ⟨_, y, hy, hy'⟩ := u8_ok h
  rw [hy]
  congr 1
  apply BitVec.eq_of_toNat_eq
  rw [hy']
  simpa using h0

theorem validateNames_ok {b : Bytes} {secs : List Sec} {s : Sec} (h : validateNames b secs = .ok s) :
    Terminated b s := by
  unfold validateNames at h
  simp only [V.bind_eq_ok, rejectIf_ok] at h
  obtain ⟨t, h1, _, h2, h3⟩ := h
  split at h3
  · simp only [V.bind_eq_ok, rejectIf_ok] at h3
    obtain ⟨x, hx, _, h0, h4⟩ := h3
    cases h4
    exact ⟨sectionOk_inside h2, fun _ => last_zero hx h0⟩
  · rename_i hz
    cases h3
    exact ⟨sectionOk_inside h2, fun h => absurd h hz⟩

/-- An offset below the size of such a section names a string inside it. -/
theorem Terminated.string {b : Bytes} {s : Sec} (h : Terminated b s) {off : Nat} (ho : off < s.size) :
    StringBefore b (s.dataoffs + off) (s.dataoffs + s.size) :=
  stringBefore_of (k := s.dataoffs + s.size - 1) (by omega) (by omega) (h.2 (by omega))

theorem validateCode_ok {b : Bytes} {secs : List Sec} {c : CodeInfo} (h : validateCode b secs = .ok c) :
    Inside b c.blob.offs c.blob.length ∧ c.blob.length ≤ c.sectionSize ∧ 9 ≤ c.version ∧ c.version ≤ 14 ∧
      ∃ s, findSection b (ascii ".code") secs = .ok (some s) ∧ s.size = c.sectionSize ∧ s.dataoffs ≤ c.blob.offs ∧
        c.blob.offs + c.blob.length ≤ s.dataoffs + s.size := by
  unfold validateCode at h
  simp only [V.bind_eq_ok, rejectIf_ok] at h
  obtain ⟨s, h1, _, h2, codesize, h3, cellsize, h4, version, h5, flags, h6, code, h7, _, h8, _, h9, _, h10, _, h11, _, h12, _,
    h13, h⟩ := h
  have hi := sectionOk_inside h2
  have hc : ∃ features, (⟨⟨s.dataoffs + code, codesize⟩, version, features, s.size⟩ : CodeInfo) = c := by
    split at h
    · simp only [V.bind_eq_ok, rejectIf_ok, V.pure_eq_ok] at h
      obtain ⟨f, _, _, _, _, _, h⟩ := h
      exact ⟨f, h⟩
    · simp only [V.bind_eq_ok, rejectIf_ok, V.pure_eq_ok] at h
      obtain ⟨f, _, _, _, _, _, h⟩ := h
      exact ⟨f, h⟩
  obtain ⟨features, rfl⟩ := hc
  unfold Inside at hi ⊢
  refine ⟨?_, ?_, ?_, ?_, s, need_ok h1, rfl, ?_, ?_⟩ <;> simp only <;> omega

theorem validateData_ok {b : Bytes} {secs : List Sec} {c : Blob × Nat} (h : validateData b secs = .ok c) :
    Inside b c.1.offs c.1.length := by
  unfold validateData at h
  simp only [V.bind_eq_ok, rejectIf_ok, V.pure_eq_ok] at h
  obtain ⟨s, h1, _, h2, datasize, h3, memsize, h4, data, h5, _, h6, _, h7, rfl⟩ := h
  have hi := sectionOk_inside h2
  unfold Inside at hi ⊢
  simp only
  omega

theorem validateRowNames_ok {b : Bytes} {names : Sec} {base row nameAt : Nat} : ∀ {n i : Nat},
    validateRowNames b names base row nameAt n i = .ok () →
    ∀ k < n, ∃ off, u32 b (base + row * (i + k) + nameAt) = .ok off ∧ off < names.size
  | 0, i, _, k, hk => by omega
  | n+1, i, h, k, hk => by
    unfold validateRowNames at h
    simp only [V.bind_eq_ok, rejectIf_ok] at h
    obtain ⟨name, h1, _, h2, h3⟩ := h
    match k with
    | 0 => exact ⟨name, h1, by omega⟩
    | k+1 =>
      obtain ⟨off, h4, h5⟩ := validateRowNames_ok h3 k (by omega)
      exact ⟨off, by rw [show i + (k + 1) = i + 1 + k by omega]; exact h4, h5⟩

/-- A table with a name in every row. -/
def NamedTable (b : Bytes) (names : Sec) (row nameAt : Nat) (t : Nat × Nat) : Prop :=
  Inside b t.1 (row * t.2) ∧ ∀ i < t.2, ∃ off, u32 b (t.1 + row * i + nameAt) = .ok off ∧
    StringBefore b (names.dataoffs + off) (names.dataoffs + names.size)

theorem validateList_ok {b : Bytes} {secs : List Sec} {names : Sec} {name : String} {row nameAt : Nat} {t : Nat × Nat}
    (hn : Terminated b names) (h : validateList b secs names name row nameAt = .ok t) :
    NamedTable b names row nameAt t := by
  unfold validateList at h
  simp only [V.bind_eq_ok] at h
  obtain ⟨o, h1, h2⟩ := h
  cases o with
  | none =>
    cases h2
    exact ⟨by unfold Inside; simp, fun i hi => absurd hi (by omega)⟩
  | some s =>
    simp only [V.bind_eq_ok, rejectIf_ok, V.pure_eq_ok] at h2
    obtain ⟨_, h3, _, h4, _, h5, rfl⟩ := h2
    have hi := sectionOk_inside h3
    refine ⟨?_, fun i hi => ?_⟩
    · unfold Inside at hi ⊢
      have := Nat.mul_div_le s.size row
      simp only
      omega
    · obtain ⟨off, h6, h7⟩ := validateRowNames_ok h5 i hi
      rw [Nat.zero_add] at h6
      exact ⟨off, h6, hn.string h7⟩

theorem readTable_ok {b : Bytes} {s : Sec} {t : Table} (h : readTable b s = .ok t) :
    Inside b t.base (t.rowSize * t.rows) := by
  unfold readTable at h
  simp only [V.bind_eq_ok, rejectIf_ok, V.pure_eq_ok] at h
  obtain ⟨_, h1, _, h2, header, h3, row, h4, rows, h5, _, h6, _, h7, _, h8, _, h9, rfl⟩ := h
  have hi := sectionOk_inside h1
  unfold Inside at hi ⊢
  simp only
  omega

theorem needTable_ok {b : Bytes} {secs : List Sec} {name : String} {t : Table} (h : needTable b secs name = .ok t) :
    Inside b t.base (t.rowSize * t.rows) := by
  unfold needTable at h
  simp only [V.bind_eq_ok] at h
  obtain ⟨s, _, h⟩ := h
  exact readTable_ok h

theorem optTable_ok {b : Bytes} {secs : List Sec} {name : String} {o : Option Table} (h : optTable b secs name = .ok o) :
    ∀ t, o = some t → Inside b t.base (t.rowSize * t.rows) := by
  unfold optTable at h
  simp only [V.bind_eq_ok] at h
  obtain ⟨r, _, h⟩ := h
  cases r with
  | none => cases h; simp
  | some s =>
    simp only [V.bind_eq_ok, V.pure_eq_ok] at h
    obtain ⟨t, h1, rfl⟩ := h
    intro t' ht
    cases ht
    exact readTable_ok h1

theorem forRows_ok {f : Nat → V Unit} : ∀ {n i : Nat}, forRows f n i = .ok () → ∀ k < n, f (i + k) = .ok ()
  | 0, _, _, k, hk => by omega
  | n+1, i, h, k, hk => by
    unfold forRows at h
    simp only [V.bind_eq_ok] at h
    obtain ⟨_, h1, h2⟩ := h
    match k with
    | 0 => exact h1
    | k+1 => rw [show i + (k + 1) = i + 1 + k by omega]; exact forRows_ok h2 k (by omega)

theorem accept_ok {r : Rtti.PRes Bool} {u : Unit} (h : accept r = .ok u) : ∃ rest, r = .ok rest true := by
  unfold accept at h
  split at h
  · rename_i rest; exact ⟨rest, rfl⟩
  · cases h
  · cases h

/-- A method row: named, with an accepted signature and a range inside the `.code` section. -/
structure MethodRow (b : Bytes) (names : Sec) (code : CodeInfo) (blob : Bytes) (t : Table) (i : Nat) : Prop where
  name : ∃ off, t.field b i 0 = .ok off ∧ StringBefore b (names.dataoffs + off) (names.dataoffs + names.size)
  range : ∃ start stop, t.field b i 4 = .ok start ∧ t.field b i 8 = .ok stop ∧ start ≤ stop ∧
    start < code.sectionSize ∧ stop ≤ code.sectionSize
  signature : ∃ sig rest, t.field b i 12 = .ok sig ∧
    Rtti.validateFunction (fuelFor blob) (blob.drop sig) = .ok rest true
  locals : (code.version ≥ 14 ↔ t.rowSize ≥ 20) ∧ (t.rowSize ≥ 20 → ∃ locals rest, t.field b i 16 = .ok locals ∧
    validateLocalSlots blob locals = .ok rest true)

theorem validateMethodRow_ok {b : Bytes} {names : Sec} {code : CodeInfo} {blob : Bytes} {t : Table} {i : Nat}
    (hn : Terminated b names) (h : validateMethodRow b names code blob t i = .ok ()) :
    MethodRow b names code blob t i := by
  unfold validateMethodRow at h
  simp only [V.bind_eq_ok, rejectIf_ok] at h
  obtain ⟨name, h1, _, h2, sig, h3, _, h4, start, h5, stop, h6, _, h7, _, h8, _, h9, h10⟩ := h
  obtain ⟨rest, h4⟩ := accept_ok h4
  refine ⟨⟨name, h1, hn.string (by omega)⟩, ⟨start, stop, h5, h6, by omega, by omega, by omega⟩, ⟨sig, rest, h3, h4⟩, ?_, ?_⟩
  · split at h10
    · simp only [V.bind_eq_ok, rejectIf_ok] at h10
      obtain ⟨_, h11, _⟩ := h10
      omega
    · simp only [rejectIf_ok] at h10
      omega
  · intro hr
    rw [if_pos hr] at h10
    simp only [V.bind_eq_ok, rejectIf_ok] at h10
    obtain ⟨_, h11, locals, h12, h13⟩ := h10
    obtain ⟨r, h13⟩ := accept_ok h13
    exact ⟨locals, r, h12, h13⟩

/-- A named row whose signature is accepted: natives and typesets. -/
def SigRow (v : Bytes → Rtti.PRes Bool) (b : Bytes) (names : Sec) (blob : Bytes) (t : Table) (i : Nat) : Prop :=
  (∃ off, t.field b i 0 = .ok off ∧ StringBefore b (names.dataoffs + off) (names.dataoffs + names.size)) ∧
  ∃ sig rest, t.field b i 4 = .ok sig ∧ v (blob.drop sig) = .ok rest true

theorem validateNativeRow_ok {b : Bytes} {names : Sec} {blob : Bytes} {t : Table} {i : Nat}
    (hn : Terminated b names) (h : validateNativeRow b names blob t i = .ok ()) :
    SigRow (Rtti.validateFunction (fuelFor blob)) b names blob t i := by
  unfold validateNativeRow at h
  simp only [V.bind_eq_ok, rejectIf_ok] at h
  obtain ⟨name, h1, _, h2, sig, h3, h4⟩ := h
  obtain ⟨rest, h4⟩ := accept_ok h4
  exact ⟨⟨name, h1, hn.string (by omega)⟩, sig, rest, h3, h4⟩

theorem validateTypesetRow_ok {b : Bytes} {names : Sec} {blob : Bytes} {t : Table} {i : Nat}
    (hn : Terminated b names) (h : validateTypesetRow b names blob t i = .ok ()) :
    SigRow (Rtti.validateTypeset (fuelFor blob)) b names blob t i := by
  unfold validateTypesetRow at h
  simp only [V.bind_eq_ok, rejectIf_ok] at h
  obtain ⟨name, h1, _, h2, sig, h3, h4⟩ := h
  obtain ⟨rest, h4⟩ := accept_ok h4
  exact ⟨⟨name, h1, hn.string (by omega)⟩, sig, rest, h3, h4⟩

/-- A row of an owner table: its name, and its fields `first, …, stop - 1`, which exist, are named and typed. -/
def OwnerRow (b : Bytes) (names : Sec) (blob : Bytes) (t fs : Table) (nameAt firstAt fNameAt fTypeAt : Nat) (i : Nat) : Prop :=
  (∃ off, t.field b i nameAt = .ok off ∧ StringBefore b (names.dataoffs + off) (names.dataoffs + names.size)) ∧
  ∃ first stop, t.field b i firstAt = .ok first ∧
    (if i ≠ t.rows - 1 then t.field b (i + 1) firstAt = .ok stop else stop = fs.rows) ∧
    first < stop ∧ stop ≤ fs.rows ∧
    ∀ j, first ≤ j → j < stop →
      (∃ off, fs.field b j fNameAt = .ok off ∧ StringBefore b (names.dataoffs + off) (names.dataoffs + names.size)) ∧
      ∃ type rest, fs.field b j fTypeAt = .ok type ∧ Rtti.validateType (fuelFor blob) blob type = .ok rest true

theorem validateOwnerRow_ok {b : Bytes} {names : Sec} {blob : Bytes} {t fs : Table} {nameAt firstAt fNameAt fTypeAt : Nat}
    {f : Nat → Nat → V Unit} {i : Nat} (hn : Terminated b names)
    (hf : ∀ i j, f i j = .ok () → j < fs.rows ∧
      (∃ off, fs.field b j fNameAt = .ok off ∧ StringBefore b (names.dataoffs + off) (names.dataoffs + names.size)) ∧
      ∃ type rest, fs.field b j fTypeAt = .ok type ∧ Rtti.validateType (fuelFor blob) blob type = .ok rest true)
    (h : validateOwnerRow b names t fs nameAt firstAt f i = .ok ()) :
    OwnerRow b names blob t fs nameAt firstAt fNameAt fTypeAt i := by
  unfold validateOwnerRow at h
  simp only [V.bind_eq_ok, rejectIf_ok] at h
  obtain ⟨name, h1, _, h2, h⟩ := h
  have h' : ∃ stop, (if i ≠ t.rows - 1 then t.field b (i + 1) firstAt else pure fs.rows) = .ok stop ∧
      ∃ first, t.field b i firstAt = .ok first ∧ ¬ first ≥ stop ∧ forRows (f i) (stop - first) first = .ok () := by
    split at h
    · rename_i hi
      simp only [V.bind_eq_ok, rejectIf_ok] at h
      obtain ⟨stop, h3, first, h4, _, h5, h6⟩ := h
      exact ⟨stop, by rw [if_pos hi]; exact h3, first, h4, h5, h6⟩
    · rename_i hi
      simp only [V.bind_eq_ok, rejectIf_ok] at h
      obtain ⟨stop, h3, first, h4, _, h5, h6⟩ := h
      exact ⟨stop, by rw [if_neg hi]; exact h3, first, h4, h5, h6⟩
  obtain ⟨stop, h3, first, h4, h5, h6⟩ := h'
  have h7 := forRows_ok h6
  refine ⟨⟨name, h1, hn.string (by omega)⟩, first, stop, h4, ?_, by omega, ?_, ?_⟩
  · split
    · rename_i hi; rw [if_pos hi] at h3; exact h3
    · rename_i hi; rw [if_neg hi] at h3; cases h3; rfl
  · have := (hf i _ (h7 (stop - first - 1) (by omega))).1
    omega
  · intro j hj hj'
    have := h7 (j - first) (by omega)
    rw [show first + (j - first) = j by omega] at this
    exact (hf i j this).2

theorem validateEsField_ok {b : Bytes} {names : Sec} {blob : Bytes} {fs : Table} {size j : Nat}
    (hn : Terminated b names) (h : validateEsField b names blob fs size j = .ok ()) : j < fs.rows ∧
      (∃ off, fs.field b j 0 = .ok off ∧ StringBefore b (names.dataoffs + off) (names.dataoffs + names.size)) ∧
      ∃ type rest, fs.field b j 4 = .ok type ∧ Rtti.validateType (fuelFor blob) blob type = .ok rest true := by
  unfold validateEsField at h
  simp only [V.bind_eq_ok, rejectIf_ok] at h
  obtain ⟨_, h0, name, h1, _, h2, offset, h3, _, h4, type, h5, h6⟩ := h
  obtain ⟨rest, h6⟩ := accept_ok h6
  exact ⟨by omega, ⟨name, h1, hn.string (by omega)⟩, type, rest, h5, h6⟩

theorem validateField_ok {b : Bytes} {names : Sec} {blob : Bytes} {fs : Table} {j : Nat}
    (hn : Terminated b names) (h : validateField b names blob fs j = .ok ()) : j < fs.rows ∧
      (∃ off, fs.field b j 2 = .ok off ∧ StringBefore b (names.dataoffs + off) (names.dataoffs + names.size)) ∧
      ∃ type rest, fs.field b j 6 = .ok type ∧ Rtti.validateType (fuelFor blob) blob type = .ok rest true := by
  unfold validateField at h
  simp only [V.bind_eq_ok, rejectIf_ok] at h
  obtain ⟨_, h0, name, h1, _, h2, type, h5, h6⟩ := h
  obtain ⟨rest, h6⟩ := accept_ok h6
  exact ⟨by omega, ⟨name, h1, hn.string (by omega)⟩, type, rest, h5, h6⟩

/-- Everything the RTTI sections promise. -/
structure RttiOk (b : Bytes) (names : Sec) (code : CodeInfo) (r : RttiTables) : Prop where
  blob : Inside b r.blob.offs r.blob.length
  methods : Inside b r.methods.base (r.methods.rowSize * r.methods.rows) ∧
    ∀ i < r.methods.rows, MethodRow b names code ((b.drop r.blob.offs).take r.blob.length) r.methods i
  natives : Inside b r.natives.base (r.natives.rowSize * r.natives.rows) ∧ ∀ i < r.natives.rows,
    SigRow (Rtti.validateFunction (fuelFor ((b.drop r.blob.offs).take r.blob.length))) b names
      ((b.drop r.blob.offs).take r.blob.length) r.natives i
  enums : ∀ t, r.enums = some t → Inside b t.base (t.rowSize * t.rows) ∧ ∀ i < t.rows,
    ∃ off, t.field b i 0 = .ok off ∧ StringBefore b (names.dataoffs + off) (names.dataoffs + names.size)
  enumstructs : ∀ t, r.enumstructs = some t → Inside b t.base (t.rowSize * t.rows) ∧
    ∃ fs, r.esFields = some fs ∧ Inside b fs.base (fs.rowSize * fs.rows) ∧
      ∀ i < t.rows, OwnerRow b names ((b.drop r.blob.offs).take r.blob.length) t fs 0 4 0 4 i
  classdefs : ∀ t, r.classdefs = some t → Inside b t.base (t.rowSize * t.rows) ∧
    ∃ fs, r.fields = some fs ∧ Inside b fs.base (fs.rowSize * fs.rows) ∧
      ∀ i < t.rows, OwnerRow b names ((b.drop r.blob.offs).take r.blob.length) t fs 4 8 2 6 i
  typesets : ∀ t, r.typesets = some t → Inside b t.base (t.rowSize * t.rows) ∧ ∀ i < t.rows,
    SigRow (Rtti.validateTypeset (fuelFor ((b.drop r.blob.offs).take r.blob.length))) b names
      ((b.drop r.blob.offs).take r.blob.length) t i

theorem validateRtti_ok {b : Bytes} {secs : List Sec} {names : Sec} {code : CodeInfo} {o : Option RttiTables}
    (hn : Terminated b names) (h : validateRtti b secs names code = .ok o) : ∀ r, o = some r → RttiOk b names code r := by
  unfold validateRtti at h
  simp only [V.bind_eq_ok] at h
  obtain ⟨s, _, h⟩ := h
  cases s with
  | none => cases h; simp
  | some s =>
    simp only [V.bind_eq_ok, rejectIf_ok] at h
    obtain ⟨_, h1, methods, h2, natives, h3, _, h4, _, h5, classdefs, h6, enums, h7, enumstructs, h8, esFields, h9,
      fields, h10, _, h11, typesets, h12, _, h13, _, h14, _, h15, _, h16, h17⟩ := h
    cases h17
    intro r hr
    cases hr
    have hrow : ∀ i < methods.rows, _ := fun i hi => by
      have := forRows_ok h4 i hi
      rw [Nat.zero_add] at this
      exact validateMethodRow_ok hn this
    have hnat : ∀ i < natives.rows, _ := fun i hi => by
      have := forRows_ok h5 i hi
      rw [Nat.zero_add] at this
      exact validateNativeRow_ok hn this
    refine ⟨sectionOk_inside h1, ⟨needTable_ok h2, hrow⟩, ⟨needTable_ok h3, hnat⟩, ?_, ?_, ?_, ?_⟩
    · intro t ht
      refine ⟨optTable_ok h7 t ht, fun i hi => ?_⟩
      simp only at ht
      subst ht
      have := forRows_ok h13 i hi
      rw [Nat.zero_add] at this
      unfold validateEnumRow at this
      simp only [V.bind_eq_ok, rejectIf_ok] at this
      obtain ⟨name, h1, h2⟩ := this
      exact ⟨name, h1, hn.string (by omega)⟩
    · intro t ht
      refine ⟨optTable_ok h8 t ht, ?_⟩
      simp only at ht
      subst ht
      cases esFields with
      | none => cases h14
      | some fs =>
        refine ⟨fs, rfl, optTable_ok h9 fs rfl, fun i hi => ?_⟩
        have := forRows_ok h14 i hi
        rw [Nat.zero_add] at this
        refine validateOwnerRow_ok hn ?_ this
        intro i j hij
        simp only [V.bind_eq_ok] at hij
        obtain ⟨size, _, hij⟩ := hij
        exact validateEsField_ok hn hij
    · intro t ht
      refine ⟨optTable_ok h6 t ht, ?_⟩
      simp only at ht
      subst ht
      cases fields with
      | none => cases h15
      | some fs =>
        refine ⟨fs, rfl, optTable_ok h10 fs rfl, fun i hi => ?_⟩
        have := forRows_ok h15 i hi
        rw [Nat.zero_add] at this
        exact validateOwnerRow_ok hn (fun i j hij => validateField_ok hn hij) this
    · intro t ht
      refine ⟨optTable_ok h12 t ht, fun i hi => ?_⟩
      simp only at ht
      subst ht
      have := forRows_ok h16 i hi
      rw [Nat.zero_add] at this
      exact validateTypesetRow_ok hn this

theorem validateDebugInfo_ok {b : Bytes} {secs : List Sec} {names : Sec} {o : Option DebugInfo}
    (hn : Terminated b names) (h : validateDebugInfo b secs names = .ok o) : ∀ d, o = some d →
      Terminated b d.names ∧ Inside b d.files.1 (8 * d.files.2) ∧ Inside b d.lines.1 (8 * d.lines.2) := by
  unfold validateDebugInfo at h
  simp only [V.bind_eq_ok] at h
  obtain ⟨s, _, h⟩ := h
  cases s with
  | none => cases h; simp
  | some s =>
    simp only [V.bind_eq_ok, rejectIf_ok] at h
    obtain ⟨_, h1, dn, ⟨ds, _, hds⟩, files, h2, _, h3, numFiles, h4, _, h5, lines, h6, _, h7, numLines, h8, _, h9, sym, _, h10⟩ := h
    have hdn : Terminated b dn := by
      cases ds with
      | none => cases hds; exact hn
      | some ds =>
        simp only [V.bind_eq_ok, rejectIf_ok] at hds
        obtain ⟨_, hd1, hd2⟩ := hds
        split at hd2
        · simp only [V.bind_eq_ok, rejectIf_ok] at hd2
          obtain ⟨x, hx, _, hx0, hd3⟩ := hd2
          cases hd3
          exact ⟨sectionOk_inside hd1, fun _ => last_zero hx hx0⟩
        · rename_i hz
          cases hd2
          exact ⟨sectionOk_inside hd1, fun h => absurd h hz⟩
    have hfin : o = some ⟨dn, (files.dataoffs, numFiles), (lines.dataoffs, numLines)⟩ := by
      cases sym with
      | none =>
        simp only [V.bind_eq_ok] at h10
        obtain ⟨_, _, _, _, _, _, h10⟩ := h10
        cases h10; rfl
      | some s =>
        simp only [V.bind_eq_ok] at h10
        obtain ⟨_, _, h10⟩ := h10
        cases h10; rfl
    intro d hd
    rw [hfin] at hd
    cases hd
    have hf := sectionOk_inside h3
    have hl := sectionOk_inside h7
    refine ⟨hdn, ?_, ?_⟩ <;> unfold Inside at hf hl ⊢ <;> simp only <;> omega

end Verif.Smx

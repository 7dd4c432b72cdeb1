import Verif.Proofs.Source

/-! C45: source positions. -/
namespace Verif.Source

/-! ## One file -/

/-- **C45 in one file.** The line of an offset is one plus the number of line breaks before it; the column is one plus the distance to the
start of the line (0 at the end of the file); beyond the end there is neither. -/
theorem C45_line_and_column (d : List Byte) (off : Nat) :
    (off < d.length → ∃ s, LineStart d off s ∧ offsetToLineAndCol d off = some (lineOf d off, off - s + 1)) ∧
    (off = d.length → offsetToLineAndCol d off = some (lineOf d off, 0)) ∧
    (off > d.length → offsetToLineAndCol d off = none) := by
  refine ⟨offsetToLineAndCol_ok, ?_, ?_⟩
  · intro h
    subst h
    exact offsetToLineAndCol_end d
  · intro h
    unfold offsetToLineAndCol
    rw [if_pos h]

/-- Three lines, with each kind of line break. -/
example : offsetToLineAndCol [97, 13, 10, 98, 13, 99] 5 = some (3, 1) ∧ offsetToLineAndCol [97, 13, 10, 98, 13, 99] 2 = some (1, 3) := by decide +kernel

/-- **The lines of a file, printed below messages, make up the file.** -/
theorem C45_lines_make_up_file (d : List Byte) (hd : (lineExtents d).length < 4294967295) :
    ((List.range (lineOf d d.length)).map (fun k => getLine d (k + 1))).flatten = d := by
  obtain ⟨hs1, hs2⟩ := lineExtents_sorted d
  have hn : lineOf d d.length = (lineExtents d).length := by
    have h1 := offsetToLineAndCol_end d
    unfold offsetToLineAndCol at h1
    rw [if_neg (by omega)] at h1
    simp only at h1
    rw [if_pos trivial] at h1
    injection h1 with h1
    injection h1 with h1
    exact h1.symm
  obtain ⟨e, he⟩ : ∃ e, lineExtents d = 0 :: e := ⟨_, rfl⟩
  have hcut := cut_flat d e 0 (by rw [← he]; exact hs1) (by rw [← he]; exact hs2)
  rw [← he, List.drop_zero] at hcut
  have key : ∀ k ∈ List.range (lineExtents d).length, getLine d (k + 1) = (d.drop ((lineExtents d).getD k 0)).take
      ((if k + 1 = (lineExtents d).length then d.length else (lineExtents d).getD (k + 1) 0) - (lineExtents d).getD k 0) := by
    intro k hk
    rw [List.mem_range] at hk
    have k1 : add32 (k + 1) 4294967295 = k := by unfold add32; omega
    have k2 : add32 (add32 (k + 1) 1) 4294967295 = k + 1 := by unfold add32; omega
    have o1 : offsetOfLine d (k + 1) = some ((lineExtents d).getD k 0) := by
      unfold offsetOfLine offsetOfIndex
      rw [k1, if_neg (by omega), if_neg (by omega)]
    have o2 : offsetOfLine d (add32 (k + 1) 1) = some (if k + 1 = (lineExtents d).length then d.length else (lineExtents d).getD (k + 1) 0) := by
      unfold offsetOfLine offsetOfIndex
      rw [k2, if_neg (by omega)]
      by_cases h : k + 1 = (lineExtents d).length
      · rw [if_pos h, if_pos h]
      · rw [if_neg h, if_neg h]
    rw [getLine, o1, o2, Option.elim_some, Option.getD_some]
  rw [hn, List.map_congr_left key]
  exact hcut

/-! ## Many files and macros -/

/-- What the compiler does with the source manager.  `t` lists the texts entered so far. -/
inductive Step : Sources → List Origin → Sources → List Origin → Prop
  | open {s s' : Sources} {t : List Origin} (d : List Byte) : s.open d = some s' → Step s t s' t
  | enterFile {s s' : Sources} {t : List Origin} (f : Nat) : f < s.opened.length → s.enterFile f = some s' → Step s t s' (t ++ [.file f])
  | enterMacro {s s' : Sources} {t : List Origin} (k off : Nat) (text : List Byte) : k < t.length → off ≤ len s t k →
      s.enterMacro (s.posOf k off) text = some s' → Step s t s' (t ++ [.macro text k off])
  | index {s : Sources} {t : List Origin} (loc : Nat) : Step s t (s.getSourceFileIndex loc).2 t
  | line {s : Sources} {t : List Origin} (loc : Nat) : Step s t (s.getLineAndCol loc).2 t

/-- Any number of steps. -/
inductive Steps : Sources → List Origin → Sources → List Origin → Prop
  | refl {s : Sources} {t : List Origin} : Steps s t s t
  | step {s s1 s2 : Sources} {t t1 t2 : List Origin} : Steps s t s1 t1 → Step s1 t1 s2 t2 → Steps s t s2 t2

theorem Step.mono {s s' : Sources} {t t' : List Origin} (h : Step s t s' t') (hi : Inv s t) (hs : Small s' t') :
    Inv s' t' ∧ Small s t ∧ (∀ k, k < t.length → s'.rg k = s.rg k ∧ len s' t' k = len s t k) ∧ (∃ u, t' = t ++ u) ∧ (∃ u, s'.opened = s.opened ++ u) := by
  have cached : ∀ {s1 : Sources}, Cached s s1 → Small s1 t → Inv s1 t ∧ Small s t ∧ (∀ k, k < t.length → s1.rg k = s.rg k ∧ len s1 t k = len s t k) ∧
      (∃ u, t = t ++ u) ∧ (∃ u, s1.opened = s.opened ++ u) := by
    intro s1 hc hsm
    have h1 := hi.cached hc
    obtain ⟨l, hl, rfl⟩ := hc
    exact ⟨h1, hsm, fun _ _ => ⟨rfl, rfl⟩, ⟨[], by simp⟩, ⟨[], by simp⟩⟩
  cases h with
  | «open» d ho =>
    unfold Sources.open at ho
    split at ho
    · cases ho
    · injection ho with ho
      subst ho
      have hlen : ∀ o ∈ t, o.length (s.opened ++ [d]) = o.length s.opened := by
        intro o ho
        obtain ⟨k, hk, rfl⟩ := List.mem_iff_getElem.1 ho
        exact Origin.length_prefix (hi.texts k _ (List.getElem?_eq_getElem hk)) rfl
      refine ⟨hi.opened d, ?_, ?_, ⟨[], by simp⟩, ⟨[d], rfl⟩⟩
      · intro o ho
        rw [← hlen o ho]
        exact hs o ho
      · intro k hk
        refine ⟨rfl, ?_⟩
        unfold len
        rw [List.getD_eq_getElem?_getD, List.getElem?_eq_getElem hk, Option.getD_some]
        exact hlen _ (List.getElem_mem hk)
  | enterFile f hf ho =>
    unfold Sources.enterFile at ho
    split at ho
    · cases ho
    · rename_i n hn
      injection ho with ho
      subst ho
      have hsm : (Origin.file f).length s.opened < 4294967296 := hs _ (by simp)
      refine ⟨hi.enter (.file f) 0 (.file f) hsm n hn ⟨rfl, rfl, hf⟩ (by intro _ _ _ h; cases h), fun o ho => hs o (List.mem_append_left _ ho), ?_,
        ⟨_, rfl⟩, ⟨[], by simp⟩⟩
      intro k hk
      have hc := hi.count
      exact ⟨getD_append_lt _ _ _ (by omega), by unfold len; rw [getD_append_lt _ _ _ hk]⟩
  | enterMacro k off text hk hoff ho =>
    unfold Sources.enterMacro at ho
    split at ho
    · cases ho
    · rename_i n hn
      injection ho with ho
      subst ho
      have hsm : (Origin.macro text k off).length s.opened < 4294967296 := hs _ (by simp)
      refine ⟨hi.enter (.macro text k off) _ (.text text) hsm n hn ⟨rfl, rfl, hk, hoff⟩ (by intro _ _ _ h; cases h; exact hk),
        fun o ho => hs o (List.mem_append_left _ ho), ?_, ⟨_, rfl⟩, ⟨[], by simp⟩⟩
      intro k hk
      have hc := hi.count
      exact ⟨getD_append_lt _ _ _ (by omega), by unfold len; rw [getD_append_lt _ _ _ hk]⟩
  | index loc => exact cached (getSourceFileIndex_cached loc hi.last) hs
  | line loc => exact cached (getLineAndCol_cached loc hi.last) hs

theorem Inv.init : Inv {} [] := by
  refine ⟨rfl, ?_, ?_, ?_, by decide, by decide, by decide, rfl⟩
  · intro k o h; cases h
  · intro j k _ h; cases h
  · intro k h; cases h

theorem Step.last {s s' : Sources} {t t' : List Origin} (h : Step s t s' t') (hl : s.last < s.ranges.length) : s'.last < s'.ranges.length := by
  cases h with
  | «open» d ho =>
    unfold Sources.open at ho
    split at ho
    · cases ho
    · injection ho with ho
      subst ho
      exact hl
  | enterFile f hf ho =>
    unfold Sources.enterFile at ho
    split at ho
    · cases ho
    · injection ho with ho
      subst ho
      simp only [List.length_append]
      omega
  | enterMacro k off text hk hoff ho =>
    unfold Sources.enterMacro at ho
    split at ho
    · cases ho
    · injection ho with ho
      subst ho
      simp only [List.length_append]
      omega
  | index loc => exact (getSourceFileIndex_cached loc hl).last_lt
  | line loc => exact (getLineAndCol_cached loc hl).last_lt

theorem Steps.last {s s' : Sources} {t t' : List Origin} (h : Steps s t s' t') (hl : s.last < s.ranges.length) : s'.last < s'.ranges.length := by
  induction h with
  | refl => exact hl
  | step _ h ih => exact h.last ih

theorem Step.small {s s' : Sources} {t t' : List Origin} (h : Step s t s' t') (hl : s.last < s.ranges.length) (hs : Small s' t') : Small s t := by
  cases h with
  | «open» d ho =>
    unfold Sources.open at ho
    split at ho
    · cases ho
    · injection ho with ho
      subst ho
      intro o ho
      have := hs o ho
      cases o with
      | «macro» => exact this
      | file f =>
        show (s.opened.getD f []).length < 4294967296
        have this : ((s.opened ++ [d]).getD f []).length < 4294967296 := this
        by_cases hf : f < s.opened.length
        · rw [getD_append_lt _ _ _ hf] at this
          exact this
        · rw [List.getD_eq_getElem?_getD, List.getElem?_eq_none (by omega)]
          decide
  | enterFile f hf ho =>
    unfold Sources.enterFile at ho
    split at ho
    · cases ho
    · injection ho with ho
      subst ho
      exact fun o ho => hs o (List.mem_append_left _ ho)
  | enterMacro k off text hk hoff ho =>
    unfold Sources.enterMacro at ho
    split at ho
    · cases ho
    · injection ho with ho
      subst ho
      exact fun o ho => hs o (List.mem_append_left _ ho)
  | index loc =>
    obtain ⟨l, _, e⟩ := getSourceFileIndex_cached loc hl
    rw [e] at hs
    exact hs
  | line loc =>
    obtain ⟨l, _, e⟩ := getLineAndCol_cached loc hl
    rw [e] at hs
    exact hs

theorem Steps.small {s s' : Sources} {t t' : List Origin} (h : Steps s t s' t') (hl : s.last < s.ranges.length) : Small s' t' → Small s t := by
  induction h with
  | refl => exact id
  | step hh hstep ih => exact fun hs => ih (hstep.small (hh.last hl) hs)

theorem Steps.mono {s s' : Sources} {t t' : List Origin} (h : Steps s t s' t') (hi : Inv s t) : Small s' t' →
    Inv s' t' ∧ Small s t ∧ (∀ k, k < t.length → s'.rg k = s.rg k ∧ len s' t' k = len s t k) ∧ (∃ u, t' = t ++ u) := by
  induction h with
  | refl => intro hs; exact ⟨hi, hs, fun _ _ => ⟨rfl, rfl⟩, [], by simp⟩
  | step hh hstep ih =>
    intro hs
    rename_i s1 s2 t0 t1 t2
    have hsm := hstep.small (hh.last hi.last) hs
    obtain ⟨i1, i2, i3, u, i4⟩ := ih hi hsm
    obtain ⟨j1, j2, j3, ⟨v, j4⟩, _⟩ := hstep.mono i1 hs
    refine ⟨j1, i2, ?_, u ++ v, by rw [j4, i4, List.append_assoc]⟩
    intro k hk
    have hk1 : k < t1.length := by rw [i4, List.length_append]; omega
    exact ⟨by rw [(j3 k hk1).1, (i3 k hk).1], by rw [(j3 k hk1).2, (i3 k hk).2]⟩

/-- Every position of a text comes from a position of a file. -/
theorem Inv.comes {s : Sources} {t : List Origin} (h : Inv s t) : ∀ (k off : Nat), k < t.length → ∃ f o, Comes t k off f o := by
  intro k
  induction k using Nat.strongRecOn with
  | _ k ih =>
    intro off hk
    have ht : t[k]? = some t[k] := List.getElem?_eq_getElem hk
    have hm := h.texts k _ ht
    cases ho : t[k] with
    | file f =>
      rw [ho] at ht
      exact ⟨f, off, .file off ht⟩
    | «macro» text k' off' =>
      rw [ho] at ht hm
      obtain ⟨f, o, hc⟩ := ih k' hm.2.2.1 off' (by have := hm.2.2.1; omega)
      exact ⟨f, o, .macro off ht hc⟩

/-- A position recorded in state `s`, looked up in a later state `s'`, is that of a text that came from file `f`, offset `o`. -/
theorem lookup {s s' : Sources} {t t' : List Origin} (h : Steps {} [] s t) (h' : Steps s t s' t') (hs : Small s' t') {k off : Nat} (hk : k < t.length)
    (ho : off ≤ len s t k) : ∃ f o, Comes t k off f o ∧ ∃ j s2, s'.findSourceFileRangeIndex (s.posOf k off) = (j + 1, s'.posOf j o, s2) ∧
      t'[j]? = some (.file f) ∧ j < t'.length ∧ o ≤ len s' t' j ∧ Cached s' s2 ∧ Inv s' t' ∧ s.posOf k off ≠ 0 := by
  have hsm := h'.small (h.last (by decide)) hs
  have hi := (h.mono Inv.init hsm).1
  obtain ⟨hi', _, hrg, u, ht'⟩ := h'.mono hi hs
  obtain ⟨f, o, hc⟩ := hi.comes k off hk
  have hk' : k < t'.length := by rw [ht', List.length_append]; omega
  have hc' : Comes t' k off f o := by
    have : ∀ {k off f o : Nat}, Comes t k off f o → Comes (t ++ u) k off f o := by
      intro k off f o hc
      have hlt : ∀ {k : Nat} {x : Origin}, t[k]? = some x → (t ++ u)[k]? = some x := by
        intro k x hx
        rw [List.getElem?_append_left (List.getElem?_eq_some_iff.1 hx).1]
        exact hx
      induction hc with
      | file off h => exact .file off (hlt h)
      | «macro» off h _ ih => exact .macro off (hlt h) ih
    rw [ht']
    exact this hc
  have hp : s.posOf k off = s'.posOf k off := by
    unfold Sources.posOf
    rw [(hrg k hk).1]
  obtain ⟨j, s2, e1, e2, e3, e4⟩ := findSourceFileRangeIndex_ok hi' hs hk' (by rw [(hrg k hk).2]; exact ho) hc'
  refine ⟨f, o, hc, j, s2, by rw [hp]; exact e1, e2, (List.getElem?_eq_some_iff.1 e2).1, e3, e4, hi', ?_⟩
  exact (posOf_offset hi hk ho).2

/-- **C45.** After any history of opened files, entered files and macros, and lookups, a position recorded at offset `off` of the `k`-th text
entered, looked up at any later time, comes from exactly one place `o` of one file `f` (for the text of a macro, where it was expanded);
the file index is `f`, and line and column are those of `o` in the contents of `f`.
Missing: texts of 2^32 bytes or more; see `C45_huge_file`. -/
theorem C45_positions_partial (s s' : Sources) (t t' : List Origin) (h : Steps {} [] s t) (h' : Steps s t s' t')
    (hs : ∀ x ∈ t', x.length s'.opened < 4294967296) (k off : Nat) (x : Origin) (hk : t[k]? = some x) (ho : off ≤ x.length s.opened) :
    ∃ f o d, Comes t k off f o ∧ s'.opened[f]? = some d ∧ o ≤ d.length ∧ (s'.getSourceFileIndex (s.posOf k off)).1 = f ∧
      some (s'.getLineAndCol (s.posOf k off)).1 = offsetToLineAndCol d o := by
  have hklt : k < t.length := (List.getElem?_eq_some_iff.1 hk).1
  have hlen : len s t k = x.length s.opened := by
    unfold len
    rw [List.getD_eq_getElem?_getD, hk, Option.getD_some]
  obtain ⟨f, o, hc, j, s2, e1, e2, e3, e4, e5, hi, hne⟩ := lookup h h' hs hklt (by rw [hlen]; exact ho)
  obtain ⟨m1, m2, m3⟩ := hi.texts j _ e2
  have hd : s'.opened[f]? = some s'.opened[f] := List.getElem?_eq_getElem m3
  have hgd : s'.opened.getD f [] = s'.opened[f] := by rw [List.getD_eq_getElem?_getD, hd, Option.getD_some]
  have hlj : len s' t' j = s'.opened[f].length := by
    unfold len
    rw [List.getD_eq_getElem?_getD, e2, Option.getD_some]
    show (s'.opened.getD f []).length = _
    rw [hgd]
  obtain ⟨l2, hl2, rfl⟩ := e5
  have hoff := (posOf_offset hi e3 e4).1
  have hto : (s'.rg j).toOffset (s'.posOf j o) = o := by
    unfold Range.toOffset
    rw [hoff]
    have := hi.fits j e3
    have := hi.max
    omega
  refine ⟨f, o, s'.opened[f], hc, hd, by rw [← hlj]; exact e4, ?_, ?_⟩
  · unfold Sources.getSourceFileIndex
    rw [e1]
    simp only
    rw [if_neg (by omega), show s'.ranges.getD (j + 1) noRange = s'.rg j from rfl, m2]
  · unfold Sources.getLineAndCol
    rw [if_neg hne, e1]
    simp only
    rw [if_neg (by omega)]
    simp only
    have : Sources.lineIn { s' with last := l2 } (j + 1) (s'.posOf j o) = (offsetToLineAndCol s'.opened[f] o).getD (0, 0) := by
      unfold Sources.lineIn
      simp only
      rw [show s'.ranges.getD (j + 1) noRange = s'.rg j from rfl, m2, hto]
      simp only
      rw [hgd]
    rw [this]
    have hsome : ∃ p, offsetToLineAndCol s'.opened[f] o = some p := by
      rw [hlj] at e4
      by_cases hlt : o < s'.opened[f].length
      · obtain ⟨_, _, e⟩ := offsetToLineAndCol_ok hlt
        exact ⟨_, e⟩
      · have : o = s'.opened[f].length := by omega
        rw [this]
        exact ⟨_, offsetToLineAndCol_end _⟩
    obtain ⟨p, hp⟩ := hsome
    rw [hp, Option.getD_some]

/-- **Different positions have different locations.** -/
theorem C45_distinct_partial (s : Sources) (t : List Origin) (h : Steps {} [] s t) (hs : ∀ x ∈ t, x.length s.opened < 4294967296)
    (k k' off off' : Nat) (x x' : Origin) (hk : t[k]? = some x) (hk' : t[k']? = some x') (ho : off ≤ x.length s.opened) (ho' : off' ≤ x'.length s.opened)
    (heq : s.posOf k off = s.posOf k' off') : k = k' ∧ off = off' := by
  have hi := (h.mono Inv.init hs).1
  have hl : ∀ {k : Nat} {x : Origin}, t[k]? = some x → k < t.length ∧ len s t k = x.length s.opened := by
    intro k x hk
    refine ⟨(List.getElem?_eq_some_iff.1 hk).1, ?_⟩
    unfold len
    rw [List.getD_eq_getElem?_getD, hk, Option.getD_some]
  obtain ⟨a1, a2⟩ := hl hk
  obtain ⟨b1, b2⟩ := hl hk'
  have p1 := (posOf_offset hi a1 (by rw [a2]; exact ho)).1
  have p2 := (posOf_offset hi b1 (by rw [b2]; exact ho')).1
  rw [heq, p2] at p1
  by_cases h1 : k < k'
  · have := hi.before k k' h1 b1; omega
  · by_cases h2 : k' < k
    · have := hi.before k' k h2 a1; omega
    · have : k = k' := by omega
      subst this
      exact ⟨rfl, by omega⟩

/-- A file, a macro expanded at offset 2, and a macro expanded in its text; an included file. -/
def sample : Sources :=
  { opened := [[97, 10, 59, 77, 10], [99]]
    ranges := [⟨0, 0, .none⟩, ⟨1, 0, .file 0⟩, ⟨8, 3, .text [40, 78, 41]⟩, ⟨13, 2147483657, .text [98]⟩, ⟨16, 0, .file 1⟩]
    next := 19 }

/-- It is reached, and the location of the text of the inner macro is line 2, column 1 of the first file. -/
example : Steps {} [] sample [.file 0, .macro [40, 78, 41] 0 2, .macro [98] 1 1, .file 1] ∧
    (sample.getLineAndCol (sample.posOf 2 0)).1 = (2, 1) ∧ (sample.getSourceFileIndex (sample.posOf 3 1)).1 = 1 := by
  refine ⟨?_, by decide +kernel, by decide +kernel⟩
  have e1 : Sources.open {} [97, 10, 59, 77, 10] = some { opened := [[97, 10, 59, 77, 10]] } := by decide +kernel
  have e2 : Sources.open { opened := [[97, 10, 59, 77, 10]] } [99] = some { opened := [[97, 10, 59, 77, 10], [99]] } := by decide +kernel
  have e3 : Sources.enterFile { opened := [[97, 10, 59, 77, 10], [99]] } 0 =
      some { opened := [[97, 10, 59, 77, 10], [99]], ranges := sample.ranges.take 2, next := 8 } := by decide +kernel
  have e4 : Sources.enterMacro { opened := [[97, 10, 59, 77, 10], [99]], ranges := sample.ranges.take 2, next := 8 }
      (Sources.posOf { opened := [[97, 10, 59, 77, 10], [99]], ranges := sample.ranges.take 2, next := 8 } 0 2) [40, 78, 41] =
      some { opened := [[97, 10, 59, 77, 10], [99]], ranges := sample.ranges.take 3, next := 13 } := by decide +kernel
  have e5 : Sources.enterMacro { opened := [[97, 10, 59, 77, 10], [99]], ranges := sample.ranges.take 3, next := 13 }
      (Sources.posOf { opened := [[97, 10, 59, 77, 10], [99]], ranges := sample.ranges.take 3, next := 13 } 1 1) [98] =
      some { opened := [[97, 10, 59, 77, 10], [99]], ranges := sample.ranges.take 4, next := 16 } := by decide +kernel
  have e6 : Sources.enterFile { opened := [[97, 10, 59, 77, 10], [99]], ranges := sample.ranges.take 4, next := 16 } 1 = some sample := by
    decide +kernel
  exact .step (.step (.step (.step (.step (.step .refl (.open _ e1)) (.open _ e2)) (.enterFile 0 (by decide) e3))
    (.enterMacro 0 2 _ (by decide) (by decide +kernel) e4)) (.enterMacro 1 1 _ (by decide) (by decide +kernel) e5)) (.enterFile 1 (by decide) e6)

/-- **A file of 2^32 + 5 bytes** gets a range of 5 (its size is cut to 32 bits), and its position 9 is the same location as position 2 of
the next file, which is where it is looked up. -/
theorem C45_huge_file : ∃ s t, Steps {} [] s t ∧ t = [.file 0, .file 1] ∧ (s.opened.getD 0 []).length = 4294967301 ∧
    s.posOf 0 9 = s.posOf 1 2 ∧ (s.getSourceFileIndex (s.posOf 0 9)).1 = 1 := by
  obtain ⟨big, hb⟩ : ∃ d : List Byte, d.length = 4294967301 := ⟨List.replicate 4294967301 65, List.length_replicate⟩
  have e1 : Sources.open {} big = some { opened := [big] } := by
    unfold Sources.open
    rw [if_neg (by simp)]
    rfl
  have e2 : Sources.open { opened := [big] } [66, 67, 68] = some { opened := [big, [66, 67, 68]] } := by
    unfold Sources.open
    rw [if_neg (by simp)]
    rfl
  have t1 : Sources.trackExtents { opened := [big, [66, 67, 68]] } big.length = some 8 := by
    rw [hb]
    unfold Sources.trackExtents
    simp
  have e3 : Sources.enterFile { opened := [big, [66, 67, 68]] } 0 =
      some { opened := [big, [66, 67, 68]], ranges := [⟨0, 0, .none⟩, ⟨1, 0, .file 0⟩], next := 8 } := by
    unfold Sources.enterFile
    rw [show (({ opened := [big, [66, 67, 68]] } : Sources).opened.getD 0 []) = big from rfl, t1]
    rfl
  have t2 : Sources.trackExtents { opened := [big, [66, 67, 68]], ranges := [⟨0, 0, .none⟩, ⟨1, 0, .file 0⟩], next := 8 }
      ([66, 67, 68] : List Byte).length = some 13 := by
    unfold Sources.trackExtents
    simp
  have e4 : Sources.enterFile { opened := [big, [66, 67, 68]], ranges := [⟨0, 0, .none⟩, ⟨1, 0, .file 0⟩], next := 8 } 1 =
      some { opened := [big, [66, 67, 68]], ranges := [⟨0, 0, .none⟩, ⟨1, 0, .file 0⟩, ⟨8, 0, .file 1⟩], next := 13 } := by
    unfold Sources.enterFile
    rw [show (({ opened := [big, [66, 67, 68]], ranges := [⟨0, 0, .none⟩, ⟨1, 0, .file 0⟩], next := 8 } : Sources).opened.getD 1 []) =
      [66, 67, 68] from rfl, t2]
    rfl
  refine ⟨_, _, .step (.step (.step (.step .refl (.open big e1)) (.open _ e2)) (.enterFile 0 (by simp) e3)) (.enterFile 1 (by simp) e4), rfl, hb, ?_, ?_⟩
  · simp [Sources.posOf, Sources.rg, Range.pos, Range.isMacro]
  · simp [Sources.posOf, Sources.rg, Range.pos, Range.isMacro, Sources.getSourceFileIndex, Sources.findSourceFileRangeIndex, Sources.findLocRange,
      Sources.owns, Sources.length, locOffset, Sources.rangeSearch, Sources.expand, noRange]

end Verif.Source

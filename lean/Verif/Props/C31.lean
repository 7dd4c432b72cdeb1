import Verif.Model.Smx
import Verif.Proofs.Lookup

/-! C31: a written container is read back. -/
namespace Verif.Smx
open Verif.Image (Bytes cstr cstr_some)

theorem V.bind_ok {α β} (a : α) (f : α → V β) : (V.ok a >>= f) = f a := rfl

theorem u8_of_drop {b : Bytes} {off : Nat} {x : BitVec 8} {post : Bytes} (h : b.drop off = x :: post) :
    u8 b off = .ok x.toNat := by
  have : b[off]? = some x := by
    have h1 : (b.drop off)[0]? = some x := by rw [h]; rfl
    rwa [List.getElem?_drop] at h1
  unfold u8
  rw [this]

theorem drop_succ_of {b : Bytes} {off : Nat} {x : BitVec 8} {post : Bytes} (h : b.drop off = x :: post) :
    b.drop (off + 1) = post := by
  rw [← List.drop_drop, h]; rfl

theorem u32_of_drop {b : Bytes} {off n : Nat} {post : Bytes} (h : b.drop off = le32 n ++ post) (hn : n < 4294967296) :
    u32 b off = .ok n := by
  have h0 : b.drop off = BitVec.ofNat 8 n :: BitVec.ofNat 8 (n / 256) :: BitVec.ofNat 8 (n / 65536) ::
      BitVec.ofNat 8 (n / 16777216) :: post := h
  have h1 := drop_succ_of h0
  have h2 := drop_succ_of h1
  have h3 := drop_succ_of h2
  unfold u32
  rw [u8_of_drop h0, V.bind_ok, u8_of_drop h1, V.bind_ok, u8_of_drop h2, V.bind_ok, u8_of_drop h3, V.bind_ok]
  show V.ok _ = V.ok n
  congr 1
  simp only [BitVec.toNat_ofNat]
  omega

theorem drop_append_of {b pre post : Bytes} {off : Nat} (h : b.drop off = pre ++ post) :
    b.drop (off + pre.length) = post := by
  rw [← List.drop_drop, h, List.drop_left]

/-- The section table the reader should produce. -/
def entries (st : Nat) : List OutSection → Nat → Nat → List Sec
  | [], _, _ => []
  | s :: secs, nameOff, dataOff =>
    ⟨st + nameOff, dataOff, s.content.length⟩ :: entries st secs (nameOff + (s.name.length + 1)) (dataOff + s.content.length)

theorem readSections_spec {b : Bytes} {st d : Nat} (hst : st ≤ d) (hd : d < 4294967296) {T : Bytes} :
    ∀ (secs : List OutSection) (i nameOff dataOff last : Nat),
    b.drop (hdrSize + secSize * i) = writeTable secs nameOff dataOff ++ T →
    nameOff + stringsLen secs ≤ d - st → dataOff + (secs.map fun s => s.content.length).sum < 4294967296 →
    last < d - st →
    ∃ last', readSections b st d secs.length i last = .ok (entries st secs nameOff dataOff, last') ∧ last' < d - st
  | [], i, nameOff, dataOff, last, _, _, _, hl => ⟨last, rfl, hl⟩
  | s :: secs, i, nameOff, dataOff, last, hb, hn, hsz, hl => by
    simp only [stringsLen, List.map_cons, List.sum_cons] at hn hsz
    have hb0 : b.drop (hdrSize + secSize * i) = le32 nameOff ++ (le32 dataOff ++ (le32 s.content.length ++
        (writeTable secs (nameOff + (s.name.length + 1)) (dataOff + s.content.length) ++ T))) := by
      rw [hb]; simp [writeTable]
    have hb1 : b.drop (hdrSize + secSize * i + 4) = _ := drop_append_of hb0
    have hb2 : b.drop (hdrSize + secSize * i + 8) = _ := drop_append_of hb1
    have hb3 : b.drop (hdrSize + secSize * (i + 1)) = _ := drop_append_of hb2
    have hl' : (if nameOff > last then nameOff else last) < d - st := by split <;> omega
    obtain ⟨last', h1, h2⟩ := readSections_spec hst hd secs (i + 1) _ _ _ hb3
      (by unfold stringsLen; omega) (by omega) hl'
    refine ⟨last', ?_, h2⟩
    unfold readSections
    rw [List.length_cons]
    show (u32 b (hdrSize + secSize * i) >>= _) = _
    rw [u32_of_drop hb0 (by omega), V.bind_ok, u32_of_drop hb1 (by omega), V.bind_ok,
      u32_of_drop hb2 (by omega), V.bind_ok]
    unfold rejectIf
    rw [if_neg (show ¬(nameOff ≥ (d + 4294967296 - st) % 4294967296) by omega), V.bind_ok]
    show (readSections b st d secs.length (i + 1) _ >>= _) = _
    rw [h1]
    rfl

theorem findTerminator_found {b : Bytes} {d : Nat} (h0 : b[d - 1]? = some 0) :
    ∀ (n i : Nat), 0 < n → i + n = d → findTerminator b n i = .ok true
  | 0, _, h, _ => absurd h (by omega)
  | n+1, i, _, hi => by
    have hlen : d - 1 < b.length := (List.getElem?_eq_some_iff.1 h0).1
    have hib : i < b.length := by omega
    unfold findTerminator u8
    rw [List.getElem?_eq_getElem hib]
    show (if b[i].toNat = 0 then V.ok true else findTerminator b n (i + 1)) = _
    split
    · rfl
    · rename_i hz
      by_cases hn : n = 0
      · subst hn
        have : i = d - 1 := by omega
        subst this
        rw [List.getElem?_eq_getElem hib] at h0
        simp only [Option.some.injEq] at h0
        rw [h0] at hz
        exact absurd rfl hz
      · exact findTerminator_found h0 n (i + 1) (by omega) (by omega)

/-- The names and contents of a list of sections. -/
def namesOf (secs : List OutSection) : Bytes := (secs.map fun s => s.name ++ [0]).flatten
/-- See `namesOf`. -/
def contentsOf (secs : List OutSection) : Bytes := (secs.map fun s => s.content).flatten

theorem namesOf_length (secs : List OutSection) : (namesOf secs).length = stringsLen secs := by
  induction secs with
  | nil => rfl
  | cons s secs ih =>
    simp only [namesOf, List.map_cons, List.flatten_cons, List.length_append] at *
    rw [ih]; simp [stringsLen]

theorem contentsOf_length (secs : List OutSection) :
    (contentsOf secs).length = (secs.map fun s => s.content.length).sum := by
  induction secs with
  | nil => rfl
  | cons s secs ih => simp [contentsOf] at *; exact ih

theorem writeTable_length : ∀ (secs : List OutSection) (a c : Nat), (writeTable secs a c).length = secSize * secs.length
  | [], _, _ => rfl
  | s :: secs, a, c => by
    have : (le32 a).length = 4 := rfl
    simp only [writeTable, List.length_append, writeTable_length secs, List.length_cons, secSize]
    simp [le32]
    omega

/-- What a lookup of `name` should give for a file holding `secs`. -/
def FoundAs (b : Bytes) (r : V (Option Sec)) : Option OutSection → Prop
  | none => r = .ok none
  | some s => ∃ S, r = .ok (some S) ∧ S.size = s.content.length ∧ S.dataoffs + S.size ≤ b.length ∧
      (b.drop S.dataoffs).take S.size = s.content ∧ (S.dataoffs < b.length → sectionOk b S = true)

theorem findSection_spec {b : Bytes} {st : Nat} (name : Bytes) {T : Bytes} :
    ∀ (secs : List OutSection) (nameOff dataOff : Nat), (∀ s ∈ secs, (0 : BitVec 8) ∉ s.name) →
    b.drop (st + nameOff) = namesOf secs ++ T → b.drop dataOff = contentsOf secs → dataOff ≤ b.length →
    FoundAs b (findSection b name (entries st secs nameOff dataOff)) (secs.find? (·.name = name))
  | [], _, _, _, _, _, _ => rfl
  | s :: secs, nameOff, dataOff, hz, hn, hc, hle => by
    have hs := hz s (List.mem_cons_self ..)
    have hcs : cstr b (st + nameOff) = some s.name :=
      cstr_some.2 ⟨namesOf secs ++ T, by rw [hn]; simp [namesOf], hs⟩
    have hlen : b.length = dataOff + s.content.length + (contentsOf secs).length := by
      have := congrArg List.length hc
      simp only [List.length_drop, contentsOf, List.map_cons, List.flatten_cons, List.length_append] at this ⊢
      omega
    unfold entries findSection str
    rw [hcs]
    show FoundAs b (if s.name = name then _ else _) _
    by_cases hnm : s.name = name
    · rw [if_pos hnm, List.find?_cons_of_pos (by simpa using hnm)]
      refine ⟨_, rfl, rfl, ?_, ?_, ?_⟩
      · show dataOff + s.content.length ≤ _
        omega
      · show (b.drop dataOff).take s.content.length = _
        rw [hc]
        simp [contentsOf]
      · intro h
        simp only at h
        simp only [sectionOk, decide_eq_true_eq]
        omega
    · rw [if_neg hnm, List.find?_cons_of_neg (by simpa using hnm)]
      apply findSection_spec name secs _ _ (fun s hs => hz s (List.mem_cons_of_mem _ hs))
      · have : b.drop (st + nameOff) = (s.name ++ [0]) ++ (namesOf secs ++ T) := by rw [hn]; simp [namesOf]
        have := drop_append_of this
        rw [← this]
        simp [Nat.add_assoc]
      · exact drop_append_of (pre := s.content) (by rw [hc]; rfl)
      · omega

theorem writeHeader_length (secs : List OutSection) : (writeHeader secs).length = 24 := rfl

theorem write_length (secs : List OutSection) :
    (write secs).length = 24 + 12 * secs.length + stringsLen secs + (secs.map fun s => s.content.length).sum := by
  have h1 := namesOf_length secs
  have h2 := contentsOf_length secs
  simp only [namesOf, contentsOf] at h1 h2
  simp only [write, List.length_append, writeHeader_length, writeTable_length, h1, h2, secSize]

/-- C31: a file written from any non-empty list of at most 255 sections with NUL-free names, smaller than 4 GiB, is
accepted as a container, is not changed by the decompression step, and looking up a name gives the first section
written under it, with its bytes unchanged and inside the file, or nothing when there is none. -/
theorem C31_round_trip (secs : List OutSection) (hne : secs ≠ []) (h255 : secs.length ≤ 255)
    (hz : ∀ s ∈ secs, (0 : BitVec 8) ∉ s.name) (hsize : (write secs).length < 4294967296)
    (inflate : Inflate) (junk : Nat → BitVec 8) :
    validateHeader (write secs) = .ok () ∧ decompress inflate junk (write secs) = .ok (write secs) ∧
    ∃ table, readContainer (write secs) = .ok table ∧ table.length = secs.length ∧
      ∀ name, FoundAs (write secs) (findSection (write secs) name table) (secs.find? (·.name = name)) := by
  have hlen := write_length secs
  have hpos : 0 < secs.length := List.length_pos_iff.2 hne
  have hsl : 0 < stringsLen secs := by
    cases secs with
    | nil => exact absurd rfl hne
    | cons s secs => simp only [stringsLen, List.map_cons, List.sum_cons]; omega
  generalize hst : hdrSize + secSize * secs.length = st
  have hst' : st = 24 + 12 * secs.length := hst.symm
  generalize hd : st + stringsLen secs = d
  -- the layout
  have hhead : write secs = le32 0x53504646 ++ (le16 0x0102 ++ ([0] ++ (le32 (st + (secs.map fun s => s.content.length).sum + stringsLen secs) ++
      (le32 (st + (secs.map fun s => s.content.length).sum + stringsLen secs) ++ ([BitVec.ofNat 8 secs.length] ++ (le32 st ++ (le32 d ++
        (writeTable secs 0 d ++ (namesOf secs ++ contentsOf secs))))))))) := by
    simp only [write, writeHeader, hst, hd, namesOf, contentsOf, List.append_assoc]
  generalize hT : namesOf secs ++ contentsOf secs = T at hhead
  obtain ⟨r6, h6⟩ : ∃ r, (write secs).drop 6 = 0 :: r := by rw [hhead]; exact ⟨_, rfl⟩
  obtain ⟨r15, h15⟩ : ∃ r, (write secs).drop 15 = BitVec.ofNat 8 secs.length :: r := by rw [hhead]; exact ⟨_, rfl⟩
  obtain ⟨r16, h16⟩ : ∃ r, (write secs).drop 16 = le32 st ++ r := by rw [hhead]; exact ⟨_, rfl⟩
  obtain ⟨r20, h20⟩ : ∃ r, (write secs).drop 20 = le32 d ++ r := by rw [hhead]; exact ⟨_, rfl⟩
  have h24 : (write secs).drop (hdrSize + secSize * 0) = writeTable secs 0 d ++ T := by rw [hhead]; rfl
  have hN : (write secs).drop st = namesOf secs ++ contentsOf secs := by
    have := drop_append_of h24
    rw [writeTable_length] at this
    rw [hT, ← this]
    congr 1
  have hC : (write secs).drop d = contentsOf secs := by
    have := drop_append_of hN
    rwa [namesOf_length, hd] at this
  refine ⟨?_, ?_, ?_⟩
  · have hm : u32 (write secs) 0 = .ok 0x53504646 := u32_of_drop (post := _) (by rw [hhead]; rfl) (by omega)
    have hv : u16 (write secs) 4 = .ok 0x0102 := by
      rw [hhead]; rfl
    unfold validateHeader rejectIf
    rw [if_neg (show ¬((write secs).length < hdrSize) by unfold hdrSize; omega), V.bind_ok, hm, V.bind_ok,
      if_neg (by decide), V.bind_ok, hv, V.bind_ok, if_neg (by decide)]
  · unfold decompress
    rw [u8_of_drop h6]
    rfl
  · obtain ⟨last', h1, h2⟩ := readSections_spec (b := write secs) (st := st) (d := d) (by omega) (by omega) secs 0 0 d 0
      h24 (by omega) (by omega) (by omega)
    refine ⟨entries st secs 0 d, ?_, ?_, ?_⟩
    · have hterm : (write secs)[d - 1]? = some 0 := by
        have hlast : (namesOf secs).getLast? = some 0 := by
          unfold namesOf
          rw [← List.dropLast_concat_getLast hne, List.map_append, List.flatten_append]
          simp
        have h3 : ((write secs).drop st)[stringsLen secs - 1]? = some 0 := by
          rw [hN, List.getElem?_append_left (by rw [namesOf_length]; omega), ← namesOf_length,
            ← List.getLast?_eq_getElem?]
          exact hlast
        rw [List.getElem?_drop] at h3
        rwa [show d - 1 = st + (stringsLen secs - 1) by omega]
      unfold readContainer rejectIf
      rw [u32_of_drop h16 (by omega), V.bind_ok, if_neg (show ¬(st ≥ (write secs).length) by omega), V.bind_ok, u8_of_drop h15,
        V.bind_ok]
      have hb : (BitVec.ofNat 8 secs.length).toNat = secs.length := by
        simp only [BitVec.toNat_ofNat]; omega
      rw [hb, if_neg (show ¬(hdrSize + secs.length * secSize > (write secs).length) by
        unfold hdrSize secSize; omega), V.bind_ok, u32_of_drop h20 (by omega), V.bind_ok, h1, V.bind_ok]
      show (findTerminator _ (d - (st + last')) (st + last') >>= _) = _
      rw [findTerminator_found hterm _ _ (by omega) (by omega)]
      rfl
    · have : ∀ (l : List OutSection) a c, (entries st l a c).length = l.length := by
        intro l
        induction l with
        | nil => intros; rfl
        | cons s l ih => intro a c; simp [entries, ih]
      exact this ..
    · intro name
      exact findSection_spec name secs 0 d hz (by rw [Nat.add_zero]; exact hN) hC (by omega)

/-- C31: with distinct names every section is found under its own name. -/
theorem C31_distinct (secs : List OutSection) (hne : secs ≠ []) (h255 : secs.length ≤ 255)
    (hz : ∀ s ∈ secs, (0 : BitVec 8) ∉ s.name) (hsize : (write secs).length < 4294967296)
    (hd : ∀ s ∈ secs, ∀ s' ∈ secs, s.name = s'.name → s = s') :
    ∃ table, readContainer (write secs) = .ok table ∧
      ∀ s ∈ secs, ∃ S, findSection (write secs) s.name table = .ok (some S) ∧
        S.dataoffs + S.size ≤ (write secs).length ∧ ((write secs).drop S.dataoffs).take S.size = s.content := by
  obtain ⟨_, _, table, h1, _, h2⟩ := C31_round_trip secs hne h255 hz hsize (fun _ _ => none) (fun _ => 0)
  refine ⟨table, h1, fun s hs => ?_⟩
  have h3 := h2 s.name
  cases hf : secs.find? (·.name = s.name) with
  | none =>
    have := List.find?_eq_none.1 hf s hs
    simp at this
  | some s' =>
    rw [hf] at h3
    have hn := List.find?_some hf
    simp only [decide_eq_true_eq] at hn
    have : s' = s := hd s' (List.mem_of_find?_eq_some hf) s hs hn
    subst this
    obtain ⟨S, h4, _, h5, h6, _⟩ := h3
    exact ⟨S, h4, h5, h6⟩

/-- C31 (limit): the reader's section check rejects an empty section at the very end of the file, which the writer does
produce; so does an empty file. -/
theorem C31_empty_tail_rejected :
    (∃ S, findSection (write [⟨ascii "a", [1]⟩, ⟨ascii "b", []⟩]) (ascii "b")
        [⟨48, 52, 1⟩, ⟨50, 53, 0⟩] = .ok (some S) ∧ sectionOk (write [⟨ascii "a", [1]⟩, ⟨ascii "b", []⟩]) S = false) ∧
    readContainer (write [⟨ascii "a", [1]⟩, ⟨ascii "b", []⟩]) = .ok [⟨48, 52, 1⟩, ⟨50, 53, 0⟩] ∧
    readContainer (write []) = .err := by
  refine ⟨⟨⟨50, 53, 0⟩, rfl, by decide +kernel⟩, rfl, rfl⟩

/-- A small plugin: one native, one public, a names table. -/
def samplePlugin : List OutSection :=
  [⟨ascii ".code", le32 12 ++ [4, 9] ++ le16 0 ++ le32 0 ++ le32 16 ++ [46, 0, 0, 0, 89, 0, 0, 0, 48, 0, 0, 0]⟩,
   ⟨ascii ".data", le32 4 ++ le32 16384 ++ le32 12 ++ [1, 2, 3, 4]⟩,
   ⟨ascii ".publics", le32 0 ++ le32 2⟩,
   ⟨ascii ".natives", le32 0⟩,
   ⟨ascii ".names", [97, 0, 98, 0]⟩]

/-- The sample meets the hypotheses, and the whole validation accepts it. -/
example : samplePlugin ≠ [] ∧ samplePlugin.length ≤ 255 ∧ (∀ s ∈ samplePlugin, (0 : BitVec 8) ∉ s.name) ∧
    (write samplePlugin).length < 4294967296 ∧
    (∀ s ∈ samplePlugin, ∀ s' ∈ samplePlugin, s.name = s'.name → s = s') := by
  decide +kernel

set_option maxRecDepth 50000 in
example : ∃ img, validate (fun _ _ => none) (fun _ => 0) (write samplePlugin) = .ok img := by
  have : (match validate (fun _ _ => none) (fun _ => 0) (write samplePlugin) with | .ok _ => true | _ => false) = true := by
    decide +kernel
  split at this
  · exact ⟨_, by assumption⟩
  · cases this

end Verif.Smx

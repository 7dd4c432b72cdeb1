import Verif.Proofs.FunTable
/-! The output of the compiler says the truth about functions. -/
namespace Verif.FunTable
open Verif.Labels
open Verif.Smx (NameTable NameInv Extends)
open Verif.Image (Bytes cstr Named)

section
variable {fns : List Fn}

theorem emitFn_len {g g' : Gen} {k : Nat} {fn : Fn} (h : emitFn fns g k fn = some g') : (items g.ops).length ≤ (items g'.ops).length := by
  unfold emitFn at h
  split at h
  · split at h
    · cases h
    · rename_i g1 ha
      split at h
      · cases h
      · rename_i g2 hp
        cases h
        have h1 : (items g.ops).length ≤ (items g1.ops).length := by
          unfold addFunction at ha
          split at ha
          · cases ha
          · split at ha
            · cases ha
            · split at ha
              · cases ha
              · cases ha
                simp [Gen.put, items_append]
        have h2 := (ext_put g1 [.cell 46]).len
        have h3 := did_len hp
        have h4 := (ext_put g2 [.cell 166]).len
        show _ ≤ (items (g2.put [.cell 166]).ops).length
        omega
  · cases h; exact Nat.le_refl _

theorem emitFns_len : ∀ {rest : List Fn} {g g' : Gen} {k : Nat}, emitFns fns g k rest = some g' →
    (items g.ops).length ≤ (items g'.ops).length
  | [], g, g', k, h => by cases h; exact Nat.le_refl _
  | fn :: rest, g, g', k, h => by
    simp only [emitFns] at h
    split at h
    · cases h
    · rename_i g1 h1
      exact Nat.le_trans (emitFn_len h1) (emitFns_len h)

theorem emitFns_inv : ∀ {rest : List Fn} {g g' : Gen} {k : Nat}, fns.drop k = rest → FInv fns k g → emitFns fns g k rest = some g' →
    4 * (items g'.ops).length ≤ 1073741823 → FInv fns (k + rest.length) g'
  | [], g, g', k, _, I, h, _ => by cases h; exact I
  | fn :: rest, g, g', k, hd, I, h, hs => by
    simp only [emitFns] at h
    split at h
    · cases h
    · rename_i g1 h1
      have hl := emitFns_len h
      have hk : fns[k]? = some fn := by
        have := congrArg (·[0]?) hd
        simpa using this
      have hd' : fns.drop (k + 1) = rest := by
        rw [← List.drop_drop, hd]; rfl
      have I1 := (emitFn_inv hk I h1 (by omega)).1
      have := emitFns_inv hd' I1 h hs
      rw [List.length_cons, show k + (rest.length + 1) = k + 1 + rest.length by omega]
      exact this

theorem init_inv : FInv fns 0 .init := by
  refine ⟨⟨.empty, ?_, trivial, ?_, ?_, ?_⟩, ?_, ?_, ?_, ?_, ?_, ?_⟩
  · intro o ho
    simp only [Gen.init, List.mem_cons, List.not_mem_nil, or_false] at ho
    rcases ho with rfl | rfl <;> rfl
  · intro f fn v _ h; cases h
  · intro j hj; cases hj
  · simp [Gen.init]
  · simp [Gen.init, items]
  · intro f fn ps h; cases h
  · intro f fn ps f' fn' ps' p i o o' p' i' x x' _ h; cases h
  · intro i hi; cases hi
  · intro m hm; cases hm
  · intro l h; exact absurd rfl h

theorem more_names (more : List Bytes) : ∀ {T T' : NameTable}, NameInv T →
    more.foldlM (fun T s => (NameTable.add T s).map (·.2)) T = some T' → NameInv T' ∧ ∀ n o, At T n o → At T' n o := by
  induction more with
  | nil => intro T T' I h; cases h; exact ⟨I, fun _ _ => id⟩
  | cons s more ih =>
    intro T T' I h
    rw [List.foldlM_cons] at h
    cases h1 : T.add s with
    | none => rw [h1] at h; cases h
    | some r =>
      obtain ⟨o, T1⟩ := r
      rw [h1] at h
      obtain ⟨a, b, _⟩ := add_at I h1
      obtain ⟨c, d⟩ := ih a h
      exact ⟨c, fun n o hn => d _ _ (b _ _ hn)⟩

theorem FInv.more {k : Nat} {g : Gen} (I : FInv fns k g) {T : NameTable} (hT : NameInv T) (hn : ∀ n o, At g.names n o → At T n o)
    (hs : 4 * (items g.ops).length ≤ 1073741823) : FInv fns k { g with names := T } := by
  have ext : Ext g { g with names := T } := ⟨fun _ _ => id, hn, fun _ _ => id, fun _ _ => id, fun _ => id, List.prefix_refl _⟩
  refine ⟨⟨hT, I.inv.plain, I.inv.once, fun f fn v h1 h2 => ?_, I.inv.used, I.inv.count⟩, I.start, fun f fn ps hf he => ?_, ?_,
    fun i hi => ?_, fun m hm => ?_, I.labels⟩
  · obtain ⟨h3, j, off, h4, h5, h6⟩ := I.inv.native f fn v h1 h2
    exact ⟨h3, j, off, h4, h5, hn _ _ h6⟩
  · obtain ⟨p, i, o, o', h⟩ := I.has f fn ps hf he
    exact ⟨p, i, o, o', h.ext ext⟩
  · intro f fn1 ps1 f' fn2 ps2 p i o1 o2 p' i' o3 o4 hlt hlt' h1 m1 m2 h2
    obtain ⟨q, j, x, x', hq⟩ := I.has f fn1 ps1 (by omega) m1
    obtain ⟨q', j', y, y', hq'⟩ := I.has f' fn2 ps2 hlt' m2
    obtain ⟨rfl, _⟩ := h1.unique (hq.ext ext) hs
    obtain ⟨rfl, _⟩ := h2.unique (hq'.ext ext) hs
    exact I.apart f fn1 ps1 f' fn2 ps2 _ _ _ _ _ _ _ _ hlt hlt' hq m1 m2 hq'
  · obtain ⟨f, fn, ps, p, o, o', h1, h2⟩ := I.publics i hi
    exact ⟨f, fn, ps, p, o, o', h1, h2.ext ext⟩
  · obtain ⟨f, fn, ps, p, i, o, o', h0, h1, h2, h3⟩ := I.methods m hm
    exact ⟨f, fn, ps, p, i, o, o', h0, h1, h2.ext ext, h3⟩

theorem generate_inv {more : List Bytes} {g : Gen} (h : generate fns more = some g) (hs : 4 * (items g.ops).length ≤ 1073741823) :
    FInv fns fns.length g := by
  unfold generate at h
  split at h
  · cases h
  · rename_i g0 h0
    split at h
    · cases h
    · rename_i T hT
      cases h
      have I := emitFns_inv (fns := fns) (rest := fns) (k := 0) rfl init_inv h0 hs
      rw [Nat.zero_add] at I
      obtain ⟨a, b⟩ := more_names more I.inv.names hT
      exact I.more a b hs

/-! ### The places -/

/-- The places, from the labels. -/
def places (g : Gen) : Places :=
  ⟨fun f => ((labelValue (codeLabel f) g.ops).getD 0).toNat, fun f => ((labelValue (idLabel f) g.ops).getD 0).toNat / 2,
    fun f => ((labelValue (codeLabel f) g.ops).getD 0).toNat⟩

theorem Has.address {g : Gen} {f : Nat} {fn : Fn} {ps : List Piece} {p i off off' : Nat} (h : Has (fns := fns) g f fn ps p i off off')
    (hs : 4 * (Verif.Labels.items g.ops).length ≤ 1073741823) : (places g).address f = 4 * p ∧ (places g).entry f = i := by
  have h1 := h.len
  have h2 := h.small
  constructor
  · show ((labelValue (codeLabel f) g.ops).getD 0).toNat = _
    rw [h.code, Option.getD_some, BitVec.toNat_ofNat, Nat.mod_eq_of_lt (by omega)]
  · show ((labelValue (idLabel f) g.ops).getD 0).toNat / 2 = _
    rw [h.id, Option.getD_some, Verif.Runtime.funcIdOf_toNat (by omega)]
    omega

/-- The value a cell ends up with. -/
def val (g : Gen) : Item → Option Cell
  | .cell c => some c
  | .ref l => labelValue l g.ops
  | .data _ => none

theorem piece_val {g : Gen} (I : FInv fns fns.length g) (hs : 4 * (items g.ops).length ≤ 1073741823) (p : Piece)
    (hc : ∀ f n, p = .call f n → (∃ fn, IsNative fns f fn ∧ labelValue (codeLabel f) g.ops ≠ none) ∨ ∃ fn qs, Emitted fns f fn qs)
    (hv : ∀ f, p = .value f → ∃ fn qs, Emitted fns f fn qs) :
    (pieceItems fns p).map (val g) = (pieceCells fns (places g) p).map some := by
  have hlt : ∀ f fn qs, Emitted fns f fn qs → f < fns.length := fun f fn qs he => (List.getElem?_eq_some_iff.1 he.1).1
  cases p with
  | cell c => rfl
  | name s => rfl
  | value f =>
    obtain ⟨fn, qs, he⟩ := hv f rfl
    obtain ⟨p, i, o, o', h⟩ := I.has f fn qs (hlt _ _ _ he) he
    have hi := h.small
    simp only [pieceItems, pieceCells, List.map_cons, List.map_nil, val, h.id, (h.address hs).2]
    have : Verif.Runtime.funcIdOf i = BitVec.ofNat 32 (2 * i + 1) := by
      apply BitVec.eq_of_toNat_eq
      rw [Verif.Runtime.funcIdOf_toNat (by omega), BitVec.toNat_ofNat, Nat.mod_eq_of_lt (by omega)]
    rw [this]
  | call f n =>
    have key : ∀ v, labelValue (codeLabel f) g.ops = some v →
        v = BitVec.ofNat 32 ((places g).address f) ∧ v = BitVec.ofNat 32 ((places g).native f) := by
      intro v hl
      have : ((labelValue (codeLabel f) g.ops).getD 0).toNat = v.toNat := by rw [hl]; rfl
      constructor
      · show v = BitVec.ofNat 32 ((labelValue (codeLabel f) g.ops).getD 0).toNat
        rw [this, BitVec.ofNat_toNat, BitVec.setWidth_eq]
      · show v = BitVec.ofNat 32 ((labelValue (codeLabel f) g.ops).getD 0).toNat
        rw [this, BitVec.ofNat_toNat, BitVec.setWidth_eq]
    rcases hc f n rfl with ⟨fn, hn, hl⟩ | ⟨fn, qs, he⟩
    · obtain ⟨nm, pb, lv, kd⟩ := fn
      obtain ⟨h1, h2⟩ := hn
      simp only at h2
      subst h2
      cases hv : labelValue (codeLabel f) g.ops with
      | none => exact absurd hv hl
      | some v =>
        simp only [pieceItems, pieceCells, h1, List.map_cons, List.map_nil, val, hv]
        rw [← (key v hv).2]
    · obtain ⟨p, i, o, o', h⟩ := I.has f fn qs (hlt _ _ _ he) he
      obtain ⟨nm, pb, lv, kd⟩ := fn
      obtain ⟨h1, h2, h3⟩ := he
      simp only at h3
      subst h3
      simp only [pieceItems, pieceCells, h1, List.map_cons, List.map_nil, val, h.code]
      rw [← (key _ h.code).1]

theorem fn_val {g : Gen} (I : FInv fns fns.length g) (hs : 4 * (items g.ops).length ≤ 1073741823) (hP : Proper fns) {f : Nat} {fn : Fn}
    {ps : List Piece} (he : Emitted fns f fn ps) : (fnItems fns ps).map (val g) = (fnCells fns (places g) ps).map some := by
  obtain ⟨p, i, o, o', h⟩ := I.has f fn ps (List.getElem?_eq_some_iff.1 he.1).1 he
  have hps : ∀ qs : List Piece, (∀ q ∈ qs, q ∈ ps) →
      (qs.flatMap (pieceItems fns)).map (val g) = (qs.flatMap (pieceCells fns (places g))).map some := by
    intro qs
    induction qs with
    | nil => intro _; rfl
    | cons q qs ih =>
      intro hq
      rw [List.flatMap_cons, List.flatMap_cons, List.map_append, List.map_append, ih fun x hx => hq x (List.mem_cons_of_mem _ hx)]
      congr 1
      have hmem := hq q (List.mem_cons_self ..)
      refine piece_val I hs q (fun f' n hq => ?_) (fun f' hq => ?_)
      · subst hq
        rcases hP.calls f fn ps f' n he hmem with ⟨fn', h1, h2⟩ | h1
        · exact .inl ⟨fn', ⟨h1, h2⟩, h.natives f' n fn' hmem ⟨h1, h2⟩⟩
        · exact .inr h1
      · subst hq
        exact hP.values f fn ps f' he hmem
  simp only [fnItems, fnCells, List.map_cons, List.map_append, List.map_nil, val]
  rw [hps ps fun _ => id]

theorem prefix_cells {α : Type} {is js pre : List α} {buf cs : List Cell} {v : α → Option Cell} (hp : pre ++ is <+: js)
    (hbuf : ∀ (i : Nat) x c, js[i]? = some x → v x = some c → buf[i]? = some c) (hm : is.map v = cs.map some) :
    cs <+: buf.drop pre.length := by
  rw [List.prefix_iff_getElem?]
  intro i hi
  have hl : is.length = cs.length := by simpa using congrArg List.length hm
  have h1 : js[pre.length + i]? = some (is[i]'(by omega)) := by
    have h2 := List.prefix_iff_getElem?.1 hp (pre.length + i) (by rw [List.length_append]; omega)
    rw [h2]
    congr 1
    rw [List.getElem_append_right (by omega)]
    congr 1
    omega
  rw [List.getElem?_drop]
  refine hbuf _ _ _ h1 ?_
  have h3 := congrArg (·[i]?) hm
  simp only [List.getElem?_map] at h3
  rw [List.getElem?_eq_getElem (by omega), List.getElem?_eq_getElem hi] at h3
  simpa using h3

theorem methodAt_some : ∀ {ms : List Method} {pc : Nat} {m : Method}, methodAt ms pc = some m → m ∈ ms ∧ m.start ≤ pc ∧ pc < m.stop
  | [], _, _, h => by cases h
  | m' :: ms, pc, m, h => by
    simp only [methodAt] at h
    split at h
    · rename_i hc; cases h; exact ⟨List.mem_cons_self .., hc.1, hc.2⟩
    · obtain ⟨h1, h2⟩ := methodAt_some h
      exact ⟨List.mem_cons_of_mem _ h1, h2⟩

theorem methodAt_found : ∀ {ms : List Method} {pc : Nat} {m : Method}, m ∈ ms → m.start ≤ pc → pc < m.stop → ∃ m', methodAt ms pc = some m'
  | m' :: ms, pc, m, h, h1, h2 => by
    simp only [methodAt]
    split
    · exact ⟨_, rfl⟩
    · rename_i hc
      rcases List.mem_cons.1 h with rfl | h
      · exact absurd ⟨h1, h2⟩ hc
      · exact methodAt_found h h1 h2

/-- Everything. -/
theorem right {more : List Bytes} {g : Gen} (hP : Proper fns) (h : generate fns more = some g)
    (hs : 4 * (items g.ops).length ≤ 1073741823) : ∃ A, run .init g.ops = some A ∧ Right fns g A (places g) := by
  have I := generate_inv h hs
  have hlt : ∀ f fn qs, Emitted fns f fn qs → f < fns.length := fun f fn qs he => (List.getElem?_eq_some_iff.1 he.1).1
  have hhas := fun f fn ps (he : Emitted fns f fn ps) => I.has f fn ps (hlt f fn ps he) he
  obtain ⟨A, hA, hbl, hb1, hb2, _⟩ := C40_linking g.ops (legal_of g.ops _ _ _ 0 I.inv.plain I.inv.once (fun _ _ => id) (by simpa using hs))
  have hbuf : ∀ (i : Nat) x c, (items g.ops)[i]? = some x → val g x = some c → A.buf[i]? = some c := by
    intro i x c hx hc
    cases x with
    | cell d => exact hb1 i c (by rw [hx]; exact congrArg some (congrArg Item.cell (Option.some.inj hc)))
    | ref l => exact hb2 i l c hx hc
    | data d => cases hc
  have hlen : ∀ f fn ps, Emitted fns f fn ps → (fnItems fns ps).length = (fnCells fns (places g) ps).length := fun f fn ps he => by
    simpa using congrArg List.length (fn_val I hs hP he)
  have hoffs : ∀ off ∈ g.publics.map (·.2), off < g.names.write.length := by
    intro off ho
    obtain ⟨⟨a, o⟩, hx, rfl⟩ := List.mem_map.1 ho
    obtain ⟨i, hi⟩ := List.getElem?_of_mem hx
    obtain ⟨f, fn, ps, p, off, off', he, hh⟩ := I.publics i (List.getElem?_eq_some_iff.1 hi).1
    have h1 := hh.publics
    rw [hi] at h1
    cases h1
    have := I.inv.names.below _ _ hh.name
    rw [I.inv.names.size] at this
    exact this
  have hval : Verif.Image.namesValidated g.names.write (g.publics.map (·.2)) := ⟨write_last _, hoffs⟩
  -- entries and names
  have hnamed : ∀ i name, Named g.names.write (g.publics.map (·.2)) i name →
      ∃ f fn ps p off off', Emitted fns f fn ps ∧ Has (fns := fns) g f fn ps p i off off' ∧
        (name.head? = some 46 ∨ (fn.pub = true ∧ fn.name = name)) := by
    rintro i name ⟨off, rest, h1, h2, h3⟩
    rw [List.getElem?_map, Option.map_eq_some_iff] at h1
    obtain ⟨⟨a, o⟩, hi, rfl⟩ := h1
    obtain ⟨f, fn, ps, p, off, off', he, hh⟩ := I.publics i (List.getElem?_eq_some_iff.1 hi).1
    have h4 : (a, o) = (4 * p, off) := Option.some.inj (hi.symm.trans hh.publics)
    have h4 : o = off := congrArg Prod.snd h4
    subst h4
    refine ⟨f, fn, ps, p, o, off', he, hh, ?_⟩
    obtain ⟨post, hp⟩ := I.inv.names.entry _ _ hh.name
    by_cases hpub : fn.pub = true
    · right
      refine ⟨hpub, ?_⟩
      have h5 : cstr g.names.write o = some name := Verif.Image.cstr_some.2 ⟨rest, h2, h3⟩
      have h6 : cstr g.names.write o = some fn.name := by
        refine Verif.Image.cstr_some.2 ⟨post, ?_, hP.names fn (List.mem_of_getElem? he.1)⟩
        rw [hp, tableName, if_pos hpub]
      exact Option.some.inj (h6.symm.trans h5)
    · left
      rw [tableName, if_neg hpub] at hp
      have h5 : name ++ 0 :: rest = 46 :: (decimal (4 * p) ++ 46 :: fn.name) ++ 0 :: post := h2.symm.trans hp
      cases name with
      | nil =>
        have := List.head_eq_of_cons_eq h5
        exact absurd this (by decide)
      | cons c name =>
        have := List.head_eq_of_cons_eq h5
        rw [this]; rfl
  refine ⟨A, hA, ⟨?_, ?_, ?_, ?_, ?_, ?_, ?_, ?_, ?_⟩⟩
  · intro f fn ps he
    obtain ⟨p, i, o, o', hh⟩ := hhas f fn ps he
    obtain ⟨pre, rfl, hpre⟩ := hh.items
    exact ⟨pre.length, (hh.address hs).1, prefix_cells hpre hbuf (fn_val I hs hP he)⟩
  · intro f fn ps f' fn' ps' he he' hff
    obtain ⟨p, i, o, o', hh⟩ := hhas f fn ps he
    obtain ⟨p', i', x, x', hh'⟩ := hhas f' fn' ps' he'
    have := I.apart _ _ _ _ _ _ _ _ _ _ _ _ _ _ hff (hlt _ _ _ he') hh he he' hh'
    rw [(hh.address hs).1, (hh'.address hs).1, ← hlen _ _ _ he]
    omega
  · intro f fn ps he
    obtain ⟨p, i, o, o', hh⟩ := hhas f fn ps he
    exact ⟨o, by rw [(hh.address hs).1, (hh.address hs).2]; exact hh.publics⟩
  · intro f fn ps he hpub hist
    obtain ⟨p, i, o, o', hh⟩ := hhas f fn ps he
    obtain ⟨c, c', r, h1, h2, h3⟩ := Verif.Image.C30_public g.names.write (g.publics.map (·.2)) hval hist fn.name
    refine ⟨c, c', h1, ?_⟩
    have hme : Named g.names.write (g.publics.map (·.2)) i fn.name := by
      obtain ⟨post, hp⟩ := I.inv.names.entry _ _ hh.name
      refine ⟨o, post, ?_, ?_, hP.names fn (List.mem_of_getElem? he.1)⟩
      · rw [List.getElem?_map, hh.publics]; rfl
      · rw [hp, tableName, if_pos hpub]
    rcases h3 with ⟨j, rfl, hj, _⟩ | ⟨_, hno⟩
    · rw [h2]
      obtain ⟨f', fn', ps', p', x, x', he', hh', hd⟩ := hnamed j fn.name hj
      rcases hd with hd | ⟨hp', hn'⟩
      · exact absurd hd (hP.dots fn (List.mem_of_getElem? he.1) hpub)
      · have := hP.distinct _ _ _ _ _ _ he' he hp' hpub hn'
        subst this
        rw [(hh'.address hs).2]
    · exact absurd hme (hno i)
  · intro hist c c' name i hl hf
    obtain ⟨c1, c1', r, h1, h2, h3⟩ := Verif.Image.C30_public g.names.write (g.publics.map (·.2)) hval hist name
    rw [hl] at h1
    cases h1
    rw [hf] at h2
    cases h2
    rcases h3 with ⟨j, hj, hn, _⟩ | ⟨hno, _⟩
    · cases hj
      obtain ⟨f', fn', ps', p', x, x', he', hh', hd⟩ := hnamed i name hn
      rcases hd with hd | ⟨hp', hn'⟩
      · exact .inl hd
      · exact .inr ⟨f', fn', ps', he', hp', hn'⟩
    · cases hno
  · rintro f fn ⟨h1, h2, f', fn', ps', n, he, hc⟩
    obtain ⟨p, i, o, o', hh⟩ := hhas f' fn' ps' he
    cases hv : labelValue (codeLabel f) g.ops with
    | none => exact absurd hv (hh.natives f n fn hc ⟨h1, h2⟩)
    | some v =>
      obtain ⟨_, j, off, rfl, h5, h6⟩ := I.inv.native f fn v ⟨h1, h2⟩ hv
      have hj := (List.getElem?_eq_some_iff.1 h5).1
      have hcnt := I.inv.count
      have : (places g).native f = j := by
        show ((labelValue (codeLabel f) g.ops).getD 0).toNat = _
        rw [hv, Option.getD_some, BitVec.toNat_ofNat, Nat.mod_eq_of_lt (by omega)]
      refine ⟨off, by rw [this]; exact h5, h6.cstr I.inv.names (hP.names fn (List.mem_of_getElem? h1))⟩
  · intro j hj
    obtain ⟨f, fn, h1, h2⟩ := I.inv.used j hj
    have hcnt := I.inv.count
    refine ⟨f, fn, (I.inv.native f fn _ h1 h2).1, ?_⟩
    show ((labelValue (codeLabel f) g.ops).getD 0).toNat = _
    rw [h2, Option.getD_some, BitVec.toNat_ofNat, Nat.mod_eq_of_lt (by omega)]
  · intro f fn ps pc he h1 h2
    obtain ⟨p, i, o, o', hh⟩ := hhas f fn ps he
    rw [(hh.address hs).1] at h1 h2 ⊢
    rw [← hlen _ _ _ he] at h2
    obtain ⟨m, hm⟩ := methodAt_found hh.methods h1 (show pc < 4 * (p + (fnItems fns ps).length) by omega)
    obtain ⟨m1, m2, m3⟩ := methodAt_some hm
    obtain ⟨f', fn', ps', p', i', x, x', hk, he', hh', rfl⟩ := I.methods m m1
    simp only at m2 m3
    have hff : f = f' := by
      rcases Nat.lt_trichotomy f f' with hl | hl | hl
      · have := I.apart _ _ _ _ _ _ _ _ _ _ _ _ _ _ hl hk hh he he' hh'
        omega
      · exact hl
      · have := I.apart _ _ _ _ _ _ _ _ _ _ _ _ _ _ hl (hlt _ _ _ he) hh' he' he hh
        omega
    subst hff
    have : fn' = fn := Option.some.inj (he'.1.symm.trans he.1)
    subst this
    obtain ⟨rfl, _⟩ := hh.unique hh' hs
    exact ⟨_, hm, hh'.mname.cstr I.inv.names (hP.names fn' (List.mem_of_getElem? he.1)), rfl⟩
  · intro pc m hm
    obtain ⟨m1, m2, m3⟩ := methodAt_some hm
    obtain ⟨f', fn', ps', p', i', x, x', hk, he', hh', rfl⟩ := I.methods m m1
    simp only at m2 m3
    refine ⟨f', fn', ps', he', ?_⟩
    rw [(hh'.address hs).1, ← hlen _ _ _ he']
    omega

end

end Verif.FunTable

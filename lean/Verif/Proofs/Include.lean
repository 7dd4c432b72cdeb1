import Verif.Model.Include

namespace Verif.Include

variable {fs : FileSys}

/-- What holds of the opened files. -/
structure Good (fs : FileSys) (opened : List SrcFile) : Prop where
  incl : ∀ o ∈ opened, o.included = true
  file : ∀ o ∈ opened, (fs.hideEmpty.file o.path).isSome = true
  nodup : (opened.map fun o => fs.hideEmpty.file o.path).Nodup

structure Inv (fs : FileSys) (s : St) : Prop where
  good : Good fs s.opened
  entered : s.entered = List.range s.opened.length
  stack : ∀ i ∈ s.stack, i < s.opened.length

def known (fs : FileSys) (opened : List SrcFile) (p : Path) : Bool :=
  opened.any fun o => fs.hideEmpty.file o.path == fs.hideEmpty.file p

def visit (fs : FileSys) (s : St) (p : Path) : St :=
  if known fs s.opened p then s
  else { s with opened := s.opened ++ [⟨p, true⟩], stack := s.opened.length :: s.stack, entered := s.entered ++ [s.opened.length] }

def tryAll (fs : FileSys) (s : St) (l : List Path) : Bool × St :=
  match l.find? (fun p => (fs.hideEmpty.file p).isSome) with
  | none => (false, s)
  | some p => (true, visit fs s p)

theorem hide_some {p : Path} {f : Nat} : fs.hideEmpty.file p = some f ↔ fs.file p = some f ∧ fs.empty f = false := by
  simp only [FileSys.hideEmpty, Option.filter_eq_some_iff, Bool.not_eq_true']

theorem fileOpen_eq (p : Path) : fileOpen fs p = (fs.hideEmpty.file p).isSome := by
  unfold fileOpen FileSys.hideEmpty
  cases h : fs.file p with
  | none => simp only [h, Option.filter_none, Option.isSome_none]
  | some f => cases h' : fs.empty f <;> simp [Option.filter, h, h']

theorem equivalent_eq {p q : Path} (hq : (fs.hideEmpty.file q).isSome = true) :
    equivalent fs p q = (fs.hideEmpty.file q == fs.hideEmpty.file p) := by
  obtain ⟨f, hf⟩ := Option.isSome_iff_exists.mp hq
  have h1 := hide_some.mp hf
  rw [hf]
  unfold equivalent
  rw [h1.1]
  cases h : fs.file p with
  | none => simp [FileSys.hideEmpty, h]
  | some g =>
    simp only [FileSys.hideEmpty, h]
    by_cases hg : g = f
    · subst hg; simp [Option.filter, h1.2]
    · cases h' : fs.empty g <;> simp [Option.filter, h', hg, Bool.beq_comm, beq_eq_false_iff_ne.mpr hg, beq_eq_false_iff_ne.mpr (Ne.symm hg)]

theorem findIdx_known {opened : List SrcFile} (hg : ∀ o ∈ opened, (fs.hideEmpty.file o.path).isSome = true) (p : Path) :
    (opened.findIdx? (fun o => equivalent fs p o.path)).isSome = known fs opened p := by
  rw [List.findIdx?_isSome]
  unfold known
  rw [Bool.eq_iff_iff, List.any_eq_true, List.any_eq_true]
  constructor
  · rintro ⟨o, ho, h⟩; exact ⟨o, ho, by rwa [equivalent_eq (hg o ho)] at h⟩
  · rintro ⟨o, ho, h⟩; exact ⟨o, ho, by rwa [equivalent_eq (hg o ho)]⟩

theorem not_known_of_none {opened : List SrcFile} (hg : ∀ o ∈ opened, (fs.hideEmpty.file o.path).isSome = true) {p : Path}
    (hp : fs.hideEmpty.file p = none) : known fs opened p = false := by
  unfold known
  rw [List.any_eq_false]
  intro o ho h
  have := hg o ho
  rw [hp] at h
  rw [eq_of_beq h] at this
  simp at this

theorem sourcesOpen_none {opened : List SrcFile} (hg : Good fs opened) {p : Path} (hp : fs.hideEmpty.file p = none) :
    sourcesOpen fs opened p = none := by
  have h := findIdx_known hg.file p
  rw [not_known_of_none hg.file hp] at h
  unfold sourcesOpen
  cases hi : opened.findIdx? (fun o => equivalent fs p o.path) with
  | some i => rw [hi] at h; cases h
  | none => simp [fileOpen_eq, hp]

/-- `PlungeQualifiedFile` after `OpenFile`. -/
def after (s : St) : Option (Nat × List SrcFile) → Bool × St
  | none => (false, s)
  | some (i, opened) =>
    let s := { s with opened := opened }
    match opened[i]? with
    | some ⟨_, true⟩ => (true, s)
    | _ => (true, enter s i)

theorem sourcesOpen_some {s : St} (hg : Good fs s.opened) {p : Path} (hp : (fs.hideEmpty.file p).isSome = true) :
    (sourcesOpen fs s.opened p).isSome = true ∧ after s (sourcesOpen fs s.opened p) = (true, visit fs s p) := by
  have h := findIdx_known hg.file p
  unfold sourcesOpen visit
  cases hi : s.opened.findIdx? (fun o => equivalent fs p o.path) with
  | some i =>
    rw [hi] at h
    rw [← h]
    refine ⟨by simp, ?_⟩
    have hl : i < s.opened.length := by
      have := List.findIdx?_eq_some_iff_getElem.mp hi
      exact this.1
    have hx := hg.incl s.opened[i] (List.getElem_mem hl)
    simp only [after, List.getElem?_eq_getElem hl, Option.isSome_some, if_true]
    generalize s.opened[i] = o at hx
    cases o; simp at hx; subst hx; rfl
  | none =>
    rw [hi] at h
    rw [← h]
    have hm : ∀ l : List SrcFile, (l ++ [(⟨p, false⟩ : SrcFile)]).modify l.length (fun o => { o with included := true }) = l ++ [⟨p, true⟩] := by
      intro l
      induction l with
      | nil => rfl
      | cons a l ih => rw [List.cons_append, List.length_cons, List.modify_succ_cons, ih]; rfl
    simp only [fileOpen_eq, hp, if_true, after, Option.isSome_some, enter, true_and, hm]
    simp

theorem plungeQualified_eq {s : St} (hg : Good fs s.opened) (name : Path) :
    plungeQualified fs s name = tryAll fs s (endings.map (name ++ ·)) := by
  have h0 : plungeQualified fs s name = after s (openFile fs s.opened name) := by
    unfold plungeQualified after; rfl
  have key : ∀ p : Path, ∀ r, ∀ l : List Path, after s r = tryAll fs s l →
      after s ((sourcesOpen fs s.opened p).or r) = tryAll fs s (p :: l) := by
    intro p r l hr
    cases hp : fs.hideEmpty.file p with
    | none =>
      rw [sourcesOpen_none hg hp, Option.none_or, hr]
      simp [tryAll, hp]
    | some f =>
      have := sourcesOpen_some (s := s) hg (p := p) (by simp [hp])
      obtain ⟨x, hx⟩ := Option.isSome_iff_exists.mp this.1
      rw [hx, Option.some_or, ← hx, this.2]
      simp [tryAll, hp]
  have hn : after s none = tryAll fs s [] := rfl
  rw [h0]
  have := key (name ++ []) _ _ (key (name ++ ".inc".toList) _ _ (key (name ++ ".p".toList) _ _ (key (name ++ ".pawn".toList) _ _ hn)))
  rw [List.append_nil] at this
  simp only [endings, List.map_cons, List.map_nil]
  simpa [openFile, openExt, extensions] using this

theorem tryAll_append (s : St) (l l' : List Path) :
    tryAll fs s (l ++ l') = if (tryAll fs s l).1 then tryAll fs s l else tryAll fs s l' := by
  unfold tryAll
  rw [List.find?_append]
  cases l.find? (fun p => (fs.hideEmpty.file p).isSome) <;> simp

theorem tryAll_false {s : St} {l : List Path} (h : (tryAll fs s l).1 = false) : (tryAll fs s l).2 = s := by
  unfold tryAll at h ⊢
  split <;> simp_all

theorem isAbsolute_iff (p : Path) : isAbsolute p = decide (absolute p) := by
  cases p with
  | nil => simp [isAbsolute, absolute]
  | cons c cs => by_cases h : c = '/' <;> simp [isAbsolute, absolute, h]

theorem join_eq (d name : Path) : join d name = under d name := by
  unfold join under
  rw [isAbsolute_iff]
  by_cases ha : absolute name
  · simp [ha]
  · simp only [ha, decide_false, Bool.false_eq_true, if_false]
    rcases List.eq_nil_or_concat d with rfl | ⟨e, c, rfl⟩
    · simp
    · by_cases hc : c = '/'
      · subst hc; simp
      · have h1 : (e.concat c).reverse = c :: e.reverse := by simp
        rw [h1]
        have h2 : ¬ (e.concat c = [] ∨ (e.concat c).getLast? = some '/') := by simp [hc]
        rw [if_neg h2]
        split
        · next h => cases h
        · next h => exact absurd (List.cons.inj h).1 hc
        · simp

theorem plungeIncs_eq {s : St} (hg : Good fs s.opened) (name : Path) (incs : List Path) :
    plungeIncs fs s name incs = tryAll fs s ((incs.map (under · name)).flatMap fun p => endings.map (p ++ ·)) := by
  induction incs with
  | nil => rfl
  | cons d ds ih =>
    rw [plungeIncs, List.map_cons, List.flatMap_cons, tryAll_append, join_eq, plungeQualified_eq hg]
    cases h : (tryAll fs s (endings.map (under d name ++ ·))).1 with
    | true => simp [h]
    | false =>
      rw [tryAll_false h]
      simpa [h] using ih

/-- The directory, as an option. -/
def dirOpt (p : Path) : Option Path := if (parentPath p).isEmpty then none else some (parentPath p)

theorem plunge_eq {s : St} (hg : Good fs s.opened) (incs : List Path) (cur : Path) (d : Directive) :
    plunge fs incs s cur d.name d.quoted = tryAll fs s (candidates incs (dirOpt cur) d) := by
  unfold plunge candidates places
  rw [isAbsolute_iff, List.flatMap_append, tryAll_append]
  have h1 : (if d.quoted then
      let r := plungeQualified fs s d.name
      if r.1 then r
      else
        let parent := parentPath cur
        if !parent.isEmpty then plungeQualified fs r.2 (join parent d.name) else r
    else (false, s)) =
      tryAll fs s ((if d.quoted then d.name :: (dirOpt cur).toList.map (under · d.name) else []).flatMap fun p => endings.map (p ++ ·)) := by
    cases d.quoted with
    | false => rfl
    | true =>
      simp only [if_true, List.flatMap_cons]
      rw [tryAll_append, plungeQualified_eq hg]
      cases h : (tryAll fs s (endings.map (d.name ++ ·))).1 with
      | true => simp
      | false =>
        rw [tryAll_false h]
        unfold dirOpt
        cases hp : (parentPath cur).isEmpty with
        | true =>
          simp only [Bool.not_true, Bool.false_eq_true, if_false, if_true, Option.toList_none, List.map_nil, List.flatMap_nil]
          have : tryAll fs s (endings.map (d.name ++ ·)) = (false, s) := Prod.ext h (tryAll_false h)
          rw [this]; rfl
        | false =>
          simp [join_eq, plungeQualified_eq hg]
  simp only [h1]
  generalize hl : ((if d.quoted then d.name :: (dirOpt cur).toList.map (under · d.name) else []).flatMap fun p => endings.map (p ++ ·)) = l
  cases h : (tryAll fs s l).1 with
  | true => simp
  | false =>
    rw [tryAll_false h]
    by_cases ha : absolute d.name
    · simp [ha, tryAll]
    · simp [ha, plungeIncs_eq hg]

theorem replicate_of_all {l : List Char} (h : ∀ c ∈ l, c = '/') : l = List.replicate l.length '/' :=
  List.eq_replicate_iff.mpr ⟨rfl, h⟩

theorem dir_aux (p b r m t : List Char) (e1 : b ++ r = p.reverse) (e2 : m ++ t = r) (hb : '/' ∉ b.reverse)
    (hm : ∀ c ∈ m, c = '/') (hr : ∀ c cs, r = c :: cs → c = '/') (hs : ∀ c cs, t = c :: cs → c ≠ '/') :
    HasDir p (if (if t.isEmpty then (if r.isEmpty then [] else ['/']) else t.reverse).isEmpty then none
      else some (if t.isEmpty then (if r.isEmpty then [] else ['/']) else t.reverse)) := by
  have hp : p = r.reverse ++ b.reverse := by rw [← List.reverse_append, e1, List.reverse_reverse]
  cases r with
  | nil =>
    have : t = [] := (List.append_eq_nil_iff.mp e2).2
    subst this
    simpa [HasDir, hp] using hb
  | cons c cs =>
    have hc := hr c cs rfl
    have hmn : ∃ k, m = List.replicate (k + 1) '/' := by
      cases m with
      | nil => exact absurd hc (hs c cs (by simpa using e2))
      | cons x xs => exact ⟨xs.length, by simpa using replicate_of_all hm⟩
    obtain ⟨k, rfl⟩ := hmn
    cases t with
    | nil =>
      simp only [List.isEmpty_nil, List.isEmpty_cons, if_true, Bool.false_eq_true, if_false, HasDir]
      rw [hp, ← e2, List.append_nil, List.reverse_replicate]
      exact Dir.root hb
    | cons x xs =>
      have hx := hs x xs rfl
      have : (xs.reverse ++ [x]).isEmpty = false := by simp
      simp only [List.isEmpty_cons, List.reverse_cons, Bool.false_eq_true, if_false, this, HasDir]
      rw [hp, ← e2, List.reverse_append, List.reverse_replicate, List.reverse_cons, List.append_assoc]
      exact Dir.sub hx hb

theorem hasDir_dirOpt (p : Path) : HasDir p (dirOpt p) := by
  -- split the reversed path
  have e1 := List.takeWhile_append_dropWhile (p := (· != '/')) (l := p.reverse)
  have e2 := List.takeWhile_append_dropWhile (p := (· == '/')) (l := p.reverse.dropWhile (· != '/'))
  have hb : '/' ∉ (p.reverse.takeWhile (· != '/')).reverse := by
    intro h
    have := List.all_takeWhile (p := (· != '/')) (l := p.reverse)
    rw [List.all_eq_true] at this
    simpa using this _ (List.mem_reverse.mp h)
  have hm : ∀ c ∈ (p.reverse.dropWhile (· != '/')).takeWhile (· == '/'), c = '/' := by
    intro c hc
    have := List.all_takeWhile (p := (· == '/')) (l := p.reverse.dropWhile (· != '/'))
    rw [List.all_eq_true] at this
    simpa using this _ hc
  have hr : ∀ c cs, p.reverse.dropWhile (· != '/') = c :: cs → c = '/' := by
    intro c cs h
    have := List.head?_dropWhile_not (p := (· != '/')) (l := p.reverse)
    rw [h] at this
    simpa using this
  have hs : ∀ c cs, (p.reverse.dropWhile (· != '/')).dropWhile (· == '/') = c :: cs → c ≠ '/' := by
    intro c cs h
    have := List.head?_dropWhile_not (p := (· == '/')) (l := p.reverse.dropWhile (· != '/'))
    rw [h] at this
    simpa using this
  exact dir_aux p _ _ _ _ e1 e2 hb hm hr hs

theorem visit_inv {s : St} (h : Inv fs s) {p : Path} (hp : (fs.hideEmpty.file p).isSome = true) : Inv fs (visit fs s p) := by
  unfold visit
  split
  · exact h
  · next hk =>
    refine ⟨⟨?_, ?_, ?_⟩, ?_, ?_⟩
    · intro o ho
      rcases List.mem_append.mp ho with ho | ho
      · exact h.good.incl o ho
      · simp at ho; rw [ho]
    · intro o ho
      rcases List.mem_append.mp ho with ho | ho
      · exact h.good.file o ho
      · simp at ho; rw [ho]; exact hp
    · simp only [List.map_append, List.map_cons, List.map_nil]
      rw [List.nodup_append]
      refine ⟨h.good.nodup, by simp, ?_⟩
      intro a ha b hb hab
      simp at hb
      obtain ⟨o, ho, rfl⟩ := List.mem_map.mp ha
      apply hk
      unfold known
      rw [List.any_eq_true]
      exact ⟨o, ho, by simp [hab, hb]⟩
    · simp [h.entered, List.range_succ]
    · intro i hi
      simp only [List.length_append, List.length_cons, List.length_nil]
      rcases List.mem_cons.mp hi with rfl | hi
      · omega
      · have := h.stack i hi; omega

theorem reads_eq {s : St} (h : Inv fs s) : s.reading.reads = s.opened.map (·.path) := by
  show s.entered.filterMap _ = _
  rw [h.entered]
  generalize s.opened = l
  have key : ∀ n, n ≤ l.length → (List.range n).filterMap (fun i => l[i]?.map (·.path)) = (l.take n).map (·.path) := by
    intro n
    induction n with
    | zero => simp
    | succ n ih =>
      intro hn
      rw [List.range_succ, List.filterMap_append, ih (by omega), List.take_succ_eq_append_getElem (by omega), List.map_append]
      simp [List.getElem?_eq_getElem (show n < l.length by omega)]
  rw [key l.length (Nat.le_refl _), List.take_length]

theorem filterMap_congr' {α β : Type} {f g : α → Option β} {l : List α} (h : ∀ x ∈ l, f x = g x) : l.filterMap f = l.filterMap g := by
  induction l with
  | nil => rfl
  | cons a l ih =>
    rw [List.filterMap_cons, List.filterMap_cons, h a List.mem_cons_self, ih fun x hx => h x (List.mem_cons_of_mem _ hx)]

theorem stack_append {s : St} (h : Inv fs s) (l : List SrcFile) :
    (s.stack.filterMap fun i => (s.opened ++ l)[i]?.map (·.path)) = s.reading.stack := by
  apply filterMap_congr'
  intro i hi
  rw [List.getElem?_append_left (h.stack i hi)]

theorem step_inv {s : St} (h : Inv fs s) (incs : List Path) (e : Event) : Inv fs (step fs incs s e) := by
  unfold step
  split
  · exact h
  · exact h
  · next i rest hm hs =>
    cases e with
    | eof => exact ⟨h.good, h.entered, fun j hj => h.stack j (by rw [hs]; exact List.mem_cons_of_mem _ hj)⟩
    | incl d =>
      simp only [plunge_eq h.good]
      have : Inv fs (tryAll fs s (candidates incs (dirOpt ((s.opened[i]?.map (·.path)).getD [])) d)).2 := by
        unfold tryAll
        split
        · exact h
        · next p hp => exact visit_inv h (List.find?_some (p := fun p => (fs.hideEmpty.file p).isSome) hp)
      split
      · exact ⟨this.good, this.entered, this.stack⟩
      · exact this

theorem step_spec {s : St} (h : Inv fs s) (incs : List Path) (e : Event) :
    Step fs.hideEmpty incs s.reading e (step fs incs s e).reading := by
  have hr := reads_eq h
  unfold step
  split
  · next x _ hm => exact .stopped (.inl (by simp [St.reading, hm]))
  · next hm hs => exact .stopped (.inr (by simp [St.reading, hs]))
  · next i rest hm hs =>
    have hi : i < s.opened.length := h.stack i (by rw [hs]; exact List.mem_cons_self)
    have hsr : s.reading = ⟨s.opened.map (·.path), s.opened[i].path :: rest.filterMap fun i => s.opened[i]?.map (·.path), none⟩ := by
      have h1 : s.reading = ⟨s.reading.reads, s.reading.stack, s.reading.missing⟩ := rfl
      rw [h1, hr]
      simp only [St.reading, hm, hs, List.filterMap_cons, List.getElem?_eq_getElem hi, Option.map_some]
    cases e with
    | eof =>
      have : St.reading { s with stack := rest } = ⟨s.opened.map (·.path), rest.filterMap fun i => s.opened[i]?.map (·.path), none⟩ := by
        rw [← hr]; simp only [St.reading, hm]
      rw [hsr]
      simp only [this]
      exact .eof
    | incl d =>
      have hcur : (s.opened[i]?.map (·.path)).getD [] = s.opened[i].path := by
        simp [List.getElem?_eq_getElem hi]
      simp only [plunge_eq h.good, hcur]
      have hd := hasDir_dirOpt s.opened[i].path
      generalize dirOpt s.opened[i].path = dir at hd ⊢
      unfold tryAll
      cases hf : (candidates incs dir d).find? (fun p => (fs.hideEmpty.file p).isSome) with
      | none =>
        have hn : ∀ q ∈ candidates incs dir d, fs.hideEmpty.file q = none := by
          intro q hq
          have := List.find?_eq_none.mp hf q hq
          simpa using this
        have key := Step.none (fs := fs.hideEmpty) (incs := incs) (reads := s.opened.map (·.path))
          (stack := rest.filterMap fun i => s.opened[i]?.map (·.path)) hd hn
        rw [hsr]
        cases ho : d.opt with
        | true =>
          rw [ho] at key
          simp only [Bool.not_true, Bool.and_false, Bool.false_eq_true, if_false]
          rw [hsr]
          exact key
        | false =>
          rw [ho] at key
          simp only [Bool.not_false, Bool.and_self, if_true]
          have : St.reading { s with missing := some d.name } = { s.reading with missing := some d.name } := rfl
          rw [this, hsr]
          exact key
      | some p =>
        simp only [Bool.not_true, Bool.false_and, Bool.false_eq_true, if_false]
        unfold visit
        cases hk : known fs s.opened p with
        | true =>
          simp only [if_true]
          rw [hsr]
          refine .again hd hf ?_
          unfold known at hk
          rw [List.any_eq_true] at hk
          obtain ⟨o, ho, he⟩ := hk
          exact ⟨o.path, List.mem_map_of_mem ho, eq_of_beq he⟩
        | false =>
          have hv := visit_inv h (List.find?_some (p := fun p => (fs.hideEmpty.file p).isSome) hf)
          have hvr := reads_eq hv
          unfold visit at hvr
          simp only [hk, Bool.false_eq_true, if_false] at hvr ⊢
          have hst := stack_append h [⟨p, true⟩]
          have : St.reading { s with opened := s.opened ++ [⟨p, true⟩], stack := s.opened.length :: s.stack,
                                     entered := s.entered ++ [s.opened.length] } =
              ⟨s.opened.map (·.path) ++ [p], p :: s.reading.stack, none⟩ := by
            rw [← hst]
            have h2 := hvr
            simp only [List.map_append, List.map_cons, List.map_nil] at h2
            rw [← h2]
            simp [St.reading, hm]
          rw [this, hsr]
          refine .enter hd hf ?_
          intro q hq
          obtain ⟨o, ho, rfl⟩ := List.mem_map.mp hq
          unfold known at hk
          rw [List.any_eq_false] at hk
          exact fun he => hk o ho (by rw [he]; simp)

theorem run_inv {s : St} (h : Inv fs s) (incs : List Path) (es : List Event) : Inv fs (run fs incs s es) := by
  induction es generalizing s with
  | nil => exact h
  | cons e es ih => exact ih (step_inv h incs e)

theorem run_spec {s : St} (h : Inv fs s) (incs : List Path) (es : List Event) :
    Steps fs.hideEmpty incs s.reading es (run fs incs s es).reading := by
  induction es generalizing s with
  | nil => exact .nil
  | cons e es ih => exact .cons (step_spec h incs e) (ih (step_inv h incs e))

theorem start_eq (main : Path) :
    start fs main = if (fs.hideEmpty.file main).isSome then some ⟨[⟨main, true⟩], [0], [0], none⟩ else none := by
  unfold start sourcesOpen
  simp only [List.findIdx?_nil, fileOpen_eq]
  cases (fs.hideEmpty.file main).isSome <;> rfl

theorem start_inv {main : Path} {s : St} (h : start fs main = some s) : Inv fs s ∧ s.reading = ⟨[main], [main], none⟩ := by
  rw [start_eq] at h
  split at h
  · next hm =>
    cases h
    refine ⟨⟨⟨by simp, by simpa using hm, by simp⟩, by simp, by simp⟩, by simp [St.reading]⟩
  · cases h

theorem takeName_append {close : Char} {name rest : List Char}
    (h : ∀ c ∈ name, c ≠ close ∧ c ≠ '\x00' ∧ c ≠ '\n' ∧ c ≠ '\r') :
    takeName close (name ++ close :: rest) = (name, close :: rest) := by
  induction name with
  | nil => simp [takeName]
  | cons c cs ih =>
    have hc := h c List.mem_cons_self
    rw [List.cons_append, takeName, ih (fun x hx => h x (List.mem_cons_of_mem _ hx))]
    simp [hc.1, hc.2.1, hc.2.2.1, hc.2.2.2]

theorem dropWhile_ne {b r : List Char} (hb : '/' ∉ b) : (b.reverse ++ '/' :: r).dropWhile (· != '/') = '/' :: r := by
  rw [List.dropWhile_append_of_pos]
  · simp
  · intro c hc
    have : c ≠ '/' := fun h => hb (h ▸ List.mem_reverse.mp hc)
    simpa using this

theorem dropWhile_replicate (k : Nat) (r : List Char) :
    (List.replicate k '/' ++ r).dropWhile (· == '/') = r.dropWhile (· == '/') := by
  rw [List.dropWhile_append_of_pos]
  intro c hc
  simp [List.eq_of_mem_replicate hc]

theorem parentPath_of_dir {p d : Path} (h : Dir p d) : parentPath p = d := by
  cases h with
  | @sub d b c k hc hb =>
    have e : ((d ++ [c]) ++ (List.replicate (k + 1) '/' ++ b)).reverse =
        b.reverse ++ '/' :: (List.replicate k '/' ++ (c :: d.reverse)) := by
      rw [← List.cons_append, ← List.replicate_succ]
      simp [List.reverse_append]
    have e3 : '/' :: (List.replicate k '/' ++ (c :: d.reverse)) = List.replicate (k + 1) '/' ++ (c :: d.reverse) := by
      rw [List.replicate_succ]; rfl
    have e2 : (List.replicate (k + 1) '/' ++ (c :: d.reverse)).dropWhile (· == '/') = c :: d.reverse := by
      rw [dropWhile_replicate]
      simp [hc]
    unfold parentPath
    rw [e, dropWhile_ne hb, e3]
    dsimp only
    rw [e2]
    simp
  | @root b k hb =>
    have e : (List.replicate (k + 1) '/' ++ b).reverse = b.reverse ++ '/' :: List.replicate k '/' := by
      simp [List.reverse_append, List.replicate_succ']
    have e2 : ('/' :: List.replicate k '/').dropWhile (· == '/') = [] := by
      have := dropWhile_replicate (k + 1) []
      rw [List.append_nil] at this
      exact this
    unfold parentPath
    rw [e, dropWhile_ne hb]
    dsimp only
    rw [e2]
    simp

theorem dir_ne_nil {p d : Path} (h : Dir p d) : d ≠ [] := by
  cases h <;> simp

theorem hasDir_eq {p : Path} {o : Option Path} (h : HasDir p o) : o = dirOpt p := by
  unfold dirOpt
  cases o with
  | some d =>
    rw [parentPath_of_dir h, if_neg (by simpa using dir_ne_nil h)]
  | none =>
    have h2 := hasDir_dirOpt p
    unfold dirOpt at h2
    split
    · rfl
    · next hp =>
      rw [if_neg hp] at h2
      refine absurd ?_ h
      generalize parentPath p = d at h2
      change Dir p d at h2
      cases h2 <;> simp [List.replicate_succ]

theorem step_fun {incs : List Path} {r r1 r2 : Reading} {e : Event} (h1 : Step fs incs r e r1) (h2 : Step fs incs r e r2) : r1 = r2 := by
  cases h1 with
  | stopped h =>
    cases h2 with
    | stopped => rfl
    | _ => simp at h
  | eof =>
    cases h2 with
    | stopped h => simp at h
    | eof => rfl
  | enter hd hf hn =>
    cases h2 with
    | stopped h => simp at h
    | enter hd' hf' hn' =>
      obtain rfl := (hasDir_eq hd).trans (hasDir_eq hd').symm
      rw [hf] at hf'; cases hf'; rfl
    | again hd' hf' hn' =>
      obtain rfl := (hasDir_eq hd).trans (hasDir_eq hd').symm
      rw [hf] at hf'; cases hf'
      obtain ⟨q, hq, he⟩ := hn'
      exact absurd he (hn q hq)
    | none hd' hn' =>
      obtain rfl := (hasDir_eq hd).trans (hasDir_eq hd').symm
      have := List.find?_some (p := fun q => (fs.file q).isSome) hf
      rw [hn' _ (List.mem_of_find?_eq_some hf)] at this; cases this
  | again hd hf hn =>
    cases h2 with
    | stopped h => rfl
    | enter hd' hf' hn' =>
      obtain rfl := (hasDir_eq hd).trans (hasDir_eq hd').symm
      rw [hf] at hf'; cases hf'
      obtain ⟨q, hq, he⟩ := hn
      exact absurd he (hn' q hq)
    | again hd' hf' hn' => rfl
    | none hd' hn' =>
      obtain rfl := (hasDir_eq hd).trans (hasDir_eq hd').symm
      have := List.find?_some (p := fun q => (fs.file q).isSome) hf
      rw [hn' _ (List.mem_of_find?_eq_some hf)] at this; cases this
  | none hd hn =>
    cases h2 with
    | stopped h => simp at h
    | enter hd' hf' hn' =>
      obtain rfl := (hasDir_eq hd).trans (hasDir_eq hd').symm
      have := List.find?_some (p := fun q => (fs.file q).isSome) hf'
      rw [hn _ (List.mem_of_find?_eq_some hf')] at this; cases this
    | again hd' hf' hn' =>
      obtain rfl := (hasDir_eq hd).trans (hasDir_eq hd').symm
      have := List.find?_some (p := fun q => (fs.file q).isSome) hf'
      rw [hn _ (List.mem_of_find?_eq_some hf')] at this; cases this
    | none hd' hn' => rfl

end Verif.Include

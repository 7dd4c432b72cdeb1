import Verif.Spec.Storage

/-! Lemmas for C76: the layout of enum structs. -/
namespace Verif.Storage
open Verif.VM (Cell)

/-- Fields one after the other, from a position to an end, in cells. -/
def LaidFrom (S : Structs) : Nat → List Field → Nat → Prop
  | p, [], e => p = e
  | p, d :: ds, e => d.offset = p ∧ Known S d.ty ∧ ∃ c, cells S d.ty = some c ∧ LaidFrom S (p + c) ds e

theorem LaidFrom.snoc {S : Structs} {x : Field} {c : Nat} (hk : Known S x.ty) (hc : cells S x.ty = some c) :
    ∀ {l : List Field} {p e : Nat}, LaidFrom S p l e → x.offset = e → LaidFrom S p (l ++ [x]) (e + c)
  | [], p, e, h, ho => by
    cases h
    exact ⟨ho, hk, c, hc, rfl⟩
  | d :: ds, p, e, ⟨h1, h2, c', h3, h4⟩, ho => ⟨h1, h2, c', h3, snoc hk hc h4 ho⟩

theorem find_append {S : Structs} {x : Laid} {s : Nat} {d : Laid} (h : find S s = some d) : find (S ++ [x]) s = some d := by
  unfold find at h ⊢
  rw [List.find?_append, h]
  rfl

theorem find_same {S : Structs} {x : Laid} {s : Nat} (h : (find S s).isSome) : find (S ++ [x]) s = find S s := by
  obtain ⟨d, hd⟩ := Option.isSome_iff_exists.mp h
  rw [hd, find_append hd]

theorem Known.append {S : Structs} {x : Laid} {t : Ty} (h : Known S t) : Known (S ++ [x]) t := by
  match t, h with
  | .one .cell, _ | .one .char, _ | .one .int64, _ => trivial
  | .one (.struct s), h => exact (by rw [find_same h]; exact h : (find (S ++ [x]) s).isSome = true)
  | .array .cell n, h | .array .char n, h | .array .int64 n, h => exact h
  | .array (.struct s) n, ⟨h1, h2⟩ => exact ⟨h1, by rw [find_same h2]; exact h2⟩

theorem cells_append {S : Structs} {x : Laid} {t : Ty} (h : Known S t) : cells (S ++ [x]) t = cells S t := by
  match t, h with
  | .one .cell, _ | .one .char, _ | .one .int64, _ => rfl
  | .one (.struct s), h => simp only [cells, elemCells]; rw [find_same h]
  | .array .cell n, h | .array .char n, h | .array .int64 n, h => rfl
  | .array (.struct s) n, ⟨h1, h2⟩ => simp only [cells, elemCells]; rw [find_same h2]

theorem LaidFrom.append {S : Structs} {x : Laid} : ∀ {l : List Field} {p e : Nat}, LaidFrom S p l e → LaidFrom (S ++ [x]) p l e
  | [], _, _, h => h
  | _ :: _, _, _, ⟨h1, h2, c, h3, h4⟩ => ⟨h1, h2.append, c, by rw [cells_append h2]; exact h3, append h4⟩

theorem narrow_eq {n c : Nat} (h : narrow n = some c) : c = n := by
  unfold narrow at h
  by_cases hn : n < 2147483648
  · rw [if_pos hn] at h; cases h; rfl
  · rw [if_neg hn] at h; cases h

theorem bytes_cells {S : Structs} {t : Ty} {c : Nat} (h : cells S t = some c) : bytes S (.obj t) = 4 * c := by
  match t, h with
  | .one .cell, h | .one .char, h | .one .int64, h => cases h; rfl
  | .one (.struct s), h =>
    cases h
    simp only [bytes, baseBytes, elemCells]
    omega
  | .array .char n, h =>
    cases h
    simp only [bytes]
    omega
  | .array .cell n, h =>
    have h := narrow_eq h
    subst h
    simp only [elemCells]
    simp only [bytes, baseBytes]; omega
  | .array .int64 n, h =>
    have h := narrow_eq h
    subst h
    simp only [elemCells]
    simp only [bytes, baseBytes]; omega
  | .array (.struct s) n, h =>
    have h := narrow_eq h
    subst h
    simp only [elemCells]
    simp only [bytes, baseBytes]
    rw [Nat.mul_comm 4, Nat.mul_assoc]

/-- What holds for the structs of an accepted program. -/
def Good (S : Structs) : Prop :=
  ∀ s d, find S s = some d → LaidFrom S 0 d.fields d.size ∧ (d.fields.map (·.name)).Nodup

theorem resolve_pos : ∀ {l : List (Option Cell)} {ns : List Nat}, resolveDims l = .ok ns → ∀ n ∈ ns, 0 < n ∧ n < 2147483648
  | [], ns, h, n, hn => by cases h; cases hn
  | none :: _, ns, h, n, hn => by cases h
  | some v :: rest, ns, h, n, hn => by
    simp only [resolveDims] at h
    split at h
    · cases h
    · rename_i hv
      split at h
      · rename_i ns' h'
        cases h
        rcases List.mem_cons.mp hn with rfl | hn
        · have hcond := BitVec.toInt_eq_toNat_cond v
          have := v.isLt
          split at hcond <;> omega
        · exact resolve_pos h' n hn
      · cases h

theorem bind_known {S : Structs} {self : Nat} {f : FieldDecl} {t : Ty} (h : bindField S self f = .ok t) : Known S t := by
  unfold bindField at h
  split at h
  · cases h
  · rename_i hb
    have hb : ∀ s, f.base = .struct s → (find S s).isSome := by
      intro s hs
      rw [hs] at hb
      simp only [bindBase] at hb
      by_cases h1 : s = self
      · rw [if_pos h1] at hb; cases hb
      · rw [if_neg h1] at hb
        by_cases h2 : (find S s).isSome
        · exact h2
        · rw [if_neg h2] at hb; cases hb
    split at h
    · cases h
    · cases h
      cases hf : f.base with
      | struct s => exact hb s hf
      | _ => trivial
    · rename_i n hn
      cases h
      have h0 := resolve_pos hn n (by simp)
      cases hf : f.base with
      | struct s => exact ⟨h0, hb s hf⟩
      | _ => exact h0
    · cases h

theorem bind_declared {S : Structs} {self : Nat} {f : FieldDecl} {t : Ty} (h : bindField S self f = .ok t) : t = f.declared := by
  unfold bindField at h
  unfold FieldDecl.declared
  split at h
  · cases h
  · split at h
    · cases h
    · rename_i hd
      cases h
      cases hf : f.dims with
      | nil => rfl
      | cons a l =>
        rw [hf] at hd
        cases a with
        | none => cases hd
        | some v =>
          simp only [resolveDims] at hd
          split at hd
          · cases hd
          · split at hd <;> cases hd
    · rename_i n hd
      cases h
      cases hf : f.dims with
      | nil => rw [hf] at hd; cases hd
      | cons a l =>
        rw [hf] at hd
        cases a with
        | none => cases hd
        | some v =>
          simp only [resolveDims] at hd
          split at hd
          · cases hd
          · split at hd
            · rename_i ns hns
              simp only [Except.ok.injEq, List.cons.injEq] at hd
              obtain ⟨rfl, rfl⟩ := hd
              cases l with
              | nil => rfl
              | cons b l =>
                cases b with
                | none => cases hns
                | some w =>
                  simp only [resolveDims] at hns
                  split at hns
                  · cases hns
                  · split at hns <;> cases hns
            · cases hd
    · cases h

theorem enterField_reports {S : Structs} {self : Nat} {s s' : Loop} {f : FieldDecl} (h : enterField S self s f = some s')
    (hr : s'.reports = []) : s.reports = [] := by
  unfold enterField at h
  split at h
  · cases h; simp at hr
  · simp only at h
    split at h
    · split at h <;> (first | (cases h; simp at hr; done) | skip)
      split at h
      · cases h
      · split at h <;> cases h
        simp at hr
    · split at h <;> (first | (cases h; simp at hr; done) | skip)
      split at h
      · cases h
      · split at h <;> cases h
        exact hr

theorem enterFields_reports {S : Structs} {self : Nat} : ∀ {fs : List FieldDecl} {s s' : Loop}, enterFields S self s fs = some s' →
    s'.reports = [] → s.reports = []
  | [], s, s', h, hr => by cases h; exact hr
  | f :: fs, s, s', h, hr => by
    simp only [enterFields] at h
    split at h
    · cases h
    · rename_i s1 h1
      exact enterField_reports h1 (enterFields_reports h hr)

/-- The loop invariant. -/
def Inv (S : Structs) (s : Loop) : Prop :=
  LaidFrom S 0 s.fields s.position ∧ s.seen = (s.fields.map (·.name)).reverse ∧ (s.fields.map (·.name)).Nodup

theorem enterField_inv {S : Structs} {self : Nat} {s s' : Loop} {f : FieldDecl} (I : Inv S s) (h : enterField S self s f = some s')
    (hr : s'.reports = []) : Inv S s' ∧ s'.fields.map (fun x => (x.name, x.ty)) = s.fields.map (fun x => (x.name, x.ty)) ++ [(f.name, f.declared)] := by
  unfold enterField at h
  split at h
  · cases h; simp at hr
  · rename_i t ht
    simp only at h
    split at h
    · split at h <;> (first | (cases h; simp at hr; done) | skip)
      split at h
      · cases h
      · split at h <;> cases h
        simp at hr
    · split at h
      · cases h; simp at hr
      · rename_i hs
        split at h
        · cases h
        · rename_i c hc
          split at h <;> cases h
          rename_i p hp
          have : p = s.position + c := narrow_eq hp
          subst this
          obtain ⟨i1, i2, i3⟩ := I
          refine ⟨⟨LaidFrom.snoc (x := ⟨f.name, t, s.position⟩) (bind_known ht) hc i1 rfl, ?_, ?_⟩, by simp [bind_declared ht]⟩
          · simp [i2]
          · rw [List.map_append, List.nodup_append]
            refine ⟨i3, by simp, ?_⟩
            intro a ha b hb hab
            simp at hb
            subst hb
            subst hab
            exact hs (by rw [i2]; exact List.mem_reverse.mpr ha)

theorem enterFields_inv {S : Structs} {self : Nat} : ∀ {fs : List FieldDecl} {s s' : Loop}, Inv S s → enterFields S self s fs = some s' →
    s'.reports = [] → Inv S s' ∧ s'.fields.map (fun x => (x.name, x.ty)) =
    s.fields.map (fun x => (x.name, x.ty)) ++ fs.map (fun f => (f.name, f.declared))
  | [], s, s', I, h, hr => by cases h; exact ⟨I, by simp⟩
  | f :: fs, s, s', I, h, hr => by
    simp only [enterFields] at h
    split at h
    · cases h
    · rename_i s1 h1
      have hr1 := enterFields_reports h hr
      obtain ⟨I1, e1⟩ := enterField_inv I h1 hr1
      obtain ⟨I2, e2⟩ := enterFields_inv I1 h hr
      exact ⟨I2, by rw [e2, e1]; simp⟩

theorem enter_good {S S' : Structs} {d : Decl} (G : Good S) (h : enter S d = some (S', [])) : Good S' := by
  unfold enter at h
  split at h
  · simp at h
  · rename_i hn
    split at h
    · cases h
    · rename_i s hs
      simp only [Option.some.injEq, Prod.mk.injEq] at h
      obtain ⟨rfl, hr⟩ := h
      have hr' : s.reports = [] := by
        have := List.append_eq_nil_iff.mp hr
        exact (List.append_eq_nil_iff.mp this.1).1
      obtain ⟨⟨i1, i2, i3⟩, _⟩ := enterFields_inv (s := ⟨0, [], [], []⟩) ⟨rfl, rfl, List.nodup_nil⟩ hs hr'
      intro n x hx
      by_cases hf : (find S n).isSome
      · rw [find_same hf] at hx
        obtain ⟨g1, g2⟩ := G n x hx
        exact ⟨g1.append, g2⟩
      · have hf' : find S n = none := by simpa using hf
        unfold find at hx hf'
        rw [List.find?_append, hf'] at hx
        simp only [List.find?_cons, List.find?_nil, Option.none_or] at hx
        split at hx <;> cases hx
        exact ⟨i1.append, i3⟩

theorem enterAll_good : ∀ {ds : List Decl} {S S' : Structs}, Good S → enterAll S ds = some (S', []) → Good S'
  | [], S, S', G, h => by cases h; exact G
  | d :: ds, S, S', G, h => by
    simp only [enterAll] at h
    split at h
    · cases h
    · rename_i S1 r h1
      split at h
      · cases h
      · rename_i S2 r' h2
        simp only [Option.some.injEq, Prod.mk.injEq, List.append_eq_nil_iff] at h
        obtain ⟨rfl, rfl, rfl⟩ := h
        exact enterAll_good (enter_good G h1) h2

theorem accepted_good {ds : List Decl} {S : Structs} (h : Accepted ds S) : Good S :=
  enterAll_good (fun _ _ h => by cases h) h

theorem enter_kept {S S' : Structs} {d : Decl} {r : List Nat} (h : enter S d = some (S', r)) {n : Nat} {l : Laid} (hl : find S n = some l) :
    find S' n = some l := by
  unfold enter at h
  split at h
  · cases h; exact hl
  · split at h
    · cases h
    · cases h; exact find_append hl

theorem enterAll_kept : ∀ {ds : List Decl} {S S' : Structs} {r : List Nat}, enterAll S ds = some (S', r) → ∀ {n : Nat} {l : Laid}, find S n = some l →
    find S' n = some l
  | [], S, S', r, h, n, l, hl => by cases h; exact hl
  | d :: ds, S, S', r, h, n, l, hl => by
    simp only [enterAll] at h
    split at h
    · cases h
    · rename_i h1
      split at h
      · cases h
      · rename_i h2
        cases h
        exact enterAll_kept h2 (enter_kept h1 hl)

theorem enter_fields {S S' : Structs} {d : Decl} (h : enter S d = some (S', [])) :
    ∃ l, find S' d.name = some l ∧ l.fields.map (fun x => (x.name, x.ty)) = d.fields.map (fun f => (f.name, f.declared)) ∧ d.fields ≠ [] := by
  unfold enter at h
  split at h
  · simp at h
  · rename_i hn
    split at h
    · cases h
    · rename_i s hs
      simp only [Option.some.injEq, Prod.mk.injEq, List.append_eq_nil_iff] at h
      obtain ⟨rfl, ⟨hr, he⟩, _⟩ := h
      obtain ⟨_, e⟩ := enterFields_inv (s := ⟨0, [], [], []⟩) ⟨rfl, rfl, List.nodup_nil⟩ hs hr
      refine ⟨⟨d.name, s.fields, d.methods, s.position⟩, ?_, e, ?_⟩
      · have hf' : find S d.name = none := by simpa using hn
        unfold find at hf' ⊢
        rw [List.find?_append, hf']
        simp
      · intro h0
        rw [if_pos h0] at he
        cases he

theorem enterAll_fields : ∀ {ds : List Decl} {S S' : Structs}, enterAll S ds = some (S', []) → ∀ d ∈ ds,
    ∃ l, find S' d.name = some l ∧ l.fields.map (fun x => (x.name, x.ty)) = d.fields.map (fun f => (f.name, f.declared)) ∧ d.fields ≠ []
  | [], S, S', h, d, hd => by cases hd
  | a :: ds, S, S', h, d, hd => by
    simp only [enterAll] at h
    split at h
    · cases h
    · rename_i S1 r h1
      split at h
      · cases h
      · rename_i S2 r' h2
        simp only [Option.some.injEq, Prod.mk.injEq, List.append_eq_nil_iff] at h
        obtain ⟨rfl, rfl, rfl⟩ := h
        rcases List.mem_cons.mp hd with rfl | hd
        · obtain ⟨l, e1, e2⟩ := enter_fields h1
          exact ⟨l, enterAll_kept h2 e1, e2⟩
        · exact enterAll_fields h2 d hd

theorem laid_sum {S : Structs} : ∀ {l : List Field} {p e : Nat}, LaidFrom S p l e → 4 * e = 4 * p + (l.map fun x => bytes S (.obj x.ty)).sum
  | [], _, _, h => by cases h; simp
  | d :: ds, p, e, ⟨_, _, c, h3, h4⟩ => by
    rw [laid_sum h4, List.map_cons, List.sum_cons, bytes_cells h3]
    omega

/-! ### Fields -/

/-- A field that is found has the offset of its place. -/
theorem pos_of_find {S : Structs} {f : Nat} : ∀ {l : List Field} {p e : Nat} {x : Field}, LaidFrom S p l e →
    l.find? (·.name == f) = some x → p ≤ x.offset ∧ fieldPos S f l = some (4 * (x.offset - p), x.ty) ∧ Known S x.ty
  | [], _, _, _, _, h => by cases h
  | d :: ds, p, e, x, ⟨h1, h2, c, h3, h4⟩, h => by
    simp only [List.find?_cons] at h
    unfold fieldPos
    by_cases hd : d.name = f
    · simp only [hd, beq_self_eq_true] at h
      cases h
      rw [if_pos hd, h1]
      exact ⟨Nat.le_refl _, by simp, h2⟩
    · rw [if_neg hd]
      have hb : (d.name == f) = false := by simpa using hd
      rw [hb] at h
      obtain ⟨i1, i2, i3⟩ := pos_of_find h4 h
      refine ⟨by omega, ?_, i3⟩
      rw [i2, bytes_cells h3]
      simp only [Option.map_some, Option.some.injEq, Prod.mk.injEq, and_true]
      omega

theorem pos_none {S : Structs} {f : Nat} : ∀ {l : List Field}, l.find? (·.name == f) = none → fieldPos S f l = none
  | [], _ => rfl
  | d :: ds, h => by
    simp only [List.find?_cons] at h
    unfold fieldPos
    by_cases hd : d.name = f
    · simp only [hd, beq_self_eq_true] at h
      cases h
    · rw [if_neg hd]
      have hb : (d.name == f) = false := by simpa using hd
      rw [hb] at h
      rw [pos_none h]
      rfl

theorem pos_inside {S : Structs} {f : Nat} : ∀ {l : List Field} {p e o : Nat} {t : Ty}, LaidFrom S p l e → fieldPos S f l = some (o, t) →
    4 * p + o + bytes S (.obj t) ≤ 4 * e
  | [], _, _, _, _, _, h => by cases h
  | d :: ds, p, e, o, t, ⟨h1, h2, c, h3, h4⟩, h => by
    unfold fieldPos at h
    split at h
    · cases h
      have : ∀ {l : List Field} {p e : Nat}, LaidFrom S p l e → p ≤ e := by
        intro l
        induction l with
        | nil => intro p e h; cases h; exact Nat.le_refl _
        | cons a l ih =>
          intro p e ⟨_, _, c, _, h⟩
          have := ih h
          omega
      have := this h4
      rw [bytes_cells h3]
      omega
    · rw [Option.map_eq_some_iff] at h
      obtain ⟨⟨o', t'⟩, h5, h6⟩ := h
      cases h6
      have := pos_inside h4 h5
      rw [bytes_cells h3]
      omega

theorem pos_disjoint {S : Structs} {f g : Nat} (hn : f ≠ g) : ∀ {l : List Field} {p e o o' : Nat} {t t' : Ty}, LaidFrom S p l e →
    fieldPos S f l = some (o, t) → fieldPos S g l = some (o', t') → o + bytes S (.obj t) ≤ o' ∨ o' + bytes S (.obj t') ≤ o
  | [], _, _, _, _, _, _, _, h, _ => by cases h
  | d :: ds, p, e, o, o', t, t', ⟨h1, h2, c, h3, h4⟩, hf, hg => by
    unfold fieldPos at hf hg
    split at hf
    · rename_i hd
      cases hf
      split at hg
      · rename_i hd'
        exact absurd (hd.symm.trans hd') hn
      · rw [Option.map_eq_some_iff] at hg
        obtain ⟨⟨o', t'⟩, h5, h6⟩ := hg
        cases h6
        left; omega
    · rw [Option.map_eq_some_iff] at hf
      obtain ⟨⟨o1, t1⟩, h5, h6⟩ := hf
      cases h6
      split at hg
      · cases hg
        right; omega
      · rw [Option.map_eq_some_iff] at hg
        obtain ⟨⟨o2, t2⟩, h7, h8⟩ := hg
        cases h8
        have := pos_disjoint hn h4 h5 h7
        omega

/-! ### Steps -/

theorem array_fits (S : Structs) (b : Base) (n : Nat) : n * bytes S (elem b) ≤ bytes S (.obj (.array b n)) := by
  cases b <;> simp only [elem, bytes] <;> omega

theorem next_inside {S : Structs} (G : Good S) {p q : Place} {x : Step} {o : Nat} (h : next S p x = some (o, q)) : o + bytes S q ≤ bytes S p := by
  match p, x, h with
  | .obj (.array b n), .index i, h =>
    simp only [next] at h
    split at h <;> cases h
    rename_i hi
    have h1 := array_fits S b n
    have : i * bytes S (elem b) + bytes S (elem b) = (i + 1) * bytes S (elem b) := by rw [Nat.add_mul, Nat.one_mul]
    have h2 : (i + 1) * bytes S (elem b) ≤ n * bytes S (elem b) := Nat.mul_le_mul_right _ hi
    omega
  | .obj (.one (.struct s)), .field f, h =>
    simp only [next, Option.bind_eq_some_iff, Option.map_eq_some_iff] at h
    obtain ⟨d, h1, ⟨o', t⟩, h2, h3⟩ := h
    cases h3
    have := pos_inside (G s d h1).1 h2
    simp only [bytes, baseBytes, h1, Option.map_some, Option.getD_some] at this ⊢
    omega

theorem next_disjoint {S : Structs} (G : Good S) {p q q' : Place} {x y : Step} {o o' : Nat} (h : next S p x = some (o, q))
    (h' : next S p y = some (o', q')) (hn : x ≠ y) : o + bytes S q ≤ o' ∨ o' + bytes S q' ≤ o := by
  match p, x, y, h, h' with
  | .obj (.array b n), .index i, .index j, h, h' =>
    simp only [next] at h h'
    split at h <;> cases h
    split at h' <;> cases h'
    have hij : i ≠ j := fun e => hn (by rw [e])
    have e1 : i * bytes S (elem b) + bytes S (elem b) = (i + 1) * bytes S (elem b) := by rw [Nat.add_mul, Nat.one_mul]
    have e2 : j * bytes S (elem b) + bytes S (elem b) = (j + 1) * bytes S (elem b) := by rw [Nat.add_mul, Nat.one_mul]
    rcases Nat.lt_or_gt_of_ne hij with hl | hl
    · left; rw [e1]; exact Nat.mul_le_mul_right _ hl
    · right; rw [e2]; exact Nat.mul_le_mul_right _ hl
  | .obj (.one (.struct s)), .field f, .field g, h, h' =>
    simp only [next, Option.bind_eq_some_iff, Option.map_eq_some_iff] at h h'
    obtain ⟨d, h1, ⟨o1, t1⟩, h2, h3⟩ := h
    obtain ⟨d', h1', ⟨o2, t2⟩, h2', h3'⟩ := h'
    rw [h1] at h1'
    cases h1'
    cases h3
    cases h3'
    exact pos_disjoint (fun e => hn (by rw [e])) (G s d h1).1 h2 h2'

theorem follow_inside {S : Structs} (G : Good S) : ∀ {xs : List Step} {p q : Place} {o : Nat}, follow S p xs = some (o, q) →
    o + bytes S q ≤ bytes S p
  | [], p, q, o, h => by cases h; omega
  | x :: xs, p, q, o, h => by
    simp only [follow] at h
    split at h
    · cases h
    · rename_i o1 p1 h1
      rw [Option.map_eq_some_iff] at h
      obtain ⟨⟨o2, q2⟩, h2, h3⟩ := h
      cases h3
      have := follow_inside G h2
      have := next_inside G h1
      dsimp only at *
      omega

theorem follow_disjoint {S : Structs} (G : Good S) : ∀ {xs ys : List Step} {p q q' : Place} {o o' : Nat}, follow S p xs = some (o, q) →
    follow S p ys = some (o', q') → ¬ xs <+: ys → ¬ ys <+: xs → o + bytes S q ≤ o' ∨ o' + bytes S q' ≤ o
  | [], ys, _, _, _, _, _, _, _, h, _ => absurd (List.nil_prefix) h
  | _ :: _, [], _, _, _, _, _, _, _, _, h => absurd (List.nil_prefix) h
  | x :: xs, y :: ys, p, q, q', o, o', h, h', n1, n2 => by
    simp only [follow] at h h'
    split at h
    · cases h
    · rename_i o1 p1 h1
      rw [Option.map_eq_some_iff] at h
      obtain ⟨⟨o2, q2⟩, h2, h3⟩ := h
      cases h3
      split at h'
      · cases h'
      · rename_i o1' p1' h1'
        rw [Option.map_eq_some_iff] at h'
        obtain ⟨⟨o2', q2'⟩, h2', h3'⟩ := h'
        cases h3'
        have b1 := follow_inside G h2
        have b2 := follow_inside G h2'
        by_cases he : x = y
        · subst he
          rw [h1] at h1'
          cases h1'
          have := follow_disjoint G h2 h2' (fun h => n1 (List.cons_prefix_cons.mpr ⟨rfl, h⟩)) (fun h => n2 (List.cons_prefix_cons.mpr ⟨rfl, h⟩))
          dsimp only at *
          omega
        · have := next_disjoint G h1 h1' he
          have := next_inside G h1
          have := next_inside G h1'
          dsimp only at *
          omega

theorem follow_snoc {S : Structs} : ∀ {xs : List Step} {p : Place} {x : Step},
    follow S p (xs ++ [x]) = (follow S p xs).bind fun (o, q) => (next S q x).map fun (o', r) => (o + o', r)
  | [], p, x => by
    simp only [List.nil_append, follow]
    simp only [Option.bind_some]
    cases next S p x with
    | none => rfl
    | some r => simp
  | y :: ys, p, x => by
    simp only [List.cons_append, follow]
    cases next S p y with
    | none => rfl
    | some r =>
      simp only
      rw [follow_snoc]
      cases follow S r.2 ys with
      | none => rfl
      | some r2 =>
        simp only [Option.bind_some, Option.map_some]
        cases next S r2.2 x with
        | none => rfl
        | some r3 => simp [Nat.add_assoc]

end Verif.Storage

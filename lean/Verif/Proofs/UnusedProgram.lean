import Verif.Proofs.UnusedCheck

/-! Lemmas for C92: functions and programs. -/
namespace Verif.Unused

theorem number_length : ∀ (vs : List Var) (n : Nat), (number n vs).length = vs.length
  | [], _ => rfl
  | v :: vs, n => by simp [number, number_length vs]

theorem number_range : ∀ (vs : List Var) (n : Nat) (e : Entry), e ∈ number n vs → n ≤ e.2 ∧ e.2 < n + vs.length
  | [], _, e, h => nomatch h
  | v :: vs, n, e, h => by
    simp only [number, List.mem_cons] at h
    simp only [List.length_cons]
    rcases h with rfl | h
    · exact ⟨Nat.le_refl _, by simp only; omega⟩
    · have := number_range vs (n + 1) e h; omega

/-- A name in a scope whose names differ. -/
theorem number_find {r : List (List Entry)} : ∀ (vs : List Var) (n : Nat) (x : Name), (vs.map (·.name)).Nodup →
    (∀ e ∈ number n vs, e.1.name = x → find (number n vs :: r) x = some e) ∧ ((∀ v ∈ vs, v.name ≠ x) → find (number n vs :: r) x = find r x)
  | [], _, x, h => ⟨fun e he => (nomatch he), fun _ => rfl⟩
  | v :: vs, n, x, h => by
    simp only [List.map_cons, List.nodup_cons] at h
    obtain ⟨a1, a2⟩ := number_find (r := r) vs (n + 1) x h.2
    refine ⟨fun e he hx => ?_, fun hx => ?_⟩
    · simp only [number, List.mem_cons] at he
      show find (((v, n) :: number (n + 1) vs) :: r) x = _
      rw [find_cons]
      rcases he with rfl | he
      · rw [if_pos hx]
      · have : v.name ≠ x := by
          rintro rfl
          apply h.1
          have : ∀ (vs : List Var) (n : Nat), e ∈ number n vs → e.1 ∈ vs := by
            intro vs
            induction vs with
            | nil => intro n h; exact nomatch h
            | cons v vs ih =>
              intro n h
              simp only [number, List.mem_cons] at h
              rcases h with rfl | h
              · exact List.mem_cons_self
              · exact List.mem_cons_of_mem _ (ih _ h)
          rw [← hx]
          exact List.mem_map_of_mem (this _ _ he)
        rw [if_neg this]
        exact a1 e he hx
    · show find (((v, n) :: number (n + 1) vs) :: r) x = _
      rw [find_cons, if_neg (hx v List.mem_cons_self)]
      exact a2 (fun u hu => hx u (List.mem_cons_of_mem _ hu))

theorem usesL_block {u : Name → Expr → Bool} {p : Bool} {x : Name} {ss : List Stm} : uses u p x (.block ss) = usesL u p x ss := by simp only [uses]

/-- What is known about a function that is bound. -/
structure FnOk (st st' : St) (f : Fn) (b : BFn) : Prop where
  wf : Wf st'
  scopes : st'.scopes = st.scopes
  next : st.next + f.args.length ≤ st'.next
  fn : b.fn = f
  args : b.args = number st.next (f.args.map (·.1))
  reads : st'.reads = st.reads ++ (argReads f b.args ++ marksS rdE false b.body)
  nodup : (f.args.map (·.1.name)).Nodup
  body : ∃ r0 st1, Wf ⟨st.next + f.args.length, b.args :: st.scopes, r0⟩ ∧ st1.next = st'.next ∧
    bindS ⟨st.next + f.args.length, b.args :: st.scopes, r0⟩ (.block f.body) = some (b.body, st1)

theorem bindF_ok {st st' : St} {f : Fn} {b : BFn} (h : bindF st f = some (b, st')) (hw : Wf st) : FnOk st st' f b := by
  have hlen : (number st.next (f.args.map (·.1))).length = f.args.length := by rw [number_length, List.length_map]
  unfold bindF at h
  simp only [hlen] at h
  split at h
  · next hd =>
    simp only [Option.map_eq_some_iff, Prod.mk.injEq] at h
    obtain ⟨r, hr, rfl, rfl⟩ := h
    have hs := shapeS _ hr
    have hn := hs.next
    simp only at hn
    have hw0 : Wf ⟨st.next + f.args.length, number st.next (f.args.map (·.1)) :: st.scopes, st.reads ++ argReads f (number st.next (f.args.map (·.1)))⟩ := by
      refine ⟨List.cons_ne_nil _ _, fun e he => ?_⟩
      simp only [List.flatten_cons, List.mem_append] at he
      show e.2 < st.next + f.args.length
      rcases he with he | he
      · have := number_range _ _ e he
        simp only [List.length_map] at this
        omega
      · have := hw.2 e he; omega
    refine ⟨⟨hw.1, fun e he => ?_⟩, rfl, hn, rfl, rfl, ?_, hd, _, r.2, hw0, rfl, hr⟩
    · have := hw.2 e he
      show e.2 < r.2.next
      omega
    · show r.2.reads = _
      rw [hs.reads, List.append_assoc]
  · cases h

section
variable {m : BExpr → List Nat} {u : Name → Expr → Bool} {p : Bool}

theorem FnOk.bound {st st' : St} {f : Fn} {b : BFn} (h : FnOk st st' f b) (hm : Matches m u) : ∀ d ∈ marksS m p b.body, d < st'.next := by
  obtain ⟨r0, st1, hw0, hn, hb⟩ := h.body
  rw [← hn]
  exact (markS hm _ hb hw0).1

/-- Uses of arguments. -/
theorem FnOk.arg {st st' : St} {f : Fn} {b : BFn} (h : FnOk st st' f b) (hw : Wf st) (hm : Matches m u) (e : Entry) (he : e ∈ b.args) :
    e.2 ∈ marksS m p b.body ↔ usesL u p e.1.name f.body = true := by
  obtain ⟨r0, st1, hw0, hn, hb⟩ := h.body
  have hd : ((f.args.map (·.1)).map (·.name)).Nodup := by rw [List.map_map]; exact h.nodup
  rw [h.args] at he
  have hr := number_range _ _ e he
  rw [List.length_map] at hr
  rw [(markS hm _ hb hw0).2 e.2 hr.2]
  simp only [usesL_block]
  constructor
  · rintro ⟨x, en, h1, h2, h3⟩
    have : en.1.name = x := by
      have := List.find?_some h1
      simpa using this
    have hen : en ∈ number st.next (f.args.map (·.1)) := by
      have := find_mem h1
      simp only [List.flatten_cons, List.mem_append, h.args] at this
      rcases this with h | h
      · exact h
      · have := hw.2 en h; omega
    have inj : ∀ (vs : List Var) (n : Nat) (a c : Entry), a ∈ number n vs → c ∈ number n vs → a.2 = c.2 → a = c := by
      intro vs
      induction vs with
      | nil => intro n a c ha; exact nomatch ha
      | cons v vs ih =>
        intro n a c ha hc hac
        simp only [number, List.mem_cons] at ha hc
        rcases ha with rfl | ha <;> rcases hc with rfl | hc
        · rfl
        · have := number_range _ _ c hc; simp only at hac; omega
        · have := number_range _ _ a ha; simp only at hac; omega
        · exact ih _ a c ha hc hac
    rw [inj _ _ en e hen he h2] at this
    rw [this]
    exact h3
  · intro hu
    refine ⟨e.1.name, e, ?_, rfl, hu⟩
    rw [h.args]
    exact (number_find _ _ _ hd).1 e he rfl

/-- Uses of what is declared outside. -/
theorem FnOk.outer {st st' : St} {f : Fn} {b : BFn} (h : FnOk st st' f b) (hm : Matches m u) (d : Nat) (hlt : d < st.next) :
    d ∈ marksS m p b.body ↔ ∃ x en, find st.scopes x = some en ∧ en.2 = d ∧ usesF u p x f = true := by
  obtain ⟨r0, st1, hw0, hn, hb⟩ := h.body
  have hd : ((f.args.map (·.1)).map (·.name)).Nodup := by rw [List.map_map]; exact h.nodup
  rw [(markS hm _ hb hw0).2 d (by show d < st.next + _; omega)]
  simp only [usesL_block, h.args, usesF, Bool.and_eq_true, Bool.not_eq_true', List.any_eq_false, beq_iff_eq]
  constructor
  · rintro ⟨x, en, h1, h2, h3⟩
    have hno : ∀ a ∈ f.args, a.1.name ≠ x := by
      intro a ha hx
      have hin : ∀ (vs : List Var) (n : Nat), a.1 ∈ vs → ∃ k, (a.1, k) ∈ number n vs := by
        intro vs
        induction vs with
        | nil => intro n h; exact nomatch h
        | cons v vs ih =>
          intro n h
          rcases List.mem_cons.mp h with h | h
          · exact ⟨n, by rw [h]; exact List.mem_cons_self⟩
          · obtain ⟨k, hk⟩ := ih (n + 1) h
            exact ⟨k, List.mem_cons_of_mem _ hk⟩
      obtain ⟨k, hk⟩ := hin _ st.next (List.mem_map_of_mem (f := (·.1)) ha)
      have e1 := (number_find (r := st.scopes) _ _ x hd).1 _ hk hx
      rw [e1] at h1
      cases h1
      have := (number_range _ _ _ hk).1
      simp only at this h2
      omega
    refine ⟨x, en, ?_, h2, hno, h3⟩
    rw [← h1]
    refine ((number_find _ _ x hd).2 ?_).symm
    intro v hv
    obtain ⟨a, ha, rfl⟩ := List.mem_map.mp hv
    exact hno a ha
  · rintro ⟨x, en, h1, h2, hno, h3⟩
    refine ⟨x, en, ?_, h2, h3⟩
    rw [← h1]
    refine (number_find _ _ x hd).2 ?_
    intro v hv
    obtain ⟨a, ha, rfl⟩ := List.mem_map.mp hv
    exact hno a ha
end

def marksF (m : BExpr → List Nat) (p : Bool) : List BFn → List Nat
  | [] => []
  | b :: bs => marksS m p b.body ++ marksF m p bs
def gvF : List BFn → List Nat
  | [] => []
  | b :: bs => gvS b.body ++ gvF bs
def argsF : List BFn → List Nat
  | [] => []
  | b :: bs => argReads b.fn b.args ++ argsF bs

theorem bindFs_cons {st st' : St} {f : Fn} {fs : List Fn} {B : List BFn} (h : bindFs st (f :: fs) = some (B, st')) :
    ∃ b st1 bs, B = b :: bs ∧ bindF st f = some (b, st1) ∧ bindFs st1 fs = some (bs, st') := by
  simp only [bindFs, Option.bind_eq_some_iff, Option.map_eq_some_iff, Prod.mk.injEq] at h
  obtain ⟨r, hr, q, hq, rfl, rfl⟩ := h
  exact ⟨r.1, r.2, q.1, rfl, hr, hq⟩

theorem argReads_mem {f : Fn} {args : List Entry} {d : Nat} (h : d ∈ argReads f args) : ∃ e ∈ args, e.2 = d := by
  unfold argReads at h
  obtain ⟨q, hq, rfl⟩ := List.mem_map.mp h
  exact ⟨q.1, (List.of_mem_zip (List.mem_filter.mp hq).1).1, rfl⟩

theorem FnOk.argRange {st st' : St} {f : Fn} {b : BFn} (h : FnOk st st' f b) (e : Entry) (he : e ∈ b.args) : st.next ≤ e.2 ∧ e.2 < st.next + f.args.length := by
  rw [h.args] at he
  have := number_range _ _ e he
  rw [List.length_map] at this
  exact this

theorem FnOk.argReadsRange {st st' : St} {f : Fn} {b : BFn} (h : FnOk st st' f b) (d : Nat) (hd : d ∈ argReads b.fn b.args) :
    st.next ≤ d ∧ d < st.next + f.args.length := by
  obtain ⟨e, he, rfl⟩ := argReads_mem hd
  exact h.argRange e he

theorem FnOk.gv {st st' : St} {f : Fn} {b : BFn} (h : FnOk st st' f b) (d : Nat) (hd : d ∈ gvS b.body) : st.next + f.args.length ≤ d ∧ d < st'.next := by
  obtain ⟨r0, st1, hw0, hn, hb⟩ := h.body
  have := gvS_range _ hb d hd
  rw [hn] at this
  exact this

structure FnsOk (st st' : St) (fs : List Fn) (bs : List BFn) : Prop where
  next : st.next ≤ st'.next
  reads : ∀ d, d ∈ st'.reads ↔ d ∈ st.reads ∨ d ∈ argsF bs ∨ d ∈ marksF rdE false bs
  args : ∀ d ∈ argsF bs, st.next ≤ d ∧ d < st'.next
  gv : ∀ d ∈ gvF bs, st.next ≤ d ∧ d < st'.next
  bound : ∀ {m u p}, Matches m u → ∀ d ∈ marksF m p bs, d < st'.next
  outer : ∀ {m u p}, Matches m u → ∀ d, d < st.next → (d ∈ marksF m p bs ↔ ∃ x en, find st.scopes x = some en ∧ en.2 = d ∧ fs.any (usesF u p x) = true)

theorem bindFs_ok : ∀ (fs : List Fn) {st st' : St} {bs : List BFn}, bindFs st fs = some (bs, st') → Wf st → FnsOk st st' fs bs
  | [], st, st', bs, h, hw => by
    cases h
    exact ⟨Nat.le_refl _, by simp [argsF, marksF], by simp [argsF], by simp [gvF], by simp [marksF], by simp [marksF]⟩
  | f :: fs, st, st', B, h, hw => by
    obtain ⟨b, st1, bs, rfl, hb, hbs⟩ := bindFs_cons h
    have h1 := bindF_ok hb hw
    have h2 := bindFs_ok fs hbs h1.wf
    have n1 := h1.next
    have n2 := h2.next
    refine ⟨by omega, fun d => ?_, fun d hd => ?_, fun d hd => ?_, fun hm d hd => ?_, fun {m u p} hm d hd => ?_⟩
    · rw [h2.reads, h1.reads]
      simp only [argsF, marksF, List.mem_append, h1.fn]
      grind
    · rcases List.mem_append.mp hd with hd | hd
      · have := h1.argReadsRange d hd; omega
      · have := h2.args d hd; omega
    · rcases List.mem_append.mp hd with hd | hd
      · have := h1.gv d hd; omega
      · have := h2.gv d hd; omega
    · rcases List.mem_append.mp hd with hd | hd
      · have := h1.bound hm d hd; omega
      · exact h2.bound hm d hd
    · simp only [marksF, List.mem_append, h1.outer hm d hd, h2.outer hm d (by omega), h1.scopes, List.any_cons, Bool.or_eq_true]
      constructor
      · rintro (⟨x, en, h1, h2, h3⟩ | ⟨x, en, h1, h2, h3⟩)
        · exact ⟨x, en, h1, h2, .inl h3⟩
        · exact ⟨x, en, h1, h2, .inr h3⟩
      · rintro ⟨x, en, h1, h2, h3 | h3⟩
        · exact .inl ⟨x, en, h1, h2, h3⟩
        · exact .inr ⟨x, en, h1, h2, h3⟩

/-- What is declared in a function is not known to the others. -/
theorem FnsOk.stale {st st' : St} {fs : List Fn} {bs : List BFn} (h : FnsOk st st' fs bs) {n : Nat} (hs : ∀ e ∈ st.scopes.flatten, e.2 < n)
    {m : BExpr → List Nat} {u : Name → Expr → Bool} {p : Bool} (hm : Matches m u) (d : Nat) (h1 : n ≤ d) (h2 : d < st.next) : d ∉ marksF m p bs := by
  intro hd
  obtain ⟨x, en, e1, e2, _⟩ := (h.outer hm d h2).mp hd
  have := hs en (find_mem e1)
  omega

theorem FnOk.single {st st' : St} {f : Fn} {b : BFn} (h : FnOk st st' f b) (hs : SingleL f.body) : SingleB b.body := by
  obtain ⟨r0, st1, hw0, hn, hb⟩ := h.body
  exact singleS _ hb hs

def SingleF : List BFn → Prop
  | [] => True
  | b :: bs => SingleB b.body ∧ SingleF bs

theorem bindFs_single : ∀ (fs : List Fn) {st st' : St} {bs : List BFn}, bindFs st fs = some (bs, st') → Wf st → (∀ f ∈ fs, SingleL f.body) → SingleF bs
  | [], st, st', bs, h, hw, hS => by cases h; trivial
  | f :: fs, st, st', B, h, hw, hS => by
    obtain ⟨b, st1, bs, rfl, hb, hbs⟩ := bindFs_cons h
    have h1 := bindF_ok hb hw
    exact ⟨h1.single (hS f List.mem_cons_self), bindFs_single fs hbs h1.wf (fun g hg => hS g (List.mem_cons_of_mem _ hg))⟩

theorem stepF : ∀ (bs : List BFn) (f : Flags), SingleF bs → Step f (checkFs f bs) (marksF none' true bs) (marksF writesE false bs) (gvF bs)
  | [], f, hs => ⟨by simp [checkFs, marksF], by simp [checkFs, marksF, gvF]⟩
  | b :: bs, f, hs => by
    have h1 := stepS b.body f hs.1
    have h2 := stepF bs (checkS f b.body) hs.2
    refine ⟨fun d => ?_, fun d hd => ?_⟩
    · simp only [checkFs, marksF, List.mem_append, h2.reads, h1.reads, or_assoc]
    · simp only [marksF, List.mem_append, not_or] at hd
      simp only [checkFs, marksF, gvF, List.mem_append, h2.writes d hd.2, h1.writes d hd.1]
      grind

theorem marks_splitF (m : BExpr → List Nat) (d : Nat) : ∀ B : List BFn, d ∈ marksF m true B ↔ d ∈ marksF m false B ∨ d ∈ marksF none' true B
  | [] => by simp [marksF]
  | b :: bs => by
    simp only [marksF, List.mem_append, marks_splitS m d b.body, marks_splitF m d bs]
    grind

/-- The warnings that are given while functions are checked. -/
theorem checkFs_ok : ∀ (fs : List Fn) {st st' : St} {bs : List BFn}, bindFs st fs = some (bs, st') → Wf st → (∀ f ∈ fs, SingleL f.body) →
    ∀ g : Flags, (∀ d, st.next ≤ d → d < st'.next → (d ∈ g.reads ↔ d ∈ argsF bs ∨ d ∈ marksF rdE false bs)) →
    (∀ d, st.next ≤ d → d < st'.next → d ∉ g.writes) →
    ∀ w, w ∈ (checkFs g bs).warns ↔ w ∈ g.warns ∨ ∃ f ∈ fs, w ∈ expectedL [] f.body
  | [], st, st', bs, h, hw, hS, g, hR, hW, w => by
    cases h
    simp [checkFs]
  | f :: fs, st, st', B, h, hw, hS, g, hR, hW, w => by
    obtain ⟨b, st1, bs, rfl, hb, hbs⟩ := bindFs_cons h
    have h1 := bindF_ok hb hw
    have h2 := bindFs_ok fs hbs h1.wf
    have n1 := h1.next
    have n2 := h2.next
    have hsc : ∀ e ∈ st1.scopes.flatten, e.2 < st.next := by rw [h1.scopes]; exact hw.2
    obtain ⟨r0, st2, hw0, hn, hbody⟩ := h1.body
    have i1 := nest_ok (.block f.body) hbody hw0 (hS f List.mem_cons_self) (k := []) rfl g
      (fun d a1 a2 => by
        simp only at a1
        rw [hn] at a2
        rw [hR d (by omega) (by omega)]
        have t1 : d ∉ argReads b.fn b.args := fun h => by have := h1.argReadsRange d h; omega
        have t2 : d ∉ argsF bs := fun h => by have := h2.args d h; omega
        have t3 : d ∉ marksF rdE false bs := h2.stale hsc match_reads d (by omega) a2
        simp [argsF, marksF, t1, t2, t3, marksL])
      (fun d a1 a2 => by
        simp only at a1
        rw [hn] at a2
        exact hW d (by omega) (by omega)) w
    have hst := stepS b.body g (h1.single (hS f List.mem_cons_self))
    have no : ∀ d, st1.next ≤ d → d ∉ marksS none' true b.body := fun d a h => by
      have := h1.bound (p := true) match_reads d ((marks_splitS rdE d b.body).mpr (.inr h)); omega
    have i2 := checkFs_ok fs hbs h1.wf (fun g hg => hS g (List.mem_cons_of_mem _ hg)) (checkS g b.body)
      (fun d a1 a2 => by
        rw [hst.reads, hR d (by omega) a2]
        have t1 : d ∉ argReads b.fn b.args := fun h => by have := h1.argReadsRange d h; omega
        have t2 : d ∉ marksS rdE false b.body := fun h => by have := h1.bound match_reads d h; omega
        simp [argsF, marksF, t1, t2, no d a1])
      (fun d a1 a2 => by
        rw [hst.writes d (no d a1)]
        have t1 : d ∉ marksS writesE false b.body := fun h => by have := h1.bound match_writes d h; omega
        have t2 : d ∉ gvS b.body := fun h => by have := h1.gv d h; omega
        simp [t1, t2, hW d (by omega) a2]) w
    simp only [checkFs, i2, i1, nest, List.mem_cons, exists_eq_or_imp, or_assoc]

/-- The warnings about arguments. -/
def expectedA (f : Fn) : List (Nat × Nat) :=
  f.args.flatMap fun a => if a.2 || f.isPublic || f.isCallback then [] else
    verdict a.1 (usesL readE true a.1.name f.body) (usesL writtenE false a.1.name f.body)

theorem number_zip {α} (g : α → Var) : ∀ (as : List α) (n : Nat) (e : Entry), e ∈ number n (as.map g) → ∃ a ∈ as, (e, a) ∈ (number n (as.map g)).zip as ∧ e.1 = g a ∧
    ∀ a', (e, a') ∈ (number n (as.map g)).zip as → a' = a
  | [], n, e, h => nomatch h
  | a :: as, n, e, h => by
    simp only [List.map_cons, number, List.mem_cons] at h
    simp only [List.map_cons, number, List.zip_cons_cons, List.mem_cons, Prod.mk.injEq]
    rcases h with rfl | h
    · refine ⟨a, .inl rfl, .inl ⟨rfl, rfl⟩, rfl, ?_⟩
      rintro a' (⟨_, h⟩ | h)
      · exact h
      · have := number_range _ _ _ (List.of_mem_zip h).1
        simp only at this
        omega
    · obtain ⟨a0, h1, h2, h3, h4⟩ := number_zip g as (n + 1) e h
      refine ⟨a0, .inr h1, .inr h2, h3, ?_⟩
      rintro a' (⟨rfl, _⟩ | h')
      · have := number_range _ _ _ h
        simp only at this
        omega
      · exact h4 a' h'

theorem zip_number {α} (g : α → Var) : ∀ (as : List α) (n : Nat) (a : α), a ∈ as → ∃ k, ((g a, k), a) ∈ (number n (as.map g)).zip as
  | [], n, a, h => nomatch h
  | b :: as, n, a, h => by
    simp only [List.map_cons, number, List.zip_cons_cons, List.mem_cons]
    rcases List.mem_cons.mp h with rfl | h
    · exact ⟨n, .inl rfl⟩
    · obtain ⟨k, hk⟩ := zip_number g as (n + 1) a h
      exact ⟨k, .inr hk⟩

theorem number_inj : ∀ (vs : List Var) (n : Nat) (a c : Entry), a ∈ number n vs → c ∈ number n vs → a.2 = c.2 → a = c := by
  intro vs
  induction vs with
  | nil => intro n a c ha; exact nomatch ha
  | cons v vs ih =>
    intro n a c ha hc hac
    simp only [number, List.mem_cons] at ha hc
    rcases ha with rfl | ha <;> rcases hc with rfl | hc
    · rfl
    · have := number_range _ _ c hc; simp only at hac; omega
    · have := number_range _ _ a ha; simp only at hac; omega
    · exact ih _ a c ha hc hac

/-- Which entries of a scope have been selected. -/
theorem selected {α} (g : α → Var) (as : List α) (n : Nat) (sel : Entry × α → Bool) {e : Entry} {a : α} (h : (e, a) ∈ (number n (as.map g)).zip as) :
    e.2 ∈ (((number n (as.map g)).zip as).filter sel).map (fun q => q.1.2) ↔ sel (e, a) = true := by
  have he := (List.of_mem_zip h).1
  obtain ⟨a0, _, _, _, hu⟩ := number_zip g as n e he
  constructor
  · intro hd
    obtain ⟨q, hq, e2⟩ := List.mem_map.mp hd
    obtain ⟨hq, hs⟩ := List.mem_filter.mp hq
    have := number_inj _ _ q.1 e (List.of_mem_zip hq).1 he e2
    obtain ⟨q1, q2⟩ := q
    simp only at this
    subst this
    rw [hu a h, ← hu q2 hq]
    exact hs
  · intro hs
    exact List.mem_map.mpr ⟨(e, a), List.mem_filter.mpr ⟨h, hs⟩, rfl⟩

theorem zip_entry {α} (g : α → Var) {as : List α} {n : Nat} {e : Entry} {a : α} (h : (e, a) ∈ (number n (as.map g)).zip as) : e.1 = g a := by
  obtain ⟨a0, _, _, h3, h4⟩ := number_zip g as n e (List.of_mem_zip h).1
  rw [h4 a h, h3]

theorem testFs_ok : ∀ (fs : List Fn) {st st' : St} {bs : List BFn}, bindFs st fs = some (bs, st') → Wf st →
    ∀ F : Flags, (∀ d, st.next ≤ d → d < st'.next → (d ∈ F.reads ↔ d ∈ argsF bs ∨ d ∈ marksF rdE true bs)) →
    (∀ d, st.next ≤ d → d < st'.next → d ∉ F.reads → (d ∈ F.writes ↔ d ∈ marksF writesE false bs ∨ d ∈ gvF bs)) →
    ∀ w, w ∈ testFs F bs ↔ ∃ f ∈ fs, w ∈ expectedA f
  | [], st, st', bs, h, hw, F, hR, hW, w => by
    cases h
    simp [testFs]
  | f :: fs, st, st', B, h, hw, F, hR, hW, w => by
    obtain ⟨b, st1, bs, rfl, hb, hbs⟩ := bindFs_cons h
    have h1 := bindF_ok hb hw
    have h2 := bindFs_ok fs hbs h1.wf
    have n1 := h1.next
    have n2 := h2.next
    have hsc : ∀ e ∈ st1.scopes.flatten, e.2 < st.next := by rw [h1.scopes]; exact hw.2
    have i2 := testFs_ok fs hbs h1.wf F
      (fun d a1 a2 => by
        rw [hR d (by omega) a2]
        have t1 : d ∉ argReads b.fn b.args := fun h => by have := h1.argReadsRange d h; omega
        have t2 : d ∉ marksS rdE true b.body := fun h => by have := h1.bound match_reads d h; omega
        simp [argsF, marksF, t1, t2])
      (fun d a1 a2 a3 => by
        rw [hW d (by omega) a2 a3]
        have t1 : d ∉ marksS writesE false b.body := fun h => by have := h1.bound match_writes d h; omega
        have t2 : d ∉ gvS b.body := fun h => by have := h1.gv d h; omega
        simp [marksF, gvF, t1, t2]) w
    have one : ∀ e a, (e, a) ∈ b.args.zip f.args → (test true F e = some w ↔ w ∈ if a.2 || f.isPublic || f.isCallback then [] else
        verdict a.1 (usesL readE true a.1.name f.body) (usesL writtenE false a.1.name f.body)) := by
      intro e a hz
      have he := (List.of_mem_zip hz).1
      have hr := h1.argRange e he
      have hsel : e.2 ∈ argReads b.fn b.args ↔ (a.2 || f.isPublic || f.isCallback) = true := by
        rw [h1.fn]
        unfold argReads
        rw [h1.args] at hz ⊢
        exact selected (fun a : Var × Bool => a.1) f.args st.next (fun p => p.2.2 || f.isPublic || f.isCallback) hz
      have hv : e.1 = a.1 := by rw [h1.args] at hz; exact zip_entry (fun a : Var × Bool => a.1) hz
      have u1 : e.2 ∈ F.reads ↔ (a.2 || f.isPublic || f.isCallback) = true ∨ usesL readE true e.1.name f.body = true := by
        rw [hR e.2 hr.1 (by omega)]
        have t2 : e.2 ∉ argsF bs := fun h => by have := h2.args _ h; omega
        have t3 : e.2 ∉ marksF rdE true bs := h2.stale hsc match_reads e.2 hr.1 (by omega)
        simp only [argsF, marksF, List.mem_append, hsel, h1.arg hw match_reads e he, t2, t3, or_false]
      have u2 : e.2 ∉ F.reads → (e.2 ∈ F.writes ↔ usesL writtenE false e.1.name f.body = true) := by
        intro h
        rw [hW e.2 hr.1 (by omega) h]
        have t2 : e.2 ∉ gvF bs := fun h => by have := h2.gv _ h; omega
        have t3 : e.2 ∉ marksF writesE false bs := h2.stale hsc match_writes e.2 hr.1 (by omega)
        have t4 : e.2 ∉ gvS b.body := fun h => by have := h1.gv _ h; omega
        simp only [marksF, gvF, List.mem_append, h1.arg hw match_writes e he, t2, t3, t4, or_false]
      have := test_verdict F e w (rd := (a.2 || f.isPublic || f.isCallback) || usesL readE true e.1.name f.body) (wr := usesL writtenE false e.1.name f.body)
        (by rw [u1, Bool.or_eq_true (a.2 || f.isPublic || f.isCallback)]) (fun h _ => u2 h)
      rw [this, hv]
      generalize (a.2 || f.isPublic || f.isCallback) = c
      cases c <;> simp [verdict]
    simp only [testFs, List.mem_append, i2, List.mem_cons, exists_eq_or_imp]
    refine or_congr ?_ Iff.rfl
    rw [h1.fn]
    unfold expectedA
    rw [List.mem_flatMap]
    constructor
    · intro h
      split at h
      · exact nomatch h
      · obtain ⟨e, he, ht⟩ := List.mem_filterMap.mp h
        have he' := he
        rw [h1.args] at he'
        obtain ⟨a, ha, hz, _, _⟩ := number_zip (fun p : Var × Bool => p.1) f.args st.next e he'
        rw [← h1.args] at hz
        exact ⟨a, ha, (one e a hz).mp ht⟩
    · rintro ⟨a, ha, hv⟩
      obtain ⟨k, hk⟩ := zip_number (fun p : Var × Bool => p.1) f.args st.next a ha
      rw [← h1.args] at hk
      have ht := (one _ a hk).mpr hv
      split
      · next hc =>
        simp [hc] at hv
      · exact List.mem_filterMap.mpr ⟨_, (List.of_mem_zip hk).1, ht⟩

/-- All warnings. -/
theorem warnings_ok {gs : List Global} {fs : List Fn} {ws : List (Nat × Nat)} (h : warnings gs fs = some ws) (hS : ∀ f ∈ fs, SingleL f.body) (w : Nat × Nat) :
    w ∈ ws ↔ (∃ f ∈ fs, w ∈ expectedF f) ∨ ∃ g ∈ gs, w ∈ expectedG fs g := by
  unfold warnings at h
  dsimp only at h
  split at h
  · next hd =>
    simp only [Option.map_eq_some_iff] at h
    obtain ⟨⟨bs, st'⟩, hb, rfl⟩ := h
    have hd' : ((gs.map (·.var)).map (·.name)).Nodup := by rw [List.map_map]; exact hd
    have hw : Wf ⟨(number 0 (gs.map (·.var))).length, [number 0 (gs.map (·.var))], globalReads gs (number 0 (gs.map (·.var)))⟩ := by
      refine ⟨List.cons_ne_nil _ _, fun e he => ?_⟩
      simp only [List.flatten_cons, List.flatten_nil, List.append_nil] at he
      have := number_range _ _ e he
      simp only [number_length]
      omega
    have hok := bindFs_ok fs hb hw
    have hsin := bindFs_single fs hb hw hS
    have gr : ∀ d ∈ globalReads gs (number 0 (gs.map (·.var))), d < (number 0 (gs.map (·.var))).length := by
      intro d hd
      obtain ⟨q, hq, rfl⟩ := List.mem_map.mp hd
      have := number_range _ _ _ (List.of_mem_zip (List.mem_filter.mp hq).1).1
      rw [number_length]; omega
    have gw : ∀ d ∈ globalWrites gs (number 0 (gs.map (·.var))), d < (number 0 (gs.map (·.var))).length := by
      intro d hd
      obtain ⟨q, hq, rfl⟩ := List.mem_map.mp hd
      have := number_range _ _ _ (List.of_mem_zip (List.mem_filter.mp hq).1).1
      rw [number_length]; omega
    have hr0 : ∀ d, (number 0 (gs.map (·.var))).length ≤ d → (d ∈ st'.reads ↔ d ∈ argsF bs ∨ d ∈ marksF rdE false bs) := by
      intro d a1
      rw [hok.reads]
      have : d ∉ globalReads gs (number 0 (gs.map (·.var))) := fun h => by have := gr d h; omega
      simp only [this, false_or]
    have hw0 : ∀ d, (number 0 (gs.map (·.var))).length ≤ d → d ∉ globalWrites gs (number 0 (gs.map (·.var))) := fun d a1 h => by
      have := gw d h; omega
    have hst := stepF bs ⟨st'.reads, globalWrites gs (number 0 (gs.map (·.var))), []⟩ hsin
    have i1 := checkFs_ok fs hb hw hS ⟨st'.reads, globalWrites gs (number 0 (gs.map (·.var))), []⟩ (fun d a1 _ => hr0 d a1) (fun d a1 _ => hw0 d a1) w
    have i2 := testFs_ok fs hb hw (checkFs ⟨st'.reads, globalWrites gs (number 0 (gs.map (·.var))), []⟩ bs)
      (fun d a1 a2 => by
        rw [hst.reads, marks_splitF rdE]
        simp only [hr0 d a1, or_assoc])
      (fun d a1 a2 a3 => by
        rw [hst.reads] at a3
        rw [hst.writes d (fun h => a3 (.inr h))]
        simp only [hw0 d a1, false_or]) w
    have one : ∀ e g, (e, g) ∈ (number 0 (gs.map (·.var))).zip gs → g.isPublic = false →
        (test false (checkFs ⟨st'.reads, globalWrites gs (number 0 (gs.map (·.var))), []⟩ bs) e = some w ↔
          w ∈ if g.var.kind = .const then [] else
            verdict g.var (fs.any (usesF readE true g.var.name)) (g.init && g.var.scalar || fs.any (usesF writtenE false g.var.name))) := by
      intro e g hz hp
      have he := (List.of_mem_zip hz).1
      have hv : e.1 = g.var := zip_entry (fun g : Global => g.var) hz
      have hr := number_range _ _ e he
      rw [Nat.zero_add, ← number_length (gs.map (·.var)) 0] at hr
      have fe : ∀ P : Name → Prop, (∃ x en, find [number 0 (gs.map (·.var))] x = some en ∧ en.2 = e.2 ∧ P x) ↔ P e.1.name := by
        intro P
        constructor
        · rintro ⟨x, en, a1, a2, a3⟩
          have hen : en ∈ number 0 (gs.map (·.var)) := by
            have := find_mem a1
            simpa using this
          have hx : en.1.name = x := by
            have := List.find?_some a1
            simpa using this
          rw [← number_inj _ _ en e hen he a2, hx]
          exact a3
        · intro hP
          exact ⟨e.1.name, e, (number_find _ _ _ hd').1 e he rfl, rfl, hP⟩
      have ngr : e.2 ∉ globalReads gs (number 0 (gs.map (·.var))) := by
        unfold globalReads
        rw [selected (fun g : Global => g.var) gs 0 (fun p => p.2.isPublic) hz]
        simp [hp]
      have t2 : e.2 ∉ argsF bs := fun h => by have := (hok.args _ h).1; simp only at this; omega
      have t3 : e.2 ∉ gvF bs := fun h => by have := (hok.gv _ h).1; simp only at this; omega
      have u1 : e.2 ∈ (checkFs ⟨st'.reads, globalWrites gs (number 0 (gs.map (·.var))), []⟩ bs).reads ↔ fs.any (usesF readE true e.1.name) = true := by
        rw [hst.reads]
        simp only [hok.reads, ngr, t2, false_or]
        rw [← marks_splitF rdE, hok.outer match_reads e.2 hr.2]
        exact fe (fun x => fs.any (usesF readE true x) = true)
      have u2 : e.2 ∉ (checkFs ⟨st'.reads, globalWrites gs (number 0 (gs.map (·.var))), []⟩ bs).reads → e.1.kind ≠ .const →
          (e.2 ∈ (checkFs ⟨st'.reads, globalWrites gs (number 0 (gs.map (·.var))), []⟩ bs).writes ↔
            (g.init && g.var.scalar || fs.any (usesF writtenE false e.1.name)) = true) := by
        intro h hc
        rw [hst.reads] at h
        rw [hst.writes _ (fun h' => h (.inr h'))]
        have hgw : e.2 ∈ globalWrites gs (number 0 (gs.map (·.var))) ↔ (g.init && g.var.scalar) = true := by
          unfold globalWrites
          rw [selected (fun g : Global => g.var) gs 0 (fun p => p.2.init && p.2.var.scalar && p.2.var.kind != .const) hz]
          have : (g.var.kind != .const) = true := by rw [← hv]; simpa using hc
          simp [this]
        simp only [t3, or_false, hgw, Bool.or_eq_true (g.init && g.var.scalar)]
        refine or_congr Iff.rfl ?_
        rw [hok.outer match_writes e.2 hr.2]
        exact fe (fun x => fs.any (usesF writtenE false x) = true)
      have tv := test_verdict _ e w u1 u2
      by_cases hc : g.var.kind = .const
      · rw [if_pos hc]
        simp [test, hv, hc]
      · rw [hv] at tv
        rw [if_neg hc, ← tv]
        rw [← hv] at hc
        unfold test
        cases hk : e.1.kind with
        | const => exact absurd hk hc
        | var => rfl
        | arg => rfl
    have i3 : w ∈ (globalTested gs (number 0 (gs.map (·.var)))).filterMap (test false (checkFs ⟨st'.reads, globalWrites gs (number 0 (gs.map (·.var))), []⟩ bs)) ↔
        ∃ g ∈ gs, w ∈ expectedG fs g := by
      rw [List.mem_filterMap]
      unfold globalTested
      constructor
      · rintro ⟨e, he, ht⟩
        obtain ⟨⟨e', g⟩, hq, rfl⟩ := List.mem_map.mp he
        obtain ⟨hq, hs⟩ := List.mem_filter.mp hq
        simp only [Bool.not_eq_true', Bool.or_eq_false_iff] at hs
        refine ⟨g, (List.of_mem_zip hq).2, ?_⟩
        have := (one e' g hq hs.1).mp ht
        unfold expectedG
        simpa [hs.1, hs.2] using this
      · rintro ⟨g, hg, hv⟩
        obtain ⟨k, hk⟩ := zip_number (·.var) gs 0 g hg
        unfold expectedG at hv
        have hp : g.isPublic = false := by
          cases h : g.isPublic with
          | false => rfl
          | true => simp [h] at hv
        have hs : g.stock = false := by
          cases h : g.stock with
          | false => rfl
          | true => simp [h] at hv
        refine ⟨(g.var, k), List.mem_map.mpr ⟨((g.var, k), g), List.mem_filter.mpr ⟨hk, by simp [hp, hs]⟩, rfl⟩, (one _ g hk hp).mpr ?_⟩
        simpa [hp, hs] using hv
    simp only [List.mem_append, i1, i2, i3, List.not_mem_nil, false_or]
    have hF : ∀ f, w ∈ expectedF f ↔ w ∈ expectedL [] f.body ∨ w ∈ expectedA f := fun f => List.mem_append
    simp only [hF]
    constructor
    · rintro ((⟨f, hf, h⟩ | h) | ⟨f, hf, h⟩)
      · exact .inl ⟨f, hf, .inl h⟩
      · exact .inr h
      · exact .inl ⟨f, hf, .inr h⟩
    · rintro (⟨f, hf, h | h⟩ | h)
      · exact .inl (.inl ⟨f, hf, h⟩)
      · exact .inr ⟨f, hf, h⟩
      · exact .inl (.inr h)
  · cases h

end Verif.Unused

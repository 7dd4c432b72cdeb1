import Verif.Spec.DebugVars
/-! Lemmas about debug information on variables. -/
namespace Verif.DebugVars

/-- What a debugger is told of an environment. -/
def infos (env : List Var) : List Info := (env.filter (·.listed)).map Var.info

theorem infos_append (a b : List Var) : infos (a ++ b) = infos a ++ infos b := by simp [infos]

/-- What rows and open variables say of an address. -/
def said (new : List Row) (added : List (Var × Nat)) (pc : Nat) : List Info :=
  (new.filter (Row.covers pc)).map Row.info ++ (added.filter fun e => decide (e.2 ≤ pc)).map fun e => e.1.info

/-- What emitting does. -/
structure Eff (d : List Var) (sc : List Var → Nat → List Var) (n : Nat) (new : List Row) (added : List (Var × Nat)) (g g' : Gen) :
    Prop where
  eq : ∀ top rest, g.locals = top :: rest →
    g' = { g with pc := g.pc + n, locals := (added ++ top) :: rest, localRows := g.localRows ++ new }
  vars : added.map (·.1) = d.filter (·.listed)
  rows : ∀ r ∈ new, g.pc ≤ r.start ∧ r.start ≤ r.stop ∧ r.stop ≤ g.pc + n
  starts : ∀ e ∈ added, g.pc ≤ e.2 ∧ e.2 ≤ g.pc + n
  says : ∀ env o, o < n → said new added (g.pc + o) ++ infos env = infos (sc env o)

theorem filter_none {α : Type} {p : α → Bool} {l : List α} (h : ∀ a ∈ l, p a = false) : l.filter p = [] := by
  rw [List.filter_eq_nil_iff]; intro a ha; rw [h a ha]; exact Bool.false_ne_true

theorem filter_all {α : Type} {p : α → Bool} {l : List α} (h : ∀ a ∈ l, p a = true) : l.filter p = l :=
  List.filter_eq_self.2 h

theorem map_info {added : List (Var × Nat)} {d : List Var} (h : added.map (·.1) = d.filter (·.listed)) :
    added.map (fun e => e.1.info) = infos d := by
  rw [infos, ← h, List.map_map]; rfl

theorem addAll_fun (es : List (Var × Nat)) (g : Gen) :
    g.addAll true es = { g with localRows := g.localRows ++ es.map fun e => rowOf e.1 e.2 g.pc } := by
  induction es generalizing g with
  | nil => simp [Gen.addAll]
  | cons e es ih => rw [Gen.addAll, ih]; simp [Gen.add]

theorem eff_seq {d1 d2 : List Var} {sc1 sc2 : List Var → Nat → List Var} {n1 n2 : Nat} {new1 new2 : List Row}
    {add1 add2 : List (Var × Nat)} {g g1 g2 : Gen} (hne : g.locals ≠ []) (E1 : Eff d1 sc1 n1 new1 add1 g g1)
    (E2 : Eff d2 sc2 n2 new2 add2 g1 g2) :
    Eff (d2 ++ d1) (fun env o => if o < n1 then sc1 env o else sc2 (d1 ++ env) (o - n1)) (n1 + n2) (new1 ++ new2) (add2 ++ add1) g g2 := by
  obtain ⟨top, rest, hl⟩ : ∃ top rest, g.locals = top :: rest := by
    cases h : g.locals with
    | nil => exact absurd h hne
    | cons a b => exact ⟨a, b, rfl⟩
  have e1 := E1.eq top rest hl
  have p1 : g1.pc = g.pc + n1 := by rw [e1]
  have e2 := E2.eq (add1 ++ top) rest (by rw [e1])
  refine ⟨?_, ?_, ?_, ?_, ?_⟩
  · intro t r h
    rw [hl] at h; cases h
    rw [e2, e1]; simp [Nat.add_assoc]
  · simp [E1.vars, E2.vars]
  · intro r hr
    rcases List.mem_append.1 hr with hr | hr
    · have := E1.rows r hr; omega
    · have := E2.rows r hr; omega
  · intro e he
    rcases List.mem_append.1 he with he | he
    · have := E2.starts e he; omega
    · have := E1.starts e he; omega
  · intro env o ho
    show _ = infos (if o < n1 then sc1 env o else sc2 (d1 ++ env) (o - n1))
    by_cases h : o < n1
    · rw [if_pos h, ← E1.says env o h]
      simp only [said, List.filter_append, List.map_append]
      rw [filter_none (l := new2) (fun r hr => ?_), filter_none (l := add2) (fun e he => ?_)]
      · simp
      · have := E2.starts e he; simp; omega
      · have := E2.rows r hr; simp [Row.covers]; omega
    · rw [if_neg h]
      have h2 := E2.says (d1 ++ env) (o - n1) (by omega)
      rw [← h2, p1, show g.pc + n1 + (o - n1) = g.pc + o by omega, infos_append]
      simp only [said, List.filter_append, List.map_append]
      rw [filter_none (l := new1) (fun r hr => ?_), filter_all (l := add1) (fun e he => ?_), map_info E1.vars]
      · simp
      · have := E1.starts e he; simp; omega
      · have := E1.rows r hr; simp [Row.covers]; omega

theorem eff_block {d : List Var} {sc : List Var → Nat → List Var} {n : Nat} {new : List Row} {added : List (Var × Nat)} {g g1 : Gen}
    (E : Eff d sc n new added g.enter g1) :
    Eff [] sc n (new ++ added.map fun e => rowOf e.1 e.2 (g.pc + n)) [] g g1.leave := by
  have e1 := E.eq [] g.locals rfl
  refine ⟨?_, rfl, ?_, (by intro e he; cases he), ?_⟩
  · intro t r h
    rw [e1]
    simp [Gen.leave, addAll_fun, Gen.enter, h]
  · intro r hr
    rcases List.mem_append.1 hr with hr | hr
    · exact E.rows r hr
    · obtain ⟨e, he, rfl⟩ := List.mem_map.1 hr
      have := E.starts e he
      simp only [Gen.enter] at this
      simp [rowOf]; omega
  · intro env o ho
    rw [← E.says env o ho]
    simp only [said, List.filter_append, List.map_append, List.filter_nil, List.map_nil, List.append_nil, Gen.enter]
    congr 2
    rw [List.filter_map, List.map_map]
    have : (Row.covers (g.pc + o) ∘ fun e : Var × Nat => rowOf e.1 e.2 (g.pc + n)) = fun e => decide (e.2 ≤ g.pc + o) := by
      funext e; simp [Row.covers, rowOf]; omega
    rw [this]; rfl

mutual
theorem after_eq (s : Stm) : ∃ d, ∀ env, s.after env = d ++ env := by
  cases s with
  | code n => exact ⟨[], fun _ => rfl⟩
  | decl st nm a u n => exact ⟨[_], fun _ => by rw [Stm.after]; rfl⟩
  | block ss => exact ⟨[], fun _ => by rw [Stm.after]; rfl⟩
  | seq ss => obtain ⟨d, h⟩ := afters_eq ss; exact ⟨d, fun env => by rw [Stm.after, h]⟩
theorem afters_eq (ss : List Stm) : ∃ d, ∀ env, afters env ss = d ++ env := by
  cases ss with
  | nil => exact ⟨[], fun _ => by rw [afters]; rfl⟩
  | cons s ss =>
    obtain ⟨d1, h1⟩ := after_eq s
    obtain ⟨d2, h2⟩ := afters_eq ss
    exact ⟨d2 ++ d1, fun env => by rw [afters, h1, h2, List.append_assoc]⟩
end

theorem eff_code (n : Nat) (g : Gen) : Eff [] (fun env _ => env) n [] [] g (g.emitCode n) := by
  refine ⟨?_, rfl, (by intro r hr; cases hr), (by intro r hr; cases hr), fun env o _ => rfl⟩
  intro t r h; simp [Gen.emitCode, h]

theorem emitCode_locals (g : Gen) (n : Nat) : (g.emitCode n).locals = g.locals := rfl

mutual
theorem emit_eff (s : Stm) (g : Gen) (hne : g.locals ≠ []) :
    ∃ d new added, (∀ env, s.after env = d ++ env) ∧ Eff d (fun env o => s.scope env o) s.size new added g (emit g s) := by
  cases s with
  | code n =>
    refine ⟨[], [], [], fun _ => by rw [Stm.after]; rfl, ?_⟩
    rw [emit, Stm.size]
    simp only [Stm.scope]
    exact eff_code n g
  | decl st nm a u n =>
    refine ⟨[⟨nm, if st then .sSTATIC else .sLOCAL, a, u⟩], [], if u then [(⟨nm, if st then .sSTATIC else .sLOCAL, a, u⟩, g.pc + n)] else [],
      fun _ => by rw [Stm.after]; rfl, ?_⟩
    rw [emit, Stm.size]
    simp only [Stm.scope]
    refine ⟨?_, ?_, (by intro r hr; cases hr), ?_, ?_⟩
    · intro t r h
      cases u <;> cases st <;> simp [Gen.emitCode, Gen.enqueue, h]
    · cases u <;> rfl
    · intro e he
      cases u with
      | false => cases he
      | true => rw [List.mem_singleton.1 he]; simp
    · intro env o ho
      cases u <;> simp [said]; omega
  | block ss =>
    obtain ⟨d, new, added, _, E⟩ := emits_eff ss g.enter (by simp [Gen.enter])
    refine ⟨[], new ++ added.map (fun e => rowOf e.1 e.2 (g.pc + sizes ss)), [], fun _ => by rw [Stm.after]; rfl, ?_⟩
    rw [emit, Stm.size]
    simp only [Stm.scope]
    exact eff_block E
  | seq ss =>
    obtain ⟨d, new, added, h, E⟩ := emits_eff ss g hne
    refine ⟨d, new, added, fun env => by rw [Stm.after, h], ?_⟩
    rw [emit, Stm.size]
    simp only [Stm.scope]
    exact E
theorem emits_eff (ss : List Stm) (g : Gen) (hne : g.locals ≠ []) :
    ∃ d new added, (∀ env, afters env ss = d ++ env) ∧ Eff d (fun env o => scopes env o ss) (sizes ss) new added g (emits g ss) := by
  cases ss with
  | nil =>
    refine ⟨[], [], [], fun _ => by rw [afters]; rfl, ?_⟩
    rw [emits, sizes]
    simp only [scopes]
    exact eff_code 0 g
  | cons s ss =>
    obtain ⟨d1, new1, add1, h1, E1⟩ := emit_eff s g hne
    have hne1 : (emit g s).locals ≠ [] := by
      cases hl : g.locals with
      | nil => exact absurd hl hne
      | cons t r => rw [E1.eq t r hl]; simp
    obtain ⟨d2, new2, add2, h2, E2⟩ := emits_eff ss (emit g s) hne1
    refine ⟨d2 ++ d1, new1 ++ new2, add2 ++ add1, fun env => by rw [afters, h1, h2, List.append_assoc], ?_⟩
    rw [emits, sizes]
    have := eff_seq hne E1 E2
    simp only [scopes, h1]
    exact this
end

theorem enqueueArgs_eq (as : List (Image.Bytes × Int)) (g : Gen) (t : List (Var × Nat)) (r : List (List (Var × Nat)))
    (h : g.locals = t :: r) :
    g.enqueueArgs as = { g with locals := ((as.map fun a => ((⟨a.1, .sARGUMENT, a.2, true⟩ : Var), g.pc)).reverse ++ t) :: r } := by
  induction as generalizing g t with
  | nil => rw [Gen.enqueueArgs]; simp [← h]
  | cons a as ih =>
    rw [Gen.enqueueArgs, ih _ (((⟨a.1, .sARGUMENT, a.2, true⟩ : Var), g.pc) :: t) (by simp [Gen.enqueue, h])]
    simp [Gen.enqueue, h]

theorem eff_args (as : List (Image.Bytes × Int)) (g : Gen) :
    Eff (as.map fun a => (⟨a.1, .sARGUMENT, a.2, true⟩ : Var)).reverse (fun env _ => env) 0 []
      (as.map fun a => ((⟨a.1, .sARGUMENT, a.2, true⟩ : Var), g.pc)).reverse g (g.enqueueArgs as) := by
  refine ⟨?_, ?_, (by intro r hr; cases hr), ?_, fun env o h => by omega⟩
  · intro t r h; rw [enqueueArgs_eq as g t r h]; simp
  · rw [filter_all]
    · simp
    · intro a ha; simp at ha; obtain ⟨b, c, _, rfl⟩ := ha; rfl
  · intro e he; simp at he; obtain ⟨b, c, _, rfl⟩ := he; simp

/-- A function: the rows that are added, and what they say. -/
theorem emitFn_eff (g : Gen) (f : Fn) (hl : g.locals = []) : ∃ new,
    emitFn g f = { g with
      pc := g.pc + f.size
      localRows := g.localRows ++ new
      methods := g.methods ++ [(g.pc, g.pc + f.size)]
      dbgMethods := if new = [] then g.dbgMethods else g.dbgMethods ++ [(g.methods.length, g.localRows.length)] } ∧
    (∀ r ∈ new, g.pc ≤ r.start ∧ r.start ≤ r.stop ∧ r.stop ≤ g.pc + f.size) ∧
    (∀ o, o < f.body.size → (new.filter (Row.covers (g.pc + f.head + o))).map Row.info = infos (f.scope o)) ∧
    (∀ o, o < f.head → new.filter (Row.covers (g.pc + o)) = []) ∧
    (∀ o, f.head + f.body.size ≤ o → new.filter (Row.covers (g.pc + o)) = []) := by
  have EA := eff_args f.args (g.emitCode f.head).enter
  have hA := EA.eq [] g.locals rfl
  obtain ⟨d, new, added, _, EB⟩ := emit_eff f.body ((g.emitCode f.head).enter.enqueueArgs f.args) (by rw [hA]; simp)
  have ES := eff_seq (by simp [Gen.enter]) EA EB
  have hS := ES.eq [] g.locals rfl
  have EC := eff_block ES
  generalize hadd : added ++ (f.args.map fun a => ((⟨a.1, .sARGUMENT, a.2, true⟩ : Var), (g.emitCode f.head).enter.pc)).reverse = add at ES hS EC
  generalize hnew : ([] ++ new ++ add.map fun e => rowOf e.1 e.2 ((g.emitCode f.head).pc + (0 + f.body.size))) = rows at EC
  have hg : (emit ((g.emitCode f.head).enter.enqueueArgs f.args) f.body).leave =
      { g with pc := g.pc + f.head + f.body.size, localRows := g.localRows ++ rows } := by
    rw [hS, ← hnew]
    simp [Gen.leave, addAll_fun, Gen.enter, hl, Gen.emitCode]
  refine ⟨rows, ?_, ?_, ?_, ?_, ?_⟩
  · rw [emitFn, hg]
    cases rows with
    | nil => simp [Gen.emitCode, Fn.size, Nat.add_assoc]
    | cons a b => simp [Gen.emitCode, Fn.size, Nat.add_assoc]
  · intro r hr
    have := EC.rows r hr
    simp only [Gen.emitCode] at this
    simp only [Fn.size]; omega
  · intro o ho
    have := EC.says [] o (by omega)
    simp only [said, Gen.emitCode, List.filter_nil, List.map_nil, List.append_nil, Nat.not_lt_zero, if_false, Nat.sub_zero] at this
    have h0 : infos [] = [] := rfl
    rw [h0, List.append_nil] at this
    exact this
  · intro o ho
    apply filter_none
    intro r hr
    have := EC.rows r hr
    simp only [Gen.emitCode] at this
    simp [Row.covers]; omega
  · intro o ho
    apply filter_none
    intro r hr
    have := EC.rows r hr
    simp only [Gen.emitCode] at this
    simp [Row.covers]; omega

/-! ### The top of a program -/

theorem addAll_top (es : List (Var × Nat)) (g : Gen) :
    g.addAll false es = { g with globalRows := g.globalRows ++ es.map fun e => rowOf e.1 e.2 g.pc } := by
  induction es generalizing g with
  | nil => simp [Gen.addAll]
  | cons e es ih => rw [Gen.addAll, ih]; simp [Gen.add]

/-- The rows of open variables. -/
def closing (pc : Nat) (st : List (Nat × List (Var × Nat))) : List Row := st.flatMap fun s => s.2.map fun e => rowOf e.1 e.2 pc

theorem popFiles_eq (scope : Nat) (st : List (Nat × List (Var × Nat))) (g : Gen) :
    popFiles g scope st = { g with
      statics := st.dropWhile fun s => s.1 ≠ scope
      globalRows := g.globalRows ++ closing g.pc (st.takeWhile fun s => s.1 ≠ scope) } := by
  induction st generalizing g with
  | nil => simp [popFiles, closing]
  | cons s st ih =>
    obtain ⟨s, es⟩ := s
    rw [popFiles]
    by_cases h : s = scope
    · simp [h, closing]
    · rw [if_neg h, ih, addAll_top]
      simp [h, closing]

theorem addStatics_eq (st : List (Nat × List (Var × Nat))) (g : Gen) :
    g.addStatics st = { g with statics := [], globalRows := g.globalRows ++ closing g.pc st } := by
  induction st generalizing g with
  | nil => simp [Gen.addStatics, closing]
  | cons s st ih =>
    obtain ⟨s, es⟩ := s
    rw [Gen.addStatics, ih, addAll_top]
    simp [closing]

/-- What the loop over the top of a program keeps. -/
structure Inv (g : Gen) : Prop where
  locals : g.locals = []
  rows : ∀ r ∈ g.localRows, r.start ≤ r.stop ∧ r.stop ≤ g.pc
  methods : ∀ m ∈ g.dbgMethods, m.1 < g.methods.length ∧ m.2 < g.localRows.length

theorem changeFile_same (g : Gen) (s : Nat) : ∃ st rows, changeFile g s = { g with statics := st, globalRows := g.globalRows ++ rows } := by
  rw [changeFile]
  split
  · rw [popFiles_eq]; exact ⟨_, _, rfl⟩
  · exact ⟨(s, []) :: g.statics, [], by simp⟩

theorem var_same (g : Gen) (st : Bool) (nm : Image.Bytes) (a : Int) (l : Bool) :
    ∃ gl sts, emitItem g (.var st nm a l) = { g with globals := gl, statics := sts } := by
  rw [emitItem]
  split
  · cases st
    · exact ⟨_, g.statics, rfl⟩
    · simp only [Gen.enqueue]
      cases h : g.statics with
      | nil => exact ⟨g.globals, [], by simp [← h]⟩
      | cons a b => obtain ⟨x, y⟩ := a; exact ⟨g.globals, _, rfl⟩
  · exact ⟨g.globals, g.statics, rfl⟩

theorem item_same (g : Gen) (i : Item) (h : ∀ f, i ≠ .fn f) :
    ∃ gl sts rows, emitItem g i = { g with globals := gl, statics := sts, globalRows := g.globalRows ++ rows } := by
  cases i with
  | fn f => exact absurd rfl (h f)
  | var st nm a l => obtain ⟨gl, sts, e⟩ := var_same g st nm a l; exact ⟨gl, sts, [], by simp [e]⟩
  | file s => obtain ⟨sts, rows, e⟩ := changeFile_same g s; exact ⟨g.globals, sts, rows, by rw [emitItem, e]⟩

theorem item_pc (g : Gen) (i : Item) (I : Inv g) : (emitItem g i).pc = g.pc + i.size := by
  cases i with
  | fn f => obtain ⟨new, e, _⟩ := emitFn_eff g f I.locals; rw [emitItem, e]; rfl
  | var st nm a l => obtain ⟨gl, sts, e⟩ := var_same g st nm a l; rw [e]; rfl
  | file s => obtain ⟨gl, sts, e⟩ := changeFile_same g s; rw [emitItem, e]; rfl

theorem item_inv (g : Gen) (i : Item) (I : Inv g) : Inv (emitItem g i) := by
  cases i with
  | fn f =>
    obtain ⟨new, e, hr, _⟩ := emitFn_eff g f I.locals
    rw [emitItem, e]
    refine ⟨I.locals, ?_, ?_⟩
    · intro r h
      rcases List.mem_append.1 h with h | h
      · have := I.rows r h; simp only []; omega
      · have := hr r h; simp only []; omega
    · intro m h
      simp only [List.length_append]
      by_cases hn : new = []
      · simp only [hn, if_true] at h
        have := I.methods m h; omega
      · simp only [if_neg hn] at h
        have hp := List.length_pos_iff.2 hn
        rcases List.mem_append.1 h with h | h
        · have := I.methods m h; omega
        · rw [List.mem_singleton.1 h]; simp; omega
  | var st nm a l =>
    obtain ⟨gl, sts, e⟩ := var_same g st nm a l
    rw [e]; exact ⟨I.locals, I.rows, I.methods⟩
  | file s =>
    obtain ⟨sts, rows, e⟩ := changeFile_same g s
    rw [emitItem, e]; exact ⟨I.locals, I.rows, I.methods⟩

theorem localsOf_ne {rows : List Row} {i m first : Nat} {rest : List (Nat × Nat)} (h : m ≠ i) :
    localsOf rows i ((m, first) :: rest) = localsOf rows i rest := by
  cases rest <;> simp [localsOf, h]

/-- Adding the rows of a method changes nothing for the others. -/
theorem localsOf_old (rows new : List Row) (i k : Nat) (hik : i ≠ k) (ms : List (Nat × Nat)) (h : ∀ m ∈ ms, m.2 ≤ rows.length) :
    localsOf (rows ++ new) i (ms ++ [(k, rows.length)]) = localsOf rows i ms := by
  induction ms with
  | nil => simp [localsOf, Ne.symm hik]
  | cons m ms ih =>
    obtain ⟨j, first⟩ := m
    rw [List.cons_append]
    by_cases hj : j = i
    · cases ms with
      | nil => simp [localsOf, hj]
      | cons m ms =>
        obtain ⟨j', next⟩ := m
        have : next ≤ rows.length := h (j', next) (by simp)
        simp [localsOf, hj, List.take_append_of_le_length this]
    · rw [localsOf_ne hj, localsOf_ne hj, ih fun m hm => h m (List.mem_cons_of_mem _ hm)]

theorem localsOf_new (rows new : List Row) (k : Nat) (ms : List (Nat × Nat)) (h : ∀ m ∈ ms, m.1 ≠ k) :
    localsOf (rows ++ new) k (ms ++ [(k, rows.length)]) = new := by
  induction ms with
  | nil => simp [localsOf]
  | cons m ms ih =>
    obtain ⟨j, first⟩ := m
    rw [List.cons_append, localsOf_ne (h (j, first) (by simp)), ih fun m hm => h m (List.mem_cons_of_mem _ hm)]

theorem localsOf_none (rows : List Row) (k : Nat) (ms : List (Nat × Nat)) (h : ∀ m ∈ ms, m.1 ≠ k) : localsOf rows k ms = [] := by
  induction ms with
  | nil => rfl
  | cons m ms ih =>
    obtain ⟨j, first⟩ := m
    rw [localsOf_ne (h (j, first) (by simp)), ih fun m hm => h m (List.mem_cons_of_mem _ hm)]

theorem item_keeps (g : Gen) (i : Item) (I : Inv g) (k : Nat) (hk : k < g.methods.length) :
    localsOf (emitItem g i).localRows k (emitItem g i).dbgMethods = localsOf g.localRows k g.dbgMethods ∧
    (emitItem g i).methods[k]? = g.methods[k]? ∧ k < (emitItem g i).methods.length := by
  cases i with
  | fn f =>
    obtain ⟨new, e, hr, _⟩ := emitFn_eff g f I.locals
    rw [emitItem, e]
    refine ⟨?_, by simp [List.getElem?_append_left hk], by simp; omega⟩
    by_cases hn : new = []
    · simp [hn]
    · simp only [if_neg hn]
      exact localsOf_old _ _ _ _ (by omega) _ fun m hm => Nat.le_of_lt (I.methods m hm).2
  | var st nm a l =>
    obtain ⟨gl, sts, e⟩ := var_same g st nm a l
    rw [e]; exact ⟨rfl, rfl, hk⟩
  | file s =>
    obtain ⟨sts, rows, e⟩ := changeFile_same g s
    rw [emitItem, e]; exact ⟨rfl, rfl, hk⟩

theorem items_append (a b : List Item) (g : Gen) : emitItems g (a ++ b) = emitItems (emitItems g a) b := by
  induction a generalizing g with
  | nil => rfl
  | cons i a ih => rw [List.cons_append, emitItems, emitItems, ih]

theorem items_inv (p : List Item) (g : Gen) (I : Inv g) : Inv (emitItems g p) := by
  induction p generalizing g with
  | nil => exact I
  | cons i p ih => exact ih _ (item_inv g i I)

theorem items_pc (p : List Item) (g : Gen) (I : Inv g) : (emitItems g p).pc = g.pc + (p.map Item.size).sum := by
  induction p generalizing g with
  | nil => simp [emitItems]
  | cons i p ih => rw [emitItems, ih _ (item_inv g i I), item_pc g i I]; simp; omega

theorem items_keeps (p : List Item) (g : Gen) (I : Inv g) (k : Nat) (hk : k < g.methods.length) :
    localsOf (emitItems g p).localRows k (emitItems g p).dbgMethods = localsOf g.localRows k g.dbgMethods ∧
    (emitItems g p).methods[k]? = g.methods[k]? := by
  induction p generalizing g with
  | nil => exact ⟨rfl, rfl⟩
  | cons i p ih =>
    obtain ⟨h1, h2, h3⟩ := item_keeps g i I k hk
    obtain ⟨h4, h5⟩ := ih _ (item_inv g i I) h3
    exact ⟨h4.trans h1, h5.trans h2⟩

theorem items_count (p : List Item) (g : Gen) (I : Inv g) : (emitItems g p).methods.length = g.methods.length + fnCount p := by
  induction p generalizing g with
  | nil => rfl
  | cons i p ih =>
    rw [emitItems, ih _ (item_inv g i I)]
    cases i with
    | fn f =>
      obtain ⟨new, e, _⟩ := emitFn_eff g f I.locals
      rw [emitItem, e]; simp [fnCount]; omega
    | var st nm a l => obtain ⟨gl, sts, e⟩ := var_same g st nm a l; rw [e]; simp [fnCount]
    | file s => obtain ⟨gl, sts, e⟩ := changeFile_same g s; rw [emitItem, e]; simp [fnCount]

theorem init_inv : Inv .init := ⟨rfl, (fun _ h => nomatch h), (fun _ h => nomatch h)⟩

theorem generate_eq (p : List Item) : generate p = { emitItems .init p with
    statics := []
    globalRows := (emitItems .init p).globalRows ++ closing (emitItems .init p).pc (emitItems .init p).statics ++
      (emitItems .init p).globals.map fun e => rowOf e.1 e.2 (emitItems .init p).pc } := by
  rw [generate, addStatics_eq, addAll_top]

theorem end_pc (p : List Item) : (emitItems .init p).pc = endOf p := by rw [items_pc p _ init_inv]; rfl

/-- The rows of a function. -/
theorem fn_rows (before after : List Item) (f : Fn) : ∃ new,
    localsOf (generate (before ++ .fn f :: after)).localRows (fnCount before) (generate (before ++ .fn f :: after)).dbgMethods = new ∧
    (generate (before ++ .fn f :: after)).methods[fnCount before]? = some (endOf before, endOf before + f.size) ∧
    (∀ r ∈ new, endOf before ≤ r.start ∧ r.start ≤ r.stop ∧ r.stop ≤ endOf before + f.size) ∧
    (∀ o, o < f.body.size → (new.filter (Row.covers (endOf before + f.head + o))).map Row.info = infos (f.scope o)) ∧
    (∀ o, o < f.head → new.filter (Row.covers (endOf before + o)) = []) ∧
    (∀ o, f.head + f.body.size ≤ o → new.filter (Row.covers (endOf before + o)) = []) := by
  have I := items_inv before _ init_inv
  have hp := end_pc before
  have hc := items_count before _ init_inv
  simp only [Gen.init, List.length_nil, Nat.zero_add] at hc
  change (emitItems .init before).methods.length = _ at hc
  rw [generate_eq, items_append, emitItems]
  simp only []
  generalize emitItems .init before = g at I hp hc
  obtain ⟨new, e, hr, h1, h2, h3⟩ := emitFn_eff g f I.locals
  rw [hp] at hr h1 h2 h3
  obtain ⟨k1, k2⟩ := items_keeps after (emitItem g (.fn f)) (item_inv g _ I) (fnCount before) (by rw [emitItem, e]; simp [hc])
  refine ⟨new, ?_, ?_, hr, h1, h2, h3⟩
  · rw [k1, emitItem, e]
    have hne : ∀ m ∈ g.dbgMethods, m.1 ≠ fnCount before := fun m hm => by have := I.methods m hm; omega
    by_cases hn : new = []
    · simp [hn]; exact localsOf_none _ _ _ hne
    · simp only [if_neg hn, hc]; exact localsOf_new _ _ _ _ hne
  · rw [k2, emitItem, e]; simp [← hc, hp]

/-! ### Variables at the top of a program -/

theorem fn_globals (g : Gen) (f : Fn) (I : Inv g) :
    (emitFn g f).globals = g.globals ∧ (emitFn g f).statics = g.statics ∧ (emitFn g f).globalRows = g.globalRows := by
  obtain ⟨new, e, _⟩ := emitFn_eff g f I.locals
  rw [e]; exact ⟨rfl, rfl, rfl⟩

theorem item_globals (g : Gen) (i : Item) (I : Inv g) : ∃ l, (emitItem g i).globals = l ++ g.globals := by
  cases i with
  | fn f => exact ⟨[], (fn_globals g f I).1⟩
  | file s => obtain ⟨a, b, e⟩ := changeFile_same g s; exact ⟨[], by rw [emitItem, e]; rfl⟩
  | var st nm a l =>
    rw [emitItem]
    cases l
    · exact ⟨[], rfl⟩
    · cases st
      · exact ⟨[_], rfl⟩
      · refine ⟨[], ?_⟩
        simp only [Gen.enqueue]
        cases h : g.statics <;> simp

theorem items_globals (p : List Item) (g : Gen) (I : Inv g) : ∃ l, (emitItems g p).globals = l ++ g.globals := by
  induction p generalizing g with
  | nil => exact ⟨[], rfl⟩
  | cons i p ih =>
    obtain ⟨l1, h1⟩ := item_globals g i I
    obtain ⟨l2, h2⟩ := ih _ (item_inv g i I)
    exact ⟨l2 ++ l1, by rw [emitItems, h2, h1, List.append_assoc]⟩

theorem item_rows (g : Gen) (i : Item) (I : Inv g) : ∃ l, (emitItem g i).globalRows = g.globalRows ++ l := by
  cases i with
  | fn f => exact ⟨[], by rw [emitItem, (fn_globals g f I).2.2]; simp⟩
  | file s => obtain ⟨a, b, e⟩ := changeFile_same g s; exact ⟨b, by rw [emitItem, e]⟩
  | var st nm a l => obtain ⟨gl, sts, e⟩ := var_same g st nm a l; exact ⟨[], by rw [e]; simp⟩

theorem items_rows (p : List Item) (g : Gen) (I : Inv g) : ∃ l, (emitItems g p).globalRows = g.globalRows ++ l := by
  induction p generalizing g with
  | nil => exact ⟨[], by simp [emitItems]⟩
  | cons i p ih =>
    obtain ⟨l1, h1⟩ := item_rows g i I
    obtain ⟨l2, h2⟩ := ih _ (item_inv g i I)
    exact ⟨l1 ++ l2, by rw [emitItems, h2, h1, List.append_assoc]⟩

theorem files_append (a b : List Item) (st : List Nat) : files st (a ++ b) = files (files st a) b := by
  induction a generalizing st with
  | nil => rfl
  | cons i a ih => cases i <;> simp [files, ih]

theorem map_dropWhile (s : Nat) (st : List (Nat × List (Var × Nat))) :
    (st.dropWhile fun x => x.1 ≠ s).map (·.1) = (st.map (·.1)).dropWhile (· ≠ s) := by
  induction st with
  | nil => rfl
  | cons x st ih =>
    by_cases h : x.1 = s
    · simp [h]
    · simp only [List.dropWhile_cons, List.map_cons]
      simp [h] at ih ⊢
      exact ih

theorem item_files (g : Gen) (i : Item) (I : Inv g) : (emitItem g i).statics.map (·.1) = files (g.statics.map (·.1)) [i] := by
  cases i with
  | fn f => rw [emitItem, (fn_globals g f I).2.1]; rfl
  | var st nm a l =>
    rw [emitItem]
    cases l
    · rfl
    · cases st
      · rfl
      · simp only [Gen.enqueue]
        cases h : g.statics <;> simp [files, h]
  | file s =>
    rw [emitItem, changeFile]
    simp only [files]
    by_cases h : s ∈ g.statics.map (·.1)
    · have : g.statics.any (·.1 == s) = true := by
        obtain ⟨x, hx, he⟩ := List.mem_map.1 h
        exact List.any_eq_true.2 ⟨x, hx, by simp [he]⟩
      rw [if_pos this, if_pos h, popFiles_eq]
      exact map_dropWhile s g.statics
    · have : ¬ g.statics.any (·.1 == s) = true := by
        intro hc
        obtain ⟨x, hx, he⟩ := List.any_eq_true.1 hc
        exact h (List.mem_map.2 ⟨x, hx, by simpa using he⟩)
      rw [if_neg this, if_neg h]; rfl

theorem items_files (p : List Item) (g : Gen) (I : Inv g) : (emitItems g p).statics.map (·.1) = files (g.statics.map (·.1)) p := by
  induction p generalizing g with
  | nil => rfl
  | cons i p ih =>
    rw [emitItems, ih _ (item_inv g i I), item_files g i I, ← files_append]; rfl

/-- The static variable `e` waits in the file at the bottom part `F` of the open files. -/
def Pending (F : List Nat) (e : Var × Nat) (g : Gen) : Prop :=
  ∃ l s es r, g.statics = l ++ (s, es) :: r ∧ e ∈ es ∧ s :: r.map (·.1) = F

theorem suffix_long {α : Type} {l x y : List α} (h : y <:+ l ++ x) (hl : x.length ≤ y.length) : ∃ l', y = l' ++ x := by
  have : x <:+ y := List.suffix_of_suffix_length_le (List.suffix_append l x) h hl
  obtain ⟨l', h'⟩ := this
  exact ⟨l', h'.symm⟩

theorem pending_item (F : List Nat) (e : Var × Nat) (g : Gen) (i : Item) (I : Inv g) (P : Pending F e g)
    (hF : F <:+ files (g.statics.map (·.1)) [i]) : Pending F e (emitItem g i) := by
  obtain ⟨l, s, es, r, hs, he, hf⟩ := P
  cases i with
  | fn f => exact ⟨l, s, es, r, by rw [emitItem, (fn_globals g f I).2.1, hs], he, hf⟩
  | var st nm a li =>
    rw [emitItem]
    cases li
    · exact ⟨l, s, es, r, hs, he, hf⟩
    · cases st
      · exact ⟨l, s, es, r, hs, he, hf⟩
      · cases l with
        | nil => exact ⟨[], s, _ :: es, r, by simp [Gen.enqueue, hs]; rfl, List.mem_cons_of_mem _ he, hf⟩
        | cons x l => exact ⟨(x.1, _ :: x.2) :: l, s, es, r, by simp [Gen.enqueue, hs]; rfl, he, hf⟩
  | file t =>
    have hlen := hF.length_le
    rw [← item_files g (.file t) I] at hlen
    rw [emitItem, changeFile] at hlen ⊢
    by_cases h : g.statics.any (·.1 == t) = true
    · rw [if_pos h, popFiles_eq] at hlen ⊢
      simp only [List.length_map] at hlen
      have hsuf : (g.statics.dropWhile fun x => x.1 ≠ t) <:+ l ++ (s, es) :: r := by rw [← hs]; exact List.dropWhile_suffix _
      obtain ⟨l', h'⟩ := suffix_long hsuf (by rw [← hf] at hlen; simpa using hlen)
      exact ⟨l', s, es, r, h', he, hf⟩
    · rw [if_neg h]
      exact ⟨(t, []) :: l, s, es, r, by simp [hs], he, hf⟩

theorem pending_leave (F : List Nat) (e : Var × Nat) (g : Gen) (t : Nat) (I : Inv g) (P : Pending F e g)
    (hF : ¬ F <:+ files (g.statics.map (·.1)) [.file t]) : rowOf e.1 e.2 g.pc ∈ (emitItem g (.file t)).globalRows := by
  obtain ⟨l, s, es, r, hs, he, hf⟩ := P
  rw [← item_files g (.file t) I] at hF
  rw [emitItem, changeFile] at hF ⊢
  by_cases h : g.statics.any (·.1 == t) = true
  · rw [if_pos h, popFiles_eq] at hF ⊢
    simp only [] at hF ⊢
    apply List.mem_append_right
    have hmem : (s, es) ∈ g.statics.takeWhile fun x => x.1 ≠ t := by
      have hta : (g.statics.takeWhile fun x => x.1 ≠ t) ++ (g.statics.dropWhile fun x => x.1 ≠ t) = g.statics :=
        List.takeWhile_append_dropWhile
      generalize (g.statics.takeWhile fun x => x.1 ≠ t) = A at hta ⊢
      generalize (g.statics.dropWhile fun x => x.1 ≠ t) = B at hta hF
      rw [hs] at hta
      rcases List.append_eq_append_iff.1 hta with ⟨c, h1, h2⟩ | ⟨c, h1, h2⟩
      · exact absurd (by rw [h2]; simp [← hf, List.suffix_append]) hF
      · cases c with
        | nil => exact absurd (by simp at h2; rw [← h2]; simp [← hf]) hF
        | cons x c => cases h2; rw [h1]; simp
    exact List.mem_flatMap.2 ⟨_, hmem, List.mem_map.2 ⟨e, he, rfl⟩⟩
  · rw [if_neg h] at hF
    exact absurd (by rw [hs, ← hf]; exact ⟨t :: l.map (·.1), by simp⟩) hF

theorem pending_items (F : List Nat) (e : Var × Nat) (mid : List Item) (g : Gen) (I : Inv g) (P : Pending F e g)
    (hF : ∀ q, q <+: mid → F <:+ files (g.statics.map (·.1)) q) : Pending F e (emitItems g mid) := by
  induction mid generalizing g with
  | nil => exact P
  | cons i mid ih =>
    refine ih _ (item_inv g i I) (pending_item F e g i I P (hF [i] (by simp))) fun q hq => ?_
    rw [item_files g i I, ← files_append]
    exact hF ([i] ++ q) (by simpa using hq)

theorem closing_info (pc : Nat) (st : List (Nat × List (Var × Nat))) :
    (closing pc st).map Row.info = (st.flatMap (·.2)).map fun e => e.1.info := by
  induction st with
  | nil => rfl
  | cons s st ih =>
    simp only [closing, List.flatMap_cons, List.map_append] at ih ⊢
    rw [ih, List.map_map]; rfl

/-- All that is known of variables at the top. -/
def held (g : Gen) : List Info :=
  g.globalRows.map Row.info ++ (g.statics.flatMap (·.2)).map (fun e => e.1.info) ++ g.globals.map fun e => e.1.info

theorem dropWhile_ne {s : Nat} {st : List (Nat × List (Var × Nat))} {y : Nat × List (Var × Nat)} (he : y.1 = s) (hy : y ∈ st) :
    (st.dropWhile fun x => x.1 ≠ s) ≠ [] := by
  induction st with
  | nil => cases hy
  | cons a st ih =>
    by_cases h : a.1 = s
    · simp [h]
    · rcases List.mem_cons.1 hy with rfl | hy
      · exact absurd he h
      · have := ih hy
        simp only [List.dropWhile_cons]
        simp [h] at this ⊢
        exact this

theorem item_held (g : Gen) (i : Item) (I : Inv g) (hne : g.statics ≠ []) (x : Info) :
    (held (emitItem g i)).count x = (held g).count x + ((topVars true [i] ++ topVars false [i]).map Var.info).count x ∧
    (emitItem g i).statics ≠ [] := by
  cases i with
  | fn f =>
    obtain ⟨h1, h2, h3⟩ := fn_globals g f I
    simp [emitItem, held, h1, h2, h3, topVars, hne]
  | var st nm a l =>
    rw [emitItem]
    cases l
    · simp [topVars, hne]
    · cases st
      · simp [topVars, held, Gen.enqueue, hne, List.count_cons]; omega
      · cases h : g.statics with
        | nil => exact absurd h hne
        | cons y r => simp [topVars, held, Gen.enqueue, h, List.count_cons]; omega
  | file s =>
    have e0 : topVars true [Item.file s] ++ topVars false [.file s] = [] := rfl
    refine ⟨?_, ?_⟩
    · rw [emitItem, changeFile, e0]
      split
      · rw [popFiles_eq]
        have hta : (g.statics.takeWhile fun x => x.1 ≠ s) ++ (g.statics.dropWhile fun x => x.1 ≠ s) = g.statics :=
          List.takeWhile_append_dropWhile
        conv => rhs; rw [held, ← hta]
        simp only [held, List.map_append, closing_info, List.flatMap_append, List.count_append, List.map_nil, List.count_nil]
        omega
      · simp [held]
    · rw [emitItem, changeFile]
      split
      · rename_i hany
        rw [popFiles_eq]
        obtain ⟨y, hy, he⟩ := List.any_eq_true.1 hany
        intro hc
        simp only [] at hc
        exact dropWhile_ne (by simpa using he) hy hc
      · simp

theorem topVars_cons (st : Bool) (i : Item) (p : List Item) : topVars st (i :: p) = topVars st [i] ++ topVars st p := by
  cases i with
  | var s nm a l => cases l <;> cases s <;> cases st <;> simp [topVars]
  | _ => simp [topVars]

theorem items_held (p : List Item) (g : Gen) (I : Inv g) (hne : g.statics ≠ []) (x : Info) :
    (held (emitItems g p)).count x = (held g).count x + ((topVars true p ++ topVars false p).map Var.info).count x := by
  induction p generalizing g with
  | nil => simp [emitItems, topVars]
  | cons i p ih =>
    obtain ⟨h1, h2⟩ := item_held g i I hne x
    rw [emitItems, ih _ (item_inv g i I) h2, h1, topVars_cons true i p, topVars_cons false i p]
    simp only [List.map_append, List.count_append]; omega

/-! ### Rows are about variables of the program -/

/-- An entry that waits. -/
def EOk (P : Info → Prop) (pc : Nat) (e : Var × Nat) : Prop := P e.1.info ∧ e.2 ≤ pc

/-- Every row and everything that waits is about a variable with `P`, and has a range. -/
structure Good (P : Info → Prop) (g : Gen) : Prop where
  lrows : ∀ r ∈ g.localRows, P r.info ∧ r.start ≤ r.stop ∧ r.stop ≤ g.pc
  grows : ∀ r ∈ g.globalRows, P r.info ∧ r.start ≤ r.stop ∧ r.stop ≤ g.pc
  locals : ∀ es ∈ g.locals, ∀ e ∈ es, EOk P g.pc e
  statics : ∀ s ∈ g.statics, ∀ e ∈ s.2, EOk P g.pc e
  globals : ∀ e ∈ g.globals, EOk P g.pc e

theorem Good.code {P : Info → Prop} {g : Gen} (G : Good P g) (n : Nat) : Good P (g.emitCode n) := by
  refine ⟨fun r h => ?_, fun r h => ?_, fun es h e he => ?_, fun es h e he => ?_, fun e he => ?_⟩
  · have := G.lrows r h; exact ⟨this.1, this.2.1, Nat.le_trans this.2.2 (Nat.le_add_right _ _)⟩
  · have := G.grows r h; exact ⟨this.1, this.2.1, Nat.le_trans this.2.2 (Nat.le_add_right _ _)⟩
  · have := G.locals es h e he; exact ⟨this.1, Nat.le_trans this.2 (Nat.le_add_right _ _)⟩
  · have := G.statics es h e he; exact ⟨this.1, Nat.le_trans this.2 (Nat.le_add_right _ _)⟩
  · have := G.globals e he; exact ⟨this.1, Nat.le_trans this.2 (Nat.le_add_right _ _)⟩

theorem Good.enqueue {P : Info → Prop} {g : Gen} (G : Good P g) (b : Bool) (v : Var) (hv : P v.info) : Good P (g.enqueue b v) := by
  unfold Gen.enqueue
  split
  · exact ⟨G.lrows, G.grows, G.locals, G.statics, List.forall_mem_cons.2 ⟨⟨hv, Nat.le_refl _⟩, G.globals⟩⟩
  · split
    · split
      · rename_i h
        refine ⟨G.lrows, G.grows, G.locals, ?_, G.globals⟩
        have := G.statics; rw [h] at this
        obtain ⟨h1, h2⟩ := List.forall_mem_cons.1 this
        exact List.forall_mem_cons.2 ⟨List.forall_mem_cons.2 ⟨⟨hv, Nat.le_refl _⟩, h1⟩, h2⟩
      · exact G
    · split
      · rename_i h
        refine ⟨G.lrows, G.grows, ?_, G.statics, G.globals⟩
        have := G.locals; rw [h] at this
        obtain ⟨h1, h2⟩ := List.forall_mem_cons.1 this
        exact List.forall_mem_cons.2 ⟨List.forall_mem_cons.2 ⟨⟨hv, Nat.le_refl _⟩, h1⟩, h2⟩
      · exact G

theorem EOk.row {P : Info → Prop} {pc : Nat} {e : Var × Nat} (h : EOk P pc e) :
    P (rowOf e.1 e.2 pc).info ∧ (rowOf e.1 e.2 pc).start ≤ (rowOf e.1 e.2 pc).stop ∧ (rowOf e.1 e.2 pc).stop ≤ pc :=
  ⟨h.1, h.2, Nat.le_refl _⟩

theorem Good.enter {P : Info → Prop} {g : Gen} (G : Good P g) : Good P g.enter :=
  ⟨G.lrows, G.grows, List.forall_mem_cons.2 ⟨(fun _ h => nomatch h), G.locals⟩, G.statics, G.globals⟩

theorem Good.leave {P : Info → Prop} {g : Gen} (G : Good P g) : Good P g.leave := by
  unfold Gen.leave
  split
  · rename_i es r h
    rw [addAll_fun]
    have := G.locals; rw [h] at this
    obtain ⟨h1, h2⟩ := List.forall_mem_cons.1 this
    refine ⟨fun x hx => ?_, G.grows, h2, G.statics, G.globals⟩
    rcases List.mem_append.1 hx with hx | hx
    · exact G.lrows x hx
    · obtain ⟨e, he, rfl⟩ := List.mem_map.1 hx
      exact (h1 e he).row
  · exact G

mutual
theorem Good.emit {P : Info → Prop} (s : Stm) (g : Gen) (G : Good P g) (hs : ∀ v ∈ s.vars, P v.info) : Good P (emit g s) := by
  cases s with
  | code n => rw [DebugVars.emit]; exact G.code n
  | decl st nm a u n =>
    rw [DebugVars.emit]
    split
    · exact (G.code n).enqueue _ _ (hs _ (by simp [Stm.vars]))
    · exact G.code n
  | block ss => rw [DebugVars.emit]; exact (Good.emits ss _ G.enter (by simpa [Stm.vars] using hs)).leave
  | seq ss => rw [DebugVars.emit]; exact Good.emits ss g G (by simpa [Stm.vars] using hs)
theorem Good.emits {P : Info → Prop} (ss : List Stm) (g : Gen) (G : Good P g) (hs : ∀ v ∈ stmVars ss, P v.info) : Good P (emits g ss) := by
  cases ss with
  | nil => rw [DebugVars.emits]; exact G
  | cons s ss =>
    rw [DebugVars.emits]
    rw [stmVars] at hs
    exact Good.emits ss _ (Good.emit s g G fun v hv => hs v (List.mem_append_left _ hv)) fun v hv => hs v (List.mem_append_right _ hv)
end

theorem Good.args {P : Info → Prop} (as : List (Image.Bytes × Int)) (g : Gen) (G : Good P g)
    (hs : ∀ a ∈ as, P (Var.info ⟨a.1, .sARGUMENT, a.2, true⟩)) : Good P (g.enqueueArgs as) := by
  induction as generalizing g with
  | nil => exact G
  | cons a as ih =>
    obtain ⟨h1, h2⟩ := List.forall_mem_cons.1 hs
    exact ih _ (G.enqueue _ _ h1) h2

theorem Good.item {P : Info → Prop} (g : Gen) (i : Item) (G : Good P g) (hs : ∀ v ∈ i.vars, P v.info) : Good P (emitItem g i) := by
  cases i with
  | fn f =>
    simp only [Item.vars, List.mem_append] at hs
    have h1 := Good.emit f.body _ (Good.args f.args _ (G.code f.head).enter fun a ha => hs ⟨a.1, .sARGUMENT, a.2, true⟩
      (.inl (by simp only [Fn.vars, List.mem_reverse]; exact List.mem_map.2 ⟨a, ha, rfl⟩))) fun v hv => hs v (.inr hv)
    have h2 := h1.leave.code f.tail
    exact ⟨h2.lrows, h2.grows, h2.locals, h2.statics, h2.globals⟩
  | var st nm a l =>
    rw [emitItem]
    split
    · rename_i h
      cases h
      exact G.enqueue _ _ (hs _ (by simp [Item.vars]))
    · exact G
  | file s =>
    rw [emitItem, changeFile]
    split
    · rw [popFiles_eq]
      refine ⟨G.lrows, fun x hx => ?_, G.locals, fun x hx => G.statics x ((List.dropWhile_sublist _).subset hx), G.globals⟩
      rcases List.mem_append.1 hx with hx | hx
      · exact G.grows x hx
      · obtain ⟨y, hy, hx⟩ := List.mem_flatMap.1 hx
        obtain ⟨e, he, rfl⟩ := List.mem_map.1 hx
        exact (G.statics y ((List.takeWhile_sublist _).subset hy) e he).row
    · exact ⟨G.lrows, G.grows, G.locals, List.forall_mem_cons.2 ⟨(fun _ h => nomatch h), G.statics⟩, G.globals⟩

theorem Good.items {P : Info → Prop} (p : List Item) (g : Gen) (G : Good P g) (hs : ∀ i ∈ p, ∀ v ∈ i.vars, P v.info) :
    Good P (emitItems g p) := by
  induction p generalizing g with
  | nil => exact G
  | cons i p ih =>
    obtain ⟨h1, h2⟩ := List.forall_mem_cons.1 hs
    exact ih _ (Good.item g i G h1) h2

theorem generate_good {P : Info → Prop} (p : List Item) (hs : ∀ i ∈ p, ∀ v ∈ i.vars, P v.info) :
    ∀ r ∈ (generate p).localRows ++ (generate p).globalRows, P r.info ∧ r.start ≤ r.stop ∧ r.stop ≤ (generate p).pc := by
  have G : Good P (emitItems .init p) := Good.items p _
    ⟨(fun _ h => nomatch h), (fun _ h => nomatch h), (fun _ h => nomatch h), (fun _ h => nomatch h), (fun _ h => nomatch h)⟩ hs
  rw [generate_eq]
  intro r hr
  rcases List.mem_append.1 hr with hr | hr
  · exact G.lrows r hr
  · rcases List.mem_append.1 hr with hr | hr
    · rcases List.mem_append.1 hr with hr | hr
      · exact G.grows r hr
      · obtain ⟨y, hy, hx⟩ := List.mem_flatMap.1 hr
        obtain ⟨e, he, rfl⟩ := List.mem_map.1 hx
        exact (G.statics y hy e he).row
    · obtain ⟨e, he, rfl⟩ := List.mem_map.1 hr
      exact (G.globals e he).row

theorem find_listed (env : List Var) (name : Image.Bytes) (v : Var) (hv : env.find? (·.name = name) = some v) (hu : v.listed = true) :
    (env.filter (·.listed)).find? (·.name = name) = some v := by
  induction env with
  | nil => cases hv
  | cons x env ih =>
    by_cases hx : x.name = name
    · rw [List.find?_cons_of_pos (by simp [hx])] at hv
      cases hv
      rw [List.filter_cons_of_pos (by simp [hu]), List.find?_cons_of_pos (by simp [hx])]
    · rw [List.find?_cons_of_neg (by simp [hx])] at hv
      cases hl : x.listed
      · rw [List.filter_cons_of_neg (by simp [hl])]; exact ih hv
      · rw [List.filter_cons_of_pos (by simp [hl]), List.find?_cons_of_neg (by simp [hx])]; exact ih hv

theorem find_info (rows : List Row) (vs : List Var) (name : Image.Bytes) (h : rows.map Row.info = vs.map Var.info) :
    (rows.find? (·.name = name)).map Row.info = (vs.find? (·.name = name)).map Var.info := by
  have h1 : (rows.map Row.info).find? (·.name = name) = (rows.find? (·.name = name)).map Row.info := by rw [List.find?_map]; rfl
  have h2 : (vs.map Var.info).find? (·.name = name) = (vs.find? (·.name = name)).map Var.info := by rw [List.find?_map]; rfl
  rw [← h1, ← h2, h]

end Verif.DebugVars

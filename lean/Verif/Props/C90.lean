import Verif.Proofs.DebugVars
/-! C90: the debug information of a compiled file says which variables are in scope. -/
namespace Verif.DebugVars

/-- C90: for every function of every program and every address in its body, the rows a debugger finds for the address (those of the
method, include/smx/smx-typeinfo.h:284-294, whose range has it) are the used variables in scope there, innermost first, with their names,
classes and addresses.  The range of a row is taken without its end. -/
theorem C90_locals_partial (before after : List Item) (f : Fn) (o : Nat) (h : o < f.body.size) :
    (visible (generate (before ++ .fn f :: after)) (fnCount before) (endOf before + f.head + o)).map Row.info =
      ((f.scope o).filter (·.listed)).map Var.info := by
  obtain ⟨new, e, _, _, h1, _⟩ := fn_rows before after f
  rw [visible, e]; exact h1 o h

/-- C90: outside of the body nothing is found: not in PROC and BREAK at the start, and not in what comes after. -/
theorem C90_outside (before after : List Item) (f : Fn) (o : Nat) (h : o < f.head ∨ f.head + f.body.size ≤ o) :
    visible (generate (before ++ .fn f :: after)) (fnCount before) (endOf before + o) = [] := by
  obtain ⟨new, e, _, _, _, h2, h3⟩ := fn_rows before after f
  rw [visible, e]
  exact h.elim (h2 o) (h3 o)

/-- C90: the table of methods has the function at its number, with its addresses. -/
theorem C90_method (before after : List Item) (f : Fn) :
    (generate (before ++ .fn f :: after)).methods[fnCount before]? = some (endOf before, endOf before + f.size) :=
  (fn_rows before after f).choose_spec.2.1

/-- C90: a name is the variable the program means, if that is used: the first row with the name is that of the innermost declaration. -/
theorem C90_name_partial (before after : List Item) (f : Fn) (o : Nat) (h : o < f.body.size) (name : Image.Bytes) (v : Var)
    (hv : (f.scope o).find? (·.name = name) = some v) (hu : v.listed = true) :
    ((visible (generate (before ++ .fn f :: after)) (fnCount before) (endOf before + f.head + o)).find? (·.name = name)).map Row.info =
      some v.info := by
  rw [find_info _ _ name (C90_locals_partial before after f o h), find_listed _ name v hv hu]; rfl

/-- C90: a global variable that is public or used has a row from its declaration to the end of the code. -/
theorem C90_global (before after : List Item) (name : Image.Bytes) (addr : Int) :
    (⟨name, .global, addr, endOf before, endOf (before ++ after)⟩ : Row) ∈
      (generate (before ++ .var false name addr true :: after)).globalRows := by
  have I := items_inv before _ init_inv
  have hp := end_pc before
  have hend : endOf (before ++ .var false name addr true :: after) = endOf (before ++ after) := by simp [endOf, Item.size]
  rw [generate_eq, end_pc, hend, items_append, emitItems]
  generalize emitItems .init before = g at I hp
  obtain ⟨l, hl⟩ := items_globals after (emitItem g (.var false name addr true)) (item_inv g _ I)
  apply List.mem_append_right
  rw [hl]
  refine List.mem_map.2 ⟨(⟨name, .sGLOBAL, addr, true⟩, g.pc), List.mem_append_right _ (by simp [emitItem, Gen.enqueue]), ?_⟩
  rw [hp]; rfl

/-- C90: a static variable of a file has a row from its declaration to the place where its file is left, or to the end. -/
theorem C90_static (before mid after : List Item) (name : Image.Bytes) (addr : Int) (hf : files [] before ≠ [])
    (hmid : Stays before mid)
    (hafter : after = [] ∨ ∃ t rest, after = .file t :: rest ∧ ¬ files [] before <:+ files [] (before ++ mid ++ [.file t])) :
    (⟨name, .static, addr, endOf before, endOf (before ++ mid)⟩ : Row) ∈
      (generate (before ++ .var true name addr true :: (mid ++ after))).globalRows := by
  have I := items_inv before _ init_inv
  have hp := end_pc before
  have hfs := items_files before _ init_inv
  change _ = files [] before at hfs
  have hendm := end_pc (before ++ .var true name addr true :: mid)
  have hend : endOf (before ++ .var true name addr true :: mid) = endOf (before ++ mid) := by simp [endOf, Item.size]
  rw [hend, items_append, emitItems] at hendm
  rw [generate_eq, items_append, emitItems, items_append]
  generalize emitItems .init before = g at I hp hfs hendm
  have I1 := item_inv g (.var true name addr true) I
  have hf1 : (emitItem g (.var true name addr true)).statics.map (·.1) = files [] before := by
    rw [item_files g _ I, hfs]; rfl
  have P1 : Pending (files [] before) (⟨name, .sSTATIC, addr, true⟩, endOf before) (emitItem g (.var true name addr true)) := by
    cases hst : g.statics with
    | nil => rw [hst] at hfs; exact absurd hfs.symm hf
    | cons x r =>
      obtain ⟨s, es⟩ := x
      refine ⟨[], s, (⟨name, .sSTATIC, addr, true⟩, endOf before) :: es, r, ?_, List.mem_cons_self, ?_⟩
      · simp [emitItem, Gen.enqueue, hst, hp]
      · rw [← hfs, hst]; rfl
  have hstay : ∀ q, q <+: mid → files [] before <:+ files ((emitItem g (.var true name addr true)).statics.map (·.1)) q := by
    intro q hq; rw [hf1, ← files_append]; exact hmid q hq
  have P2 := pending_items _ _ mid _ I1 P1 hstay
  have I2 := items_inv mid _ I1
  have hf2 := items_files mid _ I1
  rw [hf1, ← files_append] at hf2
  generalize emitItems (emitItem g (.var true name addr true)) mid = g2 at P2 I2 hf2 hendm
  have hrow : (⟨name, .static, addr, endOf before, endOf (before ++ mid)⟩ : Row) =
      rowOf (⟨name, .sSTATIC, addr, true⟩ : Var) (endOf before) g2.pc := by rw [hendm]; rfl
  rw [hrow]
  rcases hafter with rfl | ⟨t, rest, rfl, hleft⟩
  · obtain ⟨l, s, es, r, hs, he, _⟩ := P2
    apply List.mem_append_left
    apply List.mem_append_right
    refine List.mem_flatMap.2 ⟨(s, es), ?_, List.mem_map.2 ⟨_, he, rfl⟩⟩
    rw [emitItems, hs]; simp
  · have hl := pending_leave _ _ g2 t I2 P2 (by rw [hf2, ← files_append]; exact hleft)
    obtain ⟨l, hr⟩ := items_rows rest (emitItem g2 (.file t)) (item_inv g2 _ I2)
    apply List.mem_append_left
    apply List.mem_append_left
    rw [emitItems, hr]
    exact List.mem_append_left _ hl

/-- C90: there are no other rows, and none twice: the table of globals lists the variables at the top of the program that are public
or used. -/
theorem C90_all (s : Nat) (p : List Item) :
    ((generate (.file s :: p)).globalRows.map Row.info).Perm ((topVars true p ++ topVars false p).map Var.info) := by
  rw [List.perm_iff_count]
  intro x
  have h := items_held p (emitItem .init (.file s)) (item_inv _ _ init_inv) (by simp [emitItem, changeFile, Gen.init]) x
  have h0 : (held (emitItem .init (.file s))) = [] := by simp [held, emitItem, changeFile, Gen.init]
  rw [h0, List.count_nil, Nat.zero_add] at h
  rw [← h, generate_eq, emitItems, held]
  simp only [List.map_append, List.count_append, closing_info, List.map_map]
  rfl

/-- C90: the loader takes the tables: their ranges are in the code, their rows belong to methods that exist, and the addresses are as
they must be for their classes, if those of arguments are negative and those of variables in memory are in memory. -/
theorem C90_accepted (p : List Item) (heap : Int)
    (hv : ∀ i ∈ p, ∀ v ∈ i.vars, (v.vclass = .sARGUMENT → v.addr ≤ 0) ∧
      (v.vclass = .sGLOBAL ∨ v.vclass = .sSTATIC → 0 ≤ v.addr ∧ v.addr < heap)) :
    (∀ r ∈ (generate p).localRows ++ (generate p).globalRows, rowOk (sectionSize (generate p)) heap r = true) ∧
    methodsOk (generate p) = true := by
  constructor
  · intro r hr
    obtain ⟨h1, h2, h3⟩ := generate_good (P := fun i => match i.vclass with
      | .global | .static => 0 ≤ i.addr ∧ i.addr < heap
      | .loc => i.addr ≥ 0
      | .arg => i.addr ≤ 0) p (fun i hi v hm => by
        have := hv i hi v hm
        obtain ⟨nm, c, a, l⟩ := v
        cases c with
        | sLOCAL =>
          by_cases ha : a ≥ 0
          · simp [Var.info, classOf, ha]
          · simp [Var.info, classOf, ha]; omega
        | sGLOBAL => simpa [Var.info, classOf] using this
        | sSTATIC => simpa [Var.info, classOf] using this
        | sARGUMENT => simpa [Var.info, classOf] using this) r hr
    obtain ⟨nm, c, a, st, sp⟩ := r
    simp only [rowOk, sectionSize, addressOk, Row.info] at h1 h2 h3 ⊢
    have h4 : st < 20 + (generate p).pc := by omega
    have h5 : sp ≤ 20 + (generate p).pc := by omega
    cases c <;> simp_all
  · have I := items_inv p _ init_inv
    rw [generate_eq, methodsOk, List.all_eq_true]
    intro m hm
    have := I.methods m hm
    simp [this]

/-! ### Where it does not hold -/

/-- `int x` in two scopes; the inner one is not used. -/
def shadow : Fn := ⟨[], 8, .block [.decl false [120] 0 true 4, .block [.decl false [120] 1 false 4, .code 8], .code 4], 8⟩

/-- C90 fails for names whose innermost variable is not used: the debugger shows another variable with the name. -/
theorem C90_unused : (shadow.scope 10).find? (·.name = [120]) = some ⟨[120], .sLOCAL, 1, false⟩ ∧
    ((visible (generate [.file 0, .fn shadow]) 0 (8 + 8 + 10)).find? (·.name = [120])).map Row.info = some ⟨[120], .loc, 0⟩ := by
  decide +kernel

/-- C90 fails if the range is taken with its end, as include/smx/smx-typeinfo.h:310 has it: a variable of a block that is left is still
there. -/
theorem C90_end : ∃ f : Fn, ∃ o, o < f.body.size ∧ f.scope o = [] ∧
    ∃ r ∈ localsOf (generate [.file 0, .fn f]).localRows 0 (generate [.file 0, .fn f]).dbgMethods,
      r.start ≤ 8 + f.head + o ∧ 8 + f.head + o ≤ r.stop :=
  ⟨⟨[], 8, .block [.block [.decl false [120] 0 true 4, .code 4], .code 4], 8⟩, 8, by decide +kernel, by decide +kernel,
    ⟨[120], .loc, 0, 20, 24⟩, by decide +kernel, by decide +kernel, by decide +kernel⟩

/-- C90 fails for global variables that are declared after the function that uses them: the row does not have the function. -/
theorem C90_late_global : ∃ f : Fn, (generate [.file 0, .fn f, .var false [103] 0 true]).globalRows = [⟨[103], .global, 0, 28, 28⟩] ∧
    (generate [.file 0, .fn f, .var false [103] 0 true]).methods = [(8, 28)] :=
  ⟨⟨[], 8, .block [.code 4], 8⟩, by decide +kernel, by decide +kernel⟩

/-! ### The hypotheses are met -/

/-- `f(a, b) { int x; { static int y; int x; … } for (int i; …) { … } }` -/
def f1 : Fn := ⟨[([97], -1), ([98], -2)], 8,
  .block [.decl false [120] 0 true 4, .block [.decl true [121] 12 true 0, .decl false [120] 1 true 4, .code 8],
    .block [.decl false [105] 2 true 4, .seq [.code 4, .block [.code 12], .code 4]]], 12⟩

/-- Two files; the second is included in the first. -/
def prog : List Item :=
  [.file 0, .var true [115] 0 true, .file 1, .var true [116] 4 true, .fn shadow, .file 0, .var false [103] 8 true, .fn f1]

example : (visible (generate prog) 1 (44 + 8 + 10)).map Row.info =
    [⟨[120], .loc, 1⟩, ⟨[121], .static, 12⟩, ⟨[120], .loc, 0⟩, ⟨[98], .arg, -2⟩, ⟨[97], .arg, -1⟩] := by decide +kernel

example : endOf (prog.take 7) = 44 ∧ fnCount (prog.take 7) = 1 ∧ prog = prog.take 7 ++ .fn f1 :: [] ∧ 10 < f1.body.size := by
  refine ⟨by decide +kernel, by decide +kernel, rfl, by decide +kernel⟩

example : (generate prog).globalRows = [⟨[116], .static, 4, 8, 44⟩, ⟨[115], .static, 0, 8, 104⟩, ⟨[103], .global, 8, 44, 104⟩] := by
  decide +kernel

/-- `C90_static` for the variable of the file that is left. -/
example : files [] (prog.take 3) = [1, 0] ∧ Stays (prog.take 3) [.fn shadow] ∧
    ¬ files [] (prog.take 3) <:+ files [] (prog.take 3 ++ [.fn shadow] ++ [.file 0]) := by
  refine ⟨by decide +kernel, ?_, by decide +kernel⟩
  intro q hq
  rcases List.prefix_cons_iff.1 hq with rfl | ⟨t, rfl, ht⟩
  · exact List.suffix_refl _
  · rw [List.prefix_nil.1 ht]; exact List.suffix_refl _

/-- `C90_accepted` -/
example : ∀ i ∈ prog, ∀ v ∈ i.vars, (v.vclass = .sARGUMENT → v.addr ≤ 0) ∧
    (v.vclass = .sGLOBAL ∨ v.vclass = .sSTATIC → 0 ≤ v.addr ∧ v.addr < 16) := by
  decide +kernel

end Verif.DebugVars

import Verif.Proofs.LongExpr

/-! Statements (C81). -/
namespace Verif.Long
open Verif.VM

theorem wf_none : WF noSlots :=
  ⟨fun x h => absurd h (by simp [noSlots]), by simp [noSlots], fun n i h => absurd h (by simp [noSlots]), fun n i h => absurd h (by simp [noSlots]),
    fun n n' i h => absurd h (by simp [noSlots]), fun n n' i h => absurd h (by simp [noSlots])⟩

/-- The slots with a new variable. -/
def with64 (t : Slots) (n : Nat) : Slots := { t with kinds := t.kinds ++ [.int64], v64 := bindVar t.v64 n t.kinds.length }
def with32 (t : Slots) (n : Nat) : Slots := { t with kinds := t.kinds ++ [.int], v32 := bindVar t.v32 n t.kinds.length }

theorem lt_of_get {l : List Kind} {i : Nat} {k : Kind} (h : l[i]? = some k) : i < l.length := by
  have : ∃ h : i < l.length, l[i] = k := List.getElem?_eq_some_iff.mp h
  exact this.1

theorem get_last (l : List Kind) (k : Kind) : (l ++ [k])[l.length]? = some k := by simp

theorem wf_with64 {t : Slots} (h : WF t) (n : Nat) : WF (with64 t n) := by
  refine ⟨fun x hx => get_append (h.kind x hx), h.nodup, fun k i hk => ?_, fun k i hk => ⟨get_append (h.k32 k i hk).1, (h.k32 k i hk).2⟩,
    fun k k' i h1 h2 => ?_, h.inj32⟩
  · simp only [with64, bindVar] at hk ⊢
    split at hk
    · cases hk
      refine ⟨get_last _ _, fun hc => ?_⟩
      obtain ⟨x, hx, he⟩ := List.mem_map.mp hc
      have := lt_of_get (h.kind x hx)
      omega
    · exact ⟨get_append (h.k64 k i hk).1, (h.k64 k i hk).2⟩
  · simp only [with64, bindVar] at h1 h2
    split at h1 <;> split at h2
    · rename_i e1 e2; exact e1.trans e2.symm
    · cases h1
      have := lt_of_get (h.k64 k' _ h2).1
      omega
    · cases h2
      have := lt_of_get (h.k64 k _ h1).1
      omega
    · exact h.inj64 k k' i h1 h2

theorem wf_with32 {t : Slots} (h : WF t) (n : Nat) : WF (with32 t n) := by
  refine ⟨fun x hx => get_append (h.kind x hx), h.nodup, fun k i hk => ⟨get_append (h.k64 k i hk).1, (h.k64 k i hk).2⟩, fun k i hk => ?_,
    h.inj64, fun k k' i h1 h2 => ?_⟩
  · simp only [with32, bindVar] at hk ⊢
    split at hk
    · cases hk
      refine ⟨get_last _ _, fun hc => ?_⟩
      obtain ⟨x, hx, he⟩ := List.mem_map.mp hc
      have := lt_of_get (h.kind x hx)
      omega
    · exact ⟨get_append (h.k32 k i hk).1, (h.k32 k i hk).2⟩
  · simp only [with32, bindVar] at h1 h2
    split at h1 <;> split at h2
    · rename_i e1 e2; exact e1.trans e2.symm
    · cases h1
      have := lt_of_get (h.k32 k' _ h2).1
      omega
    · cases h2
      have := lt_of_get (h.k32 k _ h1).1
      omega
    · exact h.inj32 k k' i h1 h2

theorem wf_leave {t : Slots} (h : WF t) : WF (t.leave []) := by
  simp only [Slots.leave]
  exact ⟨by simpa using h.kind, by simpa using h.nodup, by simpa using h.k64, by simpa using h.k32, h.inj64, h.inj32⟩

theorem gen_decl64 {t : Slots} (h : t.used = []) (n : Nat) (e : E64) : genStmt t (.decl64 n (some e)) =
    ((gen64 (with64 t n) e).1 ++ [.storSPriI64 t.kinds.length], (gen64 (with64 t n) e).2.leave []) := by
  obtain ⟨ks, fr, us, f, g⟩ := t
  cases h
  rfl

theorem gen_zero64 {t : Slots} (h : t.used = []) (n : Nat) : genStmt t (.decl64 n none) = ([.zeroSI64 t.kinds.length], (with64 t n).leave []) := by
  obtain ⟨ks, fr, us, f, g⟩ := t
  cases h
  rfl

theorem gen_decl32 {t : Slots} (h : t.used = []) (n : Nat) (e : E32) (he : ∀ w, e ≠ .num w) : genStmt t (.decl32 n (some e)) =
    ((gen32 (with32 t n) e).1 ++ [.storS t.kinds.length .pri], (gen32 (with32 t n) e).2.leave []) := by
  obtain ⟨ks, fr, us, f, g⟩ := t
  cases h
  cases e with
  | num w => exact absurd rfl (he w)
  | _ => rfl

theorem gen_num32 {t : Slots} (h : t.used = []) (n : Nat) (w : Cell) : genStmt t (.decl32 n (some (.num w))) =
    ([.storSC t.kinds.length w], (with32 t n).leave []) := by
  obtain ⟨ks, fr, us, f, g⟩ := t
  cases h
  rfl

theorem gen_zero32 {t : Slots} (h : t.used = []) (n : Nat) : genStmt t (.decl32 n none) = ([.zeroS t.kinds.length], (with32 t n).leave []) := by
  obtain ⟨ks, fr, us, f, g⟩ := t
  cases h
  rfl

theorem enter_eq {t : Slots} (h : t.used = []) : t.enter = t := by
  simp only [Slots.enter, ← h]

section
variable {F : Frame} {K : List Kind} {b : State} {D : Scope} {t : Slots} {σ : Store} {E : Env} {m : Nat} {here : Int} {v : State}

theorem Holds.leave (h : Holds F K b D t σ v) (l : List (Nat × Kind)) : Holds F K b D (t.leave l) σ v :=
  ⟨h.same, h.top, h.outer, h.loc, h.int, h.par, h.ref⟩

theorem Holds.with64 (h : Holds F K b D t σ v) {n : Nat} (hn : n ∉ D.w) : Holds F K b D (with64 t n) σ v := by
  refine ⟨h.same, h.top, h.outer, fun k hk => ?_, h.int, h.par, h.ref⟩
  obtain ⟨i, h1, h2⟩ := h.loc k hk
  refine ⟨i, ?_, h2⟩
  simp only [Long.with64, bindVar]
  rw [if_neg (fun hc : k = n => hn (hc ▸ hk)), h1]

theorem Holds.with32 (h : Holds F K b D t σ v) {n : Nat} (hn : n ∉ D.c) : Holds F K b D (with32 t n) σ v := by
  refine ⟨h.same, h.top, h.outer, h.loc, fun k hk => ?_, h.par, h.ref⟩
  obtain ⟨i, h1, h2⟩ := h.int k hk
  refine ⟨i, ?_, h2⟩
  simp only [Long.with32, bindVar]
  rw [if_neg (fun hc : k = n => hn (hc ▸ hk)), h1]

theorem Holds.declare64 (hF : F.Fits K b) (hW : WF t) (hP : Pre t K) (h : Holds F K b D t σ v) {n i : Nat} (hi : t.v64 n = some i) (w : BitVec 64) :
    Holds F K b { D with w := n :: D.w } t (σ.set64 (.loc n) w) { v with mem := wr64 v.mem (slotAddr K b.frm i) w } := by
  have hp := h.put hF hW hP (o := .loc n) ⟨i, hi, rfl⟩ w
  refine ⟨hp.same, hp.top, hp.outer, fun k hk => ?_, hp.int, hp.par, hp.ref⟩
  rcases List.mem_cons.mp hk with rfl | hk
  · exact ⟨i, hi, by simp only [rd64_wr64_same, Store.set64, if_true]⟩
  · exact hp.loc k hk

theorem Holds.declare32 (hF : F.Fits K b) (hW : WF t) (hP : Pre t K) (h : Holds F K b D t σ v) {n i : Nat} (hi : t.v32 n = some i) (w : Cell) :
    Holds F K b { D with c := n :: D.c } t (σ.set32 n w) { v with mem := wr32 v.mem (slotAddr K b.frm i) w } := by
  have hp := h.putInt hF hW hP hi w
  refine ⟨hp.same, hp.top, hp.outer, hp.loc, fun k hk => ?_, hp.par, hp.ref⟩
  rcases List.mem_cons.mp hk with rfl | hk
  · exact ⟨i, hi, by simp only [rd32_wr32_same, Store.set32, if_true]⟩
  · exact hp.int k hk

theorem genStmt_used (t : Slots) (a : Stmt) : (genStmt t a).2.used = t.used := by
  cases a <;> rfl

/-- What is to be shown of statements. -/
def Done (F : Frame) (K : List Kind) (b : State) (D : Scope) (E : Env) (m : Nat) (here : Int) (c : List Insn × Slots) (s : IState) : Out Store → Prop
  | .ok σ' => ∃ s', run E m here c.1 s = .ok s' () ∧ Holds F K b D c.2 σ' s'.vm ∧ s'.vm.sp = s.vm.sp
  | .err x => ∃ s', run E m here c.1 s = .fail s' x
  | .undef => True

variable (hM : Meth E m K) (hF : F.Fits K b)
include hM hF

theorem done_decl64 {room n : Nat} {init : Option E64} {t : Slots} {σ : Store} {s : IState} (hW : WF t) (hu : t.used = [])
    (hP : Pre (genStmt t (.decl64 n init)).2 K) (hH : Holds F K b D t σ s.vm) (hg : (Stmt.decl64 n init).Good F room D)
    (hr : b.hp + 4 * (room : Int) < s.vm.sp) :
    WF (genStmt t (.decl64 n init)).2 ∧
      Done F K b ((Stmt.decl64 n init).after D) E m here (genStmt t (.decl64 n init)) s (exec F.tgt σ (.decl64 n init)) := by
  have hW1 := wf_with64 hW n
  have hi : (with64 t n).v64 n = some t.kinds.length := by simp only [with64, bindVar, if_true]
  cases init with
  | none =>
    rw [gen_zero64 hu] at hP ⊢
    have hP1 : Pre (with64 t n) K := hP
    have hn : n ∉ D.w := hg
    have hH1 := hH.with64 hn
    refine ⟨wf_leave hW1, ?_⟩
    simp only [exec, Done]
    refine ⟨_, step (visit_zeroLong hM hF hH1 (hP1.get (get_last _ _))), ?_, rfl⟩
    exact (hH1.declare64 hF hW1 hP1 hi 0).leave []
  | some e =>
    rw [gen_decl64 hu] at hP ⊢
    have hP1 : Pre (gen64 (with64 t n) e).2 K := hP
    obtain ⟨hk, hc, hd, hn⟩ := hg
    have hW2 := gen64_wf hW1 e
    refine ⟨wf_leave hW2, ?_⟩
    have he := sound64 (here := here) hM hF e (with64 t n) σ s hW1 hP1 (hH.with64 hn) hk hc (by omega)
    simp only [exec, Out.bind]
    cases hx : eval64 F.tgt σ e with
    | undef => trivial
    | err x =>
      rw [hx] at he
      obtain ⟨s1, h1⟩ := he
      exact ⟨s1, run_fail h1⟩
    | ok r =>
      obtain ⟨w, σ1⟩ := r
      rw [hx] at he
      obtain ⟨s1, p, h1, g1⟩ := he
      have hgr := gen64_grows (with64 t n) e
      have hi2 : (gen64 (with64 t n) e).2.v64 n = some t.kinds.length := by rw [hgr.v64]; exact hi
      refine ⟨{ s1 with vm := { s1.vm with mem := wr64 s1.vm.mem (slotAddr K b.frm t.kinds.length) w } }, ?_,
        (g1.holds.declare64 hF hW2 hP1 hi2 w).leave [], g1.sp⟩
      have h2 := visit_storLong (E := E) (m := m) (here := here) hM hF g1.holds (hP1.get (hW2.k64 n _ hi2).1) (g1.place.wide hF hW2 hP1 g1.holds) g1.pri
      rw [g1.val] at h2
      exact (run_two h1).trans (step h2)

theorem done_decl32 {room n : Nat} {init : Option E32} {t : Slots} {σ : Store} {s : IState} (hW : WF t) (hu : t.used = [])
    (hP : Pre (genStmt t (.decl32 n init)).2 K) (hH : Holds F K b D t σ s.vm) (hg : (Stmt.decl32 n init).Good F room D)
    (hr : b.hp + 4 * (room : Int) < s.vm.sp) :
    WF (genStmt t (.decl32 n init)).2 ∧
      Done F K b ((Stmt.decl32 n init).after D) E m here (genStmt t (.decl32 n init)) s (exec F.tgt σ (.decl32 n init)) := by
  have hW1 := wf_with32 hW n
  have hi : (with32 t n).v32 n = some t.kinds.length := by simp only [with32, bindVar, if_true]
  cases init with
  | none =>
    rw [gen_zero32 hu] at hP ⊢
    have hP1 : Pre (with32 t n) K := hP
    have hn : n ∉ D.c := hg
    have hH1 := hH.with32 hn
    refine ⟨wf_leave hW1, ?_⟩
    simp only [exec, Done]
    refine ⟨_, step (visit_zeroS hM hF hH1 (hP1.get (get_last _ _))), ?_, rfl⟩
    exact (hH1.declare32 hF hW1 hP1 hi 0).leave []
  | some e =>
    obtain ⟨hk, hc, hd, hn⟩ := hg
    have general : Pre (gen32 (with32 t n) e).2 K → WF ((gen32 (with32 t n) e).2.leave []) ∧
        Done F K b ((Stmt.decl32 n (some e)).after D) E m here
          ((gen32 (with32 t n) e).1 ++ [.storS t.kinds.length .pri], (gen32 (with32 t n) e).2.leave []) s (exec F.tgt σ (.decl32 n (some e))) := by
      intro hP1
      have hW2 := gen32_wf hW1 e
      refine ⟨wf_leave hW2, ?_⟩
      have he := sound32 (here := here) hM hF e (with32 t n) σ s hW1 hP1 (hH.with32 hn) hk hc (by omega)
      simp only [exec, Out.bind]
      cases hx : eval32 F.tgt σ e with
      | undef => trivial
      | err x =>
        rw [hx] at he
        obtain ⟨s1, h1⟩ := he
        exact ⟨s1, run_fail h1⟩
      | ok r =>
        obtain ⟨w, σ1⟩ := r
        rw [hx] at he
        obtain ⟨s1, h1, g1⟩ := he
        have hgr := gen32_grows (with32 t n) e
        have hi2 : (gen32 (with32 t n) e).2.v32 n = some t.kinds.length := by rw [hgr.v32]; exact hi
        refine ⟨{ s1 with vm := { s1.vm with mem := wr32 s1.vm.mem (slotAddr K b.frm t.kinds.length) w }, pri := w }, ?_,
          (g1.holds.declare32 hF hW2 hP1 hi2 w).leave [], g1.sp⟩
        have h2 := visit_storInt (E := E) (m := m) (here := here) hM hF g1.holds (hP1.get (hW2.k32 n _ hi2).1)
        rw [g1.pri] at h2
        exact (run_two h1).trans (step h2)
    cases e with
    | num w =>
      rw [gen_num32 hu] at hP ⊢
      have hP1 : Pre (with32 t n) K := hP
      have hH1 := hH.with32 hn
      refine ⟨wf_leave hW1, ?_⟩
      simp only [exec, eval32, Out.bind, Done]
      refine ⟨_, step (visit_storSC hM hF hH1 (hP1.get (get_last _ _)) w), ?_, rfl⟩
      exact (hH1.declare32 hF hW1 hP1 hi w).leave []
    | var k => rw [gen_decl32 hu _ _ (by intro w h; cases h)] at hP ⊢; exact general hP
    | set k e => rw [gen_decl32 hu _ _ (by intro w h; cases h)] at hP ⊢; exact general hP
    | trunc e => rw [gen_decl32 hu _ _ (by intro w h; cases h)] at hP ⊢; exact general hP
    | rel op a b => rw [gen_decl32 hu _ _ (by intro w h; cases h)] at hP ⊢; exact general hP
    | not e => rw [gen_decl32 hu _ _ (by intro w h; cases h)] at hP ⊢; exact general hP
    | truth e => rw [gen_decl32 hu _ _ (by intro w h; cases h)] at hP ⊢; exact general hP

end

theorem genStmt_grow (t : Slots) : ∀ a : Stmt, ∃ L, (genStmt t a).2.kinds = t.kinds ++ L
  | .expr64 e => (gen64_grows t.enter e).kinds
  | .expr32 e => (gen32_grows t.enter e).kinds
  | .decl64 n none => ⟨[.int64], rfl⟩
  | .decl64 n (some e) => by
    obtain ⟨L, hL⟩ := (gen64_grows (with64 t.enter n) e).kinds
    exact ⟨.int64 :: L, by rw [← List.singleton_append, ← List.append_assoc]; exact hL⟩
  | .decl32 n none => ⟨[.int], rfl⟩
  | .decl32 n (some e) => by
    obtain ⟨L, hL⟩ := (gen32_grows (with32 t.enter n) e).kinds
    cases e with
    | num w => exact ⟨[.int], rfl⟩
    | _ => exact ⟨.int :: L, by rw [← List.singleton_append, ← List.append_assoc]; exact hL⟩
  | .block l => genStmts_grow t.enter l
where genStmts_grow (t : Slots) : ∀ l : Stmts, ∃ L, (genStmts t l).2.kinds = t.kinds ++ L
  | .nil => ⟨[], by simp [genStmts]⟩
  | .cons a l => by
    obtain ⟨L, hL⟩ := genStmt_grow t a
    obtain ⟨M, hM⟩ := genStmts_grow (genStmt t a).2 l
    exact ⟨L ++ M, by rw [← List.append_assoc, ← hL]; exact hM⟩

theorem genStmts_used (t : Slots) : ∀ l : Stmts, (genStmts t l).2.used = t.used
  | .nil => rfl
  | .cons a l => (genStmts_used (genStmt t a).2 l).trans (genStmt_used t a)

theorem leave_nil {t : Slots} (h : t.used = []) : t.leave [] = t := by
  obtain ⟨ks, fr, us, f, g⟩ := t
  cases h
  simp only [Slots.leave, List.append_nil]

mutual
theorem genStmt_wf : ∀ (a : Stmt) {t : Slots}, WF t → t.used = [] → WF (genStmt t a).2
  | .expr64 e, t, h, hu => by simp only [genStmt, enter_eq hu, hu]; exact wf_leave (gen64_wf h e)
  | .expr32 e, t, h, hu => by simp only [genStmt, enter_eq hu, hu]; exact wf_leave (gen32_wf h e)
  | .decl64 n none, t, h, hu => by rw [gen_zero64 hu]; exact wf_leave (wf_with64 h n)
  | .decl64 n (some e), t, h, hu => by rw [gen_decl64 hu]; exact wf_leave (gen64_wf (wf_with64 h n) e)
  | .decl32 n none, t, h, hu => by rw [gen_zero32 hu]; exact wf_leave (wf_with32 h n)
  | .decl32 n (some e), t, h, hu => by
    cases e with
    | num w => rw [gen_num32 hu]; exact wf_leave (wf_with32 h n)
    | _ => rw [gen_decl32 hu _ _ (by intro w h; cases h)]; exact wf_leave (gen32_wf (wf_with32 h n) _)
  | .block l, t, h, hu => by
    simp only [genStmt, enter_eq hu, hu]
    exact wf_leave (genStmts_wf l h hu)
theorem genStmts_wf : ∀ (l : Stmts) {t : Slots}, WF t → t.used = [] → WF (genStmts t l).2
  | .nil, t, h, _ => h
  | .cons a l, t, h, hu => genStmts_wf l (genStmt_wf a h hu) ((genStmt_used t a).trans hu)
end

section
variable {F : Frame} {K : List Kind} {b : State} {E : Env} {m : Nat} {here : Int}
variable (hM : Meth E m K) (hF : F.Fits K b)
include hM hF

mutual
theorem sound_stmt {room : Nat} : ∀ (a : Stmt) {D : Scope} {t : Slots} {σ : Store} {s : IState}, WF t → t.used = [] → Pre (genStmt t a).2 K →
    Holds F K b D t σ s.vm → a.Good F room D → b.hp + 4 * (room : Int) < s.vm.sp →
    WF (genStmt t a).2 ∧ Done F K b (a.after D) E m here (genStmt t a) s (exec F.tgt σ a)
  | .expr64 e, D, t, σ, s => by
    intro hW hu hP hH hg hr
    simp only [genStmt, enter_eq hu, hu] at hP ⊢
    obtain ⟨hk, hc, hd⟩ := hg
    have hW2 := gen64_wf hW e
    refine ⟨wf_leave hW2, ?_⟩
    have he := sound64 (here := here) hM hF e t σ s hW hP hH hk hc (by omega)
    simp only [exec, Out.bind]
    cases hx : eval64 F.tgt σ e with
    | undef => trivial
    | err x => rw [hx] at he; exact he
    | ok r =>
      rw [hx] at he
      obtain ⟨s1, p, h1, g1⟩ := he
      exact ⟨s1, h1, g1.holds.leave [], g1.sp⟩
  | .expr32 e, D, t, σ, s => by
    intro hW hu hP hH hg hr
    simp only [genStmt, enter_eq hu, hu] at hP ⊢
    obtain ⟨hk, hc, hd⟩ := hg
    have hW2 := gen32_wf hW e
    refine ⟨wf_leave hW2, ?_⟩
    have he := sound32 (here := here) hM hF e t σ s hW hP hH hk hc (by omega)
    simp only [exec, Out.bind]
    cases hx : eval32 F.tgt σ e with
    | undef => trivial
    | err x => rw [hx] at he; exact he
    | ok r =>
      rw [hx] at he
      obtain ⟨s1, h1, g1⟩ := he
      exact ⟨s1, h1, g1.holds.leave [], g1.sp⟩
  | .decl64 n init, D, t, σ, s => fun hW hu hP hH hg hr => done_decl64 hM hF hW hu hP hH hg hr
  | .decl32 n init, D, t, σ, s => fun hW hu hP hH hg hr => done_decl32 hM hF hW hu hP hH hg hr
  | .block l, D, t, σ, s => by
    intro hW hu hP hH hg hr
    have hl := (genStmts_used t l).trans hu
    simp only [genStmt, enter_eq hu, hu, leave_nil hl] at hP ⊢
    exact sound_stmts l hW hu hP hH hg hr
theorem sound_stmts {room : Nat} : ∀ (l : Stmts) {D : Scope} {t : Slots} {σ : Store} {s : IState}, WF t → t.used = [] → Pre (genStmts t l).2 K →
    Holds F K b D t σ s.vm → l.Good F room D → b.hp + 4 * (room : Int) < s.vm.sp →
    WF (genStmts t l).2 ∧ Done F K b (l.after D) E m here (genStmts t l) s (execs F.tgt σ l)
  | .nil, D, t, σ, s => fun hW _ _ hH _ _ => ⟨hW, s, rfl, hH, rfl⟩
  | .cons a l, D, t, σ, s => by
    intro hW hu hP hH hg hr
    simp only [genStmts] at hP ⊢
    have hP1 : Pre (genStmt t a).2 K := by
      obtain ⟨L, hL⟩ := genStmt_grow.genStmts_grow (genStmt t a).2 l
      obtain ⟨M, hM⟩ := hP
      exact ⟨L ++ M, by rw [hM, hL, List.append_assoc]⟩
    obtain ⟨hW1, hd⟩ := sound_stmt a hW hu hP1 hH hg.1 hr
    have hu1 := (genStmt_used t a).trans hu
    simp only [execs, Out.bind]
    cases hx : exec F.tgt σ a with
    | undef =>
      exact ⟨genStmts_wf l hW1 hu1, trivial⟩
    | err x =>
      rw [hx] at hd
      obtain ⟨s1, h1⟩ := hd
      exact ⟨genStmts_wf l hW1 hu1, s1, run_fail h1⟩
    | ok σ1 =>
      rw [hx] at hd
      obtain ⟨s1, h1, hH1, hs1⟩ := hd
      obtain ⟨hW2, hd2⟩ := sound_stmts l hW1 hu1 hP hH1 hg.2 (by omega)
      refine ⟨hW2, ?_⟩
      simp only []
      cases hy : execs F.tgt σ1 l with
      | undef => trivial
      | err x =>
        rw [hy] at hd2
        obtain ⟨s2, h2⟩ := hd2
        exact ⟨s2, by rw [run_two h1]; exact h2⟩
      | ok σ2 =>
        rw [hy] at hd2
        obtain ⟨s2, h2, hH2, hs2⟩ := hd2
        exact ⟨s2, by rw [run_two h1]; exact h2, hH2, hs2.trans hs1⟩
end

end

end Verif.Long

import Verif.Proofs.LongSound

/-! The code of expressions computes their values (C81). -/
namespace Verif.Long
open Verif.VM

/-- Where the value of an expression is: in a slot of its own, or it is the variable `o`. -/
def Place (F : Frame) (K : List Kind) (b : State) (D : Scope) (t : Slots) (o : Option Obj) (p : Int) : Prop :=
  (∃ i, (i, Kind.int64) ∈ t.used ∧ p = slotAddr K b.frm i) ∨
  ∃ x, o = some x ∧ ObjAt F K b t x p ∧ ∀ n, x = .loc n → n ∈ D.w

/-- The state after an expression. -/
structure Got (F : Frame) (K : List Kind) (b : State) (D : Scope) (t t' : Slots) (o : Option Obj) (s s' : IState) (σ : Store) (v : BitVec 64)
    (p : Int) : Prop where
  holds : Holds F K b D t' σ s'.vm
  sp : s'.vm.sp = s.vm.sp
  pri : s'.pri = BitVec.ofInt 32 p
  val : rd64 s'.vm.mem p = v
  keep : Keep K b t s.vm s'.vm
  place : Place F K b D t' o p

structure Got32 (F : Frame) (K : List Kind) (b : State) (D : Scope) (t t' : Slots) (s s' : IState) (σ : Store) (v : Cell) : Prop where
  holds : Holds F K b D t' σ s'.vm
  sp : s'.vm.sp = s.vm.sp
  pri : s'.pri = v
  keep : Keep K b t s.vm s'.vm

section
variable {F : Frame} {K : List Kind} {b : State} {D : Scope} {t t' t'' : Slots} {σ σ' : Store} {E : Env} {m : Nat} {here : Int} {s s' s'' : IState}
variable {o o' : Option Obj} {v w : BitVec 64} {p q : Int}

theorem Place.wide (h : Place F K b D t o p) (hF : F.Fits K b) (hW : WF t) (hP : Pre t K) {x : State} (hH : Holds F K b D t σ x) : Wide x p := by
  rcases h with ⟨i, h1, rfl⟩ | ⟨x, _, h1, _⟩
  · exact slot_wide (hP.get (hW.kind _ (List.mem_append_right _ h1))) hF hH
  · exact h1.wide hF hW hP hH

theorem Place.slots (h : Place F K b D t o p) (g : Grows t t') : Place F K b D t' o p := by
  rcases h with ⟨i, h1, h2⟩ | ⟨x, h1, h2, h3⟩
  · obtain ⟨L, hL⟩ := g.used
    exact .inl ⟨i, by rw [hL]; exact List.mem_append_left _ h1, h2⟩
  · exact .inr ⟨x, h1, h2.slots g, h3⟩

theorem Got.trans (h : Got F K b D t t' o s s' σ v p) (k : Got F K b D t' t'' o' s' s'' σ' w q) (g : Grows t t') :
    Got F K b D t t'' o' s s'' σ' w q :=
  ⟨k.holds, k.sp.trans h.sp, k.pri, k.val, h.keep.trans k.keep h.sp g, k.place⟩

/-- The value is stored in a new slot. -/
theorem got_temp (hF : F.Fits K b) (hW : WF t) (hP : Pre (t.acquire .int64).2 K) (hH : Holds F K b D t σ s.vm) (w : BitVec 64) (a : Cell) :
    Got F K b D t (t.acquire .int64).2 o s
      (IState.mk { s.vm with mem := wr64 s.vm.mem (slotAddr K b.frm (t.acquire .int64).1) w } (BitVec.ofInt 32 (slotAddr K b.frm (t.acquire .int64).1))
        a s.polls) σ w (slotAddr K b.frm (t.acquire .int64).1) := by
  obtain ⟨h1, h2, h3, h4, h5, h6⟩ := acquire_ok hW .int64
  have hg := acquire_grows t .int64
  have hi := hP.get h2
  refine ⟨?_, rfl, rfl, rd64_wr64_same _ _ _, ?_, .inl ⟨_, h3, rfl⟩⟩
  · exact (hH.slots hg).temp hF h1 hP hi (by rw [hg.v64]; exact h5) (by rw [hg.v32]; exact h6) w
  · exact Keep.temp hW (hP.of_grows hg) hi h4 w

theorem acquire_slot (hW : WF t) (hP : Pre (t.acquire .int64).2 K) : K[(t.acquire .int64).1]? = some .int64 :=
  hP.get (acquire_ok hW .int64).2.1

/-- Storing a value into a variable does not change the value. -/
theorem place_put (hF : F.Fits K b) (hW : WF t) (hP : Pre t K) {mem : Int → BitVec 8} (h : Place F K b D t o p) {x : Obj} (hq : ObjAt F K b t x q)
    (hv : rd64 mem p = v) : rd64 (wr64 mem q v) p = v := by
  by_cases he : p = q
  · rw [he, rd64_wr64_same]
  · have hb : Kind.int64.bytes = 8 := rfl
    have hsz := size_nonneg K
    have hf := hF.frame
    rw [rd64_far]
    · exact hv
    · rcases h with ⟨i, h1, rfl⟩ | ⟨y, _, h1, _⟩
      · have hki : K[i]? = some .int64 := hP.get (hW.kind _ (List.mem_append_right _ h1))
        have hr := slot_range hki b.frm
        rcases hq.cases hW hP with ⟨n, j, _, _, hkj, rfl⟩ | ⟨h2, rfl⟩
        · have := slot_apart hki hkj (fun hc => he (by rw [show i = j from hc])) b.frm
          omega
        · have := hF.range x h2
          omega
      · rcases h1.cases hW hP with ⟨n, i, _, _, hki, rfl⟩ | ⟨h2, rfl⟩
        · have hr := slot_range hki b.frm
          rcases hq.cases hW hP with ⟨n, j, _, _, hkj, rfl⟩ | ⟨h2, rfl⟩
          · have := slot_apart hki hkj (fun hc => he (by rw [hc])) b.frm
            omega
          · have := hF.range x h2
            omega
        · have hr := hF.range y h2
          rcases hq.cases hW hP with ⟨n, j, _, _, hkj, rfl⟩ | ⟨h3, rfl⟩
          · have := slot_range hkj b.frm
            omega
          · have := hF.apart y x h2 h3 (fun hc => he (by rw [hc]))
            omega

/-- The address of a variable. -/
theorem got_var (hM : Meth E m K) (hF : F.Fits K b) (hW : WF t) (hP : Pre t K) (hH : Holds F K b D t σ s.vm) {x : Var} (hx : F.has D x) :
    ∃ s' p, run E m here (addressPri t x) s = .ok s' () ∧ Got F K b D t t (some (x.obj F.tgt)) s s' σ (σ.w (x.obj F.tgt)) p := by
  obtain ⟨p, h1, h2, h3⟩ := run_address (E := E) (m := m) (here := here) hM hF hW hP hH hx
  refine ⟨_, p, h3, hH, rfl, rfl, h2, Keep.refl', .inr ⟨_, rfl, h1, ?_⟩⟩
  intro n hn
  cases x with
  | loc k => cases hn; exact hx
  | par k => cases hn
  | ref k => exact absurd (hn ▸ (hF.ref k hx).2) (hF.loc n)
  | glob a => cases hn

/-- A value is assigned. -/
theorem got_store (hM : Meth E m K) (hF : F.Fits K b) (hW : WF t') (hP : Pre t' K) (h : Got F K b D t t' o s s' σ v p) (g : Grows t t') {x : Var}
    (hx : F.has D x) (hn : ∀ k, x ≠ .par k) (hr : b.hp ≤ s'.vm.sp) :
    ∃ s'', run E m here (store t' x) s' = .ok s'' () ∧ Got F K b D t t' o s s'' (σ.set64 (x.obj F.tgt) v) v p := by
  obtain ⟨q, a, h1, h2⟩ := run_store (E := E) (m := m) (here := here) hM hF hW hP h.holds hx hn (h.place.wide hF hW hP h.holds) h.pri
  refine ⟨_, h2, ?_, h.sp, h.pri, ?_, ?_, h.place⟩
  · have := h.holds.put hF hW hP h1 v
    rw [h.val]
    exact this
  · rw [h.val]
    exact place_put hF hW hP h.place h1 h.val
  · exact h.keep.trans (Keep.put hF hW hP h1 hr _) h.sp g

/-- An operation on two values. -/
theorem got_op (hM : Meth E m K) (hF : F.Fits K b) (hW : WF t) (op : Op) (hP : Pre (emitOp t op).2 K) (hH : Holds F K b D t σ s.vm)
    (hp : s.pri = BitVec.ofInt 32 p) (ha : s.alt = BitVec.ofInt 32 q) (wp : Wide s.vm p) (wq : Wide s.vm q) (vp : rd64 s.vm.mem p = w)
    (vq : rd64 s.vm.mem q = v) :
    match op.eval v w with
    | .ok r => ∃ s' p', run E m here (emitOp t op).1 s = .ok s' () ∧ Got F K b D t (emitOp t op).2 none s s' σ r p'
    | .err e => ∃ s', run E m here (emitOp t op).1 s = .fail s' e
    | .undef => True := by
  have hag := op_agree op v w
  have hi := acquire_slot hW hP
  simp only [emitOp] at hag hi hP ⊢
  cases hx : op.exchanged with
  | false =>
    rw [hx] at hag
    simp only [Bool.false_eq_true, if_false, List.nil_append, run] at hag ⊢
    rw [visit_bin hM hF hH hi wp hp wq ha, vp, vq]
    cases he : op.eval v w with
    | ok r =>
      rw [he] at hag
      simp only [] at hag ⊢
      rw [hag]
      exact ⟨_, _, rfl, got_temp hF hW hP hH r s.alt⟩
    | err e =>
      rw [he] at hag
      simp only [] at hag ⊢
      rw [hag]
      exact ⟨_, rfl⟩
    | undef => trivial
  | true =>
    rw [hx] at hag
    simp only [if_true, List.cons_append, List.nil_append, run] at hag ⊢
    rw [visit_xchg]
    simp only []
    rw [visit_bin (s := { s with pri := s.alt, alt := s.pri }) hM hF hH hi wq ha wp hp]
    simp only [vp, vq]
    cases he : op.eval v w with
    | ok r =>
      rw [he] at hag
      simp only [] at hag ⊢
      rw [hag]
      exact ⟨_, _, rfl, got_temp hF hW hP hH r s.pri⟩
    | err e =>
      rw [he] at hag
      simp only [] at hag ⊢
      rw [hag]
      exact ⟨_, rfl⟩
    | undef => trivial

/-- What is to be shown of an expression. -/
def Sound64 (F : Frame) (K : List Kind) (b : State) (D : Scope) (E : Env) (m : Nat) (here : Int) (e : E64) : Prop :=
  ∀ (t : Slots) (σ : Store) (s : IState), WF t → Pre (gen64 t e).2 K → Holds F K b D t σ s.vm → Known64 F D e → Calm64 F.tgt e →
    b.hp + 4 * (need64 e : Int) < s.vm.sp →
    match eval64 F.tgt σ e with
    | .ok (v, σ') => ∃ s' p, run E m here (gen64 t e).1 s = .ok s' () ∧ Got F K b D t (gen64 t e).2 (standsFor F.tgt e) s s' σ' v p
    | .err x => ∃ s', run E m here (gen64 t e).1 s = .fail s' x
    | .undef => True

def Sound32 (F : Frame) (K : List Kind) (b : State) (D : Scope) (E : Env) (m : Nat) (here : Int) (e : E32) : Prop :=
  ∀ (t : Slots) (σ : Store) (s : IState), WF t → Pre (gen32 t e).2 K → Holds F K b D t σ s.vm → Known32 F D e → Calm32 F.tgt e →
    b.hp + 4 * (need32 e : Int) < s.vm.sp →
    match eval32 F.tgt σ e with
    | .ok (v, σ') => ∃ s', run E m here (gen32 t e).1 s = .ok s' () ∧ Got32 F K b D t (gen32 t e).2 s s' σ' v
    | .err x => ∃ s', run E m here (gen32 t e).1 s = .fail s' x
    | .undef => True

theorem Keep.pushed (x : State) (hH : Holds F K b D t σ x) (hW : WF t) (hP : Pre t K) (w : Cell) :
    Keep K b t x { x with mem := wr32 x.mem (x.sp - 4) w, sp := x.sp - 4 } := by
  have ht := hH.top
  refine ⟨fun y h1 h2 => wr32_far (by omega), fun i k hi y h1 h2 => ?_⟩
  have hk : K[i]? = some k := hP.get (hW.kind (i, k) (List.mem_append_right _ hi))
  have := slot_range hk b.frm
  exact wr32_far (by omega)

theorem Keep.trans' {x x' x'' : State} (h : Keep K b t x x') (k : Keep K b t' x' x'') (hs : x'.sp ≤ x.sp) (g : Grows t t') :
    Keep K b t x x'' := by
  obtain ⟨M, hM⟩ := g.used
  refine ⟨fun y h1 h2 => (k.stack y (by omega) h2).trans (h.stack y h1 h2), fun i k' hi y h1 h2 => ?_⟩
  exact (k.used i k' (by rw [hM]; exact List.mem_append_left _ hi) y h1 h2).trans (h.used i k' hi y h1 h2)

/-- The second operand, while the first is on the stack. -/
theorem got_pair (hF : F.Fits K b) {e : E64} (ih : Sound64 F K b D E m here e) (hW : WF t') (hP : Pre (gen64 t' e).2 K)
    (h : Got F K b D t t' o s s' σ v p) (hk : Known64 F D e) (hc : Calm64 F.tgt e) (ho : ∀ x, o = some x → x ∉ writes64 F.tgt e)
    (hr : b.hp + 4 * ((need64 e : Int) + 1) < s'.vm.sp) :
    match eval64 F.tgt σ e with
    | .ok (w, σ') => ∃ s'' q, run E m here ([.push .pri] ++ (gen64 t' e).1 ++ [.pop .alt]) s' = .ok s'' () ∧
        Got F K b D t' (gen64 t' e).2 (standsFor F.tgt e) s' s'' σ' w q ∧ s''.alt = BitVec.ofInt 32 p ∧ Place F K b D (gen64 t' e).2 o p ∧
        rd64 s''.vm.mem p = v
    | .err x => ∃ s'', run E m here ([.push .pri] ++ (gen64 t' e).1 ++ [.pop .alt]) s' = .fail s'' x
    | .undef => True := by
  have hg := gen64_grows t' e
  have hP' := hP.of_grows hg
  have hroom : b.hp + 4 < s'.vm.sp := by omega
  have hpush := visit_push (E := E) (m := m) (here := here) hF h.holds hroom .pri
  have hH1 := h.holds.pushed hF hW hP' (by omega) (s'.reg .pri)
  have hi := ih t' σ { s' with vm := { s'.vm with mem := wr32 s'.vm.mem (s'.vm.sp - 4) (s'.reg .pri), sp := s'.vm.sp - 4 } } hW hP hH1 hk hc
    (by dsimp only; omega)
  cases he : eval64 F.tgt σ e with
  | undef => trivial
  | err x =>
    rw [he] at hi
    obtain ⟨s2, h2⟩ := hi
    refine ⟨s2, ?_⟩
    rw [List.append_assoc]
    simp only [List.cons_append, List.nil_append, run, hpush]
    rw [run_append, h2]
  | ok r =>
    obtain ⟨w, σ'⟩ := r
    rw [he] at hi
    obtain ⟨s2, q, h2, g2⟩ := hi
    have ht := h.holds.top
    have hsp : s2.vm.sp = s'.vm.sp - 4 := g2.sp
    have hpop := visit_pop (E := E) (m := m) (here := here) hF g2.holds (by omega) (by omega) .alt
    have hcell : rd32 s2.vm.mem s2.vm.sp = BitVec.ofInt 32 p := by
      have : rd32 s2.vm.mem (s'.vm.sp - 4) = rd32 (wr32 s'.vm.mem (s'.vm.sp - 4) (s'.reg .pri)) (s'.vm.sp - 4) :=
        rd32_congr fun x h1 h3 => g2.keep.stack x h1 (by omega)
      rw [hsp, this, rd32_wr32_same]
      exact h.pri
    have hplace := h.place.slots hg
    have hmemv : rd64 s'.vm.mem p = rd64 (wr32 s'.vm.mem (s'.vm.sp - 4) (s'.reg .pri)) p := by
      have hw := h.place
      have hb : Kind.int64.bytes = 8 := rfl
      have hsz := size_nonneg K
      have hf := hF.frame
      rcases hw with ⟨i, h1, rfl⟩ | ⟨x, _, h1, _⟩
      · have hki : K[i]? = some .int64 := hP'.get (hW.kind _ (List.mem_append_right _ h1))
        have := slot_range hki b.frm
        rw [rd64_far32 (by omega)]
      · rcases h1.cases hW hP' with ⟨n, i, _, _, hki, rfl⟩ | ⟨h4, rfl⟩
        · have := slot_range hki b.frm
          rw [rd64_far32 (by omega)]
        · have := hF.range x h4
          rw [rd64_far32 (by omega)]
    have hval : rd64 s2.vm.mem p = v := by
      rcases h.place with ⟨i, h1, h3⟩ | ⟨x, h1, h3, h4⟩
      · rw [← h.val, hmemv]
        refine rd64_congr fun y y1 y2 => ?_
        have hb : Kind.int64.bytes = 8 := rfl
        exact g2.keep.used i .int64 h1 y (by omega) (by omega)
      · have hfr := eval64_frame he (ho x h1)
        have hobj : ∀ {tt : Slots} {ss : Store} {vv : State}, ObjAt F K b tt x p → Holds F K b D tt ss vv → rd64 vv.mem p = ss.w x := by
          intro tt ss vv ha hh
          cases x with
          | loc n =>
            obtain ⟨i, e1, e2⟩ := ha
            obtain ⟨j, e3, e4⟩ := hh.loc n (h4 n rfl)
            rw [e1] at e3
            cases e3
            rw [e2, e4]
          | par k => rw [ha.2]; exact hh.outer _ ha.1
          | glob k => rw [ha.2]; exact hh.outer _ ha.1
          | ext k => rw [ha.2]; exact hh.outer _ ha.1
        rw [hobj (h3.slots hg) g2.holds, hfr, ← hobj h3 h.holds, h.val]
    refine ⟨IState.mk { s2.vm with sp := s2.vm.sp + 4 } s2.pri (rd32 s2.vm.mem s2.vm.sp) s2.polls, q, ?_, ⟨g2.holds.popped (sp := s2.vm.sp + 4) (by omega), ?_, g2.pri, g2.val, ?_, g2.place⟩, hcell, hplace, hval⟩
    · rw [List.append_assoc]
      simp only [List.cons_append, List.nil_append, run, hpush]
      rw [run_append, h2]
      simp only [run, hpop, IState.setReg]
    · show s2.vm.sp + 4 = _
      omega
    · have := (Keep.pushed s'.vm h.holds hW hP' (s'.reg .pri)).trans' g2.keep (by dsimp only; omega) Grows.rfl'
      exact ⟨this.stack, this.used⟩


theorem run_two {c d : List Insn} (h : run E m here c s = .ok s' ()) : run E m here (c ++ d) s = run E m here d s' := by
  rw [run_append, h]

theorem run_fail {c d : List Insn} {e : Err} (h : run E m here c s = .fail s' e) : run E m here (c ++ d) s = .fail s' e := by
  rw [run_append, h]

theorem sp_bound (h : Got F K b D t t' o s s' σ v p) {x y : Int} (hr : x < s.vm.sp) (hy : y ≤ x) : y < s'.vm.sp := by
  have := h.sp
  omega

variable (hM : Meth E m K) (hF : F.Fits K b)
include hM hF

theorem sound_num (w : BitVec 64) : Sound64 F K b D E m here (.num w) := by
  intro t σ s hW hP hH _ _ _
  simp only [gen64, emitNum] at hP
  have hi := acquire_slot hW hP
  have hg := acquire_grows t .int64
  simp only [eval64, gen64, emitNum, run, visit_const64 hM hF hH hi]
  have g := got_temp (o := standsFor F.tgt (.num w)) (a := s.alt) hF hW hP hH w
  have ha := visit_addr (E := E) (m := m) (here := here)
    (s := IState.mk { s.vm with mem := wr64 s.vm.mem (slotAddr K b.frm (t.acquire .int64).1) w } s.pri s.alt s.polls) hM hF g.holds hi .pri
  rw [ha]
  exact ⟨_, _, rfl, g⟩

theorem sound_unary {e : E64} {f : BitVec 64 → BitVec 64} {i : Int → Insn} (ih : Sound64 F K b D E m here e)
    (hv : ∀ {t : Slots} {σ : Store} {s : IState} {j : Nat} {p : Int}, Holds F K b D t σ s.vm → K[j]? = some .int64 → Wide s.vm p → s.pri = BitVec.ofInt 32 p →
      visit E m here (i j) s = .ok (IState.mk { s.vm with mem := wr64 s.vm.mem (slotAddr K b.frm j) (f (rd64 s.vm.mem p)) }
        (BitVec.ofInt 32 (slotAddr K b.frm j)) s.alt s.polls) .next)
    {t : Slots} {σ : Store} {s : IState} (hW : WF t) (hP : Pre ((gen64 t e).2.acquire .int64).2 K) (hH : Holds F K b D t σ s.vm)
    (hk : Known64 F D e) (hc : Calm64 F.tgt e) (hr : b.hp + 4 * (need64 e : Int) < s.vm.sp) :
    match (eval64 F.tgt σ e).bind fun r => .ok (f r.1, r.2) with
    | .ok (v, σ') => ∃ s' p, run E m here ((gen64 t e).1 ++ [i ((gen64 t e).2.acquire .int64).1]) s = .ok s' () ∧
        Got F K b D t ((gen64 t e).2.acquire .int64).2 none s s' σ' v p
    | .err x => ∃ s', run E m here ((gen64 t e).1 ++ [i ((gen64 t e).2.acquire .int64).1]) s = .fail s' x
    | .undef => True := by
  have hg := acquire_grows (gen64 t e).2 .int64
  have hi := ih t σ s hW (hP.of_grows hg) hH hk hc hr
  cases he : eval64 F.tgt σ e with
  | undef => trivial
  | err x =>
    rw [he] at hi
    obtain ⟨s2, h2⟩ := hi
    exact ⟨s2, run_fail h2⟩
  | ok r =>
    obtain ⟨w, σ'⟩ := r
    rw [he] at hi
    obtain ⟨s2, q, h2, g2⟩ := hi
    have hW2 := gen64_wf hW e
    have g3 := got_temp (o := none) (s := s2) hF hW2 hP g2.holds (f w) s2.alt
    simp only [Out.bind]
    refine ⟨_, _, ?_, g2.trans g3 (gen64_grows t e)⟩
    rw [run_two h2]
    simp only [run]
    rw [hv g2.holds (acquire_slot hW2 hP) (g2.place.wide hF hW2 (hP.of_grows hg) g2.holds) g2.pri, g2.val]

end

end Verif.Long

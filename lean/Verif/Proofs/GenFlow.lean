import Verif.Proofs.GenAssign

/-! Nodes of logical operators, conditionals, sequences, chained comparisons and calls. -/
namespace Verif.Compiled
open Verif.VM Verif.Lang Verif.CodeGen

theorem Ev.bind_assoc {α β γ : Type} (x : Ev α) (f : α → Ev β) (g : β → Ev γ) : ((x >>= f) >>= g) = (x >>= fun a => f a >>= g) := by
  funext σ
  show Ev.bind (Ev.bind x f) g σ = Ev.bind x (fun a => Ev.bind (f a) g) σ
  unfold Ev.bind
  cases x σ <;> rfl

theorem Ev.pure_bind {α β : Type} (a : α) (f : α → Ev β) : ((pure a : Ev α) >>= f) = f a := rfl

section
variable {E : Env} {L : Layout} {lim : Int} {m n : Nat} {b : State}

/-! ### Logical operators -/

/-- What `||` and `&&` mean. -/
def logicEv (isOr : Bool) (evA evB : Ev Cell) : Ev Cell := do
  let x ← evA
  if decide (x.toInt ≠ 0) = isOr then pure (truth isOr)
  else do let y ← evB; pure (truth (y.toInt ≠ 0))

theorem decide_toInt (x : Cell) : decide (x.toInt ≠ 0) = decide (x ≠ 0) := by
  rw [Bool.eq_iff_iff]; simp only [decide_eq_true_eq]; exact toInt_ne_zero_iff x

theorem prefixSeq_append (isOr : Bool) (X : Nat) : ∀ ts1 ts2 : List Test, prefixSeq isOr X (ts1 ++ ts2) = (prefixSeq isOr X ts1 ⨟ prefixSeq isOr X ts2)
  | [], _ => rfl
  | t :: ts1, ts2 => by
    show (t isOr X ⨟ prefixSeq isOr X (ts1 ++ ts2)) = ((t isOr X ⨟ prefixSeq isOr X ts1) ⨟ prefixSeq isOr X ts2)
    rw [prefixSeq_append isOr X ts1 ts2, then_assoc]

theorem emitSequence_cons (isOr j : Bool) (T F : Nat) (t : Test) {ts : List Test} (h : ts ≠ []) :
    emitSequence isOr j T F (t :: ts) = (t isOr (if isOr = j then T else F) ⨟ emitSequence isOr j T F ts) := by
  cases ts with
  | nil => exact absurd rfl h
  | cons => rfl

theorem emitSequence_append (isOr j : Bool) (T F : Nat) {ts2 : List Test} (h : ts2 ≠ []) : ∀ ts1 : List Test,
    emitSequence isOr j T F (ts1 ++ ts2) = (prefixSeq isOr (if isOr = j then T else F) ts1 ⨟ emitSequence isOr j T F ts2)
  | [] => rfl
  | t :: ts1 => by
    show emitSequence isOr j T F (t :: (ts1 ++ ts2)) = ((t isOr _ ⨟ prefixSeq isOr _ ts1) ⨟ emitSequence isOr j T F ts2)
    rw [emitSequence_cons _ _ _ _ _ (by simp [h]), emitSequence_append isOr j T F h ts1, then_assoc]

theorem emitSequence_fixed (isOr j : Bool) : ∀ ts : List Test, (∀ t ∈ ts, ∀ j, Fixed2 (t j)) → ∀ T T' F F' p q,
    (emitSequence isOr j T F ts p).length = (emitSequence isOr j T' F' ts q).length
  | [], _, _, _, _, _, _, _ => rfl
  | [t], h, T, T', _, _, p, q => h t (by simp) j T T' p q
  | t :: t' :: ts, h, T, T', F, F', p, q => by
    have ih := emitSequence_fixed isOr j (t' :: ts) (fun u hu => h u (List.mem_cons_of_mem _ hu)) T T' F F'
    show (t isOr _ p ++ emitSequence isOr j T F (t' :: ts) _).length = (t isOr _ q ++ emitSequence isOr j T' F' (t' :: ts) _).length
    rw [List.length_append, List.length_append, h t (by simp) isOr _ (if isOr = j then T' else F') p q, ih _ (q + (t isOr (if isOr = j then T' else F') q).length)]

/-- The operands of nested operators. -/
theorem SeqOk.append {isOr : Bool} {evA evB : Ev Cell} {ts1 ts2 : List Test} (h1 : SeqOk E L lim m n b isOr evA ts1)
    (h2 : SeqOk E L lim m n b isOr evB ts2) : SeqOk E L lim m n b isOr (logicEv isOr evA evB) (ts1 ++ ts2) := by
  refine ⟨by simp [h1.ne], ?_, ?_, ?_⟩
  · intro t ht
    rcases List.mem_append.1 ht with ht | ht
    · exact h1.fixed t ht
    · exact h2.fixed t ht
  · intro X N p s σ hN hX hc hH
    rw [prefixSeq_append] at hc ⊢
    refine Runs.bind (h1.pre X N p s σ hN hX hc.fst hH) ?_
    rintro x σ1 N1 q1 s1 _ ⟨rfl, rfl, hP1⟩
    rw [decide_toInt]
    split
    · rename_i hx
      exact Runs.ok ⟨rfl, (if_pos (truth_ne_zero isOr)).symm, hP1⟩
    · rename_i hx
      refine Runs.bind (Runs.relax (h2.pre X (N - 1) _ s1 σ1 (by omega) hX hc.snd hP1.holds)
        (R := fun y σ' N' q s' => N' = N - 1 ∧ q = (if decide (y ≠ 0) = isOr then X else Ends (prefixSeq isOr X ts2) (Ends (prefixSeq isOr X ts1) p)) ∧ Post L b s1.vm σ' s'.vm) ?_) ?_
      · rintro y σ2 N2 q2 s2 _ ⟨rfl, rfl, hP2⟩
        exact ⟨N - 1, by omega, rfl, rfl, hP2⟩
      · rintro y σ2 N2 q2 s2 _ ⟨rfl, rfl, hP2⟩
        refine Runs.ok ⟨rfl, ?_, hP1.trans hP2⟩
        rw [truth_ne_zero, decide_toInt, ends_then]
  · intro j T F N p s σ hN hT hc hF hH
    rw [emitSequence_append isOr j T F h2.ne] at hc hF
    have hFl : F < E.code.length := by rw [hF]; exact hc.lt
    have hX : (if isOr = j then T else F) < E.code.length := by split <;> assumption
    refine Runs.bind (h1.pre _ N p s σ hN hX hc.fst hH) ?_
    rintro x σ1 N1 q1 s1 _ ⟨rfl, rfl, hP1⟩
    rw [decide_toInt]
    split
    · rename_i hx
      refine Runs.ok ⟨rfl, ?_, hP1⟩
      rw [truth_ne_zero]
    · rename_i hx
      refine Runs.bind (Runs.relax (h2.last j T F (N - 1) _ s1 σ1 (by omega) hT hc.snd (by rw [ends_then] at hF; exact hF) hP1.holds)
        (R := fun y σ' N' q s' => N' = N - 1 ∧ q = (if decide (y ≠ 0) = j then T else F) ∧ Post L b s1.vm σ' s'.vm) ?_) ?_
      · rintro y σ2 N2 q2 s2 _ ⟨rfl, rfl, hP2⟩
        exact ⟨N - 1, by omega, rfl, rfl, hP2⟩
      · rintro y σ2 N2 q2 s2 _ ⟨rfl, rfl, hP2⟩
        refine Runs.ok ⟨rfl, ?_, hP1.trans hP2⟩
        rw [truth_ne_zero, decide_toInt]

theorem logicalTest_fixed (isOr j : Bool) {ts : List Test} (h : ∀ t ∈ ts, ∀ j, Fixed2 (t j)) : Fixed2 (emitLogicalTest isOr ts j) :=
  fun T T' p q => emitSequence_fixed isOr j ts h T T' _ _ p q

theorem SeqOk.test {isOr : Bool} {ev : Ev Cell} {ts : List Test} (h : SeqOk E L lim m n b isOr ev ts) :
    TestOk E L lim m n b ev (emitLogicalTest isOr ts) := by
  intro j T N p s σ hN hT hc hH
  have hf : Fixed2 fun F => emitSequence isOr j T F ts := fun F F' p q => emitSequence_fixed isOr j ts h.fixed T T F F' p q
  exact h.last j T _ N p s σ hN hT (endLabel_here hf hc) (endLabel_ends hf p).symm hH

theorem Fixed2.both {f : Nat → Nat → Code} (h1 : ∀ d, Fixed2 (f d)) (h2 : ∀ t, Fixed2 fun d => f d t) : Fixed2 fun d => endLabel (f d) := by
  intro d d' p q
  show (f d _ p).length = (f d' _ q).length
  rw [h2 _ d d' p p]
  exact h1 d' _ _ p q

theorem logical_inner_fixed (isOr : Bool) {t : Test} (h : ∀ j, Fixed2 (t j)) (done : Nat) :
    Fixed2 fun sc => (t isOr sc ⨟ constPri (if isOr then 0 else 1) ⨟ ins (.jump (off done))) :=
  (h isOr).then ((Fixed2.const (Fixed.constPri _)).then (Fixed2.const (Fixed.ins _)))

theorem logical_outer_fixed (isOr : Bool) {t : Test} (h : ∀ j, Fixed2 (t j)) :
    Fixed2 fun done => ((endLabel fun sc => t isOr sc ⨟ constPri (if isOr then 0 else 1) ⨟ ins (.jump (off done))) ⨟ constPri (if isOr then 1 else 0)) := by
  refine Fixed2.then ?_ (Fixed2.const (Fixed.constPri _))
  exact Fixed2.both (f := fun done sc => t isOr sc ⨟ constPri (if isOr then 0 else 1) ⨟ ins (.jump (off done))) (logical_inner_fixed isOr h)
    (fun sc => (Fixed2.const ((h isOr).code sc)).then ((Fixed2.const (Fixed.constPri _)).then Fixed2.jump))

theorem SeqOk.value (hF : Fits E L lim b) {isOr : Bool} {ev : Ev Cell} {ts : List Test} (h : SeqOk E L lim m n b isOr ev ts)
    (hb : ∀ σ v σ', ev σ = .ok v σ' → v = truth (decide (v ≠ 0))) : ExprOk E L lim m n b ev (emitLogical isOr ts) := by
  intro N p s σ hN hc hH
  have ht : ∀ j, Fixed2 (emitLogicalTest isOr ts j) := fun j => logicalTest_fixed isOr j h.fixed
  have ho := logical_outer_fixed isOr ht
  have hc1 := endLabel_here ho hc
  have he1 := endLabel_ends ho p
  have hi := logical_inner_fixed isOr ht (Ends (emitLogical isOr ts) p)
  have hc2 := endLabel_here hi hc1.fst
  have he2 := endLabel_ends hi p
  have hlt := hc1.fst.lt
  rw [← Ev.bind_pure ev]
  refine Runs.bind (Runs.relax (h.test isOr _ N p s σ hN hlt hc2.fst hH)
    (R := fun v σ' N' q s' => N' = N ∧ q = (if decide (v ≠ 0) = isOr then Ends (endLabel fun sc => emitLogicalTest isOr ts isOr sc ⨟ constPri (if isOr then 0 else 1) ⨟ ins (.jump (off (Ends (emitLogical isOr ts) p)))) p
      else Ends (emitLogicalTest isOr ts isOr (Ends (endLabel fun sc => emitLogicalTest isOr ts isOr sc ⨟ constPri (if isOr then 0 else 1) ⨟ ins (.jump (off (Ends (emitLogical isOr ts) p)))) p)) p) ∧ Post L b s.vm σ' s'.vm) ?_) ?_
  · rintro v σ1 N1 q1 s1 _ ⟨rfl, rfl, hP1⟩
    exact ⟨N, by omega, rfl, rfl, hP1⟩
  · rintro v σ1 N1 q1 s1 hv ⟨rfl, rfl, hP1⟩
    have hv := hb _ _ _ hv
    split
    · rename_i hx
      refine Runs.constPri hc1.snd ?_
      rw [ends_then] at he1
      refine Runs.ok ⟨rfl, he1, hP1, ?_⟩
      show (if isOr then (1 : Cell) else 0) = v
      rw [hv, hx]; rfl
    · rename_i hx
      refine Runs.constPri hc2.snd.fst ?_
      refine Runs.jump (M := N1) hF hc.lt hc2.snd.snd (by omega) (fun i => ?_)
      refine Runs.ok ⟨rfl, rfl, hP1, ?_⟩
      show (if isOr then (0 : Cell) else 1) = v
      rw [hv]
      cases isOr <;> cases hd : decide (v ≠ 0) <;> first | rfl | exact absurd hd hx

theorem logicEv_bool (isOr : Bool) (evA evB : Ev Cell) (σ : Store) (v : Cell) (σ' : Store) (h : logicEv isOr evA evB σ = .ok v σ') :
    v = truth (decide (v ≠ 0)) := by
  have key : ∃ x : Bool, v = truth x := by
    unfold logicEv at h
    have h : Ev.bind evA _ σ = _ := h
    unfold Ev.bind at h
    split at h
    · simp only at h
      split at h
      · cases h; exact ⟨isOr, rfl⟩
      · have h : Ev.bind evB _ _ = _ := h
        unfold Ev.bind at h
        split at h
        · cases h; exact ⟨_, rfl⟩
        · cases h
        · cases h
        · cases h
    · cases h
    · cases h
    · cases h
  obtain ⟨x, rfl⟩ := key
  rw [truth_ne_zero]

theorem logical_ok (hF : Fits E L lim b) {evA evB : Ev Cell} {a c : Node} (ha : NodeOk E L lim m n b evA a) (hb : NodeOk E L lim m n b evB c)
    (isOr : Bool) (hconst : ∀ v, foldLogical isOr a.const c.const = some v → ∀ σ, logicEv isOr evA evB σ = .ok v σ) :
    NodeOk E L lim m n b (logicEv isOr evA evB) (logical isOr a c) := by
  have hs := (ha.flat isOr).append (hb.flat isOr)
  have ht : ∀ j, Fixed2 (emitLogicalTest isOr (a.flat isOr ++ c.flat isOr) j) := fun j => logicalTest_fixed isOr j hs.fixed
  have hp : NodeOk E L lim m n b (logicEv isOr evA evB) (plain (foldLogical isOr a.const c.const) (a.bad || c.bad) (emitLogical isOr (a.flat isOr ++ c.flat isOr))) :=
    plain_ok hF hconst (fun _ => hs.value hF (logicEv_bool isOr evA evB)) (Fixed.endLabel (logical_outer_fixed isOr ht))
  refine ⟨hp.const, hp.expr, hp.bare, hs.test, ?_, hp.fexpr, hp.fbare, ht⟩
  intro tok
  show SeqOk E L lim m n b tok _ (if tok = isOr then _ else _)
  split
  · rename_i h; subst h; exact hs
  · exact hs.test.seq ht tok

/-! ### Conditionals and sequences -/

theorem ternary_ok (hF : Fits E L lim b) {evC evA evB : Ev Cell} {c x y : Node} (hc : NodeOk E L lim m n b evC c)
    (hx : NodeOk E L lim m n b evA x) (hy : NodeOk E L lim m n b evB y) :
    NodeOk E L lim m n b (do let v ← evC; if v.toInt ≠ 0 then evA else evB) (ternary c x y) := by
  have hi : ∀ d, Fixed2 fun flab1 => (c.expr ⨟ ins (.jcmp .zero (off flab1)) ⨟ x.expr ⨟ ins (.jump (off d))) := fun d =>
    (Fixed2.const hc.fexpr).then ((Fixed2.jcmp _).then ((Fixed2.const hx.fexpr).then (Fixed2.const (Fixed.ins _))))
  have ho : Fixed2 fun flab2 => ((endLabel fun flab1 => c.expr ⨟ ins (.jcmp .zero (off flab1)) ⨟ x.expr ⨟ ins (.jump (off flab2))) ⨟ y.expr) := by
    refine Fixed2.then ?_ (Fixed2.const hy.fexpr)
    exact Fixed2.both (f := fun flab2 flab1 => c.expr ⨟ ins (.jcmp .zero (off flab1)) ⨟ x.expr ⨟ ins (.jump (off flab2))) hi
      (fun t => (Fixed2.const hc.fexpr).then ((Fixed2.const (Fixed2.code (Fixed2.jcmp _) t)).then ((Fixed2.const hx.fexpr).then Fixed2.jump)))
  refine plain_ok hF (fun _ h => by cases h) (fun _ => ?_) (Fixed.endLabel ho)
  intro N p s σ hN hcode hH
  have hc1 := endLabel_here ho hcode
  have he1 := endLabel_ends ho p
  have hc2 := endLabel_here (hi _) hc1.fst
  have he2 := endLabel_ends (hi (Ends (endLabel fun flab2 => ((endLabel fun flab1 => c.expr ⨟ ins (.jcmp .zero (off flab1)) ⨟ x.expr ⨟ ins (.jump (off flab2))) ⨟ y.expr)) p)) p
  rw [ends_then] at he1
  refine Runs.bind (hc.expr N p s σ hN hc2.fst hH) ?_
  rintro v σ1 N1 q1 s1 _ ⟨rfl, rfl, hP1, hv⟩
  refine Runs.jcmp (M := N1) hF hc1.fst.lt hc2.snd.fst (by omega) ?_ ?_
  · intro hz i
    rw [cmp_zero, hv, decide_eq_true_eq] at hz
    rw [if_neg (by rw [toInt_ne_zero_iff]; simpa using hz)]
    refine (hy.expr N1 _ { s1 with polls := i } σ1 hN hc1.snd hP1.holds).mono ?_
    rintro w σ2 N2 q2 s2 _ ⟨rfl, rfl, hP2, hw⟩
    exact ⟨rfl, he1, hP1.trans hP2, hw⟩
  · intro hz
    rw [cmp_zero, hv, decide_eq_false_iff_not] at hz
    rw [if_pos (by rw [toInt_ne_zero_iff]; exact hz)]
    rw [← Ev.bind_pure evA]
    refine Runs.bind (hx.expr N1 _ s1 σ1 hN hc2.snd.snd.fst hP1.holds) ?_
    rintro w σ2 N2 q2 s2 _ ⟨rfl, rfl, hP2, hw⟩
    refine Runs.jump (M := N2) hF hcode.lt hc2.snd.snd.snd (by omega) (fun i => ?_)
    exact Runs.ok ⟨rfl, rfl, hP1.trans hP2, hw⟩

theorem comma_ok (hF : Fits E L lim b) {evA evB : Ev Cell} {x y : Node} (hx : NodeOk E L lim m n b evA x) (hy : NodeOk E L lim m n b evB y) :
    NodeOk E L lim m n b (do let _ ← evA; evB) (comma x y) := by
  have he : ExprOk E L lim m n b (do let _ ← evA; evB) (x.bare false ⨟ y.expr) := by
    intro N p s σ hN hc hH
    rw [ends_then]
    refine Runs.bind (hx.bare false N p s σ hN hc.fst hH) ?_
    rintro v σ1 N1 q1 s1 _ ⟨rfl, rfl, hP1, _⟩
    refine (hy.expr N1 _ s1 σ1 hN hc.snd hP1.holds).mono ?_
    rintro w σ2 N2 q2 s2 _ ⟨rfl, rfl, hP2, hw⟩
    exact ⟨rfl, rfl, hP1.trans hP2, hw⟩
  have hp := plain_ok (const := none) (bad := x.bad || y.bad) hF (fun _ h => by cases h) (fun _ => he) ((hx.fbare false).then hy.fexpr)
  refine hp.withTest (t := fun j T => x.bare false ⨟ y.test j T) ?_ (fun j => (Fixed2.const (hx.fbare false)).then (hy.ftest j))
  intro j T N p s σ hN hT hc hH
  rw [ends_then]
  refine Runs.bind (hx.bare false N p s σ hN hc.fst hH) ?_
  rintro v σ1 N1 q1 s1 _ ⟨rfl, rfl, hP1, _⟩
  refine (hy.test j T N1 _ s1 σ1 hN hT hc.snd hP1.holds).mono ?_
  rintro w σ2 N2 q2 s2 _ ⟨rfl, rfl, hP2⟩
  exact ⟨rfl, rfl, hP1.trans hP2⟩

/-! ### Chained comparisons -/

/-- The cell on top of the stack is replaced. -/
theorem Post.top (hF : Fits E L lim b) {σ σ' : Store} {v v' : State} {c : Cell} (h : Holds L b σ v) (hs : b.hp + 4 < v.sp)
    (k : Post L b (Compiled.pushed v c) σ' v') (y : Cell) : Post L b (Compiled.pushed v y) σ' { v' with mem := wr32 v'.mem v'.sp y } := by
  have hsp : v'.sp = v.sp - 4 := k.sp
  refine ⟨?_, k.holds.wr_top hF (by have := h.frame; omega) y, ?_⟩
  · have := k.vm
    show ({ v' with mem := _ } : State) = { Compiled.pushed v y with mem := wr32 v'.mem v'.sp y }
    generalize wr32 v'.mem v'.sp y = mm
    rw [this]
    rfl
  · intro a h1 h2 h3
    have hk := k.keeps a h1 h2 h3
    show wr32 v'.mem v'.sp y a = wr32 v.mem (v.sp - 4) y a
    rw [hsp]
    apply wr32_congr
    rcases Decidable.em (v.sp - 4 ≤ a ∧ a < v.sp - 4 + 4) with h | h
    · exact Or.inl h
    · refine Or.inr ?_
      rw [hk]
      show wr32 v.mem (v.sp - 4) c a = _
      rw [wr32_far (by omega)]

/-- The rest of a chain, with the comparisons so far in PRI and the last operand in ALT. -/
def ChainOk (E : Env) (L : Layout) (lim : Int) (m n : Nat) (b : State) (left : Option Cell) (evR : Cell → Ev Bool) (c : Code) : Prop :=
  ∀ (x : Cell) (sofar : Bool) N p s σ, (∀ l, left = some l → l = x) → N ≤ n → Here E c p → Holds L b σ s.vm → s.pri = truth sofar → s.alt = x →
    Runs E L lim m N p s ((do let r ← evR x; pure (truth (sofar && r))) σ) (EndsWith L b (Ends c p) N s fun v s' => s'.pri = v)

theorem rel_binop (op : RelOp) (x y : Cell) : binop (RelOp.toBin op) x y = pure (truth (rel op x y)) := by
  cases op <;> rfl

theorem rel_exchanged (op : RelOp) : exchanged (RelOp.toBin op) = true := by cases op <;> rfl

theorem truth_and (x y : Bool) : truth x &&& truth y = truth (x && y) := by cases x <;> cases y <;> rfl

theorem chain_nil : ChainOk E L lim m n b left (fun _ => pure true) skip := by
  intro x sofar N p s σ _ hN _ hH hp _
  refine Runs.ok ⟨rfl, rfl, Post.refl hH, ?_⟩
  show s.pri = truth (sofar && true)
  rw [hp, Bool.and_true]

theorem chain_cons (hF : Fits E L lim b) (hA : Activation E L m b) {ev : Ev Cell} {e : Node} (he : NodeOk E L lim m n b ev e) {evR : Cell → Ev Bool}
    {c : Code} (hR : ChainOk E L lim m n b e.const evR c) (op : RelOp) (left : Option Cell) :
    ChainOk E L lim m n b left (fun x => do let y ← ev; let r ← evR y; pure (rel op x y && r))
      (ins (.push .pri) ⨟ ins (.move .pri) ⨟ emitBinaryInner (some (RelOp.toBin op)) left false e ⨟ ins (.swap .alt) ⨟ ins .and ⨟ ins (.pop .alt) ⨟ c) := by
  intro x sofar N p s σ hl hN hc hH hp ha
  have hrw : (do let r ← (do let y ← ev; let r ← evR y; pure (rel op x y && r)); pure (truth (sofar && r)) : Ev Cell) =
      (do let y ← ev; let v ← binop (RelOp.toBin op) x y;
          (fun v y => (do let r ← evR y; pure (truth ((sofar && rel op x y) && r)) : Ev Cell) : Cell → Cell → Ev Cell) v y) := by
    simp only [Ev.bind_assoc, Ev.pure_bind, rel_binop, Bool.and_assoc]
  rw [hrw]
  simp only [ends_then]
  refine Runs.push hF hA hc.fst hH (fun hs => ?_)
  have hH2 := hH.pushed hF hs (s.reg .pri)
  refine Runs.ins hc.snd.fst (enc_move .pri) (s' := { s with vm := pushed s.vm (s.reg .pri), pri := x }) (fun here => by rw [← ha]; rfl) ?_
  refine inner_ok (x := x) (s := { s with vm := pushed s.vm (s.reg .pri), pri := x }) hF hA he _ hN hc.snd.snd.fst hH2 hl (fun _ => rfl) ?_
  intro v y σ1 s1 hP1 hv halt hval hy
  have halt := halt (rel_exchanged op)
  rw [rel_binop] at hval
  cases hval
  have hP2 := hP1.top hF hH hs y
  obtain ⟨_, htop⟩ := hP1.pop hF hH hs
  obtain ⟨hP3, htop3⟩ := hP2.pop hF hH hs
  refine Runs.swap hF hA hc.snd.snd.snd.fst hP1.holds (by rw [hP1.sp]; show b.hp < s.vm.sp - 4; omega) ?_
  rw [show s1.reg .alt = y from halt, htop, show s.reg .pri = truth sofar from hp]
  refine Runs.ins hc.snd.snd.snd.snd.fst enc_and (s' := { s1 with vm := { s1.vm with mem := wr32 s1.vm.mem s1.vm.sp y }, alt := truth sofar, pri := truth (sofar && rel op x y) })
    (fun here => ?_) ?_
  · show Res.ok _ Ctl.next = _
    rw [Bool.and_comm, ← truth_and, ← hv]
    rfl
  · refine Runs.pop hF hA hc.snd.snd.snd.snd.snd.fst hP2.holds ?_
    refine (hR y (sofar && rel op x y) N _ _ σ1 (fun l hl => ?_) hN hc.snd.snd.snd.snd.snd.snd hP3.holds rfl htop3).mono ?_
    · have := (he.const l hl).1 σ
      rw [hy] at this
      cases this
      rfl
    · rintro w σ2 N2 q2 s2 _ ⟨rfl, rfl, hP4, hw⟩
      exact ⟨rfl, rfl, hP3.trans hP4, hw⟩

theorem chain_expr_ok (hF : Fits E L lim b) (hA : Activation E L m b) {evF ev : Ev Cell} {first e : Node} (hf : NodeOk E L lim m n b evF first)
    (he : NodeOk E L lim m n b ev e) {evR : Cell → Ev Bool} {c : Code} (hR : ChainOk E L lim m n b e.const evR c) (op : RelOp) :
    ExprOk E L lim m n b (do let x ← evF; let y ← ev; let r ← evR y; pure (truth (rel op x y && r)))
      (first.expr ⨟ emitBinaryInner (some (RelOp.toBin op)) first.const false e ⨟ c) := by
  intro N p s σ hN hc hH
  simp only [ends_then]
  refine Runs.bind (hf.expr N p s σ hN hc.fst hH) ?_
  rintro x σ1 N1 q1 s1 hx ⟨rfl, rfl, hP1, hv1⟩
  have hrw : (do let y ← ev; let r ← evR y; pure (truth (rel op x y && r)) : Ev Cell) =
      (do let y ← ev; let v ← binop (RelOp.toBin op) x y;
          (fun v y => (do let r ← evR y; pure (truth (rel op x y && r)) : Ev Cell) : Cell → Cell → Ev Cell) v y) := by
    simp only [Ev.pure_bind, rel_binop]
  rw [hrw]
  refine inner_ok (x := x) hF hA he _ hN hc.snd.fst hP1.holds ?_ (fun _ => hv1) ?_
  · intro l hl
    have := (hf.const l hl).1 σ
    rw [hx] at this
    cases this
    rfl
  · intro v y σ2 s2 hP2 hv halt hval hy
    have halt := halt (rel_exchanged op)
    rw [rel_binop] at hval
    cases hval
    refine (hR y (rel op x y) N1 _ s2 σ2 (fun l hl => ?_) hN hc.snd.snd hP2.holds hv halt).mono ?_
    · have := (he.const l hl).1 σ1
      rw [hy] at this
      cases this
      rfl
    · rintro w σ3 N3 q3 s3 _ ⟨rfl, rfl, hP3, hw⟩
      exact ⟨rfl, rfl, (hP1.trans hP2).trans hP3, hw⟩

/-! ### Calls -/

/-- Argument values on the stack. -/
structure Pushed (L : Layout) (b : State) (v : State) (vs : List Cell) (σ' : Store) (v' : State) : Prop where
  vm : v' = { v with mem := v'.mem, sp := v.sp - 4 * (vs.length : Int) }
  holds : Holds L b σ' v'
  keeps : Keeps L b v.sp v.mem v'.mem
  vals : ∀ (i : Nat) (h : i < vs.length), rd32 v'.mem (v'.sp + 4 * (i : Nat)) = vs[i]

/-- The code pushes the values. -/
def ArgsOk (E : Env) (L : Layout) (lim : Int) (m n : Nat) (b : State) (ev : Ev (List Cell)) (c : Code) : Prop :=
  ∀ N p s σ, N ≤ n → Here E c p → Holds L b σ s.vm →
    Runs E L lim m N p s (ev σ) fun vs σ' N' q s' => N' = N ∧ q = Ends c p ∧ Pushed L b s.vm vs σ' s'.vm

/-- What calls do, given the arguments on the stack: the arguments are removed. -/
def CallOk (E : Env) (L : Layout) (lim : Int) (m n : Nat) (b : State) (call : Nat → List Cell → Ev Cell) : Prop :=
  ∀ f vs N p s σ, N ≤ n → vs.length = L.arity f →
    Here E (ins (.pushC [BitVec.ofNat 32 vs.length]) ⨟ ins (.call (off (L.entry f)))) p → Holds L b σ s.vm →
    (∀ (i : Nat) (h : i < vs.length), rd32 s.vm.mem (s.vm.sp + 4 * (i : Nat)) = vs[i]) → s.vm.sp + 4 * (vs.length : Int) ≤ b.frm - 4 * (L.slots : Int) →
    Runs E L lim m N p s (call f vs σ) fun v σ' N' q s' => N' = N ∧
      q = Ends (ins (.pushC [BitVec.ofNat 32 vs.length]) ⨟ ins (.call (off (L.entry f)))) p ∧
      Post L b { s.vm with sp := s.vm.sp + 4 * (vs.length : Int) } σ' s'.vm ∧ s'.pri = v

theorem args_nil : ArgsOk E L lim m n b (pure []) skip := by
  intro N p s σ hN _ hH
  refine Runs.ok ⟨rfl, rfl, ?_, hH, Keeps.rfl, fun i h => absurd h (by simp)⟩
  show s.vm = { s.vm with sp := s.vm.sp - 4 * (0 : Nat) }
  rw [show s.vm.sp - 4 * ((0 : Nat) : Int) = s.vm.sp by omega]

theorem args_cons (hF : Fits E L lim b) (hA : Activation E L m b) {evR : Ev (List Cell)} {c : Code} (hR : ArgsOk E L lim m n b evR c) {ev : Ev Cell} {e : Node}
    (he : NodeOk E L lim m n b ev e) : ArgsOk E L lim m n b (do let vs ← evR; let v ← ev; pure (v :: vs)) (c ⨟ e.expr ⨟ ins (.push .pri)) := by
  intro N p s σ hN hc hH
  simp only [ends_then]
  refine Runs.bind (hR N p s σ hN hc.fst hH) ?_
  rintro vs σ1 N1 q1 s1 _ ⟨rfl, rfl, hP1⟩
  refine Runs.bind (he.expr N1 _ s1 σ1 hN hc.snd.fst hP1.holds) ?_
  rintro v σ2 N2 q2 s2 _ ⟨rfl, rfl, hP2, hv⟩
  refine Runs.push hF hA hc.snd.snd hP2.holds (fun hs => ?_)
  have hH3 := hP2.holds.pushed hF hs (s2.reg .pri)
  have e1 : s1.vm.sp = s.vm.sp - 4 * (vs.length : Int) := by rw [hP1.vm]
  have e2 := hP2.sp
  have hfr := hH.frame
  refine Runs.ok ⟨rfl, rfl, ?_, hH3, ?_, ?_⟩
  · have h2 := hP2.vm
    have h1 := hP1.vm
    show ({ s2.vm with sp := s2.vm.sp - 4, mem := wr32 s2.vm.mem (s2.vm.sp - 4) (s2.reg .pri) } : State) =
      { s.vm with sp := s.vm.sp - 4 * ((vs.length + 1 : Nat) : Int), mem := wr32 s2.vm.mem (s2.vm.sp - 4) (s2.reg .pri) }
    rw [show s.vm.sp - 4 * ((vs.length + 1 : Nat) : Int) = s2.vm.sp - 4 by omega]
    generalize wr32 s2.vm.mem (s2.vm.sp - 4) (s2.reg .pri) = mm
    generalize s2.vm.sp - 4 = sp2
    rw [h2, h1]
  · intro a h1 h2 h3
    show wr32 s2.vm.mem (s2.vm.sp - 4) _ a = _
    rw [wr32_far (by omega), hP2.keeps a (by omega) h2 h3, hP1.keeps a h1 h2 h3]
  · intro i hi
    show rd32 (wr32 s2.vm.mem (s2.vm.sp - 4) (s2.reg .pri)) (s2.vm.sp - 4 + 4 * (i : Nat)) = _
    cases i with
    | zero =>
      rw [show s2.vm.sp - 4 + 4 * ((0 : Nat) : Int) = s2.vm.sp - 4 by omega, rd32_wr32_same]
      exact hv
    | succ i =>
      have hi : i < vs.length := by simpa using hi
      rw [rd32_wr32_disj (by omega)]
      show _ = vs[i]
      rw [← hP1.vals i hi, show s2.vm.sp - 4 + 4 * ((i + 1 : Nat) : Int) = s1.vm.sp + 4 * (i : Nat) by omega]
      apply rd32_congr
      intro k hk1 hk2
      have hb := hP2.holds.heap
      have hd := hF.heap
      refine hP2.keeps _ (by omega) (fun h => ?_) (fun h => ?_)
      · have := ownG_range hF h; omega
      · have := ownL_range h; omega

theorem call_ok (hF : Fits E L lim b) {call : Nat → List Cell → Ev Cell} (hC : CallOk E L lim m n b call) {evA : Ev (List Cell)} {c : Code}
    (hAr : ArgsOk E L lim m n b evA c) {f k : Nat} (hlen : ∀ σ vs σ', evA σ = .ok vs σ' → vs.length = k) (hk : k = L.arity f) (hfix : Fixed c) {bad : Bool} :
    NodeOk E L lim m n b (do let vs ← evA; call f vs) (callNode (L.entry f) k bad c) := by
  refine plain_ok hF (fun _ h => by cases h) (fun _ => ?_) (hfix.then ((Fixed.ins _).then (Fixed.ins _)))
  intro N p s σ hN hc hH
  rw [ends_then]
  refine Runs.bind (hAr N p s σ hN hc.fst hH) ?_
  rintro vs σ1 N1 q1 s1 hvs ⟨rfl, rfl, hP1⟩
  have hl := hlen _ _ _ hvs
  subst hl
  have e1 : s1.vm.sp = s.vm.sp - 4 * (vs.length : Int) := by rw [hP1.vm]
  have hfr := hH.frame
  refine (hC f vs N1 _ s1 σ1 hN hk hc.snd hP1.holds hP1.vals (by omega)).mono ?_
  rintro v σ2 N2 q2 s2 _ ⟨rfl, rfl, hP2, hv⟩
  refine ⟨rfl, rfl, ⟨?_, hP2.holds, ?_⟩, hv⟩
  · have h2 := hP2.vm
    have h1 := hP1.vm
    generalize s2.vm.mem = mm at h2
    rw [h2, h1]
    simp only [State.mk.injEq, true_and, and_true]
    omega
  · have h2 := hP2.keeps
    rw [show ({ s1.vm with sp := s1.vm.sp + 4 * (vs.length : Int) } : State).sp = s.vm.sp by show s1.vm.sp + _ = _; omega] at h2
    exact hP1.keeps.trans h2

theorem evalArgs_length (size : Nat → Nat) (call : Nat → List Cell → Ev Cell) : ∀ (args : Args) (σ : Store) (vs : List Cell) (σ' : Store),
    evalArgs size call args σ = .ok vs σ' → vs.length = countArgs args
  | .nil, σ, vs, σ', h => by
    simp only [evalArgs] at h
    cases h
    rfl
  | .cons e rest, σ, vs, σ', h => by
    simp only [evalArgs] at h
    have h : Ev.bind _ _ σ = _ := h
    unfold Ev.bind at h
    split at h
    · rename_i ws σ1 hws
      simp only at h
      have h : Ev.bind _ _ σ1 = _ := h
      unfold Ev.bind at h
      split at h
      · cases h
        have := evalArgs_length size call rest _ _ _ hws
        simp only [List.length_cons, countArgs, this]
      · cases h
      · cases h
      · cases h
    · cases h
    · cases h
    · cases h

/-! ### All expressions -/

variable {call : Nat → List Cell → Ev Cell}

theorem or_false_iff {x y : Bool} : (x || y) = false ↔ x = false ∧ y = false := by cases x <;> cases y <;> simp

mutual
theorem gen_ok (hF : Fits E L lim b) (hA : Activation E L m b) (hC : CallOk E L lim m n b call) : ∀ e : Expr, (gen L e).bad = false →
    NodeOk E L lim m n b (eval L.size call e) (gen L e)
  | .num v, _ => by
    simp only [eval, gen]
    exact plain_ok hF (fun w h σ => by cases h; rfl) (fun h => by cases h) Fixed.skip
  | .get l, h => by
    simp only [eval, gen]
    simp only [gen, rvalue, plain] at h
    exact rvalue_ok hF (genL_ok hF hA hC l h)
  | .un op e, h => by
    have h' : (gen L e).bad = false := by
      simp only [gen, unary] at h
      split at h <;> exact h
    simp only [eval, gen]
    exact unary_ok hF (gen_ok hF hA hC e h') op
  | .bin op x y, h => by
    have h' : (gen L x).bad = false ∧ (gen L y).bad = false := by
      simp only [gen, binary] at h
      split at h <;> (simp only [plain, or_false_iff] at h; exact h.1)
    simp only [eval, gen]
    exact binary_ok hF hA (gen_ok hF hA hC x h'.1) (gen_ok hF hA hC y h'.2) op
  | .assign none l e, h => by
    simp only [gen, plain, or_false_iff] at h
    simp only [eval, gen]
    have hl := genL_ok hF hA hC l h.1
    have he := gen_ok hF hA hC e h.2
    exact plain_ok hF (fun _ h => by cases h) (fun _ => assign_none_ok hF hA hl he) (assign_fixed hl.faddr hl.fload hl.fstore he.fexpr)
  | .assign (some op) l e, h => by
    simp only [gen, plain, or_false_iff] at h
    simp only [eval, gen]
    have hl := genL_ok hF hA hC l h.1
    have he := gen_ok hF hA hC e h.2
    exact plain_ok hF (fun _ h => by cases h) (fun _ => assign_some_ok hF hA hl he op) (assign_fixed hl.faddr hl.fload hl.fstore he.fexpr)
  | .incdec inc pre l, h => by
    simp only [gen, plain] at h
    simp only [eval, gen]
    have hl := genL_ok hF hA hC l h
    have hx : ∀ d, Fixed (emitIncDec inc pre d (genL L l)) := fun d => incdec_fixed hl.faddr hl.fload hl.fstore
    have hp := plain_ok (const := none) (bad := (genL L l).bad) hF (fun _ h => by cases h) (fun _ => (fun N p s σ hN hc hH => by
      refine (incdec_any_ok hF hA hl inc pre false hN hc hH).mono ?_
      rintro v σ' N' q s' _ ⟨h1, h2, h3, h4⟩
      exact ⟨h1, h2, h3, h4 rfl⟩)) (hx false)
    refine ⟨hp.const, hp.expr, fun d => ?_, hp.test, hp.flat, hp.fexpr, hx, hp.ftest⟩
    intro N p s σ hN hc hH
    refine (incdec_any_ok hF hA hl inc pre d hN hc hH).mono ?_
    rintro v σ' N' q s' _ ⟨h1, h2, h3, _⟩
    exact ⟨h1, h2, h3, True.intro⟩
  | .logic isOr x y, h => by
    have hconst := gen_const L L.size call (.logic isOr x y)
    simp only [gen, logical, plain, or_false_iff] at h
    simp only [eval, gen] at hconst ⊢
    exact logical_ok hF (gen_ok hF hA hC x h.1) (gen_ok hF hA hC y h.2) isOr hconst
  | .chain first op e rest, h => by
    have hconst := gen_const L L.size call (.chain first op e rest)
    simp only [gen, chain, plain, or_false_iff] at h
    simp only [eval, gen] at hconst ⊢
    have h1 := gen_ok hF hA hC first h.1.1
    have h2 := gen_ok hF hA hC e h.1.2
    have h3 := genRest_ok hF hA hC rest h.2 (gen L e).const
    exact plain_ok hF hconst (fun _ => chain_expr_ok hF hA h1 h2 h3.1 op) (h1.fexpr.then ((inner_fixed _ _ _ h2.fexpr).then h3.2))
  | .tern c x y, h => by
    simp only [gen, ternary, plain, or_false_iff] at h
    simp only [eval, gen]
    exact ternary_ok hF (gen_ok hF hA hC c h.1.1) (gen_ok hF hA hC x h.1.2) (gen_ok hF hA hC y h.2)
  | .comma x y, h => by
    simp only [gen, comma, plain, or_false_iff] at h
    simp only [eval, gen]
    exact comma_ok hF (gen_ok hF hA hC x h.1) (gen_ok hF hA hC y h.2)
  | .call f args, h => by
    simp only [gen, callNode, plain, or_false_iff, bne_eq_false_iff_eq] at h
    simp only [eval, gen]
    have ha := genArgs_ok hF hA hC args h.1
    exact call_ok hF hC ha.1 (evalArgs_length L.size call args) h.2 ha.2

theorem genL_ok (hF : Fits E L lim b) (hA : Activation E L m b) (hC : CallOk E L lim m n b call) : ∀ l : LVal, (genL L l).bad = false →
    LNodeOk E L lim m n b (place L.size call l) (genL L l)
  | .var (.glob x), h => by
    simp only [genL, decide_eq_false_iff_not] at h
    simp only [place, genL]
    exact glob_ok hF hA (by omega)
  | .var (.loc i), h => by
    simp only [genL, Bool.not_eq_false'] at h
    simp only [place, genL]
    exact loc_ok hF hA h
  | .elem x i, h => by
    simp only [genL, or_false_iff, decide_eq_false_iff_not] at h
    simp only [place, genL]
    refine elem_ok hF hA (by omega) (gen_ok hF hA hC i h.1.1) ?_
    intro k hk
    have h2 := h.2
    rw [hk] at h2
    simp only [Option.elim, or_false_iff, decide_eq_false_iff_not] at h2
    omega

theorem genRest_ok (hF : Fits E L lim b) (hA : Activation E L m b) (hC : CallOk E L lim m n b call) : ∀ rest : Rest, (genRest L rest).any (·.2.bad) = false →
    ∀ left, ChainOk E L lim m n b left (fun x => evalRest L.size call x rest) (emitChain left (genRest L rest)) ∧ Fixed (emitChain left (genRest L rest))
  | .one op e, h, left => by
    simp only [genRest, List.any_cons, List.any_nil, Bool.or_false] at h
    have he := gen_ok hF hA hC e h
    have := chain_cons hF hA he (chain_nil (left := (gen L e).const)) op left
    simp only [Ev.pure_bind, Bool.and_true] at this
    simp only [evalRest, genRest, emitChain]
    exact ⟨this, (Fixed.ins _).then ((Fixed.ins _).then ((inner_fixed _ _ _ he.fexpr).then ((Fixed.ins _).then ((Fixed.ins _).then ((Fixed.ins _).then Fixed.skip)))))⟩
  | .cons op e rest, h, left => by
    simp only [genRest, List.any_cons, or_false_iff] at h
    have he := gen_ok hF hA hC e h.1
    have hr := genRest_ok hF hA hC rest h.2 (gen L e).const
    simp only [evalRest, genRest, emitChain]
    exact ⟨chain_cons hF hA he hr.1 op left,
      (Fixed.ins _).then ((Fixed.ins _).then ((inner_fixed _ _ _ he.fexpr).then ((Fixed.ins _).then ((Fixed.ins _).then ((Fixed.ins _).then hr.2)))))⟩

theorem genArgs_ok (hF : Fits E L lim b) (hA : Activation E L m b) (hC : CallOk E L lim m n b call) : ∀ args : Args, badArgs L args = false →
    ArgsOk E L lim m n b (evalArgs L.size call args) (genArgs L args) ∧ Fixed (genArgs L args)
  | .nil, _ => by
    simp only [evalArgs, genArgs]
    exact ⟨args_nil, Fixed.skip⟩
  | .cons e rest, h => by
    simp only [badArgs, or_false_iff] at h
    have he := gen_ok hF hA hC e h.1
    have hr := genArgs_ok hF hA hC rest h.2
    simp only [evalArgs, genArgs]
    exact ⟨args_cons hF hA hr.1 he, hr.2.then (he.fexpr.then (Fixed.ins _))⟩
end

end

end Verif.Compiled

import Verif.Proofs.GenLoop

/-! The code for switch statements does what the source says. -/
namespace Verif.Compiled
open Verif.VM Verif.Lang Verif.CodeGen

/-! ### The table of cases -/

/-- The position for a value: of the first entry with that value, else the default. -/
def pick (d : Nat) (l : List (Cell × Nat)) (x : Cell) : Nat :=
  match l with
  | [] => d
  | (k, a) :: rest => if k = x then a else pick d rest x

theorem pick_append (d : Nat) (x : Cell) : ∀ l l' : List (Cell × Nat), pick d (l ++ l') x = pick (pick d l' x) l x
  | [], _ => rfl
  | (k, a) :: l, l' => by
    show (if k = x then a else pick d (l ++ l') x) = if k = x then a else pick _ l x
    rw [pick_append d x l l']

theorem pick_labels (d a : Nat) (x : Cell) : ∀ ks : List Cell, pick d (ks.map (·, a)) x = if x ∈ ks then a else d
  | [] => by simp [pick]
  | k :: ks => by
    show (if k = x then a else pick d (ks.map (·, a)) x) = _
    rw [pick_labels d a x ks]
    by_cases h : k = x
    · simp [h]
    · rw [if_neg h]; simp only [List.mem_cons, eq_comm (a := x), h, false_or]

theorem pick_mem {d : Nat} {x : Cell} {a : Nat} : ∀ {l : List (Cell × Nat)}, (l.map Prod.fst).Nodup → (x, a) ∈ l → pick d l x = a
  | (k, a') :: l, hn, hm => by
    unfold pick
    rw [List.map_cons, List.nodup_cons] at hn
    rcases List.mem_cons.1 hm with h | h
    · cases h; rw [if_pos rfl]
    · have : k ≠ x := by
        rintro rfl
        exact hn.1 (List.mem_map.2 ⟨_, h, rfl⟩)
      rw [if_neg this]
      exact pick_mem hn.2 h

theorem pick_not {d : Nat} {x : Cell} : ∀ {l : List (Cell × Nat)}, x ∉ l.map Prod.fst → pick d l x = d
  | [], _ => rfl
  | (k, a') :: l, h => by
    unfold pick
    simp only [List.map_cons, List.mem_cons, not_or] at h
    rw [if_neg (fun e => h.1 e.symm)]
    exact pick_not h.2

theorem pick_perm {d : Nat} {x : Cell} {l l' : List (Cell × Nat)} (h : l.Perm l') (hn : (l'.map Prod.fst).Nodup) : pick d l x = pick d l' x := by
  have hp := h.map Prod.fst
  have hn' := hp.symm.nodup hn
  by_cases hx : x ∈ l'.map Prod.fst
  · obtain ⟨⟨k, a⟩, hm, rfl⟩ := List.mem_map.1 hx
    rw [pick_mem hn hm, pick_mem hn' (h.mem_iff.2 hm)]
  · rw [pick_not hx, pick_not (fun h' => hx (hp.mem_iff.1 h'))]

theorem emplace_perm {k : Cell} {a : Nat} : ∀ {l : List (Cell × Nat)}, k ∉ l.map Prod.fst → (emplace k a l).Perm ((k, a) :: l)
  | [], _ => List.Perm.refl _
  | (k', a') :: l, h => by
    simp only [List.map_cons, List.mem_cons, not_or] at h
    unfold emplace
    rw [if_neg h.1]
    split
    · exact List.Perm.refl _
    · exact ((emplace_perm h.2).cons _).trans (List.Perm.swap _ _ _)

theorem foldl_emplace_perm : ∀ (l acc : List (Cell × Nat)), ((acc ++ l).map Prod.fst).Nodup → (l.foldl (fun m e => emplace e.1 e.2 m) acc).Perm (acc ++ l)
  | [], acc, _ => by rw [List.append_nil]; exact List.Perm.refl _
  | (k, a) :: l, acc, h => by
    have hk : k ∉ acc.map Prod.fst := by
      rw [List.map_append, List.nodup_append] at h
      intro hm
      exact h.2.2 k hm k (by simp) rfl
    have hp := emplace_perm (a := a) hk
    have hq : (emplace k a acc ++ l).Perm (acc ++ (k, a) :: l) := (hp.append_right l).trans List.perm_middle.symm
    exact (foldl_emplace_perm l (emplace k a acc) ((hq.map Prod.fst).symm.nodup h)).trans hq

theorem caseMap_perm {l : List (Cell × Nat)} (h : (l.map Prod.fst).Nodup) : (caseMap l).Perm l := foldl_emplace_perm l [] h

/-! ### Reading the table -/

theorem flatMap_length (l : List (Cell × Nat)) : (l.flatMap fun e => [e.1, BitVec.ofInt 32 (off e.2)]).length = 2 * l.length := by
  induction l with
  | nil => rfl
  | cons e l ih => rw [List.flatMap_cons, List.length_append, ih]; simp; omega

theorem flatMap_get : ∀ (l : List (Cell × Nat)) (k : Nat) (h : k < l.length),
    (l.flatMap fun e => [e.1, BitVec.ofInt 32 (off e.2)])[2 * k]? = some l[k].1 ∧
    (l.flatMap fun e => [e.1, BitVec.ofInt 32 (off e.2)])[2 * k + 1]? = some (BitVec.ofInt 32 (off l[k].2))
  | e :: l, 0, _ => ⟨rfl, rfl⟩
  | e :: l, k+1, h => by
    have := flatMap_get l k (by simpa using h)
    rw [List.flatMap_cons]
    exact this

theorem switchTarget_pick (d : Nat) (x : Cell) : ∀ l : List (Cell × Nat),
    switchTarget (BitVec.ofInt 32 (off d)) (l.map fun e => (e.1, BitVec.ofInt 32 (off e.2))) x = BitVec.ofInt 32 (off (pick d l x))
  | [] => rfl
  | (k, a) :: l => by
    show (if k = x then _ else switchTarget _ (l.map _) x) = BitVec.ofInt 32 (off (if k = x then a else pick d l x))
    rw [switchTarget_pick d x l]
    split <;> rfl

section
variable {E : Env} {L : Layout} {lim : Int} {m n : Nat} {b : State}

theorem caseTable_ok (hF : Fits E L lim b) {d p : Nat} {l : List (Cell × Nat)} (h : Here E (casetbl d l) p) :
    caseTable E.code (off p) = some (BitVec.ofInt 32 (off d), l.map fun e => (e.1, BitVec.ofInt 32 (off e.2))) := by
  have hlen : (casetbl d l p).length = 3 + 2 * l.length := by
    show (_ :: _ :: _ :: _).length = _
    simp only [List.length_cons, flatMap_length]; omega
  have hl := h.2
  rw [hlen] at hl
  have h0 := h.1 0 (by omega)
  have h1 := h.1 1 (by omega)
  have h2 := h.1 2 (by omega)
  have hc := hF.code
  unfold caseTable
  rw [if_neg (by unfold off; omega)]
  have hi : (off p / 4).toNat = p := by unfold off; omega
  simp only [hi]
  rw [show E.code[p]? = some 130 from h0, show E.code[p + 1]? = some (BitVec.ofNat 32 l.length) from h1, show E.code[p + 2]? = some (BitVec.ofInt 32 (off d)) from h2]
  have hn : (BitVec.ofNat 32 l.length).toNat = l.length := by rw [BitVec.toNat_ofNat]; omega
  have hn' : (BitVec.ofNat 32 l.length).toInt = l.length := by
    rw [BitVec.toInt_eq_toNat_cond, hn]; omega
  simp only [hn, hn']
  rw [if_pos ⟨by trivial, by omega, by omega⟩]
  congr 2
  apply List.ext_getElem
  · simp
  · intro k hk1 hk2
    have hk : k < l.length := by simpa using hk2
    rw [List.getElem_map, List.getElem_map, List.getElem_range]
    have hg := flatMap_get l k hk
    have e1 := h.1 (3 + 2 * k) (by omega)
    have e2 := h.1 (4 + 2 * k) (by omega)
    have f1 : (casetbl d l p)[3 + 2 * k]? = (l.flatMap fun e => [e.1, BitVec.ofInt 32 (off e.2)])[2 * k]? := by
      rw [show 3 + 2 * k = 2 * k + 1 + 1 + 1 by omega]; rfl
    have f2 : (casetbl d l p)[4 + 2 * k]? = (l.flatMap fun e => [e.1, BitVec.ofInt 32 (off e.2)])[2 * k + 1]? := by
      rw [show 4 + 2 * k = 2 * k + 1 + 1 + 1 + 1 by omega]; rfl
    rw [f1, hg.1, ← Nat.add_assoc] at e1
    rw [f2, hg.2, ← Nat.add_assoc] at e2
    rw [List.getD_eq_getElem?_getD, List.getD_eq_getElem?_getD, e1, e2]
    rfl

theorem visit_switch {d p : Nat} {l : List (Cell × Nat)} {s : IState} (here : Int) (ht : caseTable E.code (off p) = some (BitVec.ofInt 32 (off d), l.map fun e => (e.1, BitVec.ofInt 32 (off e.2)))) :
    visit E m here (.switch (off p)) s = .ok s (.goto (BitVec.ofInt 32 (off (pick d l s.pri))).toInt) := by
  rw [← switchTarget_pick]
  show (match caseTable E.code (off p) with | none => _ | some (d, cases) => _) = _
  rw [ht]

theorem Runs.switch {α : Type} {N p d t : Nat} {l : List (Cell × Nat)} {s : IState} {o : Out α} {Q : α → Store → Nat → Nat → IState → Prop} (hF : Fits E L lim b)
    (h : Here E (CodeGen.ins (.switch (off t))) p) (ht : Here E (casetbl d l) t) (hp : pick d l s.pri < E.code.length)
    (k : Runs E L lim m N (pick d l s.pri) s o Q) : Runs E L lim m N p s o Q := by
  have htl : t < E.code.length := by have := ht.lt; unfold Ends at this; omega
  have hA := (enc_switch (off_I32 hF htl)).at h
  have hv := visit_switch (m := m) (s := s) (((p + (CodeGen.ins (.switch (off t)) p).length : Nat) : Int) * 4) (caseTable_ok hF ht)
  have hr := off_I32 hF hp
  rw [BitVec.toInt_ofInt, show (off (pick d l s.pri)).bmod (2 ^ 32) = off (pick d l s.pri) from Int.bmod_eq_of_le (by omega) (by omega)] at hv
  exact Runs.step (fun n => loop_goto hA hv (jumpIndex_off hp) n) k

/-! ### Cases -/

/-- What the nodes of cases satisfy. -/
structure CNodeOk (E : Env) (L : Layout) (lim : Int) (m n : Nat) (b : State) (ev : Cell → Ev Sig) (cs : CNode) : Prop where
  run : ∀ f X B C p x N s σ, N ≤ n → X < E.code.length → B < E.code.length → C < E.code.length → Here E (cs.code f X B C) p → Holds L b σ s.vm →
    Runs E L lim m N (pick ((cs.dflt f p).getD X) (cs.table f p) x) s (ev x σ) (Leaves E L b X B C N s)
  fixed : ∀ f, FixedF fun i : Nat × Nat × Nat => cs.code f i.1 i.2.1 i.2.2
  keys : ∀ f p, (cs.table f p).map Prod.fst = cs.keys
  inside : ∀ f X B C p x, X < E.code.length → Here E (cs.code f X B C) p → pick ((cs.dflt f p).getD X) (cs.table f p) x < E.code.length
  sig : ∀ x, Sigs (ev x) cs.flow cs.brk cs.cont
  leak : cs.cont = true → cs.leak = true

theorem emitCase_fixed {x : SNode} (hx : FixedF fun y : Nat × Nat => x.code y.1 y.2) (f : Bool) : FixedF fun i : Nat × Nat × Nat => emitCase f x i.1 i.2.1 i.2.2 :=
  ((emit_fixed hx f).comp fun i : Nat × Nat × Nat => i.2).then ((FixedF.jump fun i : Nat × Nat × Nat => i.1).emitIf _)

theorem cnil_ok : CNodeOk E L lim m n b (fun _ => pure .next)
    { bad := false, flow := .none, brk := false, cont := false, leak := false, ret := false, keys := []
      code := fun _ _ _ _ => skip, table := fun _ _ => [], dflt := fun _ _ => none } := by
  refine ⟨?_, fun _ => FixedF.const Fixed.skip, fun _ _ => rfl, fun _ _ _ _ _ _ hX _ => hX, fun x => Sigs.normal (fun σ r σ' h => (Ev.pure_inv h).1) _ _, fun h => (by cases h)⟩
  intro f X B C p x N s σ hN hX hB hC hc hH
  exact Runs.ok ⟨Post.refl hH, rfl, rfl⟩

theorem dflt_ok (hF : Fits E L lim b) {ev : Ev Sig} {x : SNode} (hx : SNodeOk E L lim m n b ev x) {bad ret : Bool} : CNodeOk E L lim m n b (fun _ => ev)
    { bad, flow := x.flow, brk := x.brk, cont := x.cont, leak := x.leak, ret, keys := []
      code := fun after exit b c => emitCase after x exit b c, table := fun _ _ => [], dflt := fun _ p => some p } := by
  refine ⟨?_, fun f => emitCase_fixed hx.fixed f, fun _ _ => rfl, ?_, fun _ => hx.sig, hx.leak⟩
  · intro f X B C p v N s σ hN hX hB hC hc hH
    exact stmt_jump hF hx (Nat.le_refl N) hN hB hC hX hc (Post.refl hH)
  · intro f X B C p v hX hc
    have := Here.lt hc
    show p < _
    unfold Ends at this
    omega

theorem case_ok (hF : Fits E L lim b) {ev : Ev Sig} {evs : Cell → Ev Sig} {x : SNode} {r : CNode} {labels : List Cell} (hx : SNodeOk E L lim m n b ev x)
    (hr : CNodeOk E L lim m n b evs r) {bad ret : Bool} : CNodeOk E L lim m n b (fun v => if v ∈ labels then ev else evs v)
    { bad, flow := x.flow.join r.flow, brk := x.brk || r.brk, cont := x.cont || r.cont, leak := x.leak || r.leak, ret
      keys := labels ++ r.keys
      code := fun after exit b c => emitCase after x exit b c ⨟ r.code (if x.flow = .none then false else x.after) exit b c
      table := fun after p => labels.map (·, p) ++ r.table (if x.flow = .none then false else x.after) (p + (emitCase after x 0 0 0 p).length)
      dflt := fun after p => r.dflt (if x.flow = .none then false else x.after) (p + (emitCase after x 0 0 0 p).length) } := by
  have hlen : ∀ f X B C p, p + (emitCase f x 0 0 0 p).length = Ends (emitCase f x X B C) p := by
    intro f X B C p
    unfold Ends
    rw [emitCase_fixed hx.fixed f (0, 0, 0) (X, B, C) p p]
  refine ⟨?_, ?_, ?_, ?_, ?_, leak_or hx.leak hr.leak⟩
  · intro f X B C p v N s σ hN hX hB hC hc hH
    simp only
    rw [pick_append, pick_labels, hlen f X B C p]
    split
    · exact stmt_jump hF hx (Nat.le_refl N) hN hB hC hX (Here.fst hc) (Post.refl hH)
    · exact hr.run _ X B C _ v N s σ hN hX hB hC (Here.snd hc) hH
  · intro f
    exact (emitCase_fixed hx.fixed f).then (hr.fixed _)
  · intro f p
    simp only
    rw [List.map_append, hr.keys, List.map_map]
    congr 1
    exact List.map_id' labels
  · intro f X B C p v hX hc
    simp only
    rw [pick_append, pick_labels, hlen f X B C p]
    split
    · have := Here.lt hc
      unfold Ends at this
      omega
    · exact hr.inside _ X B C _ v hX (Here.snd hc)
  · intro v
    by_cases hv : v ∈ labels
    · simp only [if_pos hv]
      exact ⟨fun σ σ' h => join_none_left (hx.sig.next _ _ h), fun σ σ' h => (by rw [hx.sig.brk _ _ h, Bool.true_or]), fun σ σ' h => (by rw [hx.sig.cont _ _ h, Bool.true_or])⟩
    · simp only [if_neg hv]
      exact ⟨fun σ σ' h => join_none_right ((hr.sig v).next _ _ h), fun σ σ' h => (by rw [(hr.sig v).brk _ _ h, Bool.or_true]), fun σ σ' h => (by rw [(hr.sig v).cont _ _ h, Bool.or_true])⟩

/-- The part of a switch behind the expression. -/
def switchCode (cs : CNode) (X B C : Nat) : Code := topLabel fun p =>
  (endLabel fun tbl => ins (.switch (off tbl)) ⨟ cs.code false X B C) ⨟ casetbl ((cs.dflt false (p + 2)).getD X) (caseMap (cs.table false (p + 2)))

theorem casetbl_length (d : Nat) (l : List (Cell × Nat)) (p : Nat) : (casetbl d l p).length = 3 + 2 * l.length := by
  show (_ :: _ :: _ :: _).length = _
  simp only [List.length_cons, flatMap_length]; omega

theorem switch_fixed {ev : Cell → Ev Sig} {cs : CNode} (hcs : CNodeOk E L lim m n b ev cs) :
    FixedF fun i : Nat × Nat × Nat => endLabel fun tbl => ins (.switch (off tbl)) ⨟ cs.code false i.1 i.2.1 i.2.2 := by
  have h : FixedF fun i : (Nat × Nat × Nat) × Nat => ins (.switch (off i.2)) ⨟ cs.code false i.1.1 i.1.2.1 i.1.2.2 :=
    FixedF.then (fun _ _ _ _ => rfl) ((hcs.fixed false).comp fun i : (Nat × Nat × Nat) × Nat => i.1)
  exact FixedF.endLabel h

theorem switchCode_fixed {ev : Cell → Ev Sig} {cs : CNode} (hcs : CNodeOk E L lim m n b ev cs) (hn : cs.keys.Nodup) :
    FixedF fun i : Nat × Nat × Nat => switchCode cs i.1 i.2.1 i.2.2 := by
  have hk : ∀ p, (caseMap (cs.table false p)).length = cs.keys.length := by
    intro p
    rw [(caseMap_perm (by rw [hcs.keys]; exact hn)).length_eq, ← hcs.keys false p, List.length_map]
  intro i j p q
  show ((endLabel fun tbl => ins (.switch (off tbl)) ⨟ cs.code false i.1 i.2.1 i.2.2) p ++ casetbl _ _ _).length =
    ((endLabel fun tbl => ins (.switch (off tbl)) ⨟ cs.code false j.1 j.2.1 j.2.2) q ++ casetbl _ _ _).length
  rw [List.length_append, List.length_append, switch_fixed hcs i j p q, casetbl_length, casetbl_length, hk, hk]

theorem switch_ok (hF : Fits E L lim b) {ex : Ev Cell} {ev : Cell → Ev Sig} {e : Node} {cs : CNode} (he : NodeOk E L lim m n b ex e) (hcs : CNodeOk E L lim m n b ev cs)
    (hn : cs.keys.Nodup) : SNodeOk E L lim m n b (do let x ← ex; ev x) (switchStmt e cs) := by
  have hf : FixedF fun i : (Nat × Nat) × Nat => e.expr ⨟ switchCode cs i.2 i.1.1 i.1.2 :=
    (FixedF.const he.fexpr).then ((switchCode_fixed hcs hn).comp fun i : (Nat × Nat) × Nat => (i.2, i.1.1, i.1.2))
  have hf' : FixedF fun i : Nat × Nat => endLabel fun exit => e.expr ⨟ switchCode cs exit i.1 i.2 := FixedF.endLabel hf
  refine ⟨?_, hf', ?_, hcs.leak⟩
  · intro N p s σ B C hN hB hC hcode hH
    have hcode : Here E (endLabel fun exit => e.expr ⨟ switchCode cs exit B C) p := hcode
    show Runs E L lim m N p s _ (Leaves E L b (Ends (endLabel fun exit => e.expr ⨟ switchCode cs exit B C) p) B C N s)
    have g := (hf.comp fun t : Nat => ((B, C), t)).to2
    have h1 := endLabel_here g hcode
    have hlt := hcode.lt
    simp only at h1
    generalize Ends (endLabel _) p = X at h1 hlt ⊢
    refine Runs.bind (he.expr N p s σ hN h1.fst hH) ?_
    rintro v σ' N' q s' _ ⟨rfl, rfl, hP, hv⟩
    have h2 : Here E ((endLabel fun tbl => ins (.switch (off tbl)) ⨟ cs.code false X B C) ⨟
      casetbl ((cs.dflt false (Ends e.expr p + 2)).getD X) (caseMap (cs.table false (Ends e.expr p + 2)))) (Ends e.expr p) := h1.snd
    generalize Ends e.expr p = q at h2
    have hk : Fixed2 fun tbl => ins (.switch (off tbl)) ⨟ cs.code false X B C := by
      have h : FixedF fun tbl : Nat => ins (.switch (off tbl)) ⨟ cs.code false X B C :=
        FixedF.then (fun _ _ _ _ => rfl) (FixedF.const ((hcs.fixed false).code (X, B, C)))
      exact h.to2
    have h3 := endLabel_here hk h2.fst
    have h4 : Here E (cs.code false X B C) (q + 2) := h3.snd
    have hnd : ((cs.table false (q + 2)).map Prod.fst).Nodup := by rw [hcs.keys]; exact hn
    have hpick : ∀ x, pick ((cs.dflt false (q + 2)).getD X) (caseMap (cs.table false (q + 2))) x = pick ((cs.dflt false (q + 2)).getD X) (cs.table false (q + 2)) x :=
      fun x => pick_perm (caseMap_perm hnd) hnd
    refine Runs.switch hF h3.fst h2.snd (by rw [hpick]; exact hcs.inside _ _ _ _ _ _ hlt h4) ?_
    rw [hpick, hv]
    refine (hcs.run false X B C (q + 2) v N' s' σ' hN hlt hB hC h4 hP.holds).relax ?_
    intro r σ2 N2 q2 s2 _ hl
    exact hl.up (Nat.le_refl _) hP
  · refine ⟨?_, ?_, ?_⟩ <;> intro σ σ' h <;> obtain ⟨v, σ1, h1, h2⟩ := Ev.bind_ok_iff h
    · exact (hcs.sig v).next _ _ h2
    · exact (hcs.sig v).brk _ _ h2
    · exact (hcs.sig v).cont _ _ h2

end

end Verif.Compiled

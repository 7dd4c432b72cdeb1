import Verif.Proofs.Dom

/-! The dominator tree of vm/control-flow.cpp computeDominance and its numbering. -/
namespace Verif.Cfg

/-- The children of `d`, in the order in which they are appended. -/
def kidsIn (T : Nat → Option Nat) (bs : List Nat) (d : Nat) : List Nat := bs.filter fun b => T b = some d ∧ b ≠ d

theorem kidsIn_append (T : Nat → Option Nat) (xs ys : List Nat) (d : Nat) :
    kidsIn T (xs ++ ys) d = kidsIn T xs d ++ kidsIn T ys d := by
  unfold kidsIn; rw [List.filter_append]

theorem mem_kidsIn {T : Nat → Option Nat} {bs : List Nat} {d k : Nat} : k ∈ kidsIn T bs d ↔ k ∈ bs ∧ T k = some d ∧ k ≠ d := by
  unfold kidsIn; rw [List.mem_filter, decide_eq_true_eq]

theorem build_spec {L : List Nat} {T : Nat → Option Nat} (hT : Tab L T) (hn : L.Nodup) :
    ∀ (bs done : List Nat) (S : Tree), L.reverse = done ++ bs → (∀ v ∈ L, ∃ d, T v = some d) →
    (∀ d, S.kids d = kidsIn T done d) → (∀ d, S.num d = 1 + ((kidsIn T done d).map S.num).sum) →
    ∃ S', buildTree T bs S = some S' ∧ (∀ d, S'.kids d = kidsIn T L.reverse d) ∧
      (∀ d, S'.num d = 1 + ((kidsIn T L.reverse d).map S'.num).sum)
  | [], done, S, hL, hdef, hk, hm => by
    rw [List.append_nil] at hL
    refine ⟨S, rfl, ?_, ?_⟩
    · intro d; rw [hL]; exact hk d
    · intro d; rw [hL]; exact hm d
  | b :: bs, done, S, hL, hdef, hk, hm => by
    have hL' : L.reverse = (done ++ [b]) ++ bs := by rw [hL]; simp
    have hbL : b ∈ L := by
      have : b ∈ L.reverse := by rw [hL]; simp
      simpa using this
    obtain ⟨d, hd⟩ := hdef b hbL
    unfold buildTree
    rw [hd]
    simp only
    by_cases hbd : b = d
    · subst hbd
      rw [if_pos rfl]
      have e : ∀ x, kidsIn T (done ++ [b]) x = kidsIn T done x := by
        intro x
        rw [kidsIn_append]
        have : kidsIn T [b] x = [] := by
          cases h : kidsIn T [b] x with
          | nil => rfl
          | cons k ks =>
            have hh : k ∈ kidsIn T [b] x := by rw [h]; simp
            rw [mem_kidsIn, List.mem_singleton] at hh
            obtain ⟨rfl, h2, h3⟩ := hh
            rw [hd] at h2; cases h2; exact absurd rfl h3
        rw [this, List.append_nil]
      exact build_spec hT hn bs (done ++ [b]) S hL' hdef (fun x => by rw [e]; exact hk x) (fun x => by rw [e]; exact hm x)
    · rw [if_neg hbd]
      have hb0 : b ≠ 0 := by
        intro h; subst h
        rw [hT.root] at hd; cases hd; exact hbd rfl
      have hdb := (hT.down b d hd).2.2 hb0
      -- `d` comes after `b` in the postorder
      have hdone : ∀ k ∈ done, rpoId L b < rpoId L k := by
        intro k hk'
        apply before_lt hn
        have : L = bs.reverse ++ b :: done.reverse := by
          have := congrArg List.reverse hL
          simpa using this
        obtain ⟨x, y, hxy⟩ := List.append_of_mem (List.mem_reverse.2 hk')
        exact ⟨bs.reverse ++ b :: x, y, by rw [this, hxy]; simp, by simp⟩
      have hdnot : d ∉ done ++ [b] := by
        rw [List.mem_append, List.mem_singleton, not_or]
        refine ⟨?_, fun h => hbd h.symm⟩
        intro h
        have := hdone d h
        omega
      have e : ∀ x, kidsIn T (done ++ [b]) x = kidsIn T done x ++ (if x = d then [b] else []) := by
        intro x
        rw [kidsIn_append]
        congr 1
        by_cases hx : x = d
        · subst hx
          simp [kidsIn, hd, hbd]
        · rw [if_neg hx]
          simp [kidsIn, hd]
          intro h; exact absurd h.symm hx
      have hsum : ∀ x, ((kidsIn T done x).map (upd S.num d (S.num d + S.num b))).sum = ((kidsIn T done x).map S.num).sum := by
        intro x
        congr 1
        apply List.map_congr_left
        intro k hk'
        rw [mem_kidsIn] at hk'
        have hne : k ≠ d := by
          intro h; subst h
          exact hdnot (List.mem_append_left _ hk'.1)
        simp only [upd, if_neg hne]
      refine build_spec hT hn bs (done ++ [b]) _ hL' hdef ?_ ?_
      · intro x
        rw [e]
        by_cases hx : x = d
        · subst hx; simp [upd, hk]
        · simp [upd, hx, hk]
      · intro x
        rw [e]
        simp only [List.map_append, List.sum_append, hsum]
        by_cases hx : x = d
        · subst hx
          simp only [upd, if_pos, List.map_cons, List.map_nil, List.sum_cons, List.sum_nil, if_neg hbd]
          have := hm x
          omega
        · simp only [upd, if_neg hx, List.map_nil, List.sum_nil]
          have := hm x
          omega

/-- The preorder of the subtree below `b`, down to depth `n`. -/
def pre (kids : Nat → List Nat) : Nat → Nat → List Nat
  | 0, _ => []
  | n+1, b => b :: (kids b).reverse.flatMap (pre kids n)

section
variable {L : List Nat} {T : Nat → Option Nat}

theorem kid_lt (hT : Tab L T) {b k : Nat} (h : k ∈ kidsIn T L.reverse b) : rpoId L b < rpoId L k ∧ k ∈ L ∧ T k = some b := by
  rw [mem_kidsIn, List.mem_reverse] at h
  obtain ⟨h1, h2, h3⟩ := h
  have hk0 : k ≠ 0 := by
    intro hk; subst hk
    rw [hT.root] at h2; cases h2; exact h3 rfl
  exact ⟨(hT.down _ _ h2).2.2 hk0, h1, h2⟩

theorem pre_stable (hT : Tab L T) : ∀ (n m b : Nat), L.length + 1 ≤ n + rpoId L b → n ≤ m → b ∈ L →
    pre (kidsIn T L.reverse) m b = pre (kidsIn T L.reverse) n b
  | 0, m, b, h, _, hb => by have := rpoId_le hb; omega
  | n+1, 0, b, h, hm, hb => by omega
  | n+1, m+1, b, h, hm, hb => by
    show b :: _ = b :: _
    congr 1
    have key : ∀ ks : List Nat, (∀ k ∈ ks, k ∈ kidsIn T L.reverse b) →
        ks.flatMap (pre (kidsIn T L.reverse) m) = ks.flatMap (pre (kidsIn T L.reverse) n) := by
      intro ks
      induction ks with
      | nil => intro _; rfl
      | cons k ks ih =>
        intro hks
        rw [List.flatMap_cons, List.flatMap_cons, ih fun k hk => hks k (List.mem_cons_of_mem _ hk)]
        obtain ⟨h1, h2, _⟩ := kid_lt hT (hks k (List.mem_cons_self ..))
        rw [pre_stable hT n m k (by omega) (by omega) h2]
    exact key _ fun k hk => List.mem_reverse.1 hk

/-- The preorder of the subtree below `b`. -/
def sub (L : List Nat) (T : Nat → Option Nat) (b : Nat) : List Nat := pre (kidsIn T L.reverse) (L.length + 1) b

theorem flatMap_congr' {α β : Type} {l : List α} {f g : α → List β} (h : ∀ x ∈ l, f x = g x) : l.flatMap f = l.flatMap g := by
  induction l with
  | nil => rfl
  | cons x l ih =>
    rw [List.flatMap_cons, List.flatMap_cons, h x (List.mem_cons_self ..), ih fun y hy => h y (List.mem_cons_of_mem _ hy)]

theorem sub_eq (hT : Tab L T) (b : Nat) :
    sub L T b = b :: (kidsIn T L.reverse b).reverse.flatMap (sub L T) := by
  unfold sub
  show b :: _ = b :: _
  congr 1
  apply flatMap_congr'
  intro k hk
  obtain ⟨h1, h2, _⟩ := kid_lt hT (List.mem_reverse.1 hk)
  have := rpoId_pos L b
  exact (pre_stable hT _ _ k (by omega) (by omega) h2).symm

/-- Induction from the leaves. -/
theorem sub_induct (hT : Tab L T) {p : Nat → Prop} (h : ∀ b ∈ L, (∀ k ∈ kidsIn T L.reverse b, p k) → p b) : ∀ b ∈ L, p b := by
  have key : ∀ n b, b ∈ L → L.length ≤ n + rpoId L b → p b := by
    intro n
    induction n with
    | zero =>
      intro b hb hle
      apply h b hb
      intro k hk
      obtain ⟨h1, h2, _⟩ := kid_lt hT hk
      have := rpoId_le h2
      omega
    | succ n ih =>
      intro b hb hle
      apply h b hb
      intro k hk
      obtain ⟨h1, h2, _⟩ := kid_lt hT hk
      exact ih k h2 (by omega)
  intro b hb
  exact key L.length b hb (by omega)

theorem mem_sub (hT : Tab L T) : ∀ b ∈ L, ∀ x, x ∈ sub L T b ↔ x ∈ L ∧ Anc T b x := by
  refine sub_induct hT (p := fun b => ∀ x, x ∈ sub L T b ↔ x ∈ L ∧ Anc T b x) ?_
  intro b hb ih x
  rw [sub_eq hT, List.mem_cons, List.mem_flatMap]
  constructor
  · rintro (rfl | ⟨k, hk, hx⟩)
    · exact ⟨hb, .refl⟩
    · rw [List.mem_reverse] at hk
      obtain ⟨h1, h2⟩ := (ih k hk x).1 hx
      obtain ⟨_, _, h3⟩ := kid_lt hT hk
      exact ⟨h1, (Anc.step h3 .refl).trans h2⟩
  · rintro ⟨hx, ha⟩
    by_cases hxb : x = b
    · exact Or.inl hxb
    · right
      -- the last step of the chain
      have : ∃ k ∈ kidsIn T L.reverse b, Anc T k x := by
        clear ih
        induction ha with
        | refl => exact absurd rfl hxb
        | step e ha ih =>
          rename_i c d
          by_cases hdb : d = b
          · subst hdb
            exact ⟨c, mem_kidsIn.2 ⟨List.mem_reverse.2 hx, e, hxb⟩, .refl⟩
          · obtain ⟨d', hd'⟩ := (hT.down _ _ e).2.1
            obtain ⟨k, hk, hk'⟩ := ih (hT.down _ _ hd').1 hdb
            exact ⟨k, hk, .step e hk'⟩
      obtain ⟨k, hk, hk'⟩ := this
      exact ⟨k, List.mem_reverse.2 hk, (ih k hk x).2 ⟨hx, hk'⟩⟩

theorem sub_length (hT : Tab L T) {num : Nat → Nat} (hm : ∀ d, num d = 1 + ((kidsIn T L.reverse d).map num).sum) :
    ∀ b ∈ L, (sub L T b).length = num b := by
  refine sub_induct hT (p := fun b => (sub L T b).length = num b) ?_
  intro b hb ih
  rw [sub_eq hT, hm b, List.length_cons, List.length_flatMap, List.map_reverse, List.sum_reverse]
  have : (kidsIn T L.reverse b).map (fun a => (sub L T a).length) = (kidsIn T L.reverse b).map num :=
    List.map_congr_left fun k hk => ih k hk
  rw [this]
  omega

theorem nodup_flatMap' {α β : Type} {f : α → List β} : ∀ {l : List α}, l.Nodup → (∀ x ∈ l, (f x).Nodup) →
    (∀ x ∈ l, ∀ y ∈ l, x ≠ y → ∀ z ∈ f x, z ∉ f y) → (l.flatMap f).Nodup
  | [], _, _, _ => List.nodup_nil
  | a :: l, hn, h1, h2 => by
    rw [List.flatMap_cons, List.nodup_append]
    rw [List.nodup_cons] at hn
    refine ⟨h1 a (List.mem_cons_self ..), nodup_flatMap' hn.2 (fun x hx => h1 x (List.mem_cons_of_mem _ hx))
      (fun x hx y hy => h2 x (List.mem_cons_of_mem _ hx) y (List.mem_cons_of_mem _ hy)), ?_⟩
    intro x hx y hy hxy
    subst hxy
    rw [List.mem_flatMap] at hy
    obtain ⟨c, hc, hxc⟩ := hy
    exact h2 a (List.mem_cons_self ..) c (List.mem_cons_of_mem _ hc) (by intro h; subst h; exact hn.1 hc) x hx hxc

theorem sub_nodup (hT : Tab L T) (hn : L.Nodup) : ∀ b ∈ L, (sub L T b).Nodup := by
  refine sub_induct hT (p := fun b => (sub L T b).Nodup) ?_
  intro b hb ih
  rw [sub_eq hT, List.nodup_cons]
  constructor
  · rw [List.mem_flatMap]
    rintro ⟨k, hk, hx⟩
    rw [List.mem_reverse] at hk
    obtain ⟨h1, h2, _⟩ := kid_lt hT hk
    have := hT.anc_le ((mem_sub hT k h2 b).1 hx).2
    omega
  · apply nodup_flatMap'
    · unfold kidsIn
      exact (List.reverse_perm _).nodup_iff.2 (((List.reverse_perm _).nodup_iff.2 hn).filter _)
    · intro k hk; exact ih k (List.mem_reverse.1 hk)
    · intro k hk k' hk' hne z hz hz'
      obtain ⟨h1, h2, h3⟩ := kid_lt hT (List.mem_reverse.1 hk)
      obtain ⟨h1', h2', h3'⟩ := kid_lt hT (List.mem_reverse.1 hk')
      have a1 := ((mem_sub hT k h2 z).1 hz).2
      have a2 := ((mem_sub hT k' h2' z).1 hz').2
      rcases a1.linear a2 with h | h
      · have := hT.anc_le (h.parent h3' hne)
        omega
      · have := hT.anc_le (h.parent h3 (Ne.symm hne))
        omega

theorem sub_infix (hT : Tab L T) (hdef : ∀ v ∈ L, ∃ d, T v = some d) : ∀ (n b : Nat), rpoId L b ≤ n → b ∈ L →
    ∃ x y, sub L T 0 = x ++ sub L T b ++ y
  | 0, b, h, _ => by have := rpoId_pos L b; omega
  | n+1, b, h, hb => by
    by_cases hb0 : b = 0
    · subst hb0; exact ⟨[], [], by simp⟩
    · obtain ⟨d, hd⟩ := hdef b hb
      have hlt := (hT.down b d hd).2.2 hb0
      obtain ⟨d', hd'⟩ := (hT.down b d hd).2.1
      obtain ⟨x, y, hxy⟩ := sub_infix hT hdef n d (by omega) (hT.down _ _ hd').1
      have hk : b ∈ (kidsIn T L.reverse d).reverse := by
        rw [List.mem_reverse, mem_kidsIn]
        exact ⟨List.mem_reverse.2 hb, hd, by intro h; subst h; omega⟩
      obtain ⟨u, v, huv⟩ := List.append_of_mem hk
      have : sub L T d = (d :: u.flatMap (sub L T)) ++ sub L T b ++ v.flatMap (sub L T) := by
        rw [sub_eq hT d, huv]; simp
      exact ⟨x ++ (d :: u.flatMap (sub L T)), v.flatMap (sub L T) ++ y, by rw [hxy, this]; simp⟩

theorem walk_sub (hT : Tab L T) : ∀ b ∈ L, ∀ (w : List Nat) (fuel : Nat),
    walkTree (kidsIn T L.reverse) (fuel + (sub L T b).length) (b :: w) =
      (walkTree (kidsIn T L.reverse) fuel w).map (sub L T b ++ ·) := by
  refine sub_induct hT (p := fun b => ∀ (w : List Nat) (fuel : Nat),
    walkTree (kidsIn T L.reverse) (fuel + (sub L T b).length) (b :: w) =
      (walkTree (kidsIn T L.reverse) fuel w).map (sub L T b ++ ·)) ?_
  intro b hb ih w fuel
  rw [sub_eq hT, List.length_cons, ← Nat.add_assoc]
  show (match walkTree (kidsIn T L.reverse) (fuel + _) ((kidsIn T L.reverse b).reverse ++ w) with
    | none => none
    | some r => some (b :: r)) = _
  have key : ∀ (ks : List Nat), (∀ k ∈ ks, k ∈ kidsIn T L.reverse b) → 
      walkTree (kidsIn T L.reverse) (fuel + (ks.flatMap (sub L T)).length) (ks ++ w) =
        (walkTree (kidsIn T L.reverse) fuel w).map (ks.flatMap (sub L T) ++ ·) := by
    intro ks
    induction ks with
    | nil =>
      intro _
      simp
    | cons k ks ihk =>
      intro hks
      have h1 := ih k (hks k (List.mem_cons_self ..)) (ks ++ w) (fuel + (ks.flatMap (sub L T)).length)
      rw [ihk fun k hk => hks k (List.mem_cons_of_mem _ hk)] at h1
      rw [List.flatMap_cons, List.length_append, List.cons_append]
      rw [show fuel + ((sub L T k).length + (ks.flatMap (sub L T)).length) =
        fuel + (ks.flatMap (sub L T)).length + (sub L T k).length by omega, h1]
      cases walkTree (kidsIn T L.reverse) fuel w <;> simp
  rw [key _ fun k hk => List.mem_reverse.1 hk]
  cases walkTree (kidsIn T L.reverse) fuel w <;> simp

end

theorem idxOf_infix {x m y : List Nat} (hn : (x ++ m ++ y).Nodup) {b : Nat} (_hb : b ∈ x ++ m ++ y) :
    b ∈ m ↔ x.length ≤ (x ++ m ++ y).idxOf b ∧ (x ++ m ++ y).idxOf b < x.length + m.length := by
  rw [List.append_assoc, List.nodup_append] at hn
  obtain ⟨h1, h2, h3⟩ := hn
  rw [List.nodup_append] at h2
  rw [List.append_assoc, List.idxOf_append]
  constructor
  · intro hbm
    have hbx : b ∉ x := fun h => h3 b h b (by simp [hbm]) rfl
    rw [if_neg hbx, List.idxOf_append, if_pos hbm]
    have := List.idxOf_lt_length_iff.2 hbm
    omega
  · intro hlt
    by_cases hbx : b ∈ x
    · rw [if_pos hbx] at hlt
      have := List.idxOf_lt_length_iff.2 hbx
      omega
    · rw [if_neg hbx, List.idxOf_append] at hlt
      by_cases hbm : b ∈ m
      · exact hbm
      · rw [if_neg hbm] at hlt
        omega

theorem length_le_of_nodup_subset : ∀ {l m : List Nat}, l.Nodup → (∀ x ∈ l, x ∈ m) → l.length ≤ m.length
  | [], _, _, _ => Nat.zero_le _
  | a :: l, m, hn, h => by
    rw [List.nodup_cons] at hn
    have ha := h a (List.mem_cons_self ..)
    have := length_le_of_nodup_subset (l := l) (m := m.erase a) hn.2 (by
      intro x hx
      rw [List.mem_erase_of_ne]
      · exact h x (List.mem_cons_of_mem _ hx)
      · intro hh; subst hh; exact hn.1 hx)
    rw [List.length_erase_of_mem ha] at this
    have := List.length_pos_of_mem ha
    rw [List.length_cons]
    omega

/-- The analysis succeeds, its table is the tree of dominators and its query answers dominance. -/
theorem dominance_spec {G : Graph} {L : List Nat} (R : Rpo G L) :
    ∃ D, computeDominance G L = some D ∧ Tab L D.idom ∧ (∀ v ∈ L, ∃ d, D.idom v = some d) ∧
      (∀ c ∈ L, ∀ x, Anc D.idom x c ↔ Dominates G x c) ∧
      ∀ a ∈ L, ∀ b ∈ L, (D.dominates a b = true ↔ Dominates G a b) := by
  obtain ⟨T, h1, hT, hdef, hdom⟩ := idoms_spec R
  have h0L : 0 ∈ L := (R.mem 0).2 .refl
  obtain ⟨S, hS, hk, hm⟩ := build_spec hT R.nodup L.reverse [] ⟨fun _ => [], fun _ => 1⟩ rfl hdef (fun d => rfl) (fun d => rfl)
  have hkids : S.kids = kidsIn T L.reverse := funext hk
  have hlen : (sub L T 0).length ≤ L.length := by
    apply length_le_of_nodup_subset (sub_nodup hT R.nodup 0 h0L)
    intro x hx
    exact ((mem_sub hT 0 h0L x).1 hx).1
  have hwalk : walkTree S.kids (L.length + 1) [0] = some (sub L T 0) := by
    rw [hkids]
    have := walk_sub hT 0 h0L [] (L.length + 1 - (sub L T 0).length)
    rw [Nat.sub_add_cancel (by omega)] at this
    rw [this]
    have hnil : ∀ n, walkTree (kidsIn T L.reverse) n [] = some [] := by intro n; cases n <;> rfl
    rw [hnil]
    simp
  refine ⟨⟨T, S.num, sub L T 0⟩, ?_, hT, hdef, hdom, ?_⟩
  · unfold computeDominance
    rw [h1]
    simp only
    rw [hS]
    simp only
    rw [hwalk]
  · intro a ha b hb
    rw [← hdom b hb a]
    have hbm : b ∈ sub L T 0 := (mem_sub hT 0 h0L b).2 ⟨hb, hT.root_anc (rpoId L b) b (Nat.le_refl _) (hdef b hb)⟩
    obtain ⟨x, y, hxy⟩ := sub_infix hT hdef (rpoId L a) a (Nat.le_refl _) ha
    have hnd := sub_nodup hT R.nodup 0 h0L
    rw [hxy] at hnd hbm
    have hai : (x ++ sub L T a ++ y).idxOf a = x.length := by
      have hax : a ∉ x := by
        intro h
        rw [List.append_assoc, List.nodup_append] at hnd
        exact hnd.2.2 a h a (by rw [sub_eq hT]; simp) rfl
      rw [List.append_assoc, List.idxOf_append, if_neg hax, sub_eq hT]
      simp
    have h2 := idxOf_infix hnd hbm
    rw [mem_sub hT a ha b, sub_length hT hm a ha] at h2
    unfold Dominance.dominates Dominance.treeId
    simp only
    rw [hxy, hai, decide_eq_true_eq]
    constructor
    · intro h; exact (h2.2 h).2
    · intro h; exact h2.1 ⟨hb, h⟩

end Verif.Cfg

import Verif.Spec.Compiled
import Verif.Proofs.Mem

/-! Running compiled code: steps, and a program logic for "the machine does what the source says". -/
namespace Verif.Compiled
open Verif.VM Verif.Lang Verif.CodeGen

/-! ### Code in place -/

theorem At.left {code : List Cell} {p : Nat} {a b : List Cell} (h : At code p (a ++ b)) : At code p a := by
  refine ⟨fun k hk => ?_, by have := h.2; rw [List.length_append] at this; omega⟩
  rw [h.1 k (by rw [List.length_append]; omega), List.getElem?_append_left hk]

theorem At.right {code : List Cell} {p : Nat} {a b : List Cell} (h : At code p (a ++ b)) : At code (p + a.length) b := by
  refine ⟨fun k hk => ?_, by have := h.2; rw [List.length_append] at this; omega⟩
  have := h.1 (a.length + k) (by rw [List.length_append]; omega)
  rw [List.getElem?_append_right (by omega), show a.length + k - a.length = k by omega, ← Nat.add_assoc] at this
  exact this

theorem At.head {code : List Cell} {p : Nat} {x : Cell} {xs : List Cell} (h : At code p (x :: xs)) : code[p]? = some x := by
  have := h.1 0 (by simp)
  simpa using this

theorem At.operands {code : List Cell} {p : Nat} {x : Cell} {xs : List Cell} (h : At code p (x :: xs)) :
    operands code p xs.length = some xs := by
  unfold VM.operands
  have h2 := h.2
  rw [List.length_cons] at h2
  rw [if_pos (by omega)]
  congr 1
  apply List.ext_getElem?
  intro k
  rcases Nat.lt_or_ge k xs.length with hk | hk
  · rw [List.getElem?_take_of_lt hk, List.getElem?_drop]
    have := h.1 (k + 1) (by rw [List.length_cons]; omega)
    rw [List.getElem?_cons_succ, show p + (k + 1) = p + 1 + k by omega] at this
    exact this
  · rw [List.getElem?_eq_none (by rw [List.length_take]; omega), List.getElem?_eq_none hk]

/-- The reader finds the instruction. -/
theorem decode_at {code : List Cell} {p : Nat} {x : Cell} {xs : List Cell} {f : List Cell → Option Insn} {i : Insn}
    (h : At code p (x :: xs)) (hx : x ≠ 130) (hr : reader x.toNat = some (xs.length, f)) (hf : f xs = some i) :
    decode code p = some (i, p + (xs.length + 1)) := by
  unfold decode
  rw [h.head]
  simp only
  rw [if_neg hx, hr]
  simp only
  rw [h.operands]
  simp only
  rw [hf]
  simp only [Option.some.injEq, Prod.mk.injEq, true_and]
  omega

/-! ### The main loop -/

theorem loop_mono {E : Env} : ∀ (n : Nat) {m p : Nat} {s : IState} {r : Res IState Cell}, loop E n m p s = some r →
    ∀ k, n ≤ k → loop E k m p s = some r
  | 0, _, _, _, _, h, _, _ => by cases h
  | n+1, m, p, s, r, h, k, hk => by
    obtain ⟨k, rfl⟩ : ∃ j, k = j + 1 := ⟨k - 1, by omega⟩
    unfold loop at h ⊢
    split at h
    · exact h
    · split at h
      · rename_i hop; rw [if_pos hop]; exact h
      · rename_i hop; rw [if_neg hop]
        split at h
        · exact h
        · split at h
          · exact h
          · exact h
          · exact loop_mono n h k (by omega)
          · exact h
          · split at h
            · exact h
            · exact loop_mono n h k (by omega)
          · split at h
            · exact h
            · split at h
              · exact h
              · split at h
                · exact h
                · exact h
                · split at h
                  · cases h
                  · rename_i hl; rw [loop_mono n hl k (by omega)]; exact h
                  · rename_i hl; rw [loop_mono n hl k (by omega)]; exact h
                  · rename_i hl; rw [loop_mono n hl k (by omega)]; exact loop_mono n h k (by omega)

theorem loop_none {E : Env} {n m p : Nat} {s : IState} (h : loop E n m p s = none) {k : Nat} (hk : k ≤ n) : loop E k m p s = none := by
  match hl : loop E k m p s with
  | none => rfl
  | some r => rw [loop_mono k hl n hk] at h; cases h

/-- An instruction at a position. -/
structure Insn.At (E : Env) (p : Nat) (i : Insn) (q : Nat) : Prop where
  head : ∃ x, E.code[p]? = some x ∧ x ≠ 46 ∧ x ≠ 166
  dec : decode E.code p = some (i, q)

theorem loop_next {E : Env} {m p q : Nat} {i : Insn} {s s' : IState} (hA : Insn.At E p i q)
    (hv : visit E m (q * 4) i s = .ok s' .next) (n : Nat) : loop E (n + 1) m p s = loop E n m q s' := by
  obtain ⟨⟨x, hx, h1, h2⟩, hd⟩ := hA
  rw [loop]
  simp only [hx, h1, h2, or_self, if_false, hd, hv]

theorem loop_goto {E : Env} {m p q t : Nat} {i : Insn} {s s' : IState} {o : Int} (hA : Insn.At E p i q)
    (hv : visit E m (q * 4) i s = .ok s' (.goto o)) (ht : jumpIndex E o = some t) (n : Nat) :
    loop E (n + 1) m p s = loop E n m t s' := by
  obtain ⟨⟨x, hx, h1, h2⟩, hd⟩ := hA
  rw [loop]
  simp only [hx, h1, h2, or_self, if_false, hd, hv, ht]

theorem loop_fail {E : Env} {m p q : Nat} {i : Insn} {s s' : IState} {e : Err} (hA : Insn.At E p i q)
    (hv : visit E m (q * 4) i s = .fail s' e) (n : Nat) : loop E (n + 1) m p s = some (.fail s' e) := by
  obtain ⟨⟨x, hx, h1, h2⟩, hd⟩ := hA
  rw [loop]
  simp only [hx, h1, h2, or_self, if_false, hd, hv]

theorem loop_ret {E : Env} {m p q : Nat} {i : Insn} {s s' : IState} (hA : Insn.At E p i q)
    (hv : visit E m (q * 4) i s = .ok s' .ret) (n : Nat) : loop E (n + 1) m p s = some (.ok s' s'.pri) := by
  obtain ⟨⟨x, hx, h1, h2⟩, hd⟩ := hA
  rw [loop]
  simp only [hx, h1, h2, or_self, if_false, hd, hv]

theorem loop_call_enter {E : Env} {m p q t : Nat} {i : Insn} {s s' s2 : IState} {o : Int} (hA : Insn.At E p i q)
    (hv : visit E m (q * 4) i s = .ok s' (.call o)) (ht : acquireMethod E o = some t) (hc : E.validate t = none) {e : Err} (he : enterMethod E t s' = .fail s2 e) (n : Nat) :
    loop E (n + 1) m p s = some (.fail s2 e) := by
  obtain ⟨⟨x, hx, h1, h2⟩, hd⟩ := hA
  rw [loop]
  simp only [hx, h1, h2, or_self, if_false, hd, hv, ht, hc, he]

theorem loop_call_none {E : Env} {m p q t : Nat} {i : Insn} {s s' s2 : IState} {o : Int} (hA : Insn.At E p i q)
    (hv : visit E m (q * 4) i s = .ok s' (.call o)) (ht : acquireMethod E o = some t) (hc : E.validate t = none) (he : enterMethod E t s' = .ok s2 ()) {n : Nat} (hl : loop E n t (t + 1) s2 = none) :
    loop E (n + 1) m p s = none := by
  obtain ⟨⟨x, hx, h1, h2⟩, hd⟩ := hA
  rw [loop]
  simp only [hx, h1, h2, or_self, if_false, hd, hv, ht, hc, he, hl]

theorem loop_call_fail {E : Env} {m p q t : Nat} {i : Insn} {s s' s2 : IState} {o : Int} (hA : Insn.At E p i q)
    (hv : visit E m (q * 4) i s = .ok s' (.call o)) (ht : acquireMethod E o = some t) (hc : E.validate t = none) (he : enterMethod E t s' = .ok s2 ()) {n : Nat} {s3 : IState} {e : Err}
    (hl : loop E n t (t + 1) s2 = some (.fail s3 e)) :
    loop E (n + 1) m p s = some (.fail s3 e) := by
  obtain ⟨⟨x, hx, h1, h2⟩, hd⟩ := hA
  rw [loop]
  simp only [hx, h1, h2, or_self, if_false, hd, hv, ht, hc, he, hl]

theorem loop_call_ok {E : Env} {m p q t : Nat} {i : Insn} {s s' s2 : IState} {o : Int} (hA : Insn.At E p i q)
    (hv : visit E m (q * 4) i s = .ok s' (.call o)) (ht : acquireMethod E o = some t) (hc : E.validate t = none) (he : enterMethod E t s' = .ok s2 ()) {n : Nat} {s3 : IState} {v : Cell}
    (hl : loop E n t (t + 1) s2 = some (.ok s3 v)) :
    loop E (n + 1) m p s = loop E n m q { vm := s3.vm, pri := v, alt := s'.alt, polls := s3.polls } := by
  obtain ⟨⟨x, hx, h1, h2⟩, hd⟩ := hA
  rw [loop]
  simp only [hx, h1, h2, or_self, if_false, hd, hv, ht, hc, he, hl]

/-- The machine gets from one point to another; `N` and `N'` bound the number of steps it needs at least. -/
structure Reach (E : Env) (m N p : Nat) (s : IState) (N' q : Nat) (s' : IState) : Prop where
  fwd : ∃ n, ∀ k r, loop E k m q s' = some r → loop E (n + k) m p s = some r
  bwd : loop E N' m q s' = none → loop E N m p s = none

theorem Reach.rfl {E : Env} {m N p : Nat} {s : IState} : Reach E m N p s N p s :=
  ⟨⟨0, fun k r h => by rw [Nat.zero_add]; exact h⟩, id⟩

theorem Reach.trans {E : Env} {m N p N1 p1 N2 p2 : Nat} {s s1 s2 : IState} (h : Reach E m N p s N1 p1 s1) (k : Reach E m N1 p1 s1 N2 p2 s2) :
    Reach E m N p s N2 p2 s2 := by
  obtain ⟨n1, h1⟩ := h.fwd
  obtain ⟨n2, h2⟩ := k.fwd
  exact ⟨⟨n1 + n2, fun j r hj => by rw [Nat.add_assoc]; exact h1 _ _ (h2 _ _ hj)⟩, fun hn => h.bwd (k.bwd hn)⟩

/-- Steps that do not count. -/
theorem Reach.of_eq {E : Env} {m N p q : Nat} {s s' : IState} (h : ∀ n, loop E (n + 1) m p s = loop E n m q s') :
    Reach E m N p s (N - 1) q s' := by
  refine ⟨⟨1, fun k r hk => by rw [Nat.add_comm]; rw [h]; exact hk⟩, fun hn => ?_⟩
  match N with
  | 0 => rfl
  | N+1 => rw [h]; exact hn

theorem Reach.relax {E : Env} {m N p N' q : Nat} {s s' : IState} (h : Reach E m N p s N' q s') {M : Nat} (hM : N' ≤ M) :
    Reach E m N p s M q s' := ⟨h.fwd, fun hn => h.bwd (loop_none hn hM)⟩

theorem Reach.fails {E : Env} {m N p N' q : Nat} {s s' s2 : IState} {e : Err} (h : Reach E m N p s N' q s') (hf : Fails E m q s' s2 e) :
    Fails E m p s s2 e := by
  obtain ⟨n, hn⟩ := h.fwd
  obtain ⟨k, hk⟩ := hf
  exact ⟨n + k, hn _ _ hk⟩

/-! ### The logic -/

/-- From `p` and `s` the machine does what `o` says: it reaches a point that satisfies `Q`, fails with the error, or keeps running
for more than `N` steps; unless it runs out of stack or time. -/
def Runs (E : Env) (L : Layout) (lim : Int) (m N p : Nat) (s : IState) {α : Type} (o : Out α) (Q : α → Store → Nat → Nat → IState → Prop) : Prop :=
  match o with
  | .ok a σ => (∃ N' q s', Reach E m N p s N' q s' ∧ Q a σ N' q s') ∨ Exhausted E lim m p s
  | .err σ e => (∃ s', Fails E m p s s' e ∧ Globals L σ.g s'.vm.mem) ∨ Exhausted E lim m p s
  | .undef => True
  | .more => loop E N m p s = none ∨ Exhausted E lim m p s

section
variable {E : Env} {L : Layout} {lim : Int} {m : Nat}

theorem Runs.exhausted {α : Type} {N p : Nat} {s : IState} {o : Out α} {Q : α → Store → Nat → Nat → IState → Prop}
    (h : Exhausted E lim m p s) : Runs E L lim m N p s o Q := by
  cases o with
  | ok => exact Or.inr h
  | err => exact Or.inr h
  | undef => exact True.intro
  | more => exact Or.inr h

theorem Runs.of_reach {α : Type} {N p N' q : Nat} {s s' : IState} {o : Out α} {Q : α → Store → Nat → Nat → IState → Prop}
    (h : Reach E m N p s N' q s') (k : Runs E L lim m N' q s' o Q) : Runs E L lim m N p s o Q := by
  have hx : Exhausted E lim m q s' → Exhausted E lim m p s := fun ⟨s2, e, hf, ho⟩ => ⟨s2, e, h.fails hf, ho⟩
  cases o with
  | ok a σ =>
    rcases k with ⟨N2, q2, s2, hr, hq⟩ | k
    · exact Or.inl ⟨N2, q2, s2, h.trans hr, hq⟩
    · exact Or.inr (hx k)
  | err σ e =>
    rcases k with ⟨s2, hf, hg⟩ | k
    · exact Or.inl ⟨s2, h.fails hf, hg⟩
    · exact Or.inr (hx k)
  | undef => exact True.intro
  | more =>
    rcases k with k | k
    · exact Or.inl (h.bwd k)
    · exact Or.inr (hx k)

theorem Runs.ok {α : Type} {N p : Nat} {s : IState} {a : α} {σ : Store} {Q : α → Store → Nat → Nat → IState → Prop} (h : Q a σ N p s) :
    Runs E L lim m N p s (.ok a σ) Q := Or.inl ⟨N, p, s, Reach.rfl, h⟩

theorem Runs.bind {α β : Type} {N p : Nat} {s : IState} {x : Ev α} {f : α → Ev β} {σ : Store} {Q : α → Store → Nat → Nat → IState → Prop}
    {R : β → Store → Nat → Nat → IState → Prop} (h : Runs E L lim m N p s (x σ) Q)
    (k : ∀ a σ' N' q s', x σ = .ok a σ' → Q a σ' N' q s' → Runs E L lim m N' q s' (f a σ') R) :
    Runs E L lim m N p s ((x >>= f) σ) R := by
  show Runs E L lim m N p s (Ev.bind x f σ) R
  unfold Ev.bind
  cases hx : x σ with
  | ok a σ' =>
    rw [hx] at h
    rcases h with ⟨N', q, s', hr, hq⟩ | h
    · exact Runs.of_reach hr (k a σ' N' q s' hx hq)
    · exact Runs.exhausted h
  | err σ' e => rw [hx] at h; exact h
  | undef => exact True.intro
  | more => rw [hx] at h; exact h

theorem Runs.mono {α : Type} {N p : Nat} {s : IState} {o : Out α} {Q R : α → Store → Nat → Nat → IState → Prop}
    (h : Runs E L lim m N p s o Q) (k : ∀ a σ N' q s', o = .ok a σ → Q a σ N' q s' → R a σ N' q s') : Runs E L lim m N p s o R := by
  cases o with
  | ok a σ =>
    rcases h with ⟨N', q, s', hr, hq⟩ | h
    · exact Or.inl ⟨N', q, s', hr, k _ _ _ _ _ rfl hq⟩
    · exact Or.inr h
  | err => exact h
  | undef => exact True.intro
  | more => exact h

/-- A step whose effect is known, without counting it. -/
theorem Runs.step {α : Type} {N p q : Nat} {s s' : IState} {o : Out α} {Q : α → Store → Nat → Nat → IState → Prop}
    (h : ∀ n, loop E (n + 1) m p s = loop E n m q s') (k : Runs E L lim m N q s' o Q) : Runs E L lim m N p s o Q :=
  Runs.of_reach ((Reach.of_eq h).relax (by omega)) k

/-- A step whose effect is known. -/
theorem Runs.count {α : Type} {N p q : Nat} {s s' : IState} {o : Out α} {Q : α → Store → Nat → Nat → IState → Prop}
    (h : ∀ n, loop E (n + 1) m p s = loop E n m q s') (k : Runs E L lim m (N - 1) q s' o Q) : Runs E L lim m N p s o Q :=
  Runs.of_reach (Reach.of_eq h) k

theorem Runs.fail {α : Type} {N p : Nat} {s s' : IState} {σ : Store} {e : Err} {Q : α → Store → Nat → Nat → IState → Prop}
    (h : loop E 1 m p s = some (.fail s' e)) (hg : Globals L σ.g s'.vm.mem) : Runs E L lim m N p s (.err σ e) Q :=
  Or.inl ⟨s', ⟨1, h⟩, hg⟩

theorem Runs.out {α : Type} {N p : Nat} {s s' : IState} {o : Out α} {e : Err} {Q : α → Store → Nat → Nat → IState → Prop}
    (h : loop E 1 m p s = some (.fail s' e)) (ho : OutOf E lim s' e) : Runs E L lim m N p s o Q :=
  Runs.exhausted ⟨s', e, ⟨1, h⟩, ho⟩

end

end Verif.Compiled

import Verif.Proofs.EnumDecl
import Verif.Model.CodeGen
/-! C88: constants and the constants of enums have the values they are written with. -/
namespace Verif.EnumDecl
variable {E : Type} {X : Exprs E}

/-- In an accepted program no name is declared twice. -/
theorem C88_distinct (junk : Cell) (p : List (Item E)) (h : Accepted X junk p) : (p.flatMap Item.declares).Nodup :=
  (names_ok p h).1

/-- A constant has the value of its expression (missing: expressions that mention the constant itself, `C88_self`). -/
theorem C88_const_partial (hX : X.Fair) (junk : Cell) (p : List (Item E)) (h : Accepted X junk p) (a : Nat) (e : E)
    (hm : .const a e ∈ p) (hs : a ∉ X.names e) :
    ∃ v, (resolve X junk p).const a = some v ∧ X.eval (resolve X junk p).const e = some v := by
  obtain ⟨l, q, rfl⟩ := List.append_of_mem hm
  obtain ⟨h1, hg, _⟩ := resolve_bad h
  simp only [enter, enterConst] at h1 hg
  by_cases hd : ((before X junk l).find a).isSome = true
  · rw [if_pos hd] at h1; cases h1
  · rw [if_neg hd] at h1 hg
    cases he : X.eval ((before X junk l).define a (.val junk)).const e with
    | none => rw [he] at h1; cases h1
    | some v =>
      rw [he] at hg
      simp only at hg
      refine ⟨v, hg.const a v (by rw [const_define, if_pos rfl]), eval_grows hX ((grows_define (.val v) (const_none hd)).trans hg) ?_⟩
      rw [← he]
      refine hX.only e _ _ fun n hn => ?_
      rw [const_define, if_neg]
      rintro rfl; exact hs hn

/-- The values of an enum: a constant with a value has that value, the first is 0 without one, and every other is one more than the
constant in front of it, or twice that with `(<<= 1)`. -/
theorem C88_enum (hX : X.Fair) (junk : Cell) (p : List (Item E)) (h : Accepted X junk p) (n : Option Nat) (t : Bool)
    (fs : List (Nat × Option E)) (hm : .enum n t fs ∈ p) :
    (∀ a e, (a, some e) ∈ fs → ∃ v, (resolve X junk p).const a = some v ∧ X.eval (resolve X junk p).const e = some v) ∧
    (∀ a, fs[0]? = some (a, none) → (resolve X junk p).const a = some 0) ∧
    (∀ (i : Nat) a e b, fs[i]? = some (a, e) → fs[i + 1]? = some (b, none) → ∃ v, (resolve X junk p).const a = some v ∧
      (resolve X junk p).const b = some (if t then v * 2 else v + 1)) := by
  obtain ⟨l, q, rfl⟩ := List.append_of_mem hm
  obtain ⟨h1, hg, _⟩ := resolve_bad h
  obtain ⟨s0, s1, last, hf, _, hg1, _, _⟩ := enum_ok (X := X) h1
  have hg : Grows s1 (resolve X junk (l ++ .enum n t fs :: q)) := hg1.trans hg
  refine ⟨fun a e hae => ?_, fun a h0 => ?_, fun i a e b hi hj => ?_⟩
  · obtain ⟨i, hi⟩ := List.getElem?_of_mem hae
    obtain ⟨v, c1, c2, _, _⟩ := hf.get hX i a _ hi
    exact ⟨v, hg.const _ _ c1, eval_grows hX hg (c2 e rfl)⟩
  · obtain ⟨v, c1, _, c3, _⟩ := hf.get hX 0 a _ h0
    rw [c3 rfl rfl] at c1
    exact hg.const _ _ c1
  · obtain ⟨v, c1, _, _, c4⟩ := hf.get hX (i + 1) b _ hj
    obtain ⟨w, d1, d2⟩ := c4 i a e rfl rfl hi
    subst d2
    exact ⟨w, hg.const _ _ d1, hg.const _ _ c1⟩

/-- Counting on from a constant: the `k`-th after it, with no values in between, is `k` more, or `2 ^ k` times as much. -/
theorem C88_run (hX : X.Fair) (junk : Cell) (p : List (Item E)) (h : Accepted X junk p) (n : Option Nat) (t : Bool)
    (fs : List (Nat × Option E)) (hm : .enum n t fs ∈ p) (i : Nat) (a : Nat) (e : Option E) (hi : fs[i]? = some (a, e)) :
    ∃ v, (resolve X junk p).const a = some v ∧ ∀ (k : Nat), (∀ j, 0 < j → j ≤ k → ∃ b, fs[i + j]? = some (b, none)) →
      ∀ b e', fs[i + k]? = some (b, e') →
      (resolve X junk p).const b = some (if t then v * BitVec.ofNat 32 (2 ^ k) else v + BitVec.ofNat 32 k) := by
  have H := C88_enum hX junk p h n t fs hm
  obtain ⟨v, hv⟩ : ∃ v, (resolve X junk p).const a = some v := by
    cases e with
    | some e => exact ⟨_, (H.1 a e (List.mem_of_getElem? hi)).choose_spec.1⟩
    | none =>
      cases i with
      | zero => exact ⟨_, H.2.1 a hi⟩
      | succ i =>
        have hl : i < fs.length := by have := (List.getElem?_eq_some_iff.1 hi).1; omega
        obtain ⟨v, _, h2⟩ := H.2.2 i fs[i].1 fs[i].2 a (List.getElem?_eq_getElem hl) hi
        exact ⟨_, h2⟩
  refine ⟨v, hv, fun k => ?_⟩
  induction k with
  | zero =>
    intro _ b e' hb
    rw [Nat.add_zero, hi] at hb
    cases hb
    rw [hv]
    cases t <;> simp
  | succ k ih =>
    intro hk b e' hb
    obtain ⟨b', hb'⟩ := hk (k + 1) (by omega) (Nat.le_refl _)
    have : (b', none) = (b, e') := Option.some.inj (hb'.symm.trans hb)
    cases this
    have hl : i + k < fs.length := by have := (List.getElem?_eq_some_iff.1 hb).1; omega
    have h1 := ih (fun j h0 hj => hk j h0 (by omega)) fs[i + k].1 fs[i + k].2 (List.getElem?_eq_getElem hl)
    obtain ⟨w, h2, h3⟩ := H.2.2 (i + k) fs[i + k].1 fs[i + k].2 b (List.getElem?_eq_getElem hl) hb
    rw [h1] at h2
    cases h2
    rw [h3]
    cases t with
    | false =>
      simp only [Bool.false_eq_true, if_false]
      rw [BitVec.add_assoc, BitVec.ofNat_add]; rfl
    | true =>
      simp only [if_true]
      rw [BitVec.mul_assoc, Nat.pow_succ, BitVec.ofNat_mul]; rfl

/-- The name of an enum, as the size of an array, is the value the next constant would have. -/
theorem C88_size (junk : Cell) (p : List (Item E)) (h : Accepted X junk p) (n : Nat) (t : Bool) (fs : List (Nat × Option E))
    (hm : .enum (some n) t fs ∈ p) :
    (fs = [] → (resolve X junk p).size n = some 0) ∧
    ∀ a e, fs.getLast? = some (a, e) → ∃ v, (resolve X junk p).const a = some v ∧
      (resolve X junk p).size n = some (if t then v * 2 else v + 1) := by
  obtain ⟨q, r, rfl⟩ := List.append_of_mem hm
  obtain ⟨h1, hg, _⟩ := resolve_bad h
  obtain ⟨s0, s1, last, hf, _, hg1, _, _, _, h6⟩ := enum_ok (X := X) h1
  have hg : Grows s1 (resolve X junk (q ++ .enum (some n) t fs :: r)) := hg1.trans hg
  have hs : (resolve X junk (q ++ .enum (some n) t fs :: r)).size n = some last := by
    have h0 : (enter X junk (before X junk q) (.enum (some n) t fs)).find n = some (.enum last) := by
      show (enterEnum X (before X junk q) (some n) t fs).find n = _
      rw [h6, find_define, if_pos rfl]
    have h2 := foldl_keep X junk n _ r _ h0
    have h3 : resolve X junk (q ++ .enum (some n) t fs :: r) =
        r.foldl (enter X junk) (enter X junk (before X junk q) (.enum (some n) t fs)) := by
      simp only [resolve, before, List.foldl_append, List.foldl_cons]
    rw [h3]
    simp only [State.size, h2]
  refine ⟨fun hn => by rw [hs, hf.last.1 hn], fun a e hl => ?_⟩
  obtain ⟨w, h2, h3⟩ := hf.last.2 a e hl
  subst h3
  exact ⟨w, hg.const _ _ h2, hs⟩

/-- What a constant's expression mentions is declared before (or the constant itself); what the value of an enum's constant mentions is declared before
the enum or further up in it. -/
theorem C88_before_use (hX : X.Fair) (junk : Cell) (p q : List (Item E)) :
    (∀ a e, Accepted X junk (p ++ .const a e :: q) → ∀ n ∈ X.names e, n ∈ p.flatMap Item.constants ∨ n = a) ∧
    ∀ m t fs, Accepted X junk (p ++ .enum m t fs :: q) → ∀ (i : Nat) a e, fs[i]? = some (a, some e) → ∀ n ∈ X.names e,
      n ∈ p.flatMap Item.constants ∨ n ∈ (fs.take i).map (·.1) := by
  constructor
  · intro a e h n hn
    obtain ⟨h1, _, _⟩ := resolve_bad h
    simp only [enter, enterConst] at h1
    split at h1
    · cases h1
    · split at h1
      · rename_i v hv
        have := hX.known e _ v hv n hn
        rw [const_define] at this
        by_cases hna : a = n
        · exact .inr hna.symm
        · rw [if_neg hna] at this
          exact .inl (before_const junk p n this)
      · cases h1
  · intro m t fs h i a e hi n hn
    obtain ⟨h1, _, _⟩ := resolve_bad h
    obtain ⟨s0, s1, last, hf, _, _, h3, _⟩ := enum_ok (X := X) h1
    rcases hf.used hX i a e hi n hn with h | h
    · rw [h3] at h
      exact .inl (before_const junk p n h)
    · exact .inr h

/-! ### Expressions of the language -/

/-- Literals, names and operators, evaluated as C37's constant folding does. -/
inductive CE
  | lit (v : Cell)
  | name (n : Nat)
  | un (o : Verif.Lang.UnOp) (e : CE)
  | bin (o : Verif.Lang.BinOp) (l r : CE)

/-- The names mentioned. -/
def CE.names : CE → List Nat
  | .lit _ => []
  | .name n => [n]
  | .un _ e => e.names
  | .bin _ l r => l.names ++ r.names

/-- compiler/semantics.cpp:542-572, 883-903 and 953-1015; where C++ leaves the result open there is none. -/
def CE.eval (env : Nat → Option Cell) : CE → Option Cell
  | .lit v => some v
  | .name n => env n
  | .un o e => (e.eval env).map (Verif.CodeGen.calcUn o)
  | .bin o l r => match l.eval env, r.eval env with
    | some a, some b => match Verif.CodeGen.calcBin o a b with
      | .value v => some v
      | _ => none
    | _, _ => none

/-- The expressions of the language are of the kind the theorems are about. -/
def ce : Exprs CE := ⟨CE.names, CE.eval⟩

theorem ce_fair : ce.Fair := by
  constructor
  · intro e l l' h
    show e.eval l = e.eval l'
    replace h : ∀ n ∈ e.names, l n = l' n := h
    induction e with
    | lit v => rfl
    | name n => exact h n (by simp [CE.names])
    | un o e ih => simp only [CE.eval, ih h]
    | bin o a b iha ihb =>
      simp only [CE.eval]
      rw [iha fun n hn => h n (List.mem_append_left _ hn), ihb fun n hn => h n (List.mem_append_right _ hn)]
  · intro e l v h
    replace h : e.eval l = some v := h
    show ∀ n ∈ e.names, l n ≠ none
    induction e generalizing v with
    | lit => intro n hn; simp [CE.names] at hn
    | name m => intro n hn; simp only [CE.names, List.mem_singleton] at hn; subst hn; rw [show l n = some v from h]; nofun
    | un o e ih =>
      simp only [CE.eval, Option.map_eq_some_iff] at h
      obtain ⟨w, h, _⟩ := h
      exact ih w h
    | bin o a b iha ihb =>
      simp only [CE.eval] at h
      split at h
      · rename_i x y hx hy
        intro n hn
        rcases List.mem_append.1 hn with hn | hn
        · exact iha x hx n hn
        · exact ihb y hy n hn
      · cases h

/-! ### Where the code does not keep the property -/

/-- `const int X = X;` is accepted, and the value is whatever memory held. -/
theorem C88_self (junk : Cell) : Accepted ce junk [.const 0 (.name 0)] ∧ (resolve ce junk [.const 0 (.name 0)]).const 0 = some junk :=
  ⟨rfl, rfl⟩

/-- `enum (<<= 1) { A, B, C }`: all are 0, and the enum has no elements. -/
theorem C88_twice_zero (junk : Cell) (p : List (Item CE)) (h : Accepted ce junk p) (n : Option Nat) (fs : List (Nat × Option CE))
    (hm : .enum n true fs ∈ p) (hn : ∀ f ∈ fs, f.2 = none) : ∀ f ∈ fs, (resolve ce junk p).const f.1 = some 0 := by
  have H := C88_enum ce_fair junk p h n true fs hm
  intro f hf
  obtain ⟨i, hi⟩ := List.getElem?_of_mem hf
  induction i generalizing f with
  | zero => exact H.2.1 f.1 (by rw [hi, ← hn f hf])
  | succ i ih =>
    have hl : i < fs.length := by have := (List.getElem?_eq_some_iff.1 hi).1; omega
    have h1 := ih fs[i] (List.getElem_mem hl) (List.getElem?_eq_getElem hl)
    obtain ⟨v, h2, h3⟩ := H.2.2 i fs[i].1 fs[i].2 f.1 (List.getElem?_eq_getElem hl) (by rw [hi, ← hn f hf])
    rw [h1] at h2
    cases h2
    exact h3

/-! ### Examples -/

/-- `const N = 3; enum E { A, B = N * 2, C, D = ~C, F }; enum (<<= 1) { G = 1, H, I };` -/
def prog : List (Item CE) :=
  [.const 0 (.lit 3),
   .enum (some 10) false [(1, none), (2, some (.bin .mul (.name 0) (.lit 2))), (3, none), (4, some (.un .inv (.name 3))), (5, none)],
   .enum none true [(6, some (.lit 1)), (7, none), (8, none)]]

example : Accepted ce 99 prog := rfl

example : [1, 2, 3, 4, 5, 6, 7, 8].map (resolve ce 99 prog).const = [some 0, some 6, some 7, some (-8), some (-7), some 1, some 2, some 4] := by
  decide

/-- The size of `E` is one more than its last constant. -/
example : (resolve ce 99 prog).size 10 = some (-6) := by decide

/-- A constant of an enum is not known in its own value, nor before it is declared. -/
example : (resolve ce 99 [.enum none false [(1, some (.name 1))]]).bad = true ∧
    (resolve ce 99 [.const 0 (.name 1), .enum none false [(1, none)]]).bad = true := by decide

end Verif.EnumDecl

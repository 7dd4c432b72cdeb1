import Verif.Proofs.Arith

/-! Constant expressions have the value the compiler computes for them. -/
namespace Verif.Compiled
open Verif.VM Verif.Lang Verif.CodeGen

theorem Ev.bind_ok {α β : Type} {x : Ev α} {f : α → Ev β} {σ σ' : Store} {a : α} (h : x σ = .ok a σ') : (x >>= f) σ = f a σ' := by
  show Ev.bind x f σ = _
  unfold Ev.bind
  rw [h]

theorem Ev.pure_ok {α : Type} (a : α) (σ : Store) : (pure a : Ev α) σ = .ok a σ := rfl

theorem binary_const (op : BinOp) (a b : Node) : (binary op a b).const = (foldBinary op a.const b.const).bind (·.value?) := by
  unfold binary
  simp only
  split <;> rfl

theorem unary_const (op : UnOp) (e : Node) : (unary op e).const = e.const.map (calcUn op) := by
  unfold unary
  simp only
  split <;> rfl

theorem toInt_ne_zero_iff (x : Cell) : x.toInt ≠ 0 ↔ x ≠ 0 := not_congr (toInt_zero_iff x)

section
variable (L : Layout) (size : Nat → Nat) (call : Nat → List Cell → Ev Cell)

mutual
theorem gen_const : ∀ (e : Expr) (v : Cell), (gen L e).const = some v → ∀ σ, eval size call e σ = .ok v σ
  | .num w, v, h, σ => by
    simp only [gen, plain] at h
    cases h
    simp only [eval]; rfl
  | .get l, v, h, σ => by simp only [gen, rvalue, plain] at h; cases h
  | .un op e, v, h, σ => by
    simp only [gen] at h
    rw [unary_const] at h
    simp only [Option.map_eq_some_iff] at h
    obtain ⟨x, hx, rfl⟩ := h
    simp only [eval]
    rw [Ev.bind_ok (gen_const e x hx σ), unop_eq_calcUn]; rfl
  | .bin op a b, v, h, σ => by
    simp only [gen] at h
    rw [binary_const] at h
    unfold foldBinary at h
    split at h
    · rename_i x y hx hy
      simp only [Option.bind_some] at h
      simp only [eval]
      rw [Ev.bind_ok (gen_const a x hx σ), Ev.bind_ok (gen_const b y hy σ)]
      refine calcBin_value ?_ σ
      unfold Folded.value? at h
      split at h
      · cases h; assumption
      · cases h
    · cases h
  | .assign op l e, v, h, σ => by simp only [gen, plain] at h; cases h
  | .incdec inc pre l, v, h, σ => by simp only [gen, plain] at h; cases h
  | .logic isOr a b, v, h, σ => by
    simp only [gen, logical, plain] at h
    unfold foldLogical at h
    split at h
    · rename_i x y hx hy
      simp only [eval]
      rw [Ev.bind_ok (gen_const a x hx σ)]
      cases h
      cases isOr
      · rcases Decidable.em (x = 0) with h0 | h0
        · rw [if_pos (by simp only [decide_eq_false_iff_not, toInt_ne_zero_iff]; exact fun h => h h0), if_neg (by simp [h0])]; rfl
        · rw [if_neg (by simp only [decide_eq_false_iff_not, toInt_ne_zero_iff]; exact fun h => h h0), Ev.bind_ok (gen_const b y hy σ)]
          simp only [Bool.false_eq_true, if_false, h0, ne_eq, not_false_eq_true, true_and, truth, toInt_zero_iff, decide_not, Bool.not_eq_true', decide_eq_false_iff_not]
          rfl
      · rcases Decidable.em (x = 0) with h0 | h0
        · rw [if_neg (by simp only [decide_eq_true_eq, toInt_ne_zero_iff]; exact fun h => h h0), Ev.bind_ok (gen_const b y hy σ)]
          simp only [if_true, h0, ne_eq, not_true, false_or, truth, toInt_zero_iff, decide_not, Bool.not_eq_true', decide_eq_false_iff_not]
          rfl
        · rw [if_pos (by simp only [decide_eq_true_eq, toInt_ne_zero_iff]; exact h0), if_pos (by rw [if_pos rfl]; exact Or.inl h0)]; rfl
    · cases h
  | .chain first op e rest, v, h, σ => by
    simp only [gen, chain, plain, foldChain] at h
    split at h
    · rename_i x y hx hy
      simp only [eval]
      rw [Ev.bind_ok (gen_const first x hx σ), Ev.bind_ok (gen_const e y hy σ)]
      obtain ⟨r, hr, hv⟩ := genRest_const rest y (true && calcRel op x y) v h σ
      rw [Ev.bind_ok hr, hv, rel_eq_calcRel, Bool.true_and]; rfl
    · cases h
  | .tern c a b, v, h, σ => by simp only [gen, ternary, plain] at h; cases h
  | .comma a b, v, h, σ => by simp only [gen, comma, plain] at h; cases h
  | .call f args, v, h, σ => by simp only [gen, callNode, plain] at h; cases h

theorem genRest_const : ∀ (rest : Rest) (y : Cell) (sofar : Bool) (v : Cell), foldChain (some y) sofar (genRest L rest) = some v → ∀ σ,
    ∃ r, evalRest size call y rest σ = .ok r σ ∧ v = truth (sofar && r)
  | .one op e, y, sofar, v, h, σ => by
    simp only [genRest, foldChain] at h
    split at h
    · rename_i x z hx hz
      cases hx
      cases h
      simp only [evalRest]
      exact ⟨rel op y z, by rw [Ev.bind_ok (gen_const e z hz σ)]; rfl, by rw [rel_eq_calcRel]; rfl⟩
    · cases h
  | .cons op e rest, y, sofar, v, h, σ => by
    simp only [genRest, foldChain] at h
    split at h
    · rename_i x z hx hz
      cases hx
      obtain ⟨r, hr, hv⟩ := genRest_const rest z (sofar && calcRel op y z) v h σ
      simp only [evalRest]
      exact ⟨rel op y z && r, by rw [Ev.bind_ok (gen_const e z hz σ), Ev.bind_ok hr]; rfl, by rw [rel_eq_calcRel, hv, Bool.and_assoc]⟩
    · cases h
end

theorem foldToConstant_value {op : BinOp} {x y v : Cell} (h : foldToConstant op x y = some (.value v)) : calcBin op x y = .value v := by
  cases op <;> simp only [foldToConstant, Option.some.injEq] at h <;> simp only [calcBin] <;> (try exact h) <;> (try cases h)
  case div | mod =>
    split at h
    · cases h
    · split at h
      · cases h
      · rename_i h1 h2; rw [if_neg h1, if_neg h2]; exact h

theorem evalConst_sound : ∀ (e : Expr) (v : Cell), evalConst L e = some (.value v) → ∀ σ, eval size call e σ = .ok v σ
  | .bin op a b, v, h, σ => by
    simp only [evalConst] at h
    split at h
    · rename_i w hw; cases h; exact gen_const L size call (.bin op a b) _ hw σ
    · split at h
      · rename_i x hx
        split at h
        · rename_i y hy
          simp only [eval]
          rw [Ev.bind_ok (evalConst_sound a x hx σ), Ev.bind_ok (evalConst_sound b y hy σ)]
          exact calcBin_value (foldToConstant_value h) σ
        · rename_i hn; exact absurd h (hn v)
      · rename_i hn; exact absurd h (hn v)
  | .tern c a b, v, h, σ => by
    simp only [evalConst] at h
    split at h
    · rename_i x hx
      split at h
      · cases h
      · cases h
      · split at h
        · rename_i z hz
          split at h
          · rename_i h0
            cases h
            simp only [eval]
            rw [Ev.bind_ok (evalConst_sound c x hx σ), if_neg (by rw [toInt_ne_zero_iff]; exact fun h => h h0)]
            exact evalConst_sound b _ hz σ
          · cases h
        · rename_i hn; exact absurd h (hn v)
    · rename_i hn; exact absurd h (hn v)
  | .num w, v, h, σ => gen_const L size call _ _ (by simp only [evalConst, Option.map_eq_some_iff] at h; obtain ⟨a, h1, h2⟩ := h; cases h2; exact h1) σ
  | .get w, v, h, σ => gen_const L size call _ _ (by simp only [evalConst, Option.map_eq_some_iff] at h; obtain ⟨a, h1, h2⟩ := h; cases h2; exact h1) σ
  | .un _ _, v, h, σ => gen_const L size call _ _ (by simp only [evalConst, Option.map_eq_some_iff] at h; obtain ⟨a, h1, h2⟩ := h; cases h2; exact h1) σ
  | .assign _ _ _, v, h, σ => gen_const L size call _ _ (by simp only [evalConst, Option.map_eq_some_iff] at h; obtain ⟨a, h1, h2⟩ := h; cases h2; exact h1) σ
  | .incdec _ _ _, v, h, σ => gen_const L size call _ _ (by simp only [evalConst, Option.map_eq_some_iff] at h; obtain ⟨a, h1, h2⟩ := h; cases h2; exact h1) σ
  | .logic _ _ _, v, h, σ => gen_const L size call _ _ (by simp only [evalConst, Option.map_eq_some_iff] at h; obtain ⟨a, h1, h2⟩ := h; cases h2; exact h1) σ
  | .chain _ _ _ _, v, h, σ => gen_const L size call _ _ (by simp only [evalConst, Option.map_eq_some_iff] at h; obtain ⟨a, h1, h2⟩ := h; cases h2; exact h1) σ
  | .comma _ _, v, h, σ => gen_const L size call _ _ (by simp only [evalConst, Option.map_eq_some_iff] at h; obtain ⟨a, h1, h2⟩ := h; cases h2; exact h1) σ
  | .call _ _, v, h, σ => gen_const L size call _ _ (by simp only [evalConst, Option.map_eq_some_iff] at h; obtain ⟨a, h1, h2⟩ := h; cases h2; exact h1) σ

end

end Verif.Compiled

import Verif.Spec.X64

/-! The decoder looks at the bytes of one instruction only: what follows does not matter. -/
namespace Verif.X64

theorem imm8_append {bs t r : List Byte} {v : Int} (h : imm8 bs = some (v, r)) : imm8 (bs ++ t) = some (v, r ++ t) := by
  unfold imm8 at h
  split at h
  · cases h; rfl
  · cases h
theorem imm32_append {bs t r : List Byte} {v : Int} (h : imm32 bs = some (v, r)) : imm32 (bs ++ t) = some (v, r ++ t) := by
  unfold imm32 at h
  split at h
  · cases h; rfl
  · cases h
theorem imm64_append {bs t r : List Byte} {v : Int} (h : imm64 bs = some (v, r)) : imm64 (bs ++ t) = some (v, r ++ t) := by
  unfold imm64 at h
  split at h
  · cases h; rfl
  · cases h

theorem ite_imp {α : Type} {c : Prop} [Decidable c] {a b a' b' x y : α} (h1 : a = x → a' = y) (h2 : b = x → b' = y) :
    (if c then a else b) = x → (if c then a' else b') = y := by
  by_cases h : c
  · rw [if_pos h, if_pos h]; exact h1
  · rw [if_neg h, if_neg h]; exact h2

theorem dispOf_append {mode : Nat} {bs t r : List Byte} {v : Int} (h : dispOf mode bs = some (v, r)) :
    dispOf mode (bs ++ t) = some (v, r ++ t) := by
  unfold dispOf at h ⊢
  split at h
  · rw [if_pos ‹_›]; cases h; rfl
  · rw [if_neg ‹_›]
    split at h
    · rw [if_pos ‹_›]; exact imm8_append h
    · rw [if_neg ‹_›]; exact imm32_append h

theorem map_append {α β : Type} {f : List Byte → Option (α × List Byte)}
    {g : α → β} {bs t r : List Byte} {b : β}
    (hf : ∀ {v r}, f bs = some (v, r) → f (bs ++ t) = some (v, r ++ t))
    (h : ((f bs).map fun (a, t) => (g a, t)) = some (b, r)) :
    ((f (bs ++ t)).map fun (a, t) => (g a, t)) = some (b, r ++ t) := by
  cases e : f bs with
  | none => rw [e] at h; cases h
  | some x =>
    obtain ⟨v, r'⟩ := x
    rw [e] at h
    cases h
    rw [hf e]; rfl

theorem sib_append {p : Pre} {mode : Nat} {bs t r : List Byte} {x : RM} (h : sib p mode bs = some (x, r)) :
    sib p mode (bs ++ t) = some (x, r ++ t) := by
  unfold sib at h
  split at h
  · cases h
  · rename_i b u
    revert h
    exact ite_imp
      (fun h => map_append (g := fun d => RM.mem ⟨none, if ext p.x (b.toNat / 8) = 4 then none else some (ext p.x (b.toNat / 8), Fin.ofNat 4 (b.toNat / 64)), d⟩) imm32_append h)
      (fun h => map_append (g := fun d => RM.mem ⟨some (ext p.b b.toNat), if ext p.x (b.toNat / 8) = 4 then none else some (ext p.x (b.toNat / 8), Fin.ofNat 4 (b.toNat / 64)), d⟩) dispOf_append h)

theorem modrm_append {p : Pre} {bs t r : List Byte} {n : Nat} {x : RM} (h : modrm p bs = some (n, x, r)) :
    modrm p (bs ++ t) = some (n, x, r ++ t) := by
  unfold modrm at h
  split at h
  · cases h
  · rename_i b u
    revert h
    refine ite_imp (fun h => ?_) (ite_imp (fun h => ?_) (ite_imp (fun h => ?_) (fun h => ?_)))
    · cases h; rfl
    · cases e : sib p (b.toNat / 64) u with
      | none => rw [e] at h; cases h
      | some y => obtain ⟨y, r'⟩ := y; rw [e] at h; cases h; rw [List.append_eq, sib_append e]; rfl
    · cases e : imm32 u with
      | none => rw [e] at h; cases h
      | some y => obtain ⟨y, r'⟩ := y; rw [e] at h; cases h; rw [List.append_eq, imm32_append e]; rfl
    · cases e : dispOf (b.toNat / 64) u with
      | none => rw [e] at h; cases h
      | some y => obtain ⟨y, r'⟩ := y; rw [e] at h; cases h; rw [List.append_eq, dispOf_append e]; rfl

theorem withRM_append {p : Pre} {bs t r : List Byte} {f : Nat → RM → Option Instr} {i : Instr}
    (h : withRM p bs f = some (i, r)) : withRM p (bs ++ t) f = some (i, r ++ t) := by
  unfold withRM at h ⊢
  split at h
  · cases h
  · rename_i reg rm u e
    rw [modrm_append e]
    simp only
    cases e2 : f reg rm with
    | none => rw [e2] at h; cases h
    | some y => rw [e2] at h; cases h; rfl

theorem withRMI_append {p : Pre} {bs t r : List Byte} {imm : List Byte → Option (Int × List Byte)}
    (himm : ∀ {bs v r}, imm bs = some (v, r) → imm (bs ++ t) = some (v, r ++ t))
    {f : Nat → RM → Int → Option Instr} {i : Instr}
    (h : withRMI p bs imm f = some (i, r)) : withRMI p (bs ++ t) imm f = some (i, r ++ t) := by
  unfold withRMI at h ⊢
  split at h
  · cases h
  · rename_i reg rm u e
    rw [modrm_append e]
    simp only
    split at h
    · cases h
    · rename_i v u' e'
      rw [himm e']
      simp only
      cases e2 : f reg rm v with
      | none => rw [e2] at h; cases h
      | some y => rw [e2] at h; cases h; rfl

theorem withImm_append {bs t r : List Byte} {imm : List Byte → Option (Int × List Byte)}
    (himm : ∀ {bs v r}, imm bs = some (v, r) → imm (bs ++ t) = some (v, r ++ t))
    {f : Int → Instr} {i : Instr}
    (h : withImm imm bs f = some (i, r)) : withImm imm (bs ++ t) f = some (i, r ++ t) :=
  map_append himm h

/-- One branch of the decoder. -/
macro "branch" h:ident : tactic => `(tactic| first
  | exact withRM_append $h
  | exact withRMI_append imm8_append $h
  | exact withRMI_append imm32_append $h
  | exact withImm_append imm8_append $h
  | exact withImm_append imm32_append $h
  | exact withImm_append imm64_append $h
  | (cases $h:ident; done)
  | (cases $h:ident; rfl))

theorem decode0f_append {p : Pre} {op : Byte} {bs t r : List Byte} {i : Instr} (h : decode0f p op bs = some (i, r)) :
    decode0f p op (bs ++ t) = some (i, r ++ t) := by
  revert h
  unfold decode0f
  repeat' (refine ite_imp ?_ ?_)
  all_goals intro h
  all_goals first | branch h | skip
  cases bs with
  | nil => cases h
  | cons o u =>
    simp only [List.cons_append] at h ⊢
    split at h
    · rw [if_pos ‹_›]; branch h
    · cases h

theorem decode1_append {p : Pre} {op : Byte} {bs t r : List Byte} {i : Instr} (h : decode1 p op bs = some (i, r)) :
    decode1 p op (bs ++ t) = some (i, r ++ t) := by
  revert h
  unfold decode1
  repeat' (refine ite_imp ?_ ?_)
  all_goals intro h
  all_goals first | branch h | skip
  split at h
  · cases h
  · rename_i r' m u e
    rw [modrm_append e]
    revert h
    repeat' (refine ite_imp ?_ ?_)
    all_goals intro h
    all_goals branch h

theorem rexPrefix_append {a b : Bool} {bs t r : List Byte} {p : Pre} (h : rexPrefix a b bs = some (p, r)) :
    rexPrefix a b (bs ++ t) = some (p, r ++ t) := by
  unfold rexPrefix at h
  split at h
  · cases h
  · rename_i c u
    simp only [List.cons_append, rexPrefix]
    split at h
    · rw [if_pos ‹_›]; cases h; rfl
    · rw [if_neg ‹_›]; cases h; rfl

theorem prefixes_append {bs t r : List Byte} {p : Pre} (h : prefixes bs = some (p, r)) :
    prefixes (bs ++ t) = some (p, r ++ t) := by
  unfold prefixes at h
  split at h
  · cases h
  · rename_i c u
    simp only [List.cons_append, prefixes]
    split at h
    · rw [if_pos ‹_›]; exact rexPrefix_append h
    · rw [if_neg ‹_›]
      split at h
      · rw [if_pos ‹_›]; exact rexPrefix_append h
      · rw [if_neg ‹_›]; exact rexPrefix_append h

theorem decode_append {bs r : List Byte} {i : Instr} (h : decode bs = some (i, r)) (t : List Byte) :
    decode (bs ++ t) = some (i, r ++ t) := by
  unfold decode at h ⊢
  split at h
  · cases h
  · cases h
  · rename_i p op u e
    rw [prefixes_append e]
    simp only [List.cons_append]
    split at h
    · rw [if_pos ‹_›]
      cases u with
      | nil => cases h
      | cons o u => exact decode0f_append h
    · rw [if_neg ‹_›]; exact decode1_append h

end Verif.X64

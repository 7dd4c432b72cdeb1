import Verif.Model.Cfg

/-! What the control-flow analyses should compute, in terms of walks in the graph. -/
namespace Verif.Cfg

/-- A walk from `u` to `v`; the list holds all blocks on it, both ends included. -/
inductive Walk (G : Graph) (u : Nat) : List Nat → Nat → Prop where
  | nil : Walk G u [u] u
  | snoc {ns : List Nat} {v w : Nat} : Walk G u ns v → (v, w) ∈ G → Walk G u (ns ++ [w]) w

/-- There is a walk from `u` to `v`. -/
def Reaches (G : Graph) (u v : Nat) : Prop := ∃ ns, Walk G u ns v

/-- Every walk from the entry to `b` passes through `a`. -/
def Dominates (G : Graph) (a b : Nat) : Prop := ∀ ns, Walk G 0 ns b → a ∈ ns

/-- `d` is the closest strict dominator of `b`. -/
def IsIdom (G : Graph) (d b : Nat) : Prop :=
  d ≠ b ∧ Dominates G d b ∧ ∀ x, x ≠ b → Dominates G x b → Dominates G x d

/-- `u` occurs in front of `v` in the list. -/
def Before (L : List Nat) (u v : Nat) : Prop := ∃ x y, L = x ++ v :: y ∧ u ∈ x

/-- A walk along which every step leads to a block further down the list. -/
inductive Descends (G : Graph) (L : List Nat) (u : Nat) : Nat → Prop where
  | refl : Descends G L u u
  | step {v w : Nat} : Descends G L u v → (v, w) ∈ G → Before L v w → Descends G L u w

/-- A non-empty walk from the first block to the second along edges between reachable blocks, none of which leads to a block
that dominates its source. -/
inductive ForwardPath (G : Graph) (u : Nat) : Nat → Prop where
  | one {v : Nat} : Reaches G 0 u → (u, v) ∈ G → ¬ Dominates G v u → ForwardPath G u v
  | more {v w : Nat} : ForwardPath G u v → (v, w) ∈ G → ¬ Dominates G w v → ForwardPath G u w

/-- Reducible: all cycles use an edge to a block that dominates the edge's source. -/
def Reducible (G : Graph) : Prop := ∀ u, ¬ ForwardPath G u u

end Verif.Cfg

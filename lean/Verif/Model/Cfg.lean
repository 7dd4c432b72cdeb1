/-!
The control-flow graph of a method and its analyses (vm/control-flow.cpp).

Blocks are natural numbers and the entry is block 0.  The graph is the list of `addTarget` calls in order
(vm/control-flow.cpp:327-331), from which a block's successor and predecessor vectors are recovered.  Reference counting is
not modelled.  Assertions are not modelled.  Loops are given fuel; `none` is an exhausted fuel or a null dereference.
-/
namespace Verif.Cfg

/-- vm/control-flow.cpp:327-331: `u->addTarget(v)` for each pair, in order. -/
abbrev Graph := List (Nat × Nat)

/-- `successors_`. -/
def succ (G : Graph) (u : Nat) : List Nat := (G.filter (·.1 = u)).map (·.2)

/-- `predecessors_`. -/
def pred (G : Graph) (v : Nat) : List Nat := (G.filter (·.2 = v)).map (·.1)

/-- Function update. -/
def upd {α : Type} (f : Nat → α) (k : Nat) (v : α) : Nat → α := fun x => if x = k then v else f x

/-! ## Ordering -/

/-- The state of the traversal: the work stack, top first; the visited marks; and the postorder, last block first, which is
the reverse postorder read from the head. -/
structure Ord where
  work : List (Nat × Nat)
  visited : Nat → Bool
  rpo : List Nat

/-- One iteration of the loop vm/control-flow.cpp:88-109. -/
def orderStep (G : Graph) (S : Ord) : Ord :=
  match S.work with
  | [] => S
  | (b, i) :: w =>
    match (succ G b)[i]? with
    | none => ⟨w, S.visited, b :: S.rpo⟩
    | some c =>
      if S.visited c then ⟨(b, i + 1) :: w, S.visited, S.rpo⟩
      else if succ G c ≠ [] then ⟨(c, 0) :: (b, i + 1) :: w, upd S.visited c true, S.rpo⟩
      else ⟨(b, i + 1) :: w, upd S.visited c true, c :: S.rpo⟩

/-- The loop vm/control-flow.cpp:88-109. -/
def orderLoop (G : Graph) : Nat → Ord → Option (List Nat)
  | 0, _ => none
  | fuel+1, S => if S.work = [] then some S.rpo else orderLoop G fuel (orderStep G S)

/-- vm/control-flow.cpp:50-122 computeOrdering: the blocks in the order of `blocks_` afterwards.  The entry is pushed without
being marked. -/
def computeOrdering (G : Graph) : Option (List Nat) :=
  orderLoop G (3 * G.length + 3) ⟨[(0, 0)], fun _ => false, []⟩

/-- vm/control-flow.cpp:113-121: `id()`: blocks are numbered from 1. -/
def rpoId (L : List Nat) (b : Nat) : Nat := L.idxOf b + 1

/-! ## Dominance -/

/-- vm/control-flow.cpp:130-142 IntersectDominators; each round is one step of one of the two inner loops. -/
def intersect (id : Nat → Nat) (idom : Nat → Option Nat) : Nat → Nat → Nat → Option Nat
  | 0, _, _ => none
  | fuel+1, f1, f2 =>
    if f1 = f2 then some f1
    else if id f1 > id f2 then
      match idom f1 with
      | none => none
      | some f1 => intersect id idom fuel f1 f2
    else
      match idom f2 with
      | none => none
      | some f2 => intersect id idom fuel f1 f2

/-- vm/control-flow.cpp:170-181: the candidate over the predecessors; the outer `none` is a null dereference. -/
def candidate (id : Nat → Nat) (idom : Nat → Option Nat) (fuel : Nat) : List Nat → Option Nat → Option (Option Nat)
  | [], acc => some acc
  | p :: ps, acc =>
    match idom p with
    | none => candidate id idom fuel ps acc
    | some _ =>
      match acc with
      | none => candidate id idom fuel ps (some p)
      | some d =>
        match intersect id idom fuel d p with
        | none => none
        | some r => candidate id idom fuel ps (some r)

/-- vm/control-flow.cpp:160-191: the loop body over the remaining blocks of `blocks_`; returns the table and `changed`. -/
def domPass (G : Graph) (id : Nat → Nat) (fuel : Nat) : List Nat → (Nat → Option Nat) → Bool → Option ((Nat → Option Nat) × Bool)
  | [], idom, ch => some (idom, ch)
  | b :: bs, idom, ch =>
    if pred G b = [] then domPass G id fuel bs idom ch
    else
      match candidate id idom fuel (pred G b) none with
      | none => none
      | some d => if d ≠ idom b then domPass G id fuel bs (upd idom b d) true else domPass G id fuel bs idom ch

/-- vm/control-flow.cpp:156-192: the do-while loop. -/
def domLoop (G : Graph) (id : Nat → Nat) (L : List Nat) : Nat → (Nat → Option Nat) → Option (Nat → Option Nat)
  | 0, _ => none
  | fuel+1, idom =>
    match domPass G id (2 * L.length + 1) L idom false with
    | none => none
    | some (idom, changed) => if changed then domLoop G id L fuel idom else some idom

/-- vm/control-flow.cpp:145-192: the immediate dominators. -/
def computeIdoms (G : Graph) (L : List Nat) : Option (Nat → Option Nat) :=
  domLoop G (rpoId L) L (L.length * (L.length + 1) + 2) (upd (fun _ => none) 0 (some 0))

/-- The dominator tree: `immediately_dominated_` and `num_dominated_`. -/
structure Tree where
  kids : Nat → List Nat
  num : Nat → Nat

/-- vm/control-flow.cpp:195-206, 353-357: the blocks in postorder. -/
def buildTree (idom : Nat → Option Nat) : List Nat → Tree → Option Tree
  | [], T => some T
  | b :: bs, T =>
    match idom b with
    | none => none
    | some d =>
      if b = d then buildTree idom bs T
      else buildTree idom bs ⟨upd T.kids d (T.kids d ++ [b]), upd T.num d (T.num d + T.num b)⟩

/-- vm/control-flow.cpp:212-224: the walk of the tree; `work` is the stack, top first.  Blocks in the order in which they are
numbered, from 0. -/
def walkTree (kids : Nat → List Nat) : Nat → List Nat → Option (List Nat)
  | _, [] => some []
  | 0, _ :: _ => none
  | fuel+1, b :: w =>
    match walkTree kids fuel ((kids b).reverse ++ w) with
    | none => none
    | some r => some (b :: r)

/-- The result of computeDominance. -/
structure Dominance where
  idom : Nat → Option Nat
  num : Nat → Nat
  treeOrder : List Nat

/-- vm/control-flow.cpp:144-230 computeDominance. -/
def computeDominance (G : Graph) (L : List Nat) : Option Dominance :=
  match computeIdoms G L with
  | none => none
  | some idom =>
    match buildTree idom L.reverse ⟨fun _ => [], fun _ => 1⟩ with
    | none => none
    | some T =>
      match walkTree T.kids (L.length + 1) [0] with
      | none => none
      | some order => some ⟨idom, T.num, order⟩

/-- `domtree_id_`. -/
def Dominance.treeId (D : Dominance) (b : Nat) : Nat := D.treeOrder.idxOf b

/-- vm/control-flow.h:101-108 Block::dominates. -/
def Dominance.dominates (D : Dominance) (a b : Nat) : Bool :=
  D.treeId b ≥ D.treeId a ∧ D.treeId b < D.treeId a + D.num a

/-! ## Loop headers -/

/-- vm/control-flow.cpp:237-248: one block: its remaining successors and the headers marked so far. -/
def headersOf (id : Nat → Nat) (D : Dominance) (b : Nat) : List Nat → (Nat → Bool) → Option (Nat → Bool)
  | [], hdr => some hdr
  | c :: cs, hdr =>
    if id c ≤ id b then
      if D.dominates c b then headersOf id D b cs (upd hdr c true) else none
    else headersOf id D b cs hdr

/-- vm/control-flow.cpp:233-251 computeLoopHeaders: `none` is the `false` return, otherwise the marks. -/
def loopHeaders (G : Graph) (id : Nat → Nat) (D : Dominance) : List Nat → (Nat → Bool) → Option (Nat → Bool)
  | [], hdr => some hdr
  | b :: bs, hdr =>
    match headersOf id D b (succ G b) hdr with
    | none => none
    | some hdr => loopHeaders G id D bs hdr

/-- What vm/graph-builder.cpp:42-47 computes on a finished graph. -/
structure Analysis where
  order : List Nat
  dom : Dominance
  header : Nat → Bool

/-- vm/graph-builder.cpp:42-47: ordering, dominance, loop headers.  The inner `none` is the rejection of an irreducible graph. -/
def analyse (G : Graph) : Option (Option Analysis) :=
  match computeOrdering G with
  | none => none
  | some L =>
    match computeDominance G L with
    | none => none
    | some D =>
      match loopHeaders G (rpoId L) D L (fun _ => false) with
      | none => some none
      | some h => some (some ⟨L, D, h⟩)

end Verif.Cfg

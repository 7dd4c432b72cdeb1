import Verif.Model.Alloc

/-! What the allocators should guarantee. -/
namespace Verif.Alloc

/-- Two regions have no byte in common. -/
def Apart (a n b m : Nat) : Prop := a + n ≤ b ∨ b + m ≤ a

/-- The pool is mapped: the cache or a chunk refers to it. -/
def Code.Mapped (A : Code) (i : Nat) : Prop := i ∈ A.cache ∨ ∃ c ∈ A.chunks, c.pool = i

/-- An answer the system may give: a non-empty, aligned region in the address space that meets no mapped pool. -/
def Code.GoodMap (A : Code) (bytes a : Nat) : Prop :=
  0 < bytes ∧ a % 16 = 0 ∧ ∀ i p, A.Mapped i → A.pools[i]? = some p → Apart a bytes p.start (p.stop - p.start)

/-- All histories of the code allocator, for a page size. -/
inductive Code.Reach (page : Nat) : Code → Prop where
  | init : Code.Reach page ⟨[], [], []⟩
  | alloc {A A' : Code} {c : Chunk} (map : Nat → Option Nat) (raw : Nat) : Code.Reach page A →
      (∀ bytes a, map bytes = some a → A.GoodMap bytes a) → A.allocate page map raw = some (some (A', c)) → Code.Reach page A'
  | release {A : Code} (k : Nat) : Code.Reach page A → Code.Reach page (A.release k)

/-- All histories of the pool allocator: requests that do not overflow when rounded up, new pools apart from old ones. -/
inductive Arena.Reach : Arena → Prop where
  | init : Arena.Reach ⟨[], []⟩
  | alloc {A : Arena} (fresh : Nat → Nat) (bytes : Nat) : Arena.Reach A → bytes ≤ 18446744073709551608 →
      (∀ n, fresh n % 8 = 0 ∧ ∀ p ∈ A.pools, Apart (fresh n) n p.start (p.stop - p.start)) →
      Arena.Reach (A.rawAllocate fresh bytes).1

/-- What is done to a byte buffer. -/
inductive BufOp where
  | write (bs : List (BitVec 8))
  | preallocate (n : Nat)
  | reserve (n : Nat)
  | patch (at' : Nat) (bs : List (BitVec 8))

/-- Carry it out. -/
def BufOp.run (b : Buf) : BufOp → Buf × Bool
  | .write bs => b.write bs
  | .preallocate n => b.preallocate n
  | .reserve n => b.ensure n
  | .patch at' bs => (b.patch at' bs, true)

/-- What a successful operation means for the bytes written so far. -/
def BufOp.effect (l : List (BitVec 8)) : BufOp → List (BitVec 8)
  | .write bs => l ++ bs
  | .preallocate n => l ++ List.replicate n 0
  | .reserve _ => l
  | .patch at' bs => l.take at' ++ bs ++ l.drop (at' + bs.length)

/-- Patches stay within what was written. -/
def BufOp.Within (l : List (BitVec 8)) : BufOp → Prop
  | .patch at' bs => at' + bs.length ≤ l.length
  | _ => True

/-- All histories of a byte buffer, with the bytes its successful operations should have left. -/
inductive Buf.Hist : Buf → List (BitVec 8) → Prop where
  | init : Buf.Hist Buf.empty []
  | ok {b : Buf} {l : List (BitVec 8)} (o : BufOp) : Buf.Hist b l → o.Within l → (o.run b).2 = true →
      Buf.Hist (o.run b).1 (o.effect l)
  | failed {b : Buf} {l : List (BitVec 8)} (o : BufOp) : Buf.Hist b l → o.Within l → (o.run b).2 = false →
      Buf.Hist (o.run b).1 l

end Verif.Alloc

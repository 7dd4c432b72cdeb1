/-!
Allocators: the executable-code allocator (vm/code-allocator.cpp), the compiler's pool allocator (utils/pool-allocator.h,
utils/pool-allocator.cpp) and the growable byte buffer (utils/byte-buffer.h).  A 64-bit host.  Memory obtained from the system
is an input.
-/
namespace Verif.Alloc

/-- `ke::Align` of amtl/am-bits.h (not in the repository): up to the next multiple, in 64-bit arithmetic. -/
def alignUp (n a : Nat) : Nat := (n + (a - n % a) % a) % 18446744073709551616

/-! ## Code allocator -/

/-- vm/code-allocator.h:28-58 CodePool. -/
structure Pool where
  start : Nat
  ptr : Nat
  stop : Nat
deriving DecidableEq

/-- vm/code-allocator.h:41-43 bytesFree. -/
def Pool.free (p : Pool) : Nat := p.stop - p.ptr

/-- vm/code-allocator.h:60-82 CodeChunk: which pool, where, and how long. -/
structure Chunk where
  pool : Nat
  addr : Nat
  bytes : Nat
deriving DecidableEq

/-- The allocator: all pools ever made, by number; the cache; and the chunks still held by users.  A pool lives as long as the
cache or a chunk refers to it. -/
structure Code where
  pools : List Pool
  cache : List Nat
  chunks : List Chunk
deriving DecidableEq

/-- Free bytes of pool `i`. -/
def Code.free (A : Code) (i : Nat) : Nat := match A.pools[i]? with | some p => p.free | none => 0

/-- vm/code-allocator.cpp:80-93 findPool, one step of the loop. -/
def Code.better (A : Code) (bytes : Nat) (min : Option Nat) (i : Nat) : Option Nat :=
  if bytes > A.free i then min
  else match min with
    | none => some i
    | some j => if A.free i < A.free j then some i else min

/-- vm/code-allocator.cpp:80-93 findPool. -/
def Code.findPool (A : Code) (bytes : Nat) : Option Nat := A.cache.foldl (A.better bytes) none

/-- vm/code-allocator.cpp:95-99 allocateInPool and 156-162 CodePool::allocate; `none` when the assertion fails. -/
def Code.take (A : Code) (i bytes : Nat) : Option (Code × Chunk) :=
  match A.pools[i]? with
  | none => none
  | some p =>
    if p.ptr + bytes ≤ p.stop then
      let c : Chunk := ⟨i, p.ptr, bytes⟩
      some ({ A with pools := A.pools.set i { p with ptr := p.ptr + bytes }, chunks := c :: A.chunks }, c)
    else none

/-- vm/code-allocator.cpp:121-124: the size of a new pool. -/
def poolBytes (page ask : Nat) : Nat := if ask < 1048576 then 1048576 else alignUp ask page

/-- vm/code-allocator.cpp:66-70: the first position in the cache with the least free space. -/
def Code.minIndex (A : Code) : Nat → Nat → Nat → Nat
  | 0, _, m => m
  | k+1, i, m => A.minIndex k (i + 1) (if A.free (A.cache.getD i 0) < A.free (A.cache.getD m 0) then i else m)

/-- vm/code-allocator.cpp:60-73: entering pool `i` into the cache. -/
def Code.enter (A : Code) (i : Nat) : Code :=
  if A.cache.length < 8 then { A with cache := A.cache ++ [i] }
  else
    let m := A.minIndex (A.cache.length - 1) 1 0
    if A.free (A.cache.getD m 0) < A.free i then { A with cache := A.cache.set m i } else A

/-- vm/code-allocator.cpp:44-76 Allocate.  `map` is what the system answers when asked for that many bytes.  The outer `none` is
a failed assertion; the inner one an empty chunk. -/
def Code.allocate (page : Nat) (map : Nat → Option Nat) (raw : Nat) (A : Code) : Option (Option (Code × Chunk)) :=
  let bytes := alignUp raw 16
  if bytes < raw then some none
  else match A.findPool bytes with
    | some i => (A.take i bytes).map some
    | none =>
      match map (poolBytes page bytes) with
      | none => some none
      | some a =>
        let A1 : Code := { A with pools := A.pools ++ [⟨a, a, a + poolBytes page bytes⟩] }
        match A1.take A.pools.length bytes with
        | none => none
        | some (A2, c) => some (some (A2.enter A.pools.length, c))

/-- A chunk goes away (its reference to the pool with it). -/
def Code.release (A : Code) (k : Nat) : Code := { A with chunks := A.chunks.eraseIdx k }

/-! ## Pool allocator -/

/-- utils/pool-allocator.h:41-67 PoolAllocator: its pools, newest last, and what was handed out: address and bytes asked for. -/
structure Arena where
  pools : List Pool
  given : List (Nat × Nat)
deriving DecidableEq

/-- utils/pool-allocator.h:85-95 rawAllocate and utils/pool-allocator.cpp:39-53 ensurePool.  `fresh` is where the system puts a
new pool of that size. -/
def Arena.rawAllocate (fresh : Nat → Nat) (bytes : Nat) (A : Arena) : Arena × Nat :=
  let actual := alignUp bytes 8
  let A := match A.pools.getLast? with
    | some p => if p.free < actual then { A with pools := A.pools ++ [newPool fresh actual] } else A
    | none => { A with pools := A.pools ++ [newPool fresh actual] }
  match A.pools.getLast? with
  | some p => ({ pools := A.pools.dropLast ++ [{ p with ptr := p.ptr + actual }], given := (p.ptr, bytes) :: A.given }, p.ptr)
  | none => (A, 0)
where
  newPool (fresh : Nat → Nat) (actual : Nat) : Pool :=
    let n := if actual < 65536 then 65536 else actual
    ⟨fresh n, fresh n, fresh n + n⟩

/-! ## Byte buffer -/

/-- utils/byte-buffer.h:31-137 ByteBuffer: the whole buffer, the position and the failure flag. -/
structure Buf where
  data : List (BitVec 8)
  pos : Nat
  oom : Bool
deriving DecidableEq

/-- utils/byte-buffer.h:34-39: 256 zero bytes. -/
def Buf.empty : Buf := ⟨List.replicate 256 0, 0, false⟩

/-- utils/byte-buffer.h:113-128 tryRealloc; running out of memory is not modelled. -/
def Buf.realloc (b : Buf) (n : Nat) : Option Buf :=
  if n > 2147483647 then none
  else some { b with data := b.data.take b.pos ++ List.replicate (n - b.pos) 0 }

/-- utils/byte-buffer.h:98-111 growBy. -/
def Buf.growBy (b : Buf) (extra : Nat) : Option Buf :=
  let prev := b.data.length
  let half : Option Buf :=
    if prev + prev / 2 < 18446744073709551616 then
      if prev + prev / 2 - b.pos ≥ extra then b.realloc (prev + prev / 2) else none
    else none
  match half with
  | some b' => some b'
  | none => if prev + extra < 18446744073709551616 then b.realloc (prev + extra) else none

/-- utils/byte-buffer.h:89-96 ensureSpace: the buffer afterwards and whether there is room. -/
def Buf.ensure (b : Buf) (n : Nat) : Buf × Bool :=
  if b.data.length - b.pos < n then
    match b.growBy n with
    | some b' => (b', true)
    | none => ({ b with oom := true }, false)
  else (b, true)

/-- Overwrite bytes from a position on. -/
def overwrite (l : List (BitVec 8)) (at' : Nat) (bs : List (BitVec 8)) : List (BitVec 8) :=
  l.take at' ++ bs ++ l.drop (at' + bs.length)

/-- utils/byte-buffer.h:41-57 write and writeBytes. -/
def Buf.write (b : Buf) (bs : List (BitVec 8)) : Buf × Bool :=
  match b.ensure bs.length with
  | (b', true) => ({ b' with data := overwrite b'.data b'.pos bs, pos := b'.pos + bs.length }, true)
  | (b', false) => (b', false)

/-- utils/byte-buffer.h:59-67 preallocate, release build. -/
def Buf.preallocate (b : Buf) (n : Nat) : Buf × Bool :=
  match b.ensure n with
  | (b', true) => ({ b' with pos := b'.pos + n }, true)
  | (b', false) => (b', false)

/-- utils/byte-buffer.h:69-73 ptr, used to store bytes at an earlier position. -/
def Buf.patch (b : Buf) (at' : Nat) (bs : List (BitVec 8)) : Buf := { b with data := overwrite b.data at' bs }

/-- utils/byte-buffer.h:80-88 bytes and size: what the user of the buffer gets. -/
def Buf.contents (b : Buf) : List (BitVec 8) := b.data.take b.pos

end Verif.Alloc

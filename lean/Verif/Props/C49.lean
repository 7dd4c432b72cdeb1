import Verif.Proofs.Alloc

/-! C49, C50: allocators and the byte buffer. -/
namespace Verif.Alloc

theorem Code.reach_inv {page : Nat} {A : Code} (hp : 0 < page) (hpd : page ∣ 18446744073709551616) (h : Code.Reach page A) : A.Inv := by
  induction h with
  | init => exact Code.inv_init
  | alloc map raw _ hg ha ih => exact (Code.allocate_spec ih hp hpd hg ha).1
  | release k _ ih => exact Code.release_inv ih k

/-- **C49.**  In every history of allocations and releases, whatever sizes are asked for and wherever the system puts new
pools, the chunks in use have no byte in common, start at multiples of 16, and lie inside a pool that is still mapped. -/
theorem C49_chunks (page : Nat) (A : Code) (hp : 0 < page) (hpd : page ∣ 18446744073709551616) (h : Code.Reach page A) :
    A.chunks.Pairwise (fun c d => Apart c.addr c.bytes d.addr d.bytes) ∧
    ∀ c ∈ A.chunks, c.addr % 16 = 0 ∧ A.Mapped c.pool ∧
      ∃ p, A.pools[c.pool]? = some p ∧ p.start ≤ c.addr ∧ c.addr + c.bytes ≤ p.stop := by
  have I := Code.reach_inv hp hpd h
  constructor
  · refine I.pair.imp_of_mem ?_
    intro c d hc hd hcd
    by_cases he : c.pool = d.pool
    · exact hcd he
    · obtain ⟨p, hp, h1, h2, _⟩ := I.chunk c hc
      obtain ⟨q, hq, h3, h4, _⟩ := I.chunk d hd
      have := I.disj c.pool d.pool p q he (Or.inr ⟨c, hc, rfl⟩) (Or.inr ⟨d, hd, rfl⟩) hp hq
      have hp2 := I.pool _ _ hp
      have hq2 := I.pool _ _ hq
      unfold Apart at *
      omega
  · intro c hc
    obtain ⟨p, hp, h1, h2, h3⟩ := I.chunk c hc
    have hp2 := I.pool _ _ hp
    exact ⟨h3, Or.inr ⟨c, hc, rfl⟩, p, hp, h1, by omega⟩

/-- **C49, requests.**  A request never trips the pool's assertion; if it succeeds the chunk has at least the bytes asked for, in
a multiple of 16, and is added to the chunks in use without moving the others. -/
theorem C49_request (page raw : Nat) (map : Nat → Option Nat) (A : Code) (hp : 0 < page) (hpd : page ∣ 18446744073709551616)
    (h : Code.Reach page A) (hg : ∀ bytes a, map bytes = some a → A.GoodMap bytes a) :
    (A.allocate page map raw).isSome = true ∧
    ∀ A' c, A.allocate page map raw = some (some (A', c)) → A'.chunks = c :: A.chunks ∧ raw ≤ c.bytes ∧ c.bytes % 16 = 0 := by
  have I := Code.reach_inv hp hpd h
  refine ⟨?_, fun A' c ha => (Code.allocate_spec I hp hpd hg ha).2⟩
  unfold Code.allocate
  simp only
  split
  · rfl
  · split
    · rename_i i hf
      obtain ⟨hc, hfree⟩ := Code.findPool_some hf
      have hlt := I.cache i hc
      unfold Code.free at hfree
      unfold Code.take
      rw [List.getElem?_eq_getElem hlt] at hfree ⊢
      simp only [Pool.free] at hfree ⊢
      have := I.pool i _ (List.getElem?_eq_getElem hlt)
      rw [if_pos (by omega)]
      rfl
    · split
      · rfl
      · rename_i a hm
        obtain ⟨g0, _⟩ := hg _ a hm
        have hlt : alignUp raw 16 < 18446744073709551616 := by unfold alignUp; omega
        have hle := poolBytes_spec hp hpd g0 hlt
        unfold Code.take
        rw [List.getElem?_append_right (Nat.le_refl _), Nat.sub_self]
        simp only [List.getElem?_cons_zero]
        rw [if_pos (by omega)]
        rfl

/-- Two requests of 100 and 2000000 bytes: two pools, two chunks, all hypotheses met. -/
example : ∃ A : Code, Code.Reach 4096 A ∧ A.chunks = [⟨1, 16777216, 2000000⟩, ⟨0, 4096, 112⟩] ∧ A.cache = [0, 1] := by
  have h1 : Code.Reach 4096 ⟨[⟨4096, 4208, 1052672⟩], [0], [⟨0, 4096, 112⟩]⟩ :=
    .alloc (fun n => if n = 0 then none else some 4096) 100 .init (by
      intro bytes a h
      split at h
      · cases h
      · cases h
        refine ⟨by omega, by omega, ?_⟩
        rintro i p (h | ⟨c, h, _⟩) <;> simp at h) rfl
  exact ⟨_, .alloc (fun n => if n = 0 then none else some 16777216) 2000000 h1 (by
      intro bytes a h
      split at h
      · cases h
      · cases h
        refine ⟨by omega, by omega, ?_⟩
        intro i p _ hp
        match i with
        | 0 => cases hp; exact Or.inr (by simp only; omega)
        | i+1 => cases hp) rfl, rfl, rfl⟩

/-! ## Pool allocator -/

/-- The invariant of the pool allocator. -/
structure Arena.Inv (A : Arena) : Prop where
  pool : ∀ p ∈ A.pools, p.start ≤ p.ptr ∧ p.ptr ≤ p.stop ∧ p.start % 8 = 0 ∧ p.ptr % 8 = 0
  apart : A.pools.Pairwise fun p q => Apart p.start (p.stop - p.start) q.start (q.stop - q.start)
  given : ∀ g ∈ A.given, g.1 % 8 = 0 ∧ ∃ p ∈ A.pools, p.start ≤ g.1 ∧ g.1 + g.2 ≤ p.ptr
  pair : A.given.Pairwise fun g k => Apart g.1 g.2 k.1 k.2

theorem Arena.newPool_ok {fresh : Nat → Nat} {actual : Nat} {A : Arena} (I : A.Inv) (h8 : actual % 8 = 0)
    (hf : ∀ n, fresh n % 8 = 0 ∧ ∀ p ∈ A.pools, Apart (fresh n) n p.start (p.stop - p.start)) :
    Arena.Inv { A with pools := A.pools ++ [Arena.rawAllocate.newPool fresh actual] } ∧
    actual ≤ (Arena.rawAllocate.newPool fresh actual).free := by
  have hfr := (hf (if actual < 65536 then 65536 else actual)).1
  refine ⟨⟨?_, ?_, ?_, I.pair⟩, ?_⟩
  · intro p hp
    rw [List.mem_append, List.mem_singleton] at hp
    rcases hp with hp | rfl
    · exact I.pool p hp
    · unfold Arena.rawAllocate.newPool
      exact ⟨Nat.le_refl _, by simp only; omega, hfr, hfr⟩
  · rw [List.pairwise_append]
    refine ⟨I.apart, by simp, ?_⟩
    intro p hp q hq
    rw [List.mem_singleton] at hq
    subst hq
    unfold Arena.rawAllocate.newPool
    simp only
    have := (hf (if actual < 65536 then 65536 else actual)).2 p hp
    rw [Nat.add_sub_cancel_left]
    exact Or.symm this
  · intro g hg
    obtain ⟨h1, p, hp, h2⟩ := I.given g hg
    exact ⟨h1, p, List.mem_append_left _ hp, h2⟩
  · unfold Arena.rawAllocate.newPool Pool.free
    simp only
    split <;> omega

theorem Arena.take_ok {A : Arena} {init : List Pool} {p : Pool} {actual bytes : Nat} (I : A.Inv) (hA : A.pools = init ++ [p])
    (hr : actual ≤ p.free) (h8 : actual % 8 = 0) (hb : bytes ≤ actual) :
    Arena.Inv { pools := A.pools.dropLast ++ [{ p with ptr := p.ptr + actual }], given := (p.ptr, bytes) :: A.given } := by
  unfold Pool.free at hr
  have hp : p ∈ A.pools := by rw [hA]; simp
  obtain ⟨p1, p2, p3, p4⟩ := I.pool p hp
  have hap := I.apart
  rw [hA, List.pairwise_append] at hap
  obtain ⟨ha1, _, ha2⟩ := hap
  rw [hA, List.dropLast_concat]
  refine ⟨?_, ?_, ?_, ?_⟩
  · intro q hq
    simp only [List.mem_append, List.mem_singleton] at hq
    rcases hq with hq | rfl
    · exact I.pool q (by rw [hA]; exact List.mem_append_left _ hq)
    · exact ⟨by simp only; omega, by simp only; omega, p3, by simp only; omega⟩
  · simp only
    rw [List.pairwise_append]
    refine ⟨ha1, by simp, ?_⟩
    intro q hq r hr'
    rw [List.mem_singleton] at hr'
    subst hr'
    exact ha2 q hq p (by simp)
  · intro g hg
    rcases List.mem_cons.1 hg with rfl | hg
    · exact ⟨p4, _, List.mem_append_right _ (List.mem_singleton.2 rfl), p1, by simp only; omega⟩
    · obtain ⟨h1, q, hq, h2, h3⟩ := I.given g hg
      rw [hA, List.mem_append, List.mem_singleton] at hq
      rcases hq with hq | rfl
      · exact ⟨h1, q, List.mem_append_left _ hq, h2, h3⟩
      · exact ⟨h1, _, List.mem_append_right _ (List.mem_singleton.2 rfl), h2, by simp only; omega⟩
  · simp only [List.pairwise_cons]
    refine ⟨?_, I.pair⟩
    intro g hg
    obtain ⟨_, q, hq, h2, h3⟩ := I.given g hg
    have hqi := I.pool q hq
    rw [hA, List.mem_append, List.mem_singleton] at hq
    rcases hq with hq | rfl
    · have := ha2 q hq p (by simp)
      unfold Apart at *
      omega
    · exact Or.inr h3

theorem Arena.reach_inv {A : Arena} (h : Arena.Reach A) : A.Inv := by
  induction h with
  | init => constructor <;> simp
  | @alloc A fresh bytes _ hb hf I =>
    obtain ⟨h8, hle⟩ := align8 hb
    obtain ⟨N1, N2⟩ := Arena.newPool_ok (actual := alignUp bytes 8) I h8 hf
    unfold Arena.rawAllocate
    simp only
    cases hl : A.pools.getLast? with
    | none =>
      simp only
      rw [List.getLast?_concat]
      exact Arena.take_ok N1 rfl N2 h8 hle
    | some p =>
      simp only
      obtain ⟨init, hinit⟩ := List.getLast?_eq_some_iff.1 hl
      by_cases hfree : p.free < alignUp bytes 8
      · rw [if_pos hfree]
        simp only
        rw [List.getLast?_concat]
        exact Arena.take_ok N1 rfl N2 h8 hle
      · rw [if_neg hfree, hl]
        exact Arena.take_ok I hinit (by omega) h8 hle

/-- **C50, pool allocator**, for requests that do not overflow when rounded up to a multiple of 8: in every history all blocks
handed out start at multiples of 8 and no two have a byte in common.  Missing: `C50_rounding_wraps`. -/
theorem C50_arena_partial (A : Arena) (h : Arena.Reach A) :
    (∀ g ∈ A.given, g.1 % 8 = 0 ∧ ∃ p ∈ A.pools, p.start ≤ g.1 ∧ g.1 + g.2 ≤ p.stop) ∧
    A.given.Pairwise (fun g k => Apart g.1 g.2 k.1 k.2) := by
  have I := Arena.reach_inv h
  refine ⟨?_, I.pair⟩
  intro g hg
  obtain ⟨h1, p, hp, h2, h3⟩ := I.given g hg
  have := I.pool p hp
  exact ⟨h1, p, hp, h2, by omega⟩

/-- A history of three requests, the last of which needs a second pool. -/
example : ∃ A, Arena.Reach A ∧ A.given = [(1048576, 70000), (4104, 20), (4096, 5)] := by
  have h1 : Arena.Reach ⟨[⟨4096, 4104, 69632⟩], [(4096, 5)]⟩ :=
    .alloc (fun _ => 4096) 5 .init (by omega) (fun n => ⟨by omega, by simp⟩)
  have h2 : Arena.Reach ⟨[⟨4096, 4128, 69632⟩], [(4104, 20), (4096, 5)]⟩ :=
    .alloc (fun _ => 1048576) 20 h1 (by omega) (fun n => ⟨by omega, by
      intro p hp; simp at hp; subst hp; exact Or.inr (by simp only; omega)⟩)
  exact ⟨_, .alloc (fun _ => 1048576) 70000 h2 (by omega) (fun n => ⟨by omega, by
      intro p hp; simp at hp; subst hp; exact Or.inr (by simp only; omega)⟩), rfl⟩

/-- **A request of 2^64 - 1 bytes is granted without room**: the rounding wraps to 0, and two such requests get the same
address. -/
theorem C50_rounding_wraps : ∃ A : Arena, Arena.Reach A ∧
    (A.rawAllocate (fun _ => 4096) 18446744073709551615).2 = 4104 ∧
    ((A.rawAllocate (fun _ => 4096) 18446744073709551615).1.rawAllocate (fun _ => 4096) 18446744073709551615).2 = 4104 :=
  ⟨⟨[⟨4096, 4104, 69632⟩], [(4096, 5)]⟩, .alloc (fun _ => 4096) 5 .init (by omega) (fun n => ⟨by omega, by simp⟩), rfl, rfl⟩

/-! ## Byte buffer -/

/-- The invariant of the buffer. -/
structure Buf.Inv (b : Buf) (l : List (BitVec 8)) : Prop where
  data : ∃ k, b.data = l ++ List.replicate k 0
  pos : b.pos = l.length
  cap : b.data.length ≤ 2147483647

theorem Buf.realloc_inv {b b' : Buf} {l : List (BitVec 8)} {n : Nat} (I : b.Inv l) (hn : b.pos ≤ n) (h : b.realloc n = some b') :
    b'.Inv l ∧ b'.data.length = n ∧ b'.pos = b.pos ∧ b'.oom = b.oom := by
  unfold Buf.realloc at h
  split at h
  · cases h
  · rename_i hle
    cases h
    obtain ⟨k, hk⟩ := I.data
    have hp := I.pos
    have ht : b.data.take b.pos = l := by rw [hk, hp, List.take_left]
    refine ⟨⟨⟨n - b.pos, by simp only; rw [ht]⟩, hp, ?_⟩, ?_, rfl, rfl⟩
    · simp only; rw [ht]; simp; omega
    · simp only; rw [ht]; simp; omega

theorem Buf.grow_inv {b b' : Buf} {l : List (BitVec 8)} {n : Nat} (I : b.Inv l) (h : b.growBy n = some b') :
    b'.Inv l ∧ n ≤ b'.data.length - b'.pos ∧ b'.oom = b.oom := by
  have hle : b.pos ≤ b.data.length := by
    obtain ⟨k, hk⟩ := I.data
    rw [hk, I.pos]; simp
  unfold Buf.growBy at h
  simp only at h
  split at h
  · rename_i b1 hh
    cases h
    split at hh
    · split at hh
      · rename_i hge
        obtain ⟨h1, h2, h3, h4⟩ := Buf.realloc_inv I (by omega) hh
        exact ⟨h1, by rw [h2, h3]; exact hge, h4⟩
      · cases hh
    · cases hh
  · split at h
    · obtain ⟨h1, h2, h3, h4⟩ := Buf.realloc_inv I (by omega) h
      exact ⟨h1, by omega, h4⟩
    · cases h

theorem Buf.grow_none {b : Buf} {n : Nat} (h : b.growBy n = none) :
    2147483647 < b.data.length + n := by
  unfold Buf.growBy at h
  simp only at h
  split at h
  · cases h
  · split at h
    · unfold Buf.realloc at h
      split at h
      · omega
      · cases h
    · omega

theorem Buf.ensure_inv {b : Buf} {l : List (BitVec 8)} (n : Nat) (I : b.Inv l) :
    (b.ensure n).1.Inv l ∧ ((b.ensure n).2 = true → n ≤ (b.ensure n).1.data.length - (b.ensure n).1.pos ∧ (b.ensure n).1.oom = b.oom) ∧
    ((b.ensure n).2 = false → (b.ensure n).1.oom = true ∧ 2147483647 < b.data.length + n) := by
  unfold Buf.ensure
  split
  · cases h : b.growBy n with
    | none =>
      refine ⟨⟨I.data, I.pos, I.cap⟩, nofun, fun _ => ⟨rfl, Buf.grow_none h⟩⟩
    | some b' =>
      obtain ⟨h1, h2, h3⟩ := Buf.grow_inv I h
      exact ⟨h1, fun _ => ⟨h2, h3⟩, nofun⟩
  · rename_i hge
    exact ⟨I, fun _ => ⟨by simp only; omega, rfl⟩, nofun⟩

theorem overwrite_tail {l bs : List (BitVec 8)} {k : Nat} (h : bs.length ≤ k) :
    overwrite (l ++ List.replicate k 0) l.length bs = l ++ bs ++ List.replicate (k - bs.length) 0 := by
  unfold overwrite
  rw [List.take_left, List.drop_append, List.drop_eq_nil_of_le (by omega), List.nil_append, List.drop_replicate]
  congr 2
  omega

theorem Buf.run_ok {b : Buf} {l : List (BitVec 8)} (o : BufOp) (I : b.Inv l) (hw : o.Within l) (h : (o.run b).2 = true) :
    (o.run b).1.Inv (o.effect l) := by
  cases o with
  | write bs =>
    obtain ⟨h1, h2, _⟩ := Buf.ensure_inv bs.length I
    unfold BufOp.run Buf.write at *
    simp only at *
    cases he : b.ensure bs.length with
    | mk b' ok =>
      rw [he] at h h1 h2
      cases ok with
      | false => cases h
      | true =>
        simp only at h1 h2 ⊢
        obtain ⟨k, hk⟩ := h1.data
        have hp := h1.pos
        obtain ⟨h2, _⟩ := h2 trivial
        have hkk : bs.length ≤ k := by
          rw [hk, hp] at h2; simp at h2; exact h2
        have hcap := h1.cap
        rw [hk] at hcap
        simp only [List.length_append, List.length_replicate] at hcap
        refine ⟨⟨k - bs.length, ?_⟩, by simp only [BufOp.effect]; rw [hp]; simp, ?_⟩
        · simp only [BufOp.effect]
          rw [hk, hp, overwrite_tail hkk]
        · simp only
          rw [hk, hp, overwrite_tail hkk]
          simp only [List.length_append, List.length_replicate]
          omega
  | preallocate n =>
    obtain ⟨h1, h2, _⟩ := Buf.ensure_inv n I
    unfold BufOp.run Buf.preallocate at *
    simp only at *
    cases he : b.ensure n with
    | mk b' ok =>
      rw [he] at h h1 h2
      cases ok with
      | false => cases h
      | true =>
        simp only at h1 h2 ⊢
        obtain ⟨k, hk⟩ := h1.data
        have hp := h1.pos
        obtain ⟨h2, _⟩ := h2 trivial
        have hkk : n ≤ k := by
          rw [hk, hp] at h2; simp at h2; exact h2
        refine ⟨⟨k - n, ?_⟩, by simp only [BufOp.effect]; rw [hp]; simp, h1.cap⟩
        simp only [BufOp.effect]
        rw [hk, List.append_assoc, List.replicate_append_replicate]
        congr 2
        omega
  | reserve n => exact (Buf.ensure_inv n I).1
  | patch at' bs =>
    have hle : at' + bs.length ≤ l.length := hw
    obtain ⟨k, hk⟩ := I.data
    have hov : overwrite b.data at' bs = l.take at' ++ bs ++ l.drop (at' + bs.length) ++ List.replicate k 0 := by
      unfold overwrite
      rw [hk, List.take_append_of_le_length (by omega), List.drop_append_of_le_length hle]
      simp only [List.append_assoc]
    have hlen : (l.take at' ++ bs ++ l.drop (at' + bs.length)).length = l.length := by
      simp; omega
    refine ⟨⟨k, hov⟩, ?_, ?_⟩
    · show b.pos = _
      rw [I.pos]; exact hlen.symm
    · show (overwrite b.data at' bs).length ≤ _
      rw [hov, List.length_append, hlen]
      have := I.cap
      rw [hk] at this
      simpa using this

theorem Buf.run_failed {b : Buf} {l : List (BitVec 8)} (o : BufOp) (I : b.Inv l) (h : (o.run b).2 = false) :
    (o.run b).1.Inv l ∧ (o.run b).1.oom = true := by
  cases o with
  | write bs =>
    obtain ⟨h1, _, h3⟩ := Buf.ensure_inv bs.length I
    unfold BufOp.run Buf.write at *
    simp only at *
    cases he : b.ensure bs.length with
    | mk b' ok =>
      rw [he] at h h1 h3
      cases ok with
      | true => cases h
      | false => exact ⟨h1, (h3 rfl).1⟩
  | preallocate n =>
    obtain ⟨h1, _, h3⟩ := Buf.ensure_inv n I
    unfold BufOp.run Buf.preallocate at *
    simp only at *
    cases he : b.ensure n with
    | mk b' ok =>
      rw [he] at h h1 h3
      cases ok with
      | true => cases h
      | false => exact ⟨h1, (h3 rfl).1⟩
  | reserve n =>
    obtain ⟨h1, _, h3⟩ := Buf.ensure_inv n I
    exact ⟨h1, (h3 h).1⟩
  | patch _ _ => cases h

theorem Buf.hist_inv {b : Buf} {l : List (BitVec 8)} (h : Buf.Hist b l) : b.Inv l := by
  induction h with
  | init => exact ⟨⟨256, rfl⟩, rfl, by unfold Buf.empty; rw [List.length_replicate]; omega⟩
  | ok o _ hw hr ih => exact Buf.run_ok o ih hw hr
  | failed o _ _ hr ih => exact (Buf.run_failed o ih hr).1

/-- **C50, byte buffer.**  After any history of writes, preallocations, reservations and patches, through any number of
reallocations, the buffer holds exactly the bytes its successful operations wrote; its size fits a positive `int`; and an
operation fails only if it would make the buffer larger than that, changing no byte and setting the failure flag. -/
theorem C50_buffer (b : Buf) (l : List (BitVec 8)) (h : Buf.Hist b l) :
    b.contents = l ∧ b.pos = l.length ∧ l.length ≤ 2147483647 ∧
    (∀ bs, (b.write bs).2 = false →
      2147483647 < b.data.length + bs.length ∧ (b.write bs).1.contents = l ∧ (b.write bs).1.oom = true) := by
  have key : ∀ {b : Buf} {l}, b.Inv l → b.contents = l := by
    intro b l I
    obtain ⟨k, hk⟩ := I.data
    unfold Buf.contents
    rw [hk, I.pos, List.take_left]
  have I := Buf.hist_inv h
  obtain ⟨k, hk⟩ := I.data
  refine ⟨key I, I.pos, ?_, ?_⟩
  · have := I.cap
    rw [hk] at this
    simp at this
    omega
  · intro bs hb
    obtain ⟨h1, h2⟩ := Buf.run_failed (.write bs) I hb
    refine ⟨?_, key h1, h2⟩
    obtain ⟨_, _, h3⟩ := Buf.ensure_inv bs.length I
    unfold Buf.write at hb
    split at hb
    · cases hb
    · rename_i he
      exact (h3 (by rw [he])).2

set_option maxRecDepth 5000 in
/-- A history with a reallocation, a preallocation and a patch. -/
example : ∃ b, Buf.Hist b (List.replicate 3 7 ++ [9, 9] ++ List.replicate 295 7 ++ [0, 0]) ∧ b.data.length = 384 := by
  have h1 : Buf.Hist ((BufOp.write (List.replicate 300 7)).run Buf.empty).1 ((BufOp.write (List.replicate 300 7)).effect []) :=
    .ok (.write (List.replicate 300 7)) .init trivial rfl
  have h2 := h1.ok (.preallocate 2) trivial rfl
  have h3 := h2.ok (.patch 3 [9, 9]) (show 3 + 2 ≤ 302 by omega) rfl
  exact ⟨_, h3, by rfl⟩

end Verif.Alloc

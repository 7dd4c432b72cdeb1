import Verif.Spec.Alloc

/-! Lemmas on the allocators. -/
namespace Verif.Alloc

theorem alignUp_eq {n a : Nat} (h : n + (a - n % a) % a < 18446744073709551616) :
    alignUp n a = n + (a - n % a) % a := by
  unfold alignUp
  exact Nat.mod_eq_of_lt h

theorem align16 {n : Nat} (h : ¬ alignUp n 16 < n) : alignUp n 16 % 16 = 0 ∧ n ≤ alignUp n 16 := by
  unfold alignUp at *
  omega

theorem align8 {n : Nat} (h : n ≤ 18446744073709551608) : alignUp n 8 % 8 = 0 ∧ n ≤ alignUp n 8 := by
  unfold alignUp
  omega

/-- The invariant of the code allocator. -/
structure Code.Inv (A : Code) : Prop where
  pool : ∀ (i : Nat) p, A.pools[i]? = some p → p.start ≤ p.ptr ∧ p.ptr ≤ p.stop ∧ p.start % 16 = 0 ∧ p.ptr % 16 = 0
  cache : ∀ i ∈ A.cache, i < A.pools.length
  disj : ∀ (i j : Nat) p q, i ≠ j → A.Mapped i → A.Mapped j → A.pools[i]? = some p → A.pools[j]? = some q →
    Apart p.start (p.stop - p.start) q.start (q.stop - q.start)
  chunk : ∀ c ∈ A.chunks, ∃ p, A.pools[c.pool]? = some p ∧ p.start ≤ c.addr ∧ c.addr + c.bytes ≤ p.ptr ∧ c.addr % 16 = 0
  pair : A.chunks.Pairwise fun c d => c.pool = d.pool → Apart c.addr c.bytes d.addr d.bytes

theorem Code.inv_init : Code.Inv ⟨[], [], []⟩ := by constructor <;> simp

theorem Code.findPool_some {A : Code} {bytes i : Nat} (h : A.findPool bytes = some i) : i ∈ A.cache ∧ bytes ≤ A.free i := by
  unfold Code.findPool at h
  have key : ∀ (l : List Nat) (m : Option Nat), (∀ j, m = some j → j ∈ A.cache ∧ bytes ≤ A.free j) → (∀ x ∈ l, x ∈ A.cache) →
      ∀ i, l.foldl (A.better bytes) m = some i → i ∈ A.cache ∧ bytes ≤ A.free i := by
    intro l
    induction l with
    | nil => intro m hm _ i hi; exact hm i hi
    | cons x xs ih =>
      intro m hm hx i hi
      rw [List.foldl_cons] at hi
      refine ih (A.better bytes m x) ?_ (fun y hy => hx y (List.mem_cons_of_mem _ hy)) i hi
      intro j hj
      unfold Code.better at hj
      split at hj
      · exact hm j hj
      · rename_i hb
        split at hj
        · cases hj; exact ⟨hx _ (List.mem_cons_self ..), by omega⟩
        · split at hj
          · cases hj; exact ⟨hx _ (List.mem_cons_self ..), by omega⟩
          · exact hm j hj
  exact key A.cache none nofun (fun _ h => h) i h

/-- Taking a chunk from a pool. -/
theorem Code.take_spec {A A' : Code} {i bytes : Nat} {c : Chunk} (I : A.Inv) (hb : bytes % 16 = 0)
    (hi : ∀ j p q, i ≠ j → A.Mapped j → A.pools[i]? = some p → A.pools[j]? = some q →
      Apart p.start (p.stop - p.start) q.start (q.stop - q.start))
    (h : A.take i bytes = some (A', c)) :
    A'.Inv ∧ A'.chunks = c :: A.chunks ∧ c.bytes = bytes ∧ A'.cache = A.cache ∧ A'.pools.length = A.pools.length ∧ c.pool = i := by
  unfold Code.take at h
  cases hp : A.pools[i]? with
  | none => rw [hp] at h; cases h
  | some p =>
    rw [hp] at h
    simp only at h
    split at h
    · rename_i hle
      cases h
      obtain ⟨p1, p2, p3, p4⟩ := I.pool i p hp
      have hil := (List.getElem?_eq_some_iff.1 hp).1
      have hset : ∀ (j : Nat) q, (A.pools.set i { p with ptr := p.ptr + bytes })[j]? = some q →
          (j = i ∧ q = { p with ptr := p.ptr + bytes }) ∨ (j ≠ i ∧ A.pools[j]? = some q) := by
        intro j q hq
        by_cases hj : j = i
        · subst hj
          rw [List.getElem?_set_self hil] at hq
          exact Or.inl ⟨rfl, (Option.some.inj hq).symm⟩
        · rw [List.getElem?_set_ne (Ne.symm hj)] at hq
          exact Or.inr ⟨hj, hq⟩
      have hmap : ∀ j, Code.Mapped { A with pools := A.pools.set i { p with ptr := p.ptr + bytes }, chunks := ⟨i, p.ptr, bytes⟩ :: A.chunks } j →
          j = i ∨ A.Mapped j := by
        intro j hj
        rcases hj with h | ⟨c, hc, rfl⟩
        · exact Or.inr (Or.inl h)
        · rcases List.mem_cons.1 hc with rfl | hc
          · exact Or.inl rfl
          · exact Or.inr (Or.inr ⟨c, hc, rfl⟩)
      refine ⟨⟨?_, ?_, ?_, ?_, ?_⟩, rfl, rfl, rfl, by simp, rfl⟩
      · intro j q hq
        rcases hset j q hq with ⟨rfl, rfl⟩ | ⟨_, hq⟩
        · exact ⟨by simp only; omega, by simp only; omega, p3, by simp only; omega⟩
        · exact I.pool j q hq
      · intro j hj
        have := I.cache j hj
        simpa using this
      · intro j k q r hjk hj hk hq hr
        have hsym : ∀ {a n b m}, Apart a n b m → Apart b m a n := fun h => Or.symm h
        rcases hset j q hq with ⟨h1, h2⟩ | ⟨h1, hq'⟩ <;> rcases hset k r hr with ⟨h3, h4⟩ | ⟨h3, hr'⟩
        · omega
        · subst h1 h2
          rcases hmap k hk with h | h
          · omega
          · exact hi k p r hjk h hp hr'
        · subst h3 h4
          rcases hmap j hj with h | h
          · omega
          · exact hsym (hi j p q (Ne.symm hjk) h hp hq')
        · rcases hmap j hj with h | h
          · omega
          · rcases hmap k hk with h' | h'
            · omega
            · exact I.disj j k q r hjk h h' hq' hr'
      · intro d hd
        rcases List.mem_cons.1 hd with rfl | hd
        · exact ⟨{ p with ptr := p.ptr + bytes }, List.getElem?_set_self hil, p1, Nat.le_refl _, p4⟩
        · obtain ⟨q, hq, h1, h2, h3⟩ := I.chunk d hd
          by_cases hdi : d.pool = i
          · rw [hdi, hp] at hq
            cases hq
            refine ⟨{ p with ptr := p.ptr + bytes }, by simp only; rw [hdi]; exact List.getElem?_set_self hil, h1, ?_, h3⟩
            simp only; omega
          · refine ⟨q, ?_, h1, h2, h3⟩
            simp only
            rw [List.getElem?_set_ne (Ne.symm hdi)]
            exact hq
      · simp only [List.pairwise_cons]
        refine ⟨?_, I.pair⟩
        intro d hd hdi
        obtain ⟨q, hq, h1, h2, h3⟩ := I.chunk d hd
        rw [← hdi, hp] at hq
        cases hq
        exact Or.inr (by omega)
    · cases h

theorem Code.minIndex_lt {A : Code} : ∀ (k i m : Nat), m < A.cache.length → i + k ≤ A.cache.length → A.minIndex k i m < A.cache.length
  | 0, _, m, hm, _ => hm
  | k+1, i, m, hm, hi => by
    unfold Code.minIndex
    apply Code.minIndex_lt k
    · split <;> omega
    · omega

/-- Entering a pool that a chunk refers to into the cache. -/
theorem Code.enter_spec {A : Code} {i : Nat} (I : A.Inv) (hm : A.Mapped i) (hi : i < A.pools.length) :
    (A.enter i).Inv ∧ (A.enter i).chunks = A.chunks := by
  have key : ∀ cs : List Nat, (∀ x ∈ cs, x ∈ A.cache ∨ x = i) → Code.Inv { A with cache := cs } := by
    intro cs hcs
    have hmp : ∀ x, Code.Mapped { A with cache := cs } x → A.Mapped x := by
      intro x hx
      rcases hx with h | h
      · rcases hcs x h with h | rfl
        · exact Or.inl h
        · exact hm
      · exact Or.inr h
    refine ⟨I.pool, ?_, ?_, I.chunk, I.pair⟩
    · intro x hx
      rcases hcs x hx with h | rfl
      · exact I.cache x h
      · exact hi
    · intro j k p q hjk hj hk
      exact I.disj j k p q hjk (hmp j hj) (hmp k hk)
  unfold Code.enter
  split
  · refine ⟨key _ ?_, rfl⟩
    intro x hx
    rw [List.mem_append, List.mem_singleton] at hx
    exact hx
  · simp only
    split
    · refine ⟨key _ ?_, rfl⟩
      intro x hx
      rcases List.mem_or_eq_of_mem_set hx with h | h
      · exact Or.inl h
      · exact Or.inr h
    · exact ⟨I, rfl⟩

theorem pad_dvd (ask page : Nat) (hp0 : 0 < page) : page ∣ ask + (page - ask % page) % page := by
  have h1 : ask % page < page := Nat.mod_lt _ hp0
  by_cases h : ask % page = 0
  · rw [h, Nat.sub_zero, Nat.mod_self, Nat.add_zero]
    exact Nat.dvd_of_mod_eq_zero h
  · rw [Nat.mod_eq_of_lt (show page - ask % page < page by omega)]
    refine ⟨ask / page + 1, ?_⟩
    have := Nat.div_add_mod ask page
    rw [Nat.mul_add]
    omega

/-- A new pool has room for what was asked for, unless its size came out as nothing. -/
theorem poolBytes_spec {page ask : Nat} (hp0 : 0 < page) (hpd : page ∣ 18446744073709551616) (h0 : 0 < poolBytes page ask)
    (hlt : ask < 18446744073709551616) : ask ≤ poolBytes page ask := by
  unfold poolBytes at *
  split
  · omega
  · rename_i hge
    rw [if_neg hge] at h0
    unfold alignUp at *
    have h3 : (page - ask % page) % page < page := Nat.mod_lt _ hp0
    by_cases hov : ask + (page - ask % page) % page < 18446744073709551616
    · rw [Nat.mod_eq_of_lt hov]; omega
    · exfalso
      have hd := pad_dvd ask page hp0
      have h4 : page ∣ ask + (page - ask % page) % page - 18446744073709551616 := Nat.dvd_sub hd hpd
      have h5 : ask + (page - ask % page) % page - 18446744073709551616 = 0 := Nat.eq_zero_of_dvd_of_lt h4 (by omega)
      omega

theorem Code.allocate_spec {page raw : Nat} {map : Nat → Option Nat} {A A' : Code} {c : Chunk} (I : A.Inv) (hp : 0 < page)
    (hpd : page ∣ 18446744073709551616) (hg : ∀ bytes a, map bytes = some a → A.GoodMap bytes a)
    (h : A.allocate page map raw = some (some (A', c))) :
    A'.Inv ∧ A'.chunks = c :: A.chunks ∧ raw ≤ c.bytes ∧ c.bytes % 16 = 0 := by
  unfold Code.allocate at h
  simp only at h
  split at h
  · cases h
  · rename_i hov
    obtain ⟨h16, hge⟩ := align16 hov
    split at h
    · rename_i i hf
      obtain ⟨hc, hfree⟩ := Code.findPool_some hf
      cases ht : A.take i (alignUp raw 16) with
      | none => rw [ht] at h; cases h
      | some r =>
        rw [ht] at h
        cases h
        obtain ⟨I', h1, h2, _⟩ := Code.take_spec I h16 (fun j p q hij hj hp hq => I.disj i j p q hij (Or.inl hc) hj hp hq) ht
        exact ⟨I', h1, by omega, by omega⟩
    · split at h
      · cases h
      · rename_i a hm
        obtain ⟨g0, g1, g2⟩ := hg _ a hm
        have hlt : alignUp raw 16 < 18446744073709551616 := by unfold alignUp; omega
        have hle := poolBytes_spec hp hpd g0 hlt
        -- the new pool is not mapped yet
        have hget : ∀ (j : Nat) q, (A.pools ++ [(⟨a, a, a + poolBytes page (alignUp raw 16)⟩ : Pool)])[j]? = some q →
            A.pools[j]? = some q ∨ j = A.pools.length ∧ q = ⟨a, a, a + poolBytes page (alignUp raw 16)⟩ := by
          intro j q hq
          by_cases hj : j < A.pools.length
          · rw [List.getElem?_append_left hj] at hq; exact Or.inl hq
          · rw [List.getElem?_append_right (by omega)] at hq
            by_cases he : j = A.pools.length
            · subst he
              rw [Nat.sub_self] at hq
              exact Or.inr ⟨rfl, (Option.some.inj hq).symm⟩
            · obtain ⟨k, hk⟩ : ∃ k, j - A.pools.length = k + 1 := ⟨j - A.pools.length - 1, by omega⟩
              rw [hk] at hq
              cases hq
        have hnm : ¬ A.Mapped A.pools.length := by
          rintro (h | ⟨c, hc, h⟩)
          · have := I.cache _ h; omega
          · obtain ⟨p, hp, _⟩ := I.chunk c hc
            have := (List.getElem?_eq_some_iff.1 hp).1
            omega
        have hold : ∀ (j : Nat) q, A.pools[j]? = some q →
            (A.pools ++ [(⟨a, a, a + poolBytes page (alignUp raw 16)⟩ : Pool)])[j]? = some q := by
          intro j q hq
          rw [List.getElem?_append_left (List.getElem?_eq_some_iff.1 hq).1]
          exact hq
        have I1 : Code.Inv { A with pools := A.pools ++ [⟨a, a, a + poolBytes page (alignUp raw 16)⟩] } := by
          refine ⟨?_, ?_, ?_, ?_, I.pair⟩
          · intro j q hq
            rcases hget j q hq with h | ⟨_, rfl⟩
            · exact I.pool j q h
            · exact ⟨Nat.le_refl _, by simp only; omega, g1, g1⟩
          · intro j hj
            have := I.cache j hj
            simp only [List.length_append, List.length_singleton]
            omega
          · intro j k q r hjk hj hk hq hr
            have hj' : A.Mapped j := hj
            have hk' : A.Mapped k := hk
            rcases hget j q hq with h1 | ⟨h1, _⟩
            · rcases hget k r hr with h2 | ⟨h2, _⟩
              · exact I.disj j k q r hjk hj' hk' h1 h2
              · subst h2; exact absurd hk' hnm
            · subst h1; exact absurd hj' hnm
          · intro d hd
            obtain ⟨q, hq, hh⟩ := I.chunk d hd
            exact ⟨q, hold _ _ hq, hh⟩
        split at h
        · cases h
        · rename_i A2 c' ht
          cases h
          obtain ⟨I2, h1, h2, h3, h4, h5⟩ := Code.take_spec I1 h16 (by
            intro j p q hij hj hp hq
            have hj' : A.Mapped j := hj
            have hp' : p = ⟨a, a, a + poolBytes page (alignUp raw 16)⟩ := by
              rcases hget _ _ hp with h | ⟨_, h⟩
              · have := (List.getElem?_eq_some_iff.1 h).1; omega
              · exact h
            subst hp'
            rcases hget _ _ hq with h | ⟨h, _⟩
            · have := g2 j q hj' h
              simp only
              rw [show a + poolBytes page (alignUp raw 16) - a = poolBytes page (alignUp raw 16) by omega]
              exact this
            · omega) ht
          obtain ⟨I3, h6⟩ := Code.enter_spec (i := A.pools.length) I2 (Or.inr ⟨c, by rw [h1]; simp, h5⟩) (by
            rw [h4]; simp)
          exact ⟨I3, by rw [h6, h1], by omega, by omega⟩

theorem Code.release_inv {A : Code} (I : A.Inv) (k : Nat) : (A.release k).Inv := by
  have hsub : ∀ c ∈ A.chunks.eraseIdx k, c ∈ A.chunks := fun c hc => List.mem_of_mem_eraseIdx hc
  have hm : ∀ i, (A.release k).Mapped i → A.Mapped i := by
    intro i hi
    rcases hi with h | ⟨c, hc, h⟩
    · exact Or.inl h
    · exact Or.inr ⟨c, hsub c hc, h⟩
  exact ⟨I.pool, I.cache, fun i j p q h hi hj => I.disj i j p q h (hm i hi) (hm j hj), fun c hc => I.chunk c (hsub c hc),
    I.pair.sublist (List.eraseIdx_sublist ..)⟩

end Verif.Alloc

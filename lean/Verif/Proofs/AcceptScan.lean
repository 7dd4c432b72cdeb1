import Verif.Proofs.Accept

/-! The scan of a method that has a certificate. -/
namespace Verif.Verifier
open Verif.VM
open Verif.Graph

/-- A certificate for the method at `start` that ends at `stop`: its instructions, which of them are live, and its loops (first cell, last
cell). -/
structure Cert (C : Ctx) (start stop : Nat) (ns : List Nd) (Lv : Nat → Prop) (R : List (Nat × Nat)) : Prop where
  head : C.code[start]? = some 46
  tail : C.code[stop]? = some 166
  size : C.code.length < 536870912
  chain : Chain C (start + 1) ns stop
  first : ∃ n ∈ ns, n.pos = start + 1 ∧ n.st = .norm 0
  live : Lv (start + 1)
  go : ∀ n ∈ ns, Lv n.pos → ∀ s ∈ n.succs, ∃ m ∈ ns, m.pos = s.1 ∧ m.st = s.2 ∧ Lv s.1
  refs : ∀ n ∈ ns, ∀ t ∈ n.refs, start < t ∧ t < C.code.length ∧ ∀ m ∈ ns, m.pos = t → ∃ d, m.st = .norm d
  heads : ∀ n ∈ ns, ∀ t ∈ n.heads, ∃ m ∈ ns, m.pos = t ∧ ∀ s ∈ n.succs, s.1 ∈ m.refs
  back : ∀ n ∈ ns, Lv n.pos → ∀ s ∈ n.succs, s.1 ≤ n.pos → ∃ x, (s.1, x) ∈ R ∧ n.pos < x
  single : ∀ r ∈ R, ∀ n ∈ ns, Lv n.pos → ¬ (r.1 ≤ n.pos ∧ n.pos < r.2) → ∀ s ∈ n.succs, r.1 ≤ s.1 → s.1 < r.2 → s.1 = r.1
  depth : ∀ n ∈ ns, n.st.depth < top

/-- What the prescan knows about the method. -/
structure Scan (C : Ctx) (start stop : Nat) (ns : List Nd) (P : Pre) : Prop where
  cip : P.cip = stop
  insns : ∀ x, x ∈ P.insns ↔ ∃ n ∈ ns, n.pos = x
  targets : ∀ x, x ∈ P.targets ↔ ∃ n ∈ ns, x ∈ n.refs

variable {C : Ctx} {start stop : Nat} {ns : List Nd} {Lv : Nat → Prop} {R : List (Nat × Nat)}

theorem Chain.pos_inj {p e : Nat} (h : Chain C p ns e) {n m : Nd} (hn : n ∈ ns) (hm : m ∈ ns) (he : n.pos = m.pos) : n = m := by
  induction h with
  | nil => cases hn
  | cons h1 h2 ih =>
    have := h1.lt
    rcases List.mem_cons.1 hn with h3 | h3 <;> rcases List.mem_cons.1 hm with h4 | h4
    · rw [h3, h4]
    · have := (h2.mem h4).1; subst h3; omega
    · have := (h2.mem h3).1; subst h4; omega
    · exact ih h3 h4

/-- Between an instruction and the next cell there is no other. -/
theorem Chain.gap {p e : Nat} (h : Chain C p ns e) {n m : Nd} (hn : n ∈ ns) (hm : m ∈ ns) : m.pos ≤ n.pos ∨ n.nxt ≤ m.pos := by
  induction h with
  | nil => cases hn
  | cons h1 h2 ih =>
    have := h1.lt
    rcases List.mem_cons.1 hn with h3 | h3 <;> rcases List.mem_cons.1 hm with h4 | h4
    · subst h3 h4; exact Or.inl (Nat.le_refl _)
    · subst h3; exact Or.inr (h2.mem h4).1
    · have := (h2.mem h3).1; subst h4; exact Or.inl (by omega)
    · exact ih h3 h4

theorem Chain.next {p e : Nat} (h : Chain C p ns e) {n : Nd} (hn : n ∈ ns) : n.nxt = e ∨ ∃ m ∈ ns, m.pos = n.nxt := by
  induction h with
  | nil => cases hn
  | cons h1 h2 ih =>
    rcases List.mem_cons.1 hn with rfl | hn
    · generalize n.nxt = q at h2
      cases h2 with
      | nil => exact Or.inl rfl
      | cons h3 h4 => exact Or.inr ⟨_, by simp, rfl⟩
    · rcases ih hn with h | ⟨m, hm, h⟩
      · exact Or.inl h
      · exact Or.inr ⟨m, by simp [hm], h⟩

namespace Cert
variable (K : Cert C start stop ns Lv R)
include K

theorem stop_lt : stop < C.code.length := len_of K.tail

theorem prescan {fuel : Nat} (hf : C.code.length + 1 ≤ fuel) : ∃ P, Graph.prescan C.code start fuel = .ok P ∧ Scan C start stop ns P := by
  have hlen := K.chain.le
  have := K.stop_lt
  obtain ⟨P, h1, h2, h3, h4⟩ := prescan_chain (start := start) K.size K.tail ns ⟨start + 1, [], []⟩ fuel K.chain (by simp) (by omega)
    (fun n hn t ht => ⟨(K.refs n hn t ht).1, (K.refs n hn t ht).2.1⟩) (by
      intro n hn t ht
      obtain ⟨m, hm, rfl, _⟩ := K.heads n hn t ht
      obtain ⟨g1, g2, g3⟩ := K.chain.mem hm
      have := g3.lt
      omega)
  refine ⟨P, ?_, h2, fun x => by simpa using h3 x, fun x => by simpa using h4 x⟩
  unfold Graph.prescan
  rw [if_pos K.head]
  exact h1

end Cert

/-- Where decoding goes on. -/
theorem Typed.decode {n : Nd} (h : Typed C n) (hl : C.code.length < 536870912) {i : Insn} {p : Nat} (hd : Verif.VM.decode C.code n.pos = some (i, p)) :
    p = n.nxt ∧ ∀ c, C.code[n.pos]? = some 130 → C.code[n.pos + 1]? = some c → 0 ≤ c.toInt := by
  have step : ∀ {op : Cell} {k : Nat}, C.code[n.pos]? = some op → op ≠ 130 → op.toNat ≠ 0 → op.toNat < 236 →
      opcodeSize op.toNat = some ((k : Int) + 1) → p = n.pos + 1 + k := by
    intro op k h1 h2 h3 h4 h5
    unfold Verif.VM.decode at hd
    rw [h1] at hd
    simp only at hd
    rw [if_neg h2] at hd
    have hs := sizes_agree ⟨op.toNat, h4⟩ h3 (by
      intro hh
      exact h2 (BitVec.eq_of_toNat_eq hh))
    simp only [h5, Option.map_some] at hs
    cases hr : reader op.toNat with
    | none => rw [hr] at hs; cases hs
    | some r =>
      obtain ⟨m, f⟩ := r
      rw [hr] at hs hd
      simp only [Option.map_some, Option.some.injEq] at hs
      simp only at hd
      split at hd
      · cases hd
      · split at hd
        · cases hd
        · cases hd
          omega
  have no : ∀ {op : Cell}, C.code[n.pos]? = some op → op ≠ 130 → ∀ c, C.code[n.pos]? = some 130 → C.code[n.pos + 1]? = some c → 0 ≤ c.toInt := by
    intro op h1 h2 c h3
    rw [h1] at h3
    cases h3
    exact absurd rfl h2
  cases h with
  | plain h1 h2 h3 h4 h5 h6 h7 h8 => exact ⟨step h1 h4 h5 h6 h8, no h1 h4⟩
  | pushC h1 h2 => exact ⟨step (k := 1) h1 (by decide) (by decide) (by decide) (by decide), no h1 (by decide)⟩
  | call _ _ _ h1 h2 => exact ⟨step (k := 1) h1 (by decide) (by decide) (by decide) (by decide), no h1 (by decide)⟩
  | jump h1 h2 => exact ⟨step (k := 1) h1 (by decide) (by decide) (by decide) (by decide), no h1 (by decide)⟩
  | branch h1 h2 h3 =>
    obtain ⟨f1, f2, f3, f4, f5, f6, f7, f8, f9, f10, f11, f12⟩ := branches_facts _ h2
    exact ⟨step (k := 1) h1 f3 f4 f5 f10, no h1 f3⟩
  | retn h1 => exact ⟨step (k := 0) h1 (by decide) (by decide) (by decide) (by decide), no h1 (by decide)⟩
  | switch h1 h2 h3 => exact ⟨step (k := 1) h1 (by decide) (by decide) (by decide) (by decide), no h1 (by decide)⟩
  | @table i d dflt cs h1 =>
    have hle := h1.le
    have hc := count_toInt (n := cs.length) (by omega)
    refine ⟨?_, ?_⟩
    · unfold Verif.VM.decode at hd
      simp only at hd
      rw [h1.op] at hd
      simp only [if_true] at hd
      rw [operands_one h1.count] at hd
      simp only [hc] at hd
      split at hd
      · cases hd
        simp only [Int.toNat_natCast]
      · cases hd
    · intro c _ h2
      simp only [h1.count] at h2
      cases h2
      omega

theorem Cert.tables (K : Cert C start stop ns Lv R) : NoNegativeTable C.code start := by
  have hb : ∀ {pc}, Boundary C.code start pc → pc = stop ∨ ∃ n ∈ ns, n.pos = pc := by
    intro pc h
    induction h with
    | first =>
      obtain ⟨n, hn, h, _⟩ := K.first
      exact Or.inr ⟨n, hn, h⟩
    | next h1 h2 h3 h4 ih =>
      rcases ih with rfl | ⟨n, hn, rfl⟩
      · exact absurd K.tail h3
      · rw [((K.chain.mem hn).2.2.decode K.size h4).1]
        exact K.chain.next hn
  intro pc c hpc h1 h2
  rcases hb hpc with rfl | ⟨n, hn, rfl⟩
  · rw [K.tail] at h1
    cases h1
  · have ht := (K.chain.mem hn).2.2
    have hlt := K.size
    generalize hp : n.pos = pp at *
    cases ht with
    | table h =>
      have hle := h.le
      subst hp
      simp only [h.count] at h2
      cases h2
      rw [count_toInt (by omega)]
      omega
    | plain g1 _ _ g2 => subst hp; simp only [g1] at h1; cases h1; exact absurd rfl g2
    | pushC g => subst hp; simp only [g] at h1; cases h1
    | call _ _ _ g => subst hp; simp only [g] at h1; cases h1
    | jump g => subst hp; simp only [g] at h1; cases h1
    | branch g g' =>
      subst hp
      simp only [g] at h1
      cases h1
      exact absurd g' (by decide)
    | retn g => subst hp; simp only [g] at h1; cases h1
    | switch g => subst hp; simp only [g] at h1; cases h1

/-! ### Runs -/

theorem readCases_ok {code : List Cell} (hl : code.length < 536870912) : ∀ (cs : List Nat) (pos : Nat),
    (∀ (k : Nat) (h : k < cs.length), code[pos + 1 + 2 * k]? = some (ofs cs[k])) → (∀ t ∈ cs, t < 536870912) →
    readCases code cs.length pos = .ok cs
  | [], _, _, _ => rfl
  | c :: cs, pos, h, hb => by
    have h0 := h 0 (by simp)
    have hc := hb c (by simp)
    have ih := readCases_ok hl cs (pos + 2) (by
      intro k hk
      have := h (k + 1) (by simp; omega)
      rw [show pos + 2 + 1 + 2 * k = pos + 1 + 2 * (k + 1) by omega, this]
      simp) (fun t ht => hb t (by simp [ht]))
    show readCases code (cs.length + 1) pos = _
    unfold readCases
    rw [bind_ok_iff]
    refine ⟨ofs c, readAt_ok.2 (by simpa using h0), ?_⟩
    rw [ofs_toInt hc, if_neg (by omega), bind_ok_iff]
    refine ⟨cs, ih, ?_⟩
    rw [ofs_toNat hc, show 4 * c / 4 = c by omega]

/-- The scan follows an instruction the way the certificate says. -/
theorem Typed.scan {n : Nd} {P : Pre} (h : Typed C n) (hl : C.code.length < 536870912) (hs : ∀ x ∈ P.insns, x < P.cip) (hle : P.cip ≤ C.code.length)
    (hg : ∀ s ∈ n.succs, s.1 ∈ P.insns) (hh : ∀ t ∈ n.heads, t ∈ P.insns) :
    ∃ op, C.code[n.pos]? = some op ∧
      ((isControl op.toNat = false ∧ nextInsn C.code n.pos op = .ok n.nxt ∧ ∃ st, n.succs = [(n.nxt, st)]) ∨
       (isControl op.toNat = true ∧ ∃ E, controlFlow C.code P n.pos op.toNat = .ok E ∧ E.stop = n.nxt ∧ (∀ x, x ∈ E.links ↔ ∃ s ∈ n.succs, s.1 = x) ∧
        ∃ d, n.st = .norm d ∧ ∀ s ∈ n.succs, s.2 = .norm d)) := by
  have plain : ∀ {i k nxt : Nat} {op : Cell}, op ≠ 130 → opcodeSize op.toNat = some ((k : Int) + 1) → nxt = i + 1 + k → nextInsn C.code i op = .ok nxt := by
    intro i k nxt op h1 h2 h3
    unfold nextInsn
    rw [if_neg h1, h2]
    simp only
    rw [show i + ((k : Int) + 1).toNat = nxt by omega]
  cases h with
  | plain h1 h2 h3 h4 h5 h6 h7 h8 =>
    exact ⟨_, h1, Or.inl ⟨h7, plain h4 h8 rfl, _, rfl⟩⟩
  | pushC h1 h2 => exact ⟨_, h1, Or.inl ⟨by decide, plain (k := 1) (by decide) (by decide) rfl, _, rfl⟩⟩
  | call _ _ _ h1 h2 => exact ⟨_, h1, Or.inl ⟨by decide, plain (k := 1) (by decide) (by decide) rfl, _, rfl⟩⟩
  | @jump i d t h1 h2 =>
    refine ⟨_, h1, Or.inr ⟨by decide, ⟨i + 2, [t], [t]⟩, ?_, rfl, by simp [eq_comm], d, rfl, by simp⟩⟩
    have hm : t ∈ P.insns := hg (t, .norm d) (by simp)
    have := hs t hm
    unfold controlFlow
    rw [if_neg (by decide), bind_ok_iff]
    refine ⟨_, readAt_ok.2 h2, ?_⟩
    rw [ofs_toInt (by omega), ofs_toNat (by omega), if_neg (by omega), show 4 * t / 4 = t by omega]
    simp only
    rw [if_neg (by simpa using hm), if_neg (by decide), if_pos (by decide)]
  | @branch i d t op h1 h2 h3 =>
    obtain ⟨f1, f2, f3, f4, f5, f6, f7, f8, f9, f10, f11, f12⟩ := branches_facts _ h2
    refine ⟨_, h1, Or.inr ⟨f6, ⟨i + 2, [t, i + 2], [i + 2, t]⟩, ?_, rfl, ?_, d, rfl, by simp⟩⟩
    · have hm : t ∈ P.insns := hg (t, .norm d) (by simp)
      have hm2 : i + 2 ∈ P.insns := hg (i + 2, .norm d) (by simp)
      have := hs t hm
      have := hs _ hm2
      unfold controlFlow
      rw [if_neg f7, bind_ok_iff]
      refine ⟨_, readAt_ok.2 h3, ?_⟩
      rw [ofs_toInt (by omega), ofs_toNat (by omega), if_neg (by omega), show 4 * t / 4 = t by omega]
      simp only
      rw [if_neg (by simpa using hm), if_neg f8, if_neg f9, if_neg (by omega)]
    · intro x
      simp only [List.mem_cons, List.not_mem_nil, or_false, exists_eq_or_imp, exists_eq_left]
      grind
  | @retn i d h1 =>
    exact ⟨_, h1, Or.inr ⟨by decide, ⟨i + 1, [], []⟩, rfl, rfl, by simp, d, rfl, by simp⟩⟩
  | @switch i d tbl dflt cs h1 h2 h3 =>
    refine ⟨_, h1, Or.inr ⟨by decide, ⟨i + 2, dflt :: cs, dflt :: cs⟩, ?_, rfl, ?_, d, rfl, ?_⟩⟩
    · have hm : tbl ∈ P.insns := hh tbl (by simp)
      have hle3 := h3.le
      have hall : ∀ t ∈ dflt :: cs, t ∈ P.insns := by
        intro t ht
        exact hg (t, .norm d) (List.mem_map.2 ⟨t, ht, rfl⟩)
      have hlt : ∀ t ∈ dflt :: cs, t < 536870912 := by
        intro t ht
        have := hs t (hall t ht)
        omega
      unfold controlFlow
      rw [if_neg (by decide), bind_ok_iff]
      refine ⟨_, readAt_ok.2 h2, ?_⟩
      rw [ofs_toInt (by omega), ofs_toNat (by omega), if_neg (by omega), show 4 * tbl / 4 = tbl by omega]
      simp only
      rw [if_neg (by simpa using hm), if_pos (by decide)]
      unfold switchFlow
      rw [bind_ok_iff]
      refine ⟨_, readAt_ok.2 h3.op, ?_⟩
      rw [if_neg (by simp), bind_ok_iff]
      refine ⟨_, readAt_ok.2 h3.count, ?_⟩
      rw [bind_ok_iff]
      refine ⟨_, readAt_ok.2 h3.dflt, ?_⟩
      have hd := hlt dflt (by simp)
      rw [ofs_toInt hd, if_neg (by omega), bind_ok_iff]
      refine ⟨cs, ?_, ?_⟩
      · rw [count_toInt (by omega)]
        exact readCases_ok hl cs (tbl + 3) (by
          intro k hk
          rw [show tbl + 3 + 1 + 2 * k = tbl + 4 + 2 * k by omega]
          exact h3.case k hk) (fun t ht => hlt t (by simp [ht]))
      · simp only
        rw [ofs_toNat hd, show 4 * dflt / 4 = dflt by omega, if_pos]
        rw [List.all_eq_true]
        intro t ht
        simpa using hall t ht
    · intro x
      simp only [List.mem_map]
      constructor
      · intro hx; exact ⟨_, ⟨x, hx, rfl⟩, rfl⟩
      · rintro ⟨s, ⟨y, hy, rfl⟩, rfl⟩; exact hy
    · intro s hs'
      obtain ⟨y, _, rfl⟩ := List.mem_map.1 hs'
      rfl
  | @table i d dflt cs h1 =>
    have hle1 := h1.le
    refine ⟨_, h1.op, Or.inl ⟨by decide, ?_, _, rfl⟩⟩
    unfold nextInsn
    rw [if_pos rfl, bind_ok_iff]
    refine ⟨_, readAt_ok.2 h1.count, ?_⟩
    rw [count_toInt (by omega)]
    simp only
    rw [if_neg (by omega)]
    congr 1
    omega

end Verif.Verifier

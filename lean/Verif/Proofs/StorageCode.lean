import Verif.Proofs.Storage
import Verif.Proofs.JitFrame

/-! Lemmas for C76: the code that computes addresses. -/
namespace Verif.Storage
open Verif.VM (Cell Insn IM IState Res visit Layout rd32 wr32)

theorem run_append (E : Verif.VM.Env) (m : Nat) (here : Int) (ev : Nat → IM Unit) : ∀ (a b : List Item) (s : IState),
    run E m here ev (a ++ b) s = match run E m here ev a s with
      | .ok s' _ => run E m here ev b s'
      | .fail s' e => .fail s' e
      | .ub => .ub
  | [], _, _ => rfl
  | .op i :: a, b, s => by
    simp only [List.cons_append, run]
    cases visit E m here i s with
    | ok s' c => exact run_append E m here ev a b s'
    | fail s' e => rfl
    | ub => rfl
  | .index k :: a, b, s => by
    simp only [List.cons_append, run]
    cases ev k s with
    | ok s' c => exact run_append E m here ev a b s'
    | fail s' e => rfl
    | ub => rfl

theorem elem_place (b : Base) : (if b = .char then Place.byte else .obj (.one b)) = elem b := by
  cases b <;> rfl

theorem rank_bytes (S : Structs) (b : Base) : rankSize S b = bytes S (elem b) := by
  cases b <;> rfl

/-- A type that an access has is known if that of the variable is. -/
theorem check_known {S : Structs} (G : Good S) {t : Ty} (hk : Known S t) : ∀ {e : Access} {u : Ty}, check S t e = some (.obj u) → Known S u
  | .var, u, h => by cases h; exact hk
  | .index e i, u, h => by
    simp only [check] at h
    split at h
    · rename_i b n he
      have := check_known G hk he
      split at h
      · simp only [Option.some.injEq] at h
        rw [elem_place] at h
        cases b with
        | char => cases h
        | cell => cases h; trivial
        | int64 => cases h; trivial
        | struct s => cases h; exact this.2
      · cases h
    · cases h
  | .field e f, u, h => by
    simp only [check] at h
    split at h
    · rename_i s he
      simp only [Option.map_eq_some_iff] at h
      obtain ⟨d, h1, h2⟩ := h
      cases h2
      simp only [findField, Option.bind_eq_some_iff] at h1
      obtain ⟨l, h3, h4⟩ := h1
      exact (pos_of_find (G s l h3).1 h4).2.2
    · cases h

theorem field_next {S : Structs} (G : Good S) {s f : Nat} {d : Field} (h : findField S s f = some d) :
    next S (.obj (.one (.struct s))) (.field f) = some (4 * d.offset, .obj d.ty) := by
  simp only [findField, Option.bind_eq_some_iff] at h
  obtain ⟨l, h3, h4⟩ := h
  have := pos_of_find (G s l h3).1 h4
  simp only [next, h3, Option.bind_some, this.2.1, Option.map_some]
  simp

theorem known_size {S : Structs} {b : Base} {n : Nat} (h : Known S (.array b n)) : n ≠ 0 ∧ n < 2147483648 := by
  cases b with
  | struct s => exact ⟨by have := h.1.1; omega, h.1.2⟩
  | _ => exact ⟨by have := h.1; omega, h.2⟩

/-! ### The end of the code for an index -/

/-- From the index in PRI and the address of the array on the stack. -/
def tailItems (rank n : Nat) : List Item :=
  [.op (.bounds (if n ≠ 0 then (n : Int) - 1 else 2147483647)), .op (.pop .alt)] ++
    (if rank = 1 then [.op .add]
     else (if rank ≠ 4 then [.op (.smulC (BitVec.ofNat 32 (rank / 4)))] else []) ++ [.op .idxaddr])

theorem tail_bad (E : Verif.VM.Env) (m : Nat) (here : Int) (ev : Nat → IM Unit) {rank n : Nat} (hn : n ≠ 0) (hs : n < 2147483648) {s : IState}
    (h : ¬ s.pri.toNat < n) : run E m here ev (tailItems rank n) s = .fail s .arrayBounds := by
  unfold tailItems
  rw [if_pos hn]
  simp only [List.cons_append, run, visit]
  have : s.pri.toInt < 0 ∨ s.pri.toInt > ((n : Int) - 1) % 4294967296 := by
    have hcond := BitVec.toInt_eq_toNat_cond s.pri
    have := s.pri.isLt
    split at hcond <;> omega
  rw [if_pos this]

theorem tail_ok (E : Verif.VM.Env) (m : Nat) (here : Int) (ev : Nat → IM Unit) {rank n a : Nat} (hn : n ≠ 0) (hs : n < 2147483648)
    (hr : rank = 1 ∨ 4 ∣ rank) {s : IState} (L : Layout s.vm) (hsp : s.vm.sp < s.vm.stp)
    (ha : rd32 s.vm.mem s.vm.sp = BitVec.ofNat 32 a) (h : s.pri.toNat < n) :
    ∃ s', run E m here ev (tailItems rank n) s = .ok s' () ∧ s'.pri = BitVec.ofNat 32 (a + s.pri.toNat * rank) ∧
      s'.vm = { s.vm with sp := s.vm.sp + 4 } := by
  unfold tailItems
  rw [if_pos hn]
  have hb : ¬ (s.pri.toInt < 0 ∨ s.pri.toInt > ((n : Int) - 1) % 4294967296) := by
    have hcond := BitVec.toInt_eq_toNat_cond s.pri
    have := s.pri.isLt
    split at hcond <;> omega
  have hp : Verif.VM.popStack s.vm = .ok { s.vm with sp := s.vm.sp + 4 } (BitVec.ofNat 32 a) := by
    rcases Verif.VM.popStack_cases L with ⟨h1, _⟩ | ⟨_, h1⟩
    · omega
    · rw [h1, ha]
  have hv : visit E m here (.pop .alt) s = .ok { s with vm := { s.vm with sp := s.vm.sp + 4 }, alt := BitVec.ofNat 32 a } .next := by
    show Verif.VM.IM.bind (Verif.VM.IM.bind (Verif.VM.vmOp Verif.VM.popStack) _) _ s = _
    unfold Verif.VM.IM.bind Verif.VM.vmOp
    rw [hp]
    rfl
  have hv0 : visit E m here (.bounds ((n : Int) - 1)) s = .ok s .next := by
    simp only [visit]
    rw [if_neg hb]
  simp only [List.cons_append, List.nil_append, run, hv0, hv]
  have key : ∀ k : Nat, BitVec.ofNat 32 (a + s.pri.toNat * k) = BitVec.ofNat 32 a + s.pri * BitVec.ofNat 32 k := by
    intro k
    rw [BitVec.ofNat_add, BitVec.ofNat_mul]
    simp
  by_cases h1 : rank = 1
  · rw [if_pos h1]
    refine ⟨_, rfl, ?_, rfl⟩
    show s.pri + BitVec.ofNat 32 a = _
    rw [h1, Nat.mul_one, BitVec.ofNat_add, BitVec.ofNat_toNat, BitVec.setWidth_eq, BitVec.add_comm]
  · rw [if_neg h1]
    obtain ⟨k, hk⟩ : 4 ∣ rank := hr.resolve_left h1
    by_cases h4 : rank = 4
    · rw [if_neg (by simpa using h4)]
      refine ⟨_, rfl, ?_, rfl⟩
      rw [h4, key]
      rfl
    · rw [if_pos h4]
      refine ⟨_, rfl, ?_, rfl⟩
      have hk' : rank / 4 = k := by omega
      rw [hk, key, BitVec.ofNat_mul, Nat.mul_div_cancel_left _ (by decide : 0 < 4)]
      show BitVec.ofNat 32 a + s.pri * BitVec.ofNat 32 k * 4 = _
      rw [BitVec.mul_assoc, BitVec.mul_comm (BitVec.ofNat 32 k)]
      rfl

theorem rank_div (S : Structs) (b : Base) : rankSize S b = 1 ∨ 4 ∣ rankSize S b := by
  cases b with
  | char => exact Or.inl rfl
  | cell => exact Or.inr ⟨1, rfl⟩
  | int64 => exact Or.inr ⟨2, rfl⟩
  | struct s => exact Or.inr ⟨_, Nat.mul_comm _ _⟩

theorem emit_index_code {S : Structs} {t : Ty} {e : Access} {b : Base} {n k : Nat} (h : check S t e = some (.obj (.array b n))) :
    emit S t (.index e (.code k)) = emit S t e ++ ([.op (.push .pri)] ++ ([.index k] ++ tailItems (rankSize S b) n)) := by
  simp only [emit, h, tailItems, List.cons_append, List.nil_append]

/-- What the code of an access comes to, if it comes to its end. -/
theorem emit_ok {S : Structs} (G : Good S) {t : Ty} (hk : Known S t) (E : Verif.VM.Env) (m : Nat) (here : Int) {ev : Nat → IM Unit}
    {v : Nat → Cell} (hv : Evaluates ev v) {base : Nat} (hb : base + bytes S (.obj t) ≤ 2147483648) : ∀ {e : Access} {q : Place} {s s' : IState} {u : Unit},
    check S t e = some q → Layout s.vm → s.pri = BitVec.ofNat 32 base → run E m here ev (emit S t e) s = .ok s' u →
    ∃ o, follow S (.obj t) (e.steps v) = some (o, q) ∧ s'.pri = BitVec.ofNat 32 (base + o) ∧ Layout s'.vm ∧ s'.vm.sp = s.vm.sp ∧
      s'.vm.hp = s.vm.hp ∧ s'.vm.stp = s.vm.stp
  | .var, q, s, s', u, hc, L, hp, h => by
    cases hc
    cases h
    exact ⟨0, rfl, hp, L, rfl, rfl, rfl⟩
  | .field e f, q, s, s', u, hc, L, hp, h => by
    simp only [check] at hc
    split at hc
    · rename_i st he
      rw [Option.map_eq_some_iff] at hc
      obtain ⟨d, hd, rfl⟩ := hc
      simp only [emit, he, hd] at h
      rw [run_append] at h
      split at h
      · rename_i s1 u1 h1
        obtain ⟨o, i1, i2, i3, i4⟩ := emit_ok G hk E m here hv hb he L hp h1
        refine ⟨o + 4 * d.offset, ?_, ?_⟩
        · rw [Access.steps, follow_snoc, i1, Option.bind_some]
          simp only [field_next G hd, Option.map_some]
        · by_cases h0 : d.offset = 0
          · rw [if_neg (by simpa using h0)] at h
            cases h
            refine ⟨by rw [i2, h0]; rfl, i3, i4⟩
          · rw [if_pos h0] at h
            cases h
            refine ⟨?_, i3, i4⟩
            show s1.pri + BitVec.ofNat 32 (d.offset * 4) = _
            rw [i2, ← BitVec.ofNat_add]
            congr 1
            omega
      · cases h
      · cases h
    · cases hc
  | .index e i, q, s, s', u, hc, L, hp, h => by
    simp only [check] at hc
    split at hc
    · rename_i b n he
      split at hc
      · rename_i hi
        rw [elem_place] at hc
        cases hc
        obtain ⟨hn, hsz⟩ := known_size (check_known G hk he)
        cases i with
        | const c =>
          simp only [emit, he] at h
          rw [run_append] at h
          split at h
          · rename_i s1 u1 h1
            obtain ⟨o, i1, i2, i3, i4⟩ := emit_ok G hk E m here hv hb he L hp h1
            have hlt : c.toNat < n := by
              simp only [indexOk, Bool.not_eq_true', Bool.or_eq_false_iff, decide_eq_false_iff_not, Bool.and_eq_false_iff] at hi
              have hcond := BitVec.toInt_eq_toNat_cond c
              have := c.isLt
              obtain ⟨hi1, hi2⟩ := hi
              rcases hi2 with hi2 | hi2
              · simp at hi2; omega
              · split at hcond <;> omega
            refine ⟨o + c.toNat * bytes S (elem b), ?_, ?_⟩
            · rw [Access.steps, follow_snoc, i1, Option.bind_some]
              simp only [next, if_pos hlt, Option.map_some]
            · by_cases h0 : c = 0
              · rw [if_neg (by simpa using h0)] at h
                cases h
                refine ⟨by rw [i2, h0]; simp, i3, i4⟩
              · rw [if_pos h0] at h
                cases h
                refine ⟨?_, i3, i4⟩
                show s1.pri + c * BitVec.ofNat 32 (rankSize S b) = _
                rw [i2, rank_bytes, ← Nat.add_assoc, BitVec.ofNat_add (base + o), BitVec.ofNat_mul]
                simp
          · cases h
          · cases h
        | code k =>
          rw [emit_index_code he, run_append] at h
          split at h
          · rename_i s1 u1 h1
            obtain ⟨o, i1, i2, i3, i4, i5, i6⟩ := emit_ok G hk E m here hv hb he L hp h1
            have hin := follow_inside G i1
            have hfit := array_fits S b n
            rw [run_append] at h
            rcases Verif.VM.pushStack_cases i3 s1.pri with ⟨_, hps⟩ | ⟨hroom, hps⟩
            · have : visit E m here (.push .pri) s1 = .fail s1 .stackLow := by
                show Verif.VM.IM.bind (Verif.VM.vmOp (Verif.VM.pushStack s1.pri)) _ s1 = _
                unfold Verif.VM.IM.bind Verif.VM.vmOp
                rw [hps]
              simp only [run, this] at h
              cases h
            · have hpv : visit E m here (.push .pri) s1 =
                  .ok { s1 with vm := { s1.vm with mem := wr32 s1.vm.mem (s1.vm.sp - 4) s1.pri, sp := s1.vm.sp - 4 } } .next := by
                show Verif.VM.IM.bind (Verif.VM.vmOp (Verif.VM.pushStack s1.pri)) _ s1 = _
                unfold Verif.VM.IM.bind Verif.VM.vmOp
                rw [hps]
                rfl
              simp only [run, hpv] at h
              rw [run_append] at h
              have L2 : Layout { s1.vm with mem := wr32 s1.vm.mem (s1.vm.sp - 4) s1.pri, sp := s1.vm.sp - 4 } :=
                ⟨i3.data_nonneg, i3.data_le_hp, by show s1.vm.hp ≤ s1.vm.sp - 4; omega, by have := i3.sp_le_stp; show s1.vm.sp - 4 ≤ s1.vm.stp; omega,
                  i3.stp_eq, i3.mem_small⟩
              simp only [run] at h
              split at h
              · rename_i s2 u2 h2
                split at h2
                · rename_i s3 u3 h3
                  cases h2
                  obtain ⟨j1, j2, j3, j4, j5, j6⟩ := hv k _ _ _ L2 h3
                  simp only at j3 j4 j5 j6
                  have hsp : s2.vm.sp < s2.vm.stp := by rw [j3, j5]; have := i3.sp_le_stp; omega
                  have hrd : rd32 s2.vm.mem s2.vm.sp = BitVec.ofNat 32 (base + o) := by
                    rw [j3, j6, Verif.VM.rd32_wr32_same, i2]
                  by_cases hlt : s2.pri.toNat < n
                  · obtain ⟨s4, k1, k2, k3⟩ := tail_ok E m here ev hn hsz (rank_div S b) j2 hsp hrd hlt
                    rw [k1] at h
                    cases h
                    refine ⟨o + (v k).toNat * bytes S (elem b), ?_, ?_, ?_, ?_⟩
                    · rw [Access.steps, follow_snoc, i1, Option.bind_some]
                      rw [j1] at hlt
                      simp only [next, if_pos hlt, Option.map_some]
                    · rw [k2, rank_bytes, j1, Nat.add_assoc]
                    · rw [k3]
                      exact ⟨j2.data_nonneg, j2.data_le_hp, by have := j2.hp_le_sp; show s2.vm.hp ≤ s2.vm.sp + 4; omega,
                        by rw [j3, j5]; have := i3.sp_le_stp; show s1.vm.sp - 4 + 4 ≤ s1.vm.stp; omega, j2.stp_eq, j2.mem_small⟩
                    · rw [k3]
                      refine ⟨?_, ?_, ?_⟩
                      · show s2.vm.sp + 4 = _; omega
                      · show s2.vm.hp = _; omega
                      · show s2.vm.stp = _; omega
                  · rw [tail_bad E m here ev hn hsz hlt] at h
                    cases h
                · cases h2
                · cases h2
              · cases h
              · cases h
          · cases h
          · cases h
      · cases hc
    · cases hc

/-- With room for one cell on the stack, and index expressions that come to an end, only an index out of bounds stops the code. -/
theorem emit_total {S : Structs} (G : Good S) {t : Ty} (hk : Known S t) (E : Verif.VM.Env) (m : Nat) (here : Int) {ev : Nat → IM Unit}
    {v : Nat → Cell} (hv : Evaluates ev v) (ht : ∀ k s, ∃ s', ev k s = .ok s' ()) {base : Nat} (hb : base + bytes S (.obj t) ≤ 2147483648) :
    ∀ {e : Access} {q : Place} {s : IState}, check S t e = some q → Layout s.vm → s.pri = BitVec.ofNat 32 base → s.vm.hp + 4 < s.vm.sp →
    (∃ s', run E m here ev (emit S t e) s = .ok s' ()) ∨
      (follow S (.obj t) (e.steps v) = none ∧ ∃ s', run E m here ev (emit S t e) s = .fail s' .arrayBounds)
  | .var, q, s, hc, L, hp, hr => Or.inl ⟨s, rfl⟩
  | .field e f, q, s, hc, L, hp, hr => by
    simp only [check] at hc
    split at hc
    · rename_i st he
      rw [Option.map_eq_some_iff] at hc
      obtain ⟨d, hd, rfl⟩ := hc
      simp only [emit, he, hd, run_append]
      rcases emit_total G hk E m here hv ht hb he L hp hr with ⟨s1, h1⟩ | ⟨h0, s1, h1⟩
      · left
        rw [h1]
        by_cases h0 : d.offset = 0
        · rw [if_neg (by simpa using h0)]
          exact ⟨s1, rfl⟩
        · rw [if_pos h0]
          exact ⟨_, rfl⟩
      · right
        rw [h1, Access.steps, follow_snoc, h0]
        exact ⟨rfl, s1, rfl⟩
    · cases hc
  | .index e i, q, s, hc, L, hp, hr => by
    simp only [check] at hc
    split at hc
    · rename_i b n he
      split at hc
      · rename_i hi
        obtain ⟨hn, hsz⟩ := known_size (check_known G hk he)
        rcases emit_total G hk E m here hv ht hb he L hp hr with ⟨s1, h1⟩ | ⟨h0, s1, h1⟩
        · obtain ⟨o, i1, i2, i3, i4, i5, i6⟩ := emit_ok G hk E m here hv hb he L hp h1
          cases i with
          | const c =>
            left
            simp only [emit, he, run_append, h1]
            by_cases h0 : c = 0
            · rw [if_neg (by simpa using h0)]
              exact ⟨s1, rfl⟩
            · rw [if_pos h0]
              exact ⟨_, rfl⟩
          | code k =>
            rw [emit_index_code he, run_append, h1]
            simp only [run_append]
            rcases Verif.VM.pushStack_cases i3 s1.pri with ⟨hlow, _⟩ | ⟨hroom, hps⟩
            · omega
            · have hpv : visit E m here (.push .pri) s1 =
                  .ok { s1 with vm := { s1.vm with mem := wr32 s1.vm.mem (s1.vm.sp - 4) s1.pri, sp := s1.vm.sp - 4 } } .next := by
                show Verif.VM.IM.bind (Verif.VM.vmOp (Verif.VM.pushStack s1.pri)) _ s1 = _
                unfold Verif.VM.IM.bind Verif.VM.vmOp
                rw [hps]
                rfl
              have L2 : Layout { s1.vm with mem := wr32 s1.vm.mem (s1.vm.sp - 4) s1.pri, sp := s1.vm.sp - 4 } :=
                ⟨i3.data_nonneg, i3.data_le_hp, by show s1.vm.hp ≤ s1.vm.sp - 4; omega, by have := i3.sp_le_stp; show s1.vm.sp - 4 ≤ s1.vm.stp; omega,
                  i3.stp_eq, i3.mem_small⟩
              simp only [run, hpv]
              obtain ⟨s2, h2⟩ := ht k { s1 with vm := { s1.vm with mem := wr32 s1.vm.mem (s1.vm.sp - 4) s1.pri, sp := s1.vm.sp - 4 } }
              obtain ⟨j1, j2, j3, j4, j5, j6⟩ := hv k _ _ _ L2 h2
              simp only at j3 j4 j5 j6
              rw [h2]
              have hsp : s2.vm.sp < s2.vm.stp := by rw [j3, j5]; have := i3.sp_le_stp; omega
              have hrd : rd32 s2.vm.mem s2.vm.sp = BitVec.ofNat 32 (base + o) := by
                rw [j3, j6, Verif.VM.rd32_wr32_same, i2]
              by_cases hlt : s2.pri.toNat < n
              · obtain ⟨s4, k1, _, _⟩ := tail_ok E m here ev hn hsz (rank_div S b) j2 hsp hrd hlt
                exact Or.inl ⟨s4, k1⟩
              · refine Or.inr ⟨?_, s2, tail_bad E m here ev hn hsz hlt⟩
                rw [j1] at hlt
                rw [Access.steps, follow_snoc, i1, Option.bind_some]
                simp only [next, if_neg hlt, Option.map_none]
        · right
          have hf : follow S (.obj t) ((Access.index e i).steps v) = none := by
            cases i <;> rw [Access.steps, follow_snoc, h0] <;> rfl
          refine ⟨hf, s1, ?_⟩
          cases i with
          | const c => simp only [emit, he, run_append, h1]
          | code k => rw [emit_index_code he, run_append, h1]
      · cases hc
    · cases hc

end Verif.Storage

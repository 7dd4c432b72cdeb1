import Verif.Model.JitFlow
import Verif.Proofs.X64Pos

/-! The code of an instruction, run by the processor from memory. -/
namespace Verif.Jit
open Verif.VM Verif.X64

/-- A label is bound in a fragment. -/
def binds (l : Nat) : List Item → Bool
  | [] => false
  | .bind k :: is => k == l || binds l is
  | _ :: is => binds l is

/-- Jumps inside a fragment lead forwards, and nothing calls the host. -/
def Wf : List Item → Prop
  | [] => True
  | .jl _ l :: is => binds l is = true ∧ Wf is
  | .fmodf :: _ => False
  | _ :: is => Wf is

theorem binds_append (l : Nat) : ∀ (a b : List Item), binds l (a ++ b) = (binds l a || binds l b)
  | [], b => rfl
  | .bind k :: a, b => by simp only [List.cons_append, binds, binds_append l a b, Bool.or_assoc]
  | .op _ :: a, b => by simp only [List.cons_append, binds, binds_append l a b]
  | .jl _ _ :: a, b => by simp only [List.cons_append, binds, binds_append l a b]
  | .err _ _ :: a, b => by simp only [List.cons_append, binds, binds_append l a b]
  | .fmodf :: a, b => by simp only [List.cons_append, binds, binds_append l a b]

theorem wf_append : ∀ {a b : List Item}, Wf a → Wf b → Wf (a ++ b)
  | [], b, _, hb => hb
  | .bind k :: a, b, ha, hb => wf_append (a := a) ha hb
  | .op _ :: a, b, ha, hb => wf_append (a := a) ha hb
  | .jl _ _ :: a, b, ha, hb => ⟨(binds_append _ a b).trans (by rw [ha.1]; rfl), wf_append (a := a) ha.2 hb⟩
  | .err _ _ :: a, b, ha, hb => wf_append (a := a) ha hb

/-- A list of calls is part of another. -/
def Seg (ops : List Op) (n : Nat) (l : List Op) : Prop := ∀ (j : Nat) (x : Op), l[j]? = some x → ops[n + j]? = some x

theorem Seg.head {ops : List Op} {n : Nat} {x : Op} {l : List Op} (h : Seg ops n (x :: l)) : ops[n]? = some x := h 0 x rfl
theorem Seg.tail {ops : List Op} {n : Nat} {x : Op} {l : List Op} (h : Seg ops n (x :: l)) : Seg ops (n + 1) l := by
  intro j y hy
  have := h (j + 1) y hy
  rwa [show n + (j + 1) = n + 1 + j by omega] at this
theorem Seg.left {ops : List Op} {n : Nat} {a b : List Op} (h : Seg ops n (a ++ b)) : Seg ops n a := by
  intro j y hy
  exact h j y (by rw [List.getElem?_append_left (List.getElem?_eq_some_iff.1 hy).1]; exact hy)
theorem Seg.right {ops : List Op} {n : Nat} {a b : List Op} (h : Seg ops n (a ++ b)) : Seg ops (n + a.length) b := by
  intro j y hy
  have := h (a.length + j) y (by rw [List.getElem?_append_right (by omega), Nat.add_sub_cancel_left]; exact hy)
  rwa [← Nat.add_assoc] at this
theorem Seg.of_prefix {ops a l : List Op} (h : a ++ l <+: ops) : Seg ops a.length l := by
  obtain ⟨t, rfl⟩ := h
  intro j x hx
  rw [List.append_assoc, List.getElem?_append_right (by omega), Nat.add_sub_cancel_left,
    List.getElem?_append_left (List.getElem?_eq_some_iff.1 hx).1]
  exact hx

theorem itemOps_length (base : Nat) : ∀ (is : List Item) (p : Nat), (itemOps base p is).length = is.length
  | [], _ => rfl
  | i :: is, p => by simp only [itemOps, List.length_cons, itemOps_length base is]

/-- The labels of the error checks of a fragment are bound. -/
def ErrsBound (ops : List Op) (p : Nat) (is : List Item) : Prop :=
  ∀ (j : Nat) (cc : Cc) (e : JErr), is[j]? = some (.err cc e) → ∃ k : Nat, ops[k]? = some (.bind (4 * (p + j) + 3))

theorem ErrsBound.tail {ops : List Op} {p : Nat} {i : Item} {is : List Item} (h : ErrsBound ops p (i :: is)) : ErrsBound ops (p + 1) is := by
  intro j cc e hj
  obtain ⟨k, hk⟩ := h (j + 1) cc e hj
  exact ⟨k, by rwa [show p + (j + 1) = p + 1 + j by omega] at hk⟩

theorem binds_at {ops : List Op} {base l : Nat} : ∀ {is : List Item} {p : Nat}, binds l is = true → Seg ops p (itemOps base p is) →
    ∃ k : Nat, ops[k]? = some (.bind (4 * (base + l) + 1))
  | [], _, h, _ => by cases h
  | .bind k :: is, p, h, hs => by
    simp only [binds, Bool.or_eq_true, beq_iff_eq] at h
    rcases h with rfl | h
    · exact ⟨p, hs.head⟩
    · exact binds_at h hs.tail
  | .op _ :: is, p, h, hs => binds_at (is := is) h hs.tail
  | .jl _ _ :: is, p, h, hs => binds_at (is := is) h hs.tail
  | .err _ _ :: is, p, h, hs => binds_at (is := is) h hs.tail
  | .fmodf :: is, p, h, hs => binds_at (is := is) h hs.tail

theorem stepCall_some {H : Host} {c : Call} {m m' : Mach} (h : stepCall H c m = some m') :
    ∃ i, X64.decode c.bytes = some (i, []) ∧ exec H i m = some m' := by
  unfold stepCall at h
  split at h
  · rename_i i e; exact ⟨i, e, h⟩
  · cases h

section
variable {ops : List Op} {A : Asm} (hrun : Asm.run true {} ops = some A) {red : Nat → Option Nat} {I : Image} (hI : Follows ops A red I) {H : Host}

/-- Where the processor is when it runs a fragment: at its beginning, or at the label it jumped to. -/
def From (ops : List Op) (base p : Nat) : Option Nat → Nat → Prop
  | none, q => q = pos ops p
  | some l, q => ∃ k : Nat, ops[k]? = some (.bind (4 * (base + l) + 1)) ∧ q = pos ops k

include hrun hI in
theorem frag {base : Nat} : ∀ (is : List Item) (p : Nat) (sk : Option Nat) (m : Mach), Wf is → Seg ops p (itemOps base p is) →
    ErrsBound ops p is → (∀ l, sk = some l → binds l is = true) →
    ∃ q, From ops base p sk q ∧
      (∀ m', run H sk is m = .done m' → Reach H I q m (pos ops (p + is.length)) m') ∧
      (∀ e m', run H sk is m = .error e m' → ∃ (j : Nat) (cc : Cc), is[j]? = some (.err cc e) ∧
        ∀ k : Nat, ops[k]? = some (.bind (4 * (p + j) + 3)) → Reach H I q m (pos ops k) m')
  | [], p, none, m, _, _, _, _ => by
    refine ⟨pos ops p, rfl, ?_, ?_⟩
    · intro m' h
      simp only [run, Out.done.injEq] at h
      subst h
      exact .here _ _
    · intro e m' h; simp [run] at h
  | [], p, some l, m, _, _, _, hb => by
    have := hb l rfl
    cases this
  | i :: is, p, some l, m, hw, hs, he, hb => by
    have rest (hw : Wf is) (hb' : binds l is = true)
        (hr : run H (some l) (i :: is) m = run H (some l) is m) :
        ∃ q, From ops base p (some l) q ∧
      (∀ m', run H (some l) (i :: is) m = .done m' → Reach H I q m (pos ops (p + (i :: is).length)) m') ∧
      (∀ e m', run H (some l) (i :: is) m = .error e m' → ∃ (j : Nat) (cc : Cc), (i :: is)[j]? = some (.err cc e) ∧
        ∀ k : Nat, ops[k]? = some (.bind (4 * (p + j) + 3)) → Reach H I q m (pos ops k) m') := by
      obtain ⟨q, h1, h2, h3⟩ := frag is (p + 1) (some l) m hw hs.tail he.tail (by rintro _ ⟨⟩; exact hb')
      refine ⟨q, h1, ?_, ?_⟩
      · intro m' h
        rw [hr] at h
        have := h2 m' h
        rwa [show p + 1 + is.length = p + (i :: is).length by simp only [List.length_cons]; omega] at this
      · intro e m' h
        rw [hr] at h
        obtain ⟨j, cc, g1, g2⟩ := h3 e m' h
        refine ⟨j + 1, cc, g1, ?_⟩
        intro k hk
        exact g2 k (by rwa [show p + 1 + j = p + (j + 1) by omega])
    have hbl := hb l rfl
    cases i with
    | bind k =>
      by_cases hkl : k = l
      · subst hkl
        obtain ⟨q, h1, h2, h3⟩ := frag is (p + 1) none m hw hs.tail he.tail (by rintro _ ⟨⟩)
        have hr : run H (some k) (.bind k :: is) m = run H none is m := by
          show run H (if k = k then none else some k) is m = _
          rw [if_pos rfl]
        have hq : q = pos ops p := by rw [h1]; exact pos_label hrun hs.head
        refine ⟨q, ⟨p, hs.head, hq⟩, ?_, ?_⟩
        · intro m' h
          rw [hr] at h
          have := h2 m' h
          rwa [show p + 1 + is.length = p + (Item.bind k :: is).length by simp only [List.length_cons]; omega] at this
        · intro e m' h
          rw [hr] at h
          obtain ⟨j, cc, g1, g2⟩ := h3 e m' h
          refine ⟨j + 1, cc, g1, ?_⟩
          intro k hk
          exact g2 k (by rwa [show p + 1 + j = p + (j + 1) by omega])
      · refine rest hw ?_ ?_
        · simp only [binds, Bool.or_eq_true, beq_iff_eq] at hbl
          exact hbl.resolve_left hkl
        · show run H (if k = l then none else some l) is m = _
          rw [if_neg hkl]
    | op c => exact rest hw hbl rfl
    | jl cc k => exact rest hw.2 hbl rfl
    | err cc e => exact rest hw hbl rfl
    | fmodf => exact hw.elim
  | i :: is, p, none, m, hw, hs, he, _ => by
    -- the rest of the fragment, reached with `m1` at `q`
    have go (sk : Option Nat) (m1 : Mach) (hw : Wf is) (hb : ∀ l, sk = some l → binds l is = true)
        (hr : run H none (i :: is) m = run H sk is m1)
        (hq : ∀ q, From ops base (p + 1) sk q → Reach H I (pos ops p) m q m1) :
        ∃ q, From ops base p none q ∧
      (∀ m', run H none (i :: is) m = .done m' → Reach H I q m (pos ops (p + (i :: is).length)) m') ∧
      (∀ e m', run H none (i :: is) m = .error e m' → ∃ (j : Nat) (cc : Cc), (i :: is)[j]? = some (.err cc e) ∧
        ∀ k : Nat, ops[k]? = some (.bind (4 * (p + j) + 3)) → Reach H I q m (pos ops k) m') := by
      obtain ⟨q, h1, h2, h3⟩ := frag is (p + 1) sk m1 hw hs.tail he.tail hb
      refine ⟨pos ops p, rfl, ?_, ?_⟩
      · intro m' h
        rw [hr] at h
        have := (hq q h1).trans (h2 m' h)
        rwa [show p + 1 + is.length = p + (i :: is).length by simp only [List.length_cons]; omega] at this
      · intro e m' h
        rw [hr] at h
        obtain ⟨j, cc, g1, g2⟩ := h3 e m' h
        refine ⟨j + 1, cc, g1, ?_⟩
        intro k hk
        exact (hq q h1).trans (g2 k (by rwa [show p + 1 + j = p + (j + 1) by omega]))
    have stuck (hr : run H none (i :: is) m = .fault) :
        ∃ q, From ops base p none q ∧
      (∀ m', run H none (i :: is) m = .done m' → Reach H I q m (pos ops (p + (i :: is).length)) m') ∧
      (∀ e m', run H none (i :: is) m = .error e m' → ∃ (j : Nat) (cc : Cc), (i :: is)[j]? = some (.err cc e) ∧
        ∀ k : Nat, ops[k]? = some (.bind (4 * (p + j) + 3)) → Reach H I q m (pos ops k) m') := by
      refine ⟨pos ops p, rfl, ?_, ?_⟩
      · intro m' h; rw [hr] at h; cases h
      · intro e m' h; rw [hr] at h; cases h
    cases i with
    | bind k =>
      refine go none m hw (by rintro _ ⟨⟩) rfl ?_
      rintro q rfl
      rw [pos_label hrun hs.head]
      exact .here _ _
    | op c =>
      cases hc : stepCall H c m with
      | none => exact stuck (by simp only [run, hc])
      | some m1 =>
        refine go none m1 hw (by rintro _ ⟨⟩) (by simp only [run, hc]) ?_
        rintro q rfl
        obtain ⟨i, hd, hx⟩ := stepCall_some hc
        exact .one (cpu_raw hrun H hI hs.head hd hx)
    | jl cc l =>
      cases hf : m.flags with
      | none => exact stuck (by simp only [run, hf])
      | some f =>
        by_cases hc : cond f cc = true
        · refine go (some l) m hw.2 (by rintro _ ⟨⟩; exact hw.1) (by simp only [run, hf, if_pos hc]) ?_
          rintro q ⟨k, hk, rfl⟩
          have := cpu_jcc hrun H hI hs.head (k := k) (cc := cc) rfl hk hf
          rw [red_j hI hs.head] at this
          rw [if_pos hc] at this
          exact .one this
        · refine go none m hw.2 (by rintro _ ⟨⟩) (by simp only [run, hf, if_neg hc]) ?_
          rintro q rfl
          obtain ⟨k, hk⟩ := binds_at (base := base) hw.1 hs.tail
          have := cpu_jcc hrun H hI hs.head (k := k) (cc := cc) rfl hk hf
          rw [red_j hI hs.head] at this
          rw [if_neg hc] at this
          exact .one this
    | err cc e =>
      cases hf : m.flags with
      | none => exact stuck (by simp only [run, hf])
      | some f =>
        by_cases hc : cond f cc = true
        · have hr : run H none (.err cc e :: is) m = .error e m := by simp only [run, hf, if_pos hc]
          refine ⟨pos ops p, rfl, ?_, ?_⟩
          · intro m' h; rw [hr] at h; cases h
          · intro e' m' h
            rw [hr] at h
            cases h
            refine ⟨0, cc, rfl, ?_⟩
            intro k hk
            have := cpu_jcc hrun H hI hs.head (k := k) (cc := cc) rfl hk hf
            rw [red_j hI hs.head] at this
            rw [if_pos hc] at this
            exact .one this
        · refine go none m hw (by rintro _ ⟨⟩) (by simp only [run, hf, if_neg hc]) ?_
          rintro q rfl
          obtain ⟨k, hk⟩ := he 0 cc e rfl
          have := cpu_jcc hrun H hI hs.head (k := k) (cc := cc) rfl hk hf
          rw [red_j hI hs.head] at this
          rw [if_neg hc] at this
          exact .one this
    | fmodf => exact hw.elim

end

/-! ## The fragments of the compiler -/

theorem wf_ops : ∀ {is : List Item}, (∀ i ∈ is, ∃ c, i = .op c) → Wf is
  | [], _ => trivial
  | i :: is, h => by
    obtain ⟨c, rfl⟩ := h i (List.mem_cons_self)
    exact wf_ops (is := is) (fun i hi => h i (List.mem_cons_of_mem _ hi))

theorem wf_check (J : JitEnv) (r : Gpr) (n : Int) (l : Nat) : Wf (emitCheckAddress J r n l) := by
  simp [emitCheckAddress, Wf, binds]
theorem wf_heap (J : JitEnv) (n : Int) : Wf (emitHeap J n) := by
  unfold emitHeap; split <;> simp [Wf]
theorem wf_sdiv (r : Reg) : Wf (emitSdiv r) := by
  cases r <;> simp [emitSdiv, Wf, binds]
theorem wf_pushC : ∀ (vs : List Cell) (i : Nat), Wf (emitPushC i vs)
  | [], _ => trivial
  | _ :: vs, i => wf_pushC vs (i + 1)
theorem wf_pushS (J : JitEnv) : ∀ (vs : List Cell) (i : Nat) {is : List Item}, emitPushS J i vs = some is → Wf is
  | [], _, is, h => by cases h; trivial
  | v :: vs, i, is, h => by
    unfold emitPushS at h
    split at h
    · rename_i e; cases h; exact (wf_pushS J vs (i + 1) e : Wf _)
    · cases h
theorem wf_pushAdr (J : JitEnv) : ∀ (vs : List Cell) (i : Nat) {is : List Item}, emitPushAdr J i vs = some is → Wf is
  | [], _, is, h => by cases h; trivial
  | v :: vs, i, is, h => by
    unfold emitPushAdr at h
    split at h
    · rename_i e; cases h; exact (wf_pushAdr J vs (i + 1) e : Wf _)
    · cases h
theorem wf_load64s (J : JitEnv) (a b : Gpr) : Wf (load64s J a b) :=
  wf_append (wf_append (wf_check _ _ _ _) (wf_check _ _ _ _)) (by simp [Wf])
theorem wf_sdiv64 (J : JitEnv) : Wf (emitSdiv64 J) := wf_append (wf_load64s _ _ _) (by simp [Wf, binds])
theorem wf_bin64 (J : JitEnv) (op : Op64) (o : Int) : Wf (emitBin64 J op o) := by
  cases op
  all_goals
    simp only [emitBin64]
    first
      | exact wf_append (wf_append (wf_load64s _ _ _) (by simp [Wf])) (by simp [Wf, finish64])
      | exact wf_append (wf_append (wf_sdiv64 _) (by simp [Wf])) (by simp [Wf, finish64])
theorem wf_cmpF32 (c : Cmp) {is : List Item} (h : emitCmpF32 c = some is) : Wf is := by
  cases c <;> simp only [emitCmpF32, Option.some.injEq, reduceCtorEq] at h <;> subst h <;> simp [Wf, binds]

theorem wf_slot {J : JitEnv} {s : Int} {f : Int → List Item} {is : List Item} (h : withSlot J s f = .code is) (hf : ∀ o, Wf (f o)) : Wf is := by
  unfold withSlot at h
  split at h
  · cases h; exact hf _
  · cases h

theorem wf_jit {J : JitEnv} {i : Insn} {is : List Item} (h : jit J i = .code is) (hc : hasCall is = false) : Wf is := by
  cases i
  all_goals first
    | (simp only [jit] at h; cases h; done)
    | (simp only [jit] at h; cases h; simp [Wf]; done)
    | (simp only [jit] at h; refine wf_slot h ?_; intro o; simp [Wf, finish64]; done)
    | skip
  case move r => cases r <;> simp only [jit] at h <;> cases h <;> simp [Wf]
  case loadI => cases h; exact wf_append (wf_check _ _ _ _) (by simp [Wf])
  case storI => cases h; exact wf_append (wf_check _ _ _ _) (by simp [Wf])
  case lodbI w =>
    cases h
    refine wf_append (wf_append (wf_check _ _ _ _) (by simp [Wf])) ?_
    split
    · simp [Wf]
    · split <;> simp [Wf]
  case strbI w =>
    cases h
    refine wf_append (wf_check _ _ _ _) ?_
    split
    · simp [Wf]
    · split
      · simp [Wf]
      · split <;> simp [Wf]
  case pushC vs => cases h; exact wf_append (wf_pushC _ _) (by simp [Wf])
  case pushS vs =>
    simp only [jit] at h
    split at h
    · rename_i e; cases h; exact wf_append (wf_pushS _ _ _ e) (by simp [Wf])
    · cases h
  case pushAdr vs =>
    simp only [jit] at h
    split at h
    · rename_i e; cases h
      exact wf_append (wf_append (a := [_]) (by simp [Wf]) (wf_pushAdr _ _ _ e)) (by simp [Wf])
    · cases h
  case heap n => cases h; exact wf_heap _ _
  case sdiv r => cases h; exact wf_sdiv _
  case sdivAltI32 => cases h; exact wf_sdiv _
  case smodAltI32 => cases h; exact wf_append (wf_sdiv _) (by simp [Wf])
  case cmp c =>
    simp only [jit] at h
    split at h
    · cases h; simp [Wf]
    · cases h
  case movs n =>
    cases h
    refine wf_append (wf_append (by simp [Wf]) ?_) ?_ <;> split <;> simp [Wf]
  case genarray n z =>
    simp only [jit] at h
    split at h
    · cases h
      refine wf_append (by simp [Wf]) ?_
      split <;> simp [Wf]
    · cases h
  case initarray r a iv cp fl v =>
    simp only [jit] at h
    split at h
    · cases h
      refine wf_append (wf_append (by simp [Wf]) ?_) ?_ <;> split <;> simp [Wf]
    · cases h
  case heapSave => cases h; exact wf_append (wf_heap _ _) (by simp [Wf])
  case pushII64 => cases h; exact wf_append (wf_check _ _ _ _) (by simp [Wf])
  case moveI64 => cases h; exact wf_append (wf_append (wf_check _ _ _ _) (wf_check _ _ _ _)) (by simp [Wf])
  case truncI64 => cases h; exact wf_append (wf_check _ _ _ _) (by simp [Wf])
  case testI64 => cases h; exact wf_append (wf_check _ _ _ _) (by simp [Wf])
  case invertI64 s =>
    refine wf_slot h ?_
    intro o
    exact wf_append (wf_append (wf_check _ _ _ _) (by simp [Wf])) (by simp [Wf, finish64])
  case negI64 s =>
    refine wf_slot h ?_
    intro o
    exact wf_append (wf_append (wf_check _ _ _ _) (by simp [Wf])) (by simp [Wf, finish64])
  case bin64 op s => exact wf_slot h (wf_bin64 _ _)
  case cmp64 c =>
    simp only [jit] at h
    split at h
    · cases h; exact wf_append (wf_load64s _ _ _) (by simp [Wf])
    · cases h
  case binF32 op =>
    cases op <;> simp only [jit] at h <;> cases h
    case modAlt => simp [hasCall] at hc
    all_goals simp [Wf]
  case cmpF32 c =>
    simp only [jit] at h
    split at h
    · rename_i e; cases h; exact wf_cmpF32 c e
    · cases h
  case storSPriI64 s =>
    refine wf_slot h ?_
    intro o
    exact wf_append (wf_check _ _ _ _) (by simp [Wf])

end Verif.Jit

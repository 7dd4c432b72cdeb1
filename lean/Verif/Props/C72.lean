import Verif.Model.Returns
import Verif.Proofs.GenAll

/-!
# C72: a function that should return a value does

What runs mean is `Verif.Spec.Lang`: `exec` runs the body of a function and gives how it ended.
-/
namespace Verif.Lang

mutual
/-- Every return has a value, or none has (`v`). -/
def Stmt.allReturn (v : Bool) : Stmt → Bool
  | .expr _ | .decl .. | .brk | .cont | .assert _ | .exit _ => true
  | .block ss => ss.allReturn v
  | .ifThen _ a => a.allReturn v
  | .ifElse _ a b => a.allReturn v && b.allReturn v
  | .while _ body | .doWhile body _ => body.allReturn v
  | .for init _ _ body => init.allReturn v && body.allReturn v
  | .switch _ cases => cases.allReturn v
  | .ret e => e.isSome == v
def Stmts.allReturn (v : Bool) : Stmts → Bool
  | .nil => true
  | .cons a rest => a.allReturn v && rest.allReturn v
def Cases.allReturn (v : Bool) : Cases → Bool
  | .nil => true
  | .dflt a => a.allReturn v
  | .case _ a rest => a.allReturn v && rest.allReturn v
end

end Verif.Lang

namespace Verif.Returns
open Verif.VM Verif.Lang Verif.CodeGen Verif.Compiled

/-! ## The flow of a statement says how it can end -/

theorem normal_sigs {α : Type} {x : Ev α} {y : Bool} {z : Bool} : Sigs (do let _ ← x; pure .next) .none y z :=
  Sigs.normal (fun σ r σ' h => by obtain ⟨_, _, _, h⟩ := Ev.bind_ok_iff h; exact (Ev.pure_inv h).1) _ _

theorem opt_always {L : Layout} {size : Nat → Nat} {call : Nat → List Cell → Ev Cell} (c : Option Expr)
    (h : alwaysTaken (c.map (gen L)) = true) : ∀ σ x σ', evalOpt size call 1 c σ = .ok x σ' → x ≠ 0 := by
  intro σ x σ' hx
  cases c with
  | none => cases hx; decide
  | some e =>
    unfold alwaysTaken at h
    simp only [Option.map, Option.elim] at h
    cases hk : (gen L e).const with
    | none => rw [hk] at h; cases h
    | some v =>
      rw [hk] at h
      have := gen_const L size call e v hk σ
      unfold evalOpt at hx
      simp only at hx
      rw [this] at hx
      cases hx
      simpa using h

section
variable (L : Layout) (size : Nat → Nat) (call : Nat → List Cell → Ev Cell) (n : Nat)

mutual
theorem sigsS : ∀ s : Stmt, Sigs (exec size call n s) (genS L s).flow (genS L s).brk (genS L s).cont
  | .expr e => by simp only [exec, genS]; exact normal_sigs
  | .decl slot init => by
    simp only [exec, genS]
    refine Sigs.normal (fun σ r σ' h => ?_) _ _
    obtain ⟨_, _, _, h⟩ := Ev.bind_ok_iff h
    cases h
    rfl
  | .block ss => by simp only [exec, genS]; exact sigsSs ss
  | .ifThen c a => by
    simp only [exec, genS]
    have ha := sigsS a
    refine ⟨fun _ _ _ => rfl, fun σ σ' h => ?_, fun σ σ' h => ?_⟩ <;> obtain ⟨x, σ1, _, h⟩ := Ev.bind_ok_iff h
    · rcases ite_sig h with h | h
      · exact ha.brk _ _ h
      · cases h
    · rcases ite_sig h with h | h
      · exact ha.cont _ _ h
      · cases h
  | .ifElse c a b => by
    simp only [exec, genS]
    have ha := sigsS a
    have hb := sigsS b
    refine ⟨fun σ σ' h => ?_, fun σ σ' h => ?_, fun σ σ' h => ?_⟩ <;> obtain ⟨x, σ1, _, h⟩ := Ev.bind_ok_iff h <;> rcases ite_sig h with h | h
    · exact join_none_left (ha.next _ _ h)
    · exact join_none_right (hb.next _ _ h)
    · show (_ || _) = true; rw [ha.brk _ _ h, Bool.true_or]
    · show (_ || _) = true; rw [hb.brk _ _ h, Bool.or_true]
    · show (_ || _) = true; rw [ha.cont _ _ h, Bool.true_or]
    · show (_ || _) = true; rw [hb.cont _ _ h, Bool.or_true]
  | .while c body => by
    simp only [exec, genS]
    exact (loop_sigs (sigsS body) (fun _ _ _ => while_end) (fun h => opt_always (some c) h)).weaken _
  | .doWhile body c => by
    simp only [exec, genS]
    exact loop_sigs (sigsS body) (fun _ _ _ => do_end) (fun h => opt_always (some c) h)
  | .for init c step body => by
    simp only [exec, genS]
    have hi := sigsSs init
    have hl : Sigs (iterate (forRound (evalOpt size call 1 c) (evalOpt size call 0 step) (exec size call n body)) n)
        (if neverTaken (c.map (gen L)) then .none else loopFlow (alwaysTaken (c.map (gen L))) (genS L body)) false false :=
      (loop_sigs (sigsS body) (fun _ _ _ => for_end) (fun h => opt_always c h)).weaken _
    refine ⟨fun σ σ' h => ?_, fun σ σ' h => ?_, fun σ σ' h => ?_⟩ <;> obtain ⟨r, σ1, h1, h2⟩ := Ev.bind_ok_iff h <;>
      rcases andThen_cases h2 with ⟨rfl, h2⟩ | ⟨h3, rfl, rfl⟩
    · exact hl.next _ _ h2
    · exact absurd rfl h3
    · cases hl.brk _ _ h2
    · exact hi.brk _ _ h1
    · cases hl.cont _ _ h2
    · exact hi.cont _ _ h1
  | .switch e cases => by
    simp only [exec, genS]
    refine ⟨fun σ σ' h => ?_, fun σ σ' h => ?_, fun σ σ' h => ?_⟩ <;> obtain ⟨x, σ1, _, h⟩ := Ev.bind_ok_iff h
    · exact (sigsCs x cases).next _ _ h
    · exact (sigsCs x cases).brk _ _ h
    · exact (sigsCs x cases).cont _ _ h
  | .brk => by simp only [exec, genS]; exact ⟨fun _ _ h => (by cases h), fun _ _ _ => rfl, fun _ _ h => (by cases h)⟩
  | .cont => by simp only [exec, genS]; exact ⟨fun _ _ h => (by cases h), fun _ _ h => (by cases h), fun _ _ _ => rfl⟩
  | .ret e => by
    simp only [exec, genS]
    refine ⟨fun σ σ' h => ?_, fun σ σ' h => ?_, fun σ σ' h => ?_⟩ <;> obtain ⟨x, σ1, _, h⟩ := Ev.bind_ok_iff h <;> cases h
  | .assert c => by
    simp only [exec, genS]
    refine Sigs.normal (fun σ r σ' h => ?_) _ _
    obtain ⟨x, σ1, _, h⟩ := Ev.bind_ok_iff h
    rcases ite_sig h with h | h <;> cases h
    rfl
  | .exit e => by
    simp only [exec, genS]
    refine Sigs.normal (fun σ r σ' h => ?_) _ _
    obtain ⟨x, σ1, _, h⟩ := Ev.bind_ok_iff h
    cases h

theorem sigsSs : ∀ ss : Stmts, Sigs (execAll size call n ss) (genSs L ss).flow (genSs L ss).brk (genSs L ss).cont
  | .nil => by simp only [execAll, genSs]; exact Sigs.normal (fun σ r σ' h => (Ev.pure_inv h).1) _ _
  | .cons s rest => by simp only [execAll, genSs]; exact seq_sigs (sigsS s) (sigsSs rest)

theorem sigsCs (x : Cell) : ∀ cs : Cases, Sigs (execCases size call n x cs) (genCs L cs).flow (genCs L cs).brk (genCs L cs).cont
  | .nil => by simp only [execCases, genCs]; exact Sigs.normal (fun σ r σ' h => (Ev.pure_inv h).1) _ _
  | .dflt s => by simp only [execCases, genCs]; exact sigsS s
  | .case labels s rest => by
    simp only [execCases, genCs]
    have hs := sigsS s
    have hr := sigsCs x rest
    by_cases hx : x ∈ labels
    · simp only [if_pos hx]
      exact ⟨fun σ σ' h => join_none_left (hs.next _ _ h), fun σ σ' h => (by rw [hs.brk _ _ h, Bool.true_or]), fun σ σ' h => (by rw [hs.cont _ _ h, Bool.true_or])⟩
    · simp only [if_neg hx]
      exact ⟨fun σ σ' h => join_none_right (hr.next _ _ h), fun σ σ' h => (by rw [hr.brk _ _ h, Bool.or_true]), fun σ σ' h => (by rw [hr.cont _ _ h, Bool.or_true])⟩
end
end

/-! ## What is reported -/

/-- What a run of the check keeps: reports are only added; without reports, the returns are as they should be. -/
structure Kept (h : Head) (s s' : RetState) (value void : Bool) : Prop where
  more : ∃ r, s'.reports = s.reports ++ r
  value : h.must = true → s'.reports = [] → value = true
  void : h.ret = .void → s'.reports = [] → void = true

theorem Kept.refl (h : Head) (s : RetState) : Kept h s s true true := ⟨⟨[], (List.append_nil _).symm⟩, fun _ _ => rfl, fun _ _ => rfl⟩

theorem Kept.trans {h : Head} {s t u : RetState} {a b c d : Bool} (x : Kept h s t a b) (y : Kept h t u c d) : Kept h s u (a && c) (b && d) := by
  obtain ⟨r, hr⟩ := x.more
  obtain ⟨q, hq⟩ := y.more
  have hn : u.reports = [] → t.reports = [] := fun hu => by rw [hu] at hq; exact (List.append_eq_nil_iff.1 hq.symm).1
  exact ⟨⟨r ++ q, by rw [hq, hr, List.append_assoc]⟩, fun hm hu => by rw [x.value hm (hn hu), y.value hm hu]; rfl,
    fun hm hu => by rw [x.void hm (hn hu), y.void hm hu]; rfl⟩

theorem checkReturn_kept (h : Head) (s : RetState) (e : Option Expr) : Kept h s (checkReturn h s e) (e.isSome == true) (e.isSome == false) := by
  cases e with
  | none =>
    refine ⟨?_, ?_, fun _ _ => rfl⟩
    · unfold checkReturn
      cases h.must
      · exact ⟨[], (List.append_nil _).symm⟩
      · exact ⟨_, rfl⟩
    · intro hm hr
      unfold checkReturn at hr
      rw [hm] at hr
      exact absurd hr (List.append_ne_nil_of_right_ne_nil _ (List.cons_ne_nil _ _))
  | some e =>
    refine ⟨?_, fun _ _ => rfl, ?_⟩
    · unfold checkReturn
      simp only
      split <;> split
      · exact ⟨[78, 78] ++ [88], by simp⟩
      · exact ⟨_, rfl⟩
      · exact ⟨_, rfl⟩
      · exact ⟨[], (List.append_nil _).symm⟩
    · intro hv hr
      unfold checkReturn at hr
      simp only [hv, if_true] at hr
      exact absurd hr (List.append_ne_nil_of_right_ne_nil _ (List.cons_ne_nil _ _))

mutual
theorem checkS_kept (h : Head) : ∀ (a : Stmt) (s : RetState), Kept h s (checkS h s a) (a.allReturn true) (a.allReturn false)
  | .expr _, s | .decl .., s | .brk, s | .cont, s | .assert _, s | .exit _, s => by simp only [checkS, Stmt.allReturn]; exact Kept.refl h s
  | .block ss, s => by simp only [checkS, Stmt.allReturn]; exact checkSs_kept h ss s
  | .ifThen _ a, s => by simp only [checkS, Stmt.allReturn]; exact checkS_kept h a s
  | .ifElse _ a b, s => by simp only [checkS, Stmt.allReturn]; exact (checkS_kept h a s).trans (checkS_kept h b _)
  | .while _ body, s | .doWhile body _, s => by simp only [checkS, Stmt.allReturn]; exact checkS_kept h body s
  | .for init _ _ body, s => by simp only [checkS, Stmt.allReturn]; exact (checkSs_kept h init s).trans (checkS_kept h body _)
  | .switch _ cases, s => by simp only [checkS, Stmt.allReturn]; exact checkCs_kept h cases s
  | .ret e, s => by simp only [checkS, Stmt.allReturn]; exact checkReturn_kept h s e
theorem checkSs_kept (h : Head) : ∀ (a : Stmts) (s : RetState), Kept h s (checkSs h s a) (a.allReturn true) (a.allReturn false)
  | .nil, s => by simp only [checkSs, Stmts.allReturn]; exact Kept.refl h s
  | .cons a rest, s => by simp only [checkSs, Stmts.allReturn]; exact (checkS_kept h a s).trans (checkSs_kept h rest _)
theorem checkCs_kept (h : Head) : ∀ (a : Cases) (s : RetState), Kept h s (checkCs h s a) (a.allReturn true) (a.allReturn false)
  | .nil, s => by simp only [checkCs, Cases.allReturn]; exact Kept.refl h s
  | .dflt a, s => by simp only [checkCs, Cases.allReturn]; exact checkS_kept h a s
  | .case _ a rest, s => by simp only [checkCs, Cases.allReturn]; exact (checkS_kept h a s).trans (checkCs_kept h rest _)
end

/-! ## The property -/

/-- **C72**: a function that is declared with a return type other than `void` (`int f()`), about which the compiler reports nothing,
never reaches its end, and each of its returns has a value, whatever the variables, the called functions and the conditions
of loops do.  `break` and `continue` are in loops (`badFn`).  Missing: functions with a forward, which are not checked
(`C72_forward_unchecked`). -/
theorem C72_returns_value_partial {L : Layout} {h : Head} {F : Func} (hr : h.ret ≠ .void) (hn : h.isNew = true) (hf : h.hasForward = false)
    (hb : badFn L F = false) (quiet : reports L h F = []) :
    F.body.allReturn true = true ∧
    ∀ size call n σ r σ', exec size call n F.body σ = .ok r σ' → ∃ v, r = .ret v := by
  have hm : h.must = true := by simp [Head.must, Head.explicit, hn, hf, hr]
  have hk := checkS_kept h F.body ⟨false, false, false, []⟩
  unfold reports at quiet
  simp only [hm, if_true] at quiet
  split at quiet
  · rename_i hc
    simp only [Bool.and_eq_true, decide_eq_true_eq] at hc
    refine ⟨hk.value hm quiet, fun size call n σ r σ' he => ?_⟩
    have hs := sigsS { L with params := F.params, slots := F.slots } size call n F.body
    have hflow : (genS { L with params := F.params, slots := F.slots } F.body).flow = .ret := hc.2
    unfold badFn at hb
    simp only [Bool.or_eq_false_iff] at hb
    cases r with
    | ret v => exact ⟨v, rfl⟩
    | next => have := hs.next _ _ he; rw [hflow] at this; cases this
    | brk => have := hs.brk _ _ he; rw [show (genS { L with params := F.params, slots := F.slots } F.body).brk = false from hb.1.2] at this; cases this
    | cont => have := hs.cont _ _ he; rw [show (genS { L with params := F.params, slots := F.slots } F.body).cont = false from hb.2] at this; cases this
  · exact absurd quiet (List.append_ne_nil_of_right_ne_nil _ (List.cons_ne_nil _ _))

/-- **C72**, the other half: no return of a `void` function about which nothing is reported has a value. -/
theorem C72_void {L : Layout} {h : Head} {F : Func} (hr : h.ret = .void) (quiet : reports L h F = []) : F.body.allReturn false = true := by
  have hk := checkS_kept h F.body ⟨false, false, false, []⟩
  have hm : h.must = false := by simp [Head.must, hr]
  unfold reports at quiet
  simp only [hm, Bool.false_eq_true, if_false, ite_self] at quiet
  exact hk.void hr quiet

/-! ## Examples

`int f(int x) { while (true) { if (x) return x; else { switch (x) { case 1: return 2; default: x = 3; } } } }`. -/

def exampleFn : Func :=
  { params := 1, slots := 0
    body := .block (.cons (.while (.num 1) (.block (.cons (.ifElse (.get (.var (.loc (-1)))) (.ret (some (.get (.var (.loc (-1))))))
      (.switch (.get (.var (.loc (-1)))) (.case [1] (.ret (some (.num 2))) (.dflt (.expr (.assign none (.var (.loc (-1))) (.num 3))))))) .nil))) .nil) }

def exampleLayout : Layout := ⟨fun _ => 0, fun _ => 0, fun _ => 0, fun _ => 0, 0, 0⟩

/-- The hypotheses of `C72_returns_value_partial` are met by this function. -/
example : badFn exampleLayout exampleFn = false ∧ reports exampleLayout ⟨.int, true, false, false⟩ exampleFn = [] := by
  constructor <;> decide +kernel

/-- `forward int f(); public int f() {}`: nothing is reported, and a call ends at the end of the body. -/
theorem C72_forward_unchecked : ∃ F : Func, badFn exampleLayout F = false ∧ reports exampleLayout ⟨.int, true, true, false⟩ F = [] ∧
    ∀ size call n σ, exec size call n F.body σ = .ok .next σ :=
  ⟨⟨0, 0, .block .nil⟩, by decide +kernel, by decide +kernel, fun _ _ _ _ => rfl⟩

/-- `f(int x) { if (x) return 1; return; }`, without a return type: nothing is reported although some returns have a value and some
do not.  In the other order, `f(int x) { if (x) return; return 1; }`, it is an error. -/
theorem C72_mixed_unchecked :
    reports exampleLayout ⟨.int, false, false, false⟩ ⟨1, 0, .block (.cons (.ifThen (.get (.var (.loc (-1)))) (.ret (some (.num 1)))) (.cons (.ret none) .nil))⟩ = [] ∧
    reports exampleLayout ⟨.int, false, false, false⟩ ⟨1, 0, .block (.cons (.ifThen (.get (.var (.loc (-1)))) (.ret none)) (.cons (.ret (some (.num 1))) .nil))⟩ = [78, 78] := by
  constructor <;> decide +kernel

end Verif.Returns

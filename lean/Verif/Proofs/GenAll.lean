import Verif.Proofs.GenSwitch

/-! The code for all statements does what the source says. -/
namespace Verif.Compiled
open Verif.VM Verif.Lang Verif.CodeGen

section
variable {E : Env} {L : Layout} {lim : Int} {m n : Nat} {b : State} {call : Nat → List Cell → Ev Cell}

theorem optNode (hF : Fits E L lim b) (hA : Activation E L m b) (hC : CallOk E L lim m n b call) {e : Option Expr} (h : ((e.map (gen L)).elim false (·.bad)) = false) :
    ∀ x, e = some x → NodeOk E L lim m n b (eval L.size call x) (gen L x) := by
  rintro x rfl
  exact gen_ok hF hA hC x h

theorem optPart (hF : Fits E L lim b) (hA : Activation E L m b) (hC : CallOk E L lim m n b call) {e : Option Expr} (h : ((e.map (gen L)).elim false (·.bad)) = false)
    (d : Cell) : PartOk E L lim m n b d (evalOpt L.size call d e) (e.map (gen L)) := by
  cases e with
  | none => exact rfl
  | some x => exact gen_ok hF hA hC x h

mutual
theorem genS_ok (hF : Fits E L lim b) (hA : Activation E L m b) (hC : CallOk E L lim m n b call) : ∀ s : Stmt, (genS L s).bad = false →
    SNodeOk E L lim m n b (exec L.size call n s) (genS L s)
  | .expr e, h => by
    simp only [exec, genS]
    exact exprStmt_ok (gen_ok hF hA hC e h)
  | .decl slot init, h => by
    simp only [genS, localVar, simpleStmt, or_false_iff, Bool.not_eq_false'] at h
    simp only [exec, genS]
    exact localVar_ok hF hA (optNode hF hA hC h.1) h.2
  | .block ss, h => by
    simp only [exec, genS]
    exact block_ok (genSs_ok hF hA hC ss h)
  | .ifThen c a, h => by
    simp only [genS, ifThen, or_false_iff] at h
    simp only [exec, genS]
    exact ifThen_ok (gen_ok hF hA hC c h.1) (genS_ok hF hA hC a h.2)
  | .ifElse c a a', h => by
    simp only [genS, ifElse, or_false_iff] at h
    simp only [exec, genS]
    exact ifElse_ok hF (gen_ok hF hA hC c h.1.1) (genS_ok hF hA hC a h.1.2) (genS_ok hF hA hC a' h.2)
  | .while c body, h => by
    simp only [genS, whileStmt, or_false_iff] at h
    simp only [exec, genS]
    exact while_ok hF (gen_ok hF hA hC c h.1) (genS_ok hF hA hC body h.2)
  | .doWhile body c, h => by
    simp only [genS, doStmt, or_false_iff] at h
    simp only [exec, genS]
    exact do_ok (gen_ok hF hA hC c h.1) (genS_ok hF hA hC body h.2)
  | .for init c step body, h => by
    simp only [genS, forStmt, or_false_iff] at h
    simp only [exec, genS]
    exact for_ok hF (genSs_ok hF hA hC init h.1.1.1) (optPart hF hA hC h.1.1.2 1) (optPart hF hA hC h.1.2 0) (genS_ok hF hA hC body h.2)
  | .switch e cases, h => by
    simp only [genS, switchStmt, or_false_iff, Bool.not_eq_false', decide_eq_true_eq] at h
    simp only [exec, genS]
    exact switch_ok hF (gen_ok hF hA hC e h.1.1) (genCs_ok hF hA hC cases h.1.2) h.2
  | .brk, _ => by
    simp only [exec, genS]
    exact break_ok hF
  | .cont, _ => by
    simp only [exec, genS]
    exact continue_ok hF
  | .ret e, h => by
    simp only [genS, returnStmt] at h
    simp only [exec, genS]
    exact return_ok (optNode hF hA hC h)
  | .assert c, h => by
    simp only [exec, genS]
    exact assert_ok (gen_ok hF hA hC c h)
  | .exit e, h => by
    simp only [genS, exitStmt, simpleStmt] at h
    simp only [exec, genS]
    exact exit_ok (optNode hF hA hC h)

theorem genSs_ok (hF : Fits E L lim b) (hA : Activation E L m b) (hC : CallOk E L lim m n b call) : ∀ ss : Stmts, (genSs L ss).bad = false →
    SNodesOk E L lim m n b (execAll L.size call n ss) (genSs L ss)
  | .nil, _ => by
    simp only [execAll, genSs]
    exact nil_ok
  | .cons s rest, h => by
    simp only [genSs, or_false_iff] at h
    simp only [execAll, genSs]
    exact cons_ok (genS_ok hF hA hC s h.1) (genSs_ok hF hA hC rest h.2)

theorem genCs_ok (hF : Fits E L lim b) (hA : Activation E L m b) (hC : CallOk E L lim m n b call) : ∀ cs : Cases, (genCs L cs).bad = false →
    CNodeOk E L lim m n b (fun x => execCases L.size call n x cs) (genCs L cs)
  | .nil, _ => by
    simp only [execCases, genCs]
    exact cnil_ok
  | .dflt s, h => by
    simp only [genCs] at h
    simp only [execCases, genCs]
    exact dflt_ok hF (genS_ok hF hA hC s h)
  | .case labels s rest, h => by
    simp only [genCs, or_false_iff] at h
    simp only [execCases, genCs]
    exact case_ok hF (genS_ok hF hA hC s h.1) (genCs_ok hF hA hC rest h.2)
end

end

end Verif.Compiled

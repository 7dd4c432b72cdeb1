import Verif.Proofs.HeapScope

/-!
# C79: what a block takes from the heap is released when it is left, and not before

`own s hs d` is the code of the statement `s` as the body of a function, loop or branch, within the scopes `hs`, in a loop around which there are `d` scopes; `code s hs d`
is its code in a list of statements.  `Exec c s o s'`: executing `c` from the state `s` has led to `s'`, with the outcome `o` (`stop`: and is still going on).
-/
namespace Verif.HeapScope
open Verif.CodeGen (Flow)

/-- In the body of a function every HEAP_RESTORE has its HEAP_SAVE, on all paths; the scopes are the same at the end; and nothing is released that was taken before. -/
theorem C79_paired {body : Stmt} {s s' : St} {o : Out} (h : Exec (own body [] 0) s o s') (hs : Sorted s.hp s.scopes) :
    o ≠ .crash ∧ (o = .normal → s'.scopes = s.scopes) ∧ min s.lo s.hp ≤ s'.lo := by
  have P := (spec_own body (hs := []) (Nat.le_refl _)).2 s o s' h hs (Nat.zero_le _)
  exact ⟨P.nocrash, fun n => (P.normal n).1, P.low⟩

/-- A statement that comes to its end has not released anything that was there at its start: arrays stay while they are in scope. -/
theorem C79_kept {a : Stmt} {hs : List Bool} {d : Nat} (hd : d ≤ hs.length) {s s' : St} (h : Exec (code a hs d) s .normal s') (hso : Sorted s.hp s.scopes)
    (hlen : act hs d ≤ s.scopes.length) : s'.scopes = s.scopes ∧ s.hp ≤ s'.hp ∧ min s.lo s.hp ≤ s'.lo :=
  ((spec_code a hs d hd).2 s .normal s' h hso hlen).normal rfl

/-- A loop leaves the scopes as they were, however it ends. -/
theorem C79_body_scopes {body : Stmt} {hs : List Bool} {s s' : St} {o : Out} (h : Exec (own body hs hs.length) s o s') (hso : Sorted s.hp s.scopes)
    (ho : o = .normal ∨ o = .brk ∨ o = .cont) : s'.scopes = s.scopes ∧ s.hp ≤ s'.hp ∧ min s.lo s.hp ≤ s'.lo := by
  have H := spec_own body (hs := hs) (d := hs.length) (Nat.le_refl _)
  rw [act_zero] at H
  have P := H.2 s o s' h hso (Nat.zero_le _)
  rcases ho with ho | ho
  · exact P.normal ho
  · obtain ⟨a1, a2, _⟩ := P.jump ho
    exact ⟨a1, a2, P.low⟩

/-- The body of a loop releases all that it takes, whether it is left at its end, by `break` or by `continue`.

Missing: bodies that are taken to return, and are left by `break` or `continue` (`C79_continue_leaks`), and `for` loops whose condition takes from the heap
(`C79_for_leaks`). -/
theorem C79_released_partial {body : Stmt} (hok : body.Ok ∧ body.fine) {hs : List Bool} {s s' : St} {o : Out} (h : Exec (own body hs hs.length) s o s')
    (hso : Sorted s.hp s.scopes) (ho : o = .normal ∨ o = .brk ∨ o = .cont) : s'.hp = s.hp := by
  have H := spec_own body (hs := hs) (d := hs.length) (Nat.le_refl _)
  rw [act_zero] at H
  have P := H.2 s o s' h hso (Nat.zero_le _)
  rcases ho with ho | ho
  · have a1 := (P.normal ho).2.1
    have a2 := P.nb hok ho
    omega
  · have a1 : s.hp ≤ s'.hp := (P.jump ho).2.1
    have a2 := P.jb hok rfl ho
    omega

/-- A function takes at most what is written in it, however often its loops go round, at any time.

Missing: as for `C79_released_partial`. -/
theorem C79_bounded_partial {body : Stmt} (hok : body.Ok ∧ body.fine) {s s' : St} {o : Out} (h : Exec (own body [] 0) s o s') (hso : Sorted s.hp s.scopes) :
    s'.hi ≤ max s.hi (s.hp + (body.usage + 4)) :=
  ((spec_own body (hs := []) (Nat.le_refl _)).2 s o s' h hso (Nat.zero_le _)).high hok

/-- A statement that has a flow (always returns, breaks or continues) does not come to its end, so that no HEAP_RESTORE is missing there. -/
theorem C79_flow {a : Stmt} {hs : List Bool} {d : Nat} {s s' : St} (h : Exec (code a hs d) s .normal s') : a.flow = .none := by
  simpa using (can_code a hs d).normal h

/-- `while (...) { int a[10]; if (...) continue; if (...) break; int b[5]; }` -/
def exLoop : Stmt :=
  .while ⟨0, none⟩ (.block (.seq (.simple 40) (.seq (.ifThen ⟨0, none⟩ .cont) (.seq (.ifThen ⟨0, none⟩ .brk) (.simple 20)))))

example : exLoop.Ok ∧ exLoop.fine := by
  refine ⟨?_, ?_⟩
  · simp only [exLoop, Stmt.Ok, Stmt.fine, Stmt.pend, Stmt.flow, Stmt.jumps]
    simp [Flow.seq]
  · intro h; exact absurd h (by decide)

/-- It saves and restores the heap, and so do `continue` and `break`. -/
example : own exLoop [] 0 = .loop (.skip ⊳ .exitIf ⊳ .catchCont ((.save ⊳ (.alloc 40 ⊳
    (.skip ⊳ .choice ((.restore ⊳ .skip) ⊳ .cont) .skip) ⊳ (.skip ⊳ .choice ((.restore ⊳ .skip) ⊳ .brk) .skip) ⊳ .alloc 20) ⊳ .restore) ⊳ .skip)) := rfl

/-- A round of it that is left by `continue`. -/
example : Exec (own (.block (.seq (.simple 40) .cont)) [] 0) ⟨100, [], 100, 100⟩ .cont ⟨100, [], 144, 100⟩ :=
  .seq (.save _) (.seqOut (.seq (.alloc _ (Nat.le_refl 40)) (.seq (.seq (.restore _ rfl) (.skip _)) (.cont _))) (fun h => nomatch h))

example : Sorted 100 [] := trivial

/-- `while (...) { int a[10]; if (...) continue; return; }`: the body is taken to return, so the heap is not saved. -/
def leakLoop : Stmt := .while ⟨0, none⟩ (.block (.seq (.simple 40) (.seq (.ifThen ⟨0, none⟩ .cont) (.ret 0))))

theorem alloc_round {c : Code} (h : ∀ s, Exec c s .normal (s.alloc 40)) (n : Nat) : ∀ s, ∃ s', Exec (.loop c) s .stop s' ∧ s.hp + n ≤ s'.hp := by
  induction n with
  | zero => exact fun s => ⟨s, .pause _ _, Nat.le_refl _⟩
  | succ n ih =>
    intro s
    obtain ⟨s', h1, h2⟩ := ih (s.alloc 40)
    refine ⟨s', .again (h s) h1, ?_⟩
    simp only [St.alloc] at h2
    omega

/-- Every round takes 40 more bytes: there is no bound. -/
theorem C79_continue_leaks (s : St) (n : Nat) : ∃ s', Exec (own leakLoop [] 0) s .stop s' ∧ n ≤ s'.hp := by
  obtain ⟨s', h1, h2⟩ := alloc_round (c := .skip ⊳ .exitIf ⊳ .catchCont ((.alloc 40 ⊳ (.skip ⊳ .choice ((.skip ⊳ .skip) ⊳ .cont) .skip) ⊳ .skip ⊳ .ret) ⊳ .brk))
    (fun s => .seq (.skip _) (.seq (.stay _) (.catchCont (o := .cont)
      (.seqOut (.seq (.alloc _ (Nat.le_refl 40)) (.seqOut (.seq (.skip _) (.left (.seq (.seq (.skip _) (.skip _)) (.cont _)))) (fun h => nomatch h)))
        (fun h => nomatch h))))) n s
  exact ⟨s', h1, by omega⟩

/-- `for (; f(); ) {}`, where the call of `f` takes from the heap, for example for the default value of a parameter that is a reference. -/
def leakFor : Stmt := .for .skip ⟨40, none⟩ none (.block .skip)

/-- Every round takes 40 more bytes, though with `while (f()) {}` none does. -/
theorem C79_for_leaks (s : St) (n : Nat) :
    (∃ s', Exec (own leakFor [] 0) s .stop s' ∧ n ≤ s'.hp) ∧ (Stmt.while ⟨40, none⟩ (.block .skip)).Ok := by
  refine ⟨?_, ⟨⟨trivial, fun h => absurd h (by decide)⟩, fun h => absurd h (by decide)⟩⟩
  obtain ⟨s', h1, h2⟩ := alloc_round (c := (.alloc 40 ⊳ .exitIf) ⊳ .catchCont (.skip ⊳ .skip))
    (fun s => .seq (.seq (.alloc _ (Nat.le_refl 40)) (.stay _)) (.catchCont (o := .normal) (.seq (.skip _) (.skip _)))) n s.save
  refine ⟨s', .seq (.save s) (.seqOut (.seq (.skip _) h1) (fun h => nomatch h)), ?_⟩
  omega

end Verif.HeapScope

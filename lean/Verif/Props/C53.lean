import Verif.Spec.Errors

/-! C51: error texts.  C53: exception-handling scopes. -/
namespace Verif.Errors

/-- **C51, all codes but one.**  Any error code except 34 is looked up inside the table; codes 1 to 33 have a text, all others
give a null result. -/
theorem C51_text_partial (e : Int) (he : e ≠ 34) :
    ∃ r, getErrorString e = some r ∧ (r.isSome = true ↔ 1 ≤ e ∧ e ≤ 33) ∧ (reportText e).isSome = true := by
  have hl : errorTable.length = 34 := rfl
  have htab : ∀ i : Fin 34, (∃ m, errorTable[i.val]? = some m ∧ (m.isSome = true ↔ 1 ≤ i.val)) := by decide
  unfold reportText getErrorString
  rw [hl]
  by_cases h : e < 1 ∨ e > (34 : Nat)
  · rw [if_pos h]
    exact ⟨none, rfl, by simp; omega, rfl⟩
  · rw [if_neg h]
    obtain ⟨m, h1, h2⟩ := htab ⟨e.toNat, by omega⟩
    simp only at h1 h2
    rw [h1]
    refine ⟨m, rfl, ?_, ?_⟩
    · rw [h2]; omega
    · cases m <;> rfl

/-- **Asking for the text of code 34 reads past the end of the table.** -/
theorem C51_one_past : getErrorString 34 = none ∧ reportText 34 = none := ⟨rfl, rfl⟩

/-- Different codes have different texts. -/
theorem C51_distinct {d e : Int} {m : String} (hd : getErrorString d = some (some m)) (he : getErrorString e = some (some m)) :
    d = e := by
  have hl : errorTable.length = 34 := rfl
  have htab : ∀ i j : Fin 34, ∀ m, errorTable[i.val]? = some (some m) → errorTable[j.val]? = some (some m) → i = j := by
    have : ∀ i j : Fin 34, i ≠ j → errorTable[i.val]? ≠ errorTable[j.val]? := by decide +kernel
    intro i j m h1 h2
    apply Decidable.byContradiction
    intro hc
    exact this i j hc (by rw [h1, h2])
  unfold getErrorString at hd he
  rw [hl] at hd he
  split at hd
  · cases hd
  split at he
  · cases he
  have l1 := (List.getElem?_eq_some_iff.1 hd).1
  have l2 := (List.getElem?_eq_some_iff.1 he).1
  rw [hl] at l1 l2
  have := htab ⟨d.toNat, l1⟩ ⟨e.toNat, l2⟩ m hd he
  simp only [Fin.mk.injEq] at this
  omega

example : getErrorString 14 = some (some "Divide by zero") ∧ reportText (-5) = some "Unknown error code -5" := ⟨rfl, by decide +kernel⟩

/-! ## Scopes -/

theorem Linked.congr {n1 n2 : Nat → Option Nat} {t : Option Nat} {live : List Nat} (h : ∀ a ∈ live, n1 a = n2 a) (hl : Linked n1 t live) :
    Linked n2 t live := by
  induction live generalizing t with
  | nil => exact hl
  | cons a live ih =>
    obtain ⟨h1, h2⟩ := hl
    refine ⟨h1, ?_⟩
    rw [← h a (List.mem_cons_self ..)]
    exact ih (fun b hb => h b (List.mem_cons_of_mem _ hb)) h2

theorem Linked.top_isSome {n : Nat → Option Nat} {t : Option Nat} {live : List Nat} (hl : Linked n t live) :
    t.isSome = !live.isEmpty := by
  cases live with
  | nil => cases hl; rfl
  | cons a l => rw [hl.1]; rfl

/-- What a run of host code does to the exception state. -/
structure Outcome (s s' : EH) (live : List Nat) (e : Option (Int × String)) : Prop where
  top : s'.top = s.top
  next : ∀ a ∈ live, s'.next a = s.next a
  catches : ∀ a ∈ live, s'.catches a = s.catches a
  some : ∀ c m, e = some (c, m) → s'.code = c ∧ s'.msg = m ∧ c ≠ 0 ∧ live ≠ []
  none : e = none → s'.code = 0

theorem pending_iff (s : EH) : s.pending = true ↔ s.code ≠ 0 := by simp [EH.pending]

/-- What is left of an error after a scope. -/
def after (e : Option (Int × String)) (again outer : Bool) : Option (Int × String) :=
  e.bind fun e => if again = true ∧ outer = true then some e else none

theorem scope_leave {s s1 : EH} {h : Nat} {live : List Nat} {e : Option (Int × String)} {again : Bool} (hl : Linked s.next s.top live)
    (hh : h ∉ live) (o : Outcome (s.enter h) s1 (h :: live) e) (s2 : EH) (h2n : s2.next = s1.next) (h2t : s2.top = s1.top)
    (h2c : s2.code = s1.code) (h2m : s2.msg = s1.msg) (h2k : ∀ a ∈ live, s2.catches a = s1.catches a) (h2h : s2.catches h = !again) :
    ∃ s3, s2.leave h = some s3 ∧
      Outcome s s3 live (after e again (!live.isEmpty)) := by
  have ht : s2.top = some h := by rw [h2t, o.top]; rfl
  have hn : s2.next h = s.top := by
    rw [h2n, o.next h (List.mem_cons_self ..)]
    unfold EH.enter
    simp
  have hnl : ∀ a ∈ live, s2.next a = s.next a := by
    intro a ha
    rw [h2n, o.next a (List.mem_cons_of_mem _ ha)]
    unfold EH.enter
    simp only
    rw [if_neg (by intro hc; subst hc; exact hh ha)]
  have hkl : ∀ a ∈ live, s2.catches a = s.catches a := by
    intro a ha
    rw [h2k a ha, o.catches a (List.mem_cons_of_mem _ ha)]
    unfold EH.enter
    simp only
    rw [if_neg (by intro hc; subst hc; exact hh ha)]
  have hts := hl.top_isSome
  unfold EH.leave
  rw [if_pos ht]
  refine ⟨_, rfl, ?_⟩
  simp only [hn]
  cases e with
  | none =>
    have hc0 := o.none rfl
    split
    · exact ⟨rfl, hnl, hkl, nofun, fun _ => rfl⟩
    · exact ⟨rfl, hnl, hkl, nofun, fun _ => by simp only; rw [h2c]; exact hc0⟩
  | some e =>
    obtain ⟨c, m⟩ := e
    obtain ⟨hc, hm, hne, _⟩ := o.some c m rfl
    by_cases hlv : live = []
    · subst hlv
      have htn : s.top = none := hl
      rw [htn, if_pos (by simp)]
      exact ⟨htn.symm, hnl, hkl, by simp [after], fun _ => rfl⟩
    · have hsome : s.top.isNone = false := by
        cases ht' : s.top with
        | none => rw [ht'] at hts; cases live <;> simp_all
        | some _ => rfl
      have hle : live.isEmpty = false := by cases live <;> simp_all
      cases again with
      | false =>
        rw [if_pos (by right; rw [h2h]; rfl)]
        exact ⟨rfl, hnl, hkl, by simp [after], fun _ => rfl⟩
      | true =>
        rw [if_neg (by rw [h2h, hsome]; simp)]
        refine ⟨rfl, hnl, hkl, ?_, by simp [hle, after]⟩
        intro c' m' he
        simp only [after, hle, Bool.not_false, and_self, if_true, Option.bind_some] at he
        cases he
        exact ⟨by simp only; rw [h2c]; exact hc, by simp only; rw [h2m]; exact hm, hne, hlv⟩

theorem host_run (p : Host) : ∀ (s : EH) (live : List Nat), Linked s.next s.top live → p.Ok live → s.code = 0 →
    ∃ s', p.run s = some (s', (p.means (!live.isEmpty)).2) ∧ Outcome s s' live (p.means (!live.isEmpty)).1 := by
  induction p with
  | skip => intro s live hl _ hc; exact ⟨s, rfl, rfl, fun _ _ => rfl, fun _ _ => rfl, nofun, fun _ => hc⟩
  | report c m =>
    intro s live hl hok hc
    have hts := hl.top_isSome
    unfold Host.run EH.report
    rw [if_neg (by rw [pending_iff]; simp [hc])]
    cases ht : s.top with
    | none =>
      rw [ht] at hts
      rw [if_neg (by simp)]
      refine ⟨s, by simp [Host.means], rfl, fun _ _ => rfl, fun _ _ => rfl, ?_, fun _ => hc⟩
      intro c' m' h
      simp only [Host.means] at h
      rw [if_neg (by rw [← hts]; simp)] at h
      cases h
    | some t =>
      rw [ht] at hts
      rw [if_pos (by rfl)]
      refine ⟨_, rfl, ht.symm, fun _ _ => rfl, fun _ _ => rfl, ?_, ?_⟩
      · intro c' m' h
        simp only [Host.means] at h
        rw [if_pos (by rw [← hts]; rfl)] at h
        cases h
        exact ⟨rfl, rfl, hok, by intro hc; subst hc; simp at hts⟩
      · intro h
        simp only [Host.means] at h
        rw [if_pos (by rw [← hts]; rfl)] at h
        cases h
  | seq a b iha ihb =>
    intro s live hl hok hc
    obtain ⟨s1, h1, o1⟩ := iha s live hl hok.1 hc
    unfold Host.run Host.means
    rw [h1]
    simp only
    cases he : a.means (!live.isEmpty) with
    | mk e l =>
      rw [he] at o1
      simp only at o1
      cases e with
      | some e =>
        have := o1.some e.1 e.2 rfl
        rw [if_pos (by rw [pending_iff, this.1]; exact this.2.2.1)]
        exact ⟨s1, rfl, o1⟩
      | none =>
        have h0 := o1.none rfl
        rw [if_neg (by rw [pending_iff]; simp [h0])]
        obtain ⟨s2, h2, o2⟩ := ihb s1 live (by rw [o1.top]; exact hl.congr (fun a ha => (o1.next a ha).symm)) hok.2 h0
        rw [h2]
        refine ⟨s2, rfl, o2.top.trans o1.top, fun a ha => (o2.next a ha).trans (o1.next a ha),
          fun a ha => (o2.catches a ha).trans (o1.catches a ha), o2.some, o2.none⟩
  | scope h again body ih =>
    intro s live hl hok hc
    have hen : Linked (s.enter h).next (s.enter h).top (h :: live) := by
      refine ⟨rfl, ?_⟩
      unfold EH.enter
      simp only [if_true]
      exact hl.congr (fun a ha => by rw [if_neg (by intro hc; subst hc; exact hok.1 ha)])
    obtain ⟨s1, h1, o1⟩ := ih (s.enter h) (h :: live) hen hok.2 hc
    unfold Host.run Host.means
    rw [h1]
    simp only
    have ht : s1.top = some h := o1.top
    have hk1 : s1.catches h = true := by rw [o1.catches h (List.mem_cons_self ..)]; simp [EH.enter]
    unfold EH.hasPending
    rw [if_pos ht]
    change ∃ s', _ ∧ Outcome s s' live _
    simp only [List.isEmpty_cons, Bool.not_false] at o1 ⊢
    cases he : body.means true with
    | mk e l =>
      rw [he] at o1
      simp only at o1
      cases e with
      | none =>
        have h0 := o1.none rfl
        have hp : s1.pending = false := by unfold EH.pending; simp [h0]
        rw [hp]
        obtain ⟨s3, hs3, o3⟩ := scope_leave (again := false) hl hok.1 o1 s1 rfl rfl rfl rfl (fun _ _ => rfl) hk1
        simp only [hs3]
        exact ⟨s3, rfl, o3⟩
      | some e =>
        obtain ⟨c, m⟩ := e
        obtain ⟨hcc, hmm, hne, _⟩ := o1.some c m rfl
        have hp : s1.pending = true := by rw [pending_iff, hcc]; exact hne
        rw [hp]
        unfold EH.pendingInfo
        rw [if_pos ⟨ht, hp⟩]
        simp only [hcc, hmm]
        cases ha : again c m with
        | true =>
          unfold EH.rethrow EH.hasPending
          rw [if_pos rfl, if_pos ht, if_pos ⟨hk1, by rw [hp]⟩]
          simp only
          obtain ⟨s3, hs3, o3⟩ := scope_leave (again := true) hl hok.1 o1
            { s1 with catches := fun a => if a = h then false else s1.catches a } rfl rfl rfl rfl
            (fun a ha => by simp only; rw [if_neg (by intro hc; subst hc; exact hok.1 ha)]) (by simp)
          simp only [hs3]
          exact ⟨s3, rfl, by simpa [after] using o3⟩
        | false =>
          rw [if_neg (by simp)]
          obtain ⟨s3, hs3, o3⟩ := scope_leave (again := false) hl hok.1 o1 s1 rfl rfl rfl rfl (fun _ _ => rfl) hk1
          simp only [hs3]
          exact ⟨s3, rfl, by simpa [after] using o3⟩
  | execute h body ih =>
    intro s live hl hok hc
    have hsc : s.clear = s := by unfold EH.clear; rw [← hc]
    have hen : Linked (s.enter h).next (s.enter h).top (h :: live) := by
      refine ⟨rfl, ?_⟩
      unfold EH.enter
      simp only [if_true]
      exact hl.congr (fun a ha => by rw [if_neg (by intro hc; subst hc; exact hok.1 ha)])
    obtain ⟨s1, h1, o1⟩ := ih (s.enter h) (h :: live) hen hok.2 hc
    unfold Host.run Host.means
    rw [hsc, h1]
    simp only
    have ht : s1.top = some h := o1.top
    have hk1 : s1.catches h = true := by rw [o1.catches h (List.mem_cons_self ..)]; simp [EH.enter]
    simp only [List.isEmpty_cons, Bool.not_false] at o1 ⊢
    obtain ⟨s3, hs3, o3⟩ := scope_leave (again := false) hl hok.1 o1 s1 rfl rfl rfl rfl (fun _ _ => rfl) hk1
    cases he : body.means true with
    | mk e l =>
      rw [he] at o1 o3
      simp only at o1 o3
      cases e with
      | none =>
        have h0 := o1.none rfl
        rw [if_neg (by rw [pending_iff]; simp [h0]), hs3]
        exact ⟨s3, rfl, o3⟩
      | some e =>
        obtain ⟨c, m⟩ := e
        obtain ⟨hcc, hmm, hne, _⟩ := o1.some c m rfl
        rw [if_pos (by rw [pending_iff, hcc]; exact hne), hs3]
        simp only [hcc, hmm]
        exact ⟨s3, rfl, by simpa [after] using o3⟩

/-- **C53.**  Any host code that opens and closes scopes in a nested way and raises errors anywhere behaves like try/catch: no
assertion fails; each scope sees exactly the error that reaches it; the chain of open handlers is the same afterwards; and an
error is pending afterwards exactly if try/catch says it goes on to the enclosing code, with its code and message. -/
theorem C53_try_catch (p : Host) (s : EH) (live : List Nat) (hl : Linked s.next s.top live) (hok : p.Ok live) (hc : s.code = 0) :
    ∃ s', p.run s = some (s', (p.means (!live.isEmpty)).2) ∧ Linked s'.next s'.top live ∧
      (∀ a ∈ live, s'.catches a = s.catches a) ∧
      (∀ c m, (p.means (!live.isEmpty)).1 = some (c, m) ↔ s'.pending = true ∧ s'.code = c ∧ s'.msg = m) := by
  obtain ⟨s', h, o⟩ := host_run p s live hl hok hc
  refine ⟨s', h, ?_, o.catches, ?_⟩
  · rw [o.top]; exact hl.congr (fun a ha => (o.next a ha).symm)
  · intro c m
    constructor
    · intro he
      obtain ⟨h1, h2, h3, _⟩ := o.some c m he
      exact ⟨by rw [pending_iff, h1]; exact h3, h1, h2⟩
    · rintro ⟨hp, rfl, rfl⟩
      cases he : (p.means (!live.isEmpty)).1 with
      | none => rw [pending_iff] at hp; exact absurd (o.none he) hp
      | some e => obtain ⟨h1, h2, _⟩ := o.some e.1 e.2 he; rw [h1, h2]

/-- **C53, outside all scopes.**  Host code run with no scope open leaves nothing pending, whatever it raised. -/
theorem C53_nothing_left (p : Host) (s : EH) (ht : s.top = none) (hok : p.Ok []) (hc : s.code = 0) :
    ∃ s' l, p.run s = some (s', l) ∧ s'.top = none ∧ s'.pending = false := by
  obtain ⟨s', h, o⟩ := host_run p s [] ht hok hc
  refine ⟨s', _, h, o.top.trans ht, ?_⟩
  have : s'.code = 0 := by
    cases he : (p.means (!List.isEmpty ([] : List Nat))).1 with
    | none => exact o.none he
    | some e => exact absurd rfl (o.some e.1 e.2 he).2.2.2
  unfold EH.pending; simp [this]

/-- Two scopes: the inner one rethrows error 14 and the outer one catches it; then an error without any scope is dropped. -/
def c53Example : Host :=
  .seq (.scope 10 (fun _ _ => false)
    (.seq (.scope 20 (fun c _ => c == 14) (.seq (.report 14 "x") (.report 15 "y"))) (.report 16 "z"))) (.report 3 "w")

example : c53Example.Ok [] ∧ c53Example.means false = (none, [(20, 14, "x"), (10, 14, "x")]) :=
  ⟨by simp [c53Example, Host.Ok], by decide⟩

end Verif.Errors

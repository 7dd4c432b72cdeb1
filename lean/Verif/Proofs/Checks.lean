import Verif.Proofs.StackUse
import Verif.Proofs.ReaderTotal
import Verif.Proofs.Scan
import Verif.Model.Verifier

/-! What the checks of the method verifier mean for the instruction they are made on. -/
namespace Verif.Verifier
open Verif.VM (Cell Insn Reader reader z a1 a2 a3 a5 an decode operands wrap32)
open Verif.Graph (Out bind_ok_iff readAt readAt_ok)

/-- The checks made on an instruction. -/
def checksOf : Insn → List Check
  | .load _ a => [.dat a]
  | .loadS _ o => [.slot o 4]
  | .lrefS _ o => [.slot o 4]
  | .lodbI w => [.width w]
  | .strbI w => [.width w]
  | .addr _ o => [.slot o 0]
  | .stor a _ => [.dat a]
  | .storS o _ => [.slot o 4]
  | .storSC o _ => [.slot o 4]
  | .srefS o _ => [.slot o 4]
  | .push _ => [.push 1]
  | .pop _ => [.pop 1]
  | .swap _ => [.pop 1, .push 1]
  | .pushC vs => [.push vs.length]
  | .pushA vs => (vs.flatMap fun a => [.dat a.toInt]) ++ [.push vs.length]
  | .pushS vs => (vs.flatMap fun a => [.slot a.toInt 4]) ++ [.push vs.length]
  | .pushAdr vs => (vs.flatMap fun a => [.slot a.toInt 0]) ++ [.push vs.length]
  | .pushII64 => [.push 2]
  | .stack n => [.stack n]
  | .heap n => [.heap n]
  | .call o => [.call o]
  | .zeroA a => [.dat a]
  | .zeroS o => [.slot o 4]
  | .zeroSI64 o => [.slot o 8]
  | .incA a => [.dat a]
  | .decA a => [.dat a]
  | .incS o => [.slot o 4]
  | .decS o => [.slot o 4]
  | .movs n => [.mem n]
  | .fill n => [.mem n]
  | .halt _ => [.reject]
  | .sysreqC i => [.native i]
  | .sysreqN i n => [.native i, .push 1, .pop (n + 1), .params n]
  | .loadBoth a b => [.dat a, .dat b]
  | .loadSBoth a b => [.slot a 4, .slot b 4]
  | .constA a _ => [.dat a]
  | .constS o _ => [.slot o 4]
  | .trackPushC n => [.trackPush n]
  | .trackPop => [.trackPop]
  | .genarray n _ => [.dims n, .pop (n - 1), .array]
  | .initarray _ a iv cp fl v => [.init a iv cp fl v]
  | .heapSave => [.save]
  | .heapRestore => [.restore]
  | .cvtI64 s => [.slot s 8]
  | .invertI64 s => [.slot s 8]
  | .negI64 s => [.slot s 8]
  | .bin64 _ s => [.slot s 8]
  | .storSCI64 s _ _ => [.slot s 8]
  | .storSPriI64 s => [.slot s 8]
  | _ => []

/-- Operands are cells. -/
def Small : Insn → Prop
  | .stack n => Is32 n
  | .sysreqN _ n => Is32 n
  | .genarray n _ => Is32 n
  | .initarray _ a _ _ _ _ => Is32 a
  | _ => True

theorem is32_toInt (x : Cell) : Is32 x.toInt := by
  constructor
  · have := BitVec.le_toInt x; simpa using this
  · have := BitVec.toInt_lt (x := x); simpa using this

/-- The verifier steps over an instruction as the reader does, and makes its checks. -/
def Agree (r : Reader) (q : Rule) : Prop := ∀ n f m g, r = some (n, f) → q = some (m, g) → n = m ∧
  ∀ vs i, vs.length = n → f vs = some i → g vs = some (checksOf i) ∧ Small i

theorem agree_none_left (q : Rule) : Agree none q := by intro n f m g h; cases h
theorem agree_none_right (r : Reader) : Agree r none := by intro n f m g _ h; cases h
theorem agree_z (i : Insn) (cs : List Check) (h : cs = checksOf i) (hs : Small i) : Agree (z i) (r0 cs) := by
  intro n f m g h1 h2
  cases h1; cases h2
  refine ⟨rfl, ?_⟩
  intro vs j _ hj
  cases hj
  exact ⟨by rw [h], hs⟩
theorem agree_a1 (k : Cell → Insn) (c : Cell → List Check) (h : ∀ x, c x = checksOf (k x)) (hs : ∀ x, Small (k x)) : Agree (a1 k) (r1 c) := by
  intro n f m g h1 h2
  cases h1; cases h2
  refine ⟨rfl, ?_⟩
  intro vs j hl hj
  match vs, hl with
  | [x], _ => cases hj; exact ⟨by rw [← h], hs _⟩
theorem agree_a2 (k : Cell → Cell → Insn) (c : Cell → Cell → List Check) (h : ∀ x y, c x y = checksOf (k x y)) (hs : ∀ x y, Small (k x y)) :
    Agree (a2 k) (r2 c) := by
  intro n f m g h1 h2
  cases h1; cases h2
  refine ⟨rfl, ?_⟩
  intro vs j hl hj
  match vs, hl with
  | [x, y], _ => cases hj; exact ⟨by rw [← h], hs _ _⟩
theorem agree_a3 (k : Cell → Cell → Cell → Insn) (c : Cell → Cell → Cell → List Check) (h : ∀ x y w, c x y w = checksOf (k x y w))
    (hs : ∀ x y w, Small (k x y w)) : Agree (a3 k) (r3 c) := by
  intro n f m g h1 h2
  cases h1; cases h2
  refine ⟨rfl, ?_⟩
  intro vs j hl hj
  match vs, hl with
  | [x, y, w], _ => cases hj; exact ⟨by rw [← h], hs _ _ _⟩
theorem agree_a5 (k : Cell → Cell → Cell → Cell → Cell → Insn) (c : Cell → Cell → Cell → Cell → Cell → List Check)
    (h : ∀ x y w u v, c x y w u v = checksOf (k x y w u v)) (hs : ∀ x y w u v, Small (k x y w u v)) : Agree (a5 k) (r5 c) := by
  intro n f m g h1 h2
  cases h1; cases h2
  refine ⟨rfl, ?_⟩
  intro vs j hl hj
  match vs, hl with
  | [x, y, w, u, v], _ => cases hj; exact ⟨by rw [← h], hs _ _ _ _ _⟩
theorem agree_an (n : Nat) (k : List Cell → Insn) (c : Cell → List Check)
    (h : ∀ vs, vs.flatMap c ++ [Check.push vs.length] = checksOf (k vs)) (hs : ∀ vs, Small (k vs)) : Agree (an n k) (pushRule n c) := by
  intro n f m g h1 h2
  cases h1; cases h2
  refine ⟨rfl, ?_⟩
  intro vs j hl hj
  cases hj
  exact ⟨by rw [← h, hl], hs _⟩

theorem flatMap_nil (vs : List Cell) : (vs.flatMap fun _ => ([] : List Check)) = [] := by
  induction vs with
  | nil => rfl
  | cons v vs ih => rw [List.flatMap_cons, ih]; rfl

set_option maxRecDepth 20000 in
theorem rules_agree (op : Nat) (h : op ≠ 120) : Agree (reader op) (rule op) := by
  unfold reader
  split
  all_goals first
    | exact agree_z _ _ rfl trivial
    | exact agree_a1 _ _ (fun _ => rfl) fun _ => trivial
    | exact agree_a1 _ _ (fun _ => rfl) fun _ => is32_toInt _
    | exact agree_a2 _ _ (fun _ _ => rfl) fun _ _ => trivial
    | exact agree_a2 _ _ (fun _ _ => rfl) fun _ _ => is32_toInt _
    | exact agree_a3 _ _ (fun _ _ _ => rfl) fun _ _ _ => trivial
    | exact agree_a5 _ _ (fun _ _ _ _ _ => rfl) fun _ _ _ _ _ => is32_toInt _
    | exact agree_an _ _ _ (fun vs => by rw [flatMap_nil]; rfl) fun _ => trivial
    | exact agree_an _ _ _ (fun _ => rfl) fun _ => trivial
    | exact agree_none_right _
    | exact agree_none_left _
    | exact absurd rfl h

/-- The verifier's step over a decoded instruction. -/
theorem verifyOp_ok {C : Ctx} {prev : Option Nat} {pc pc' pcd : Nat} {op : Cell} {S S' : Cur} {i : Insn} (hop : C.code[pc]? = some op)
    (h : verifyOp C prev pc op S = .ok (pc', S')) (hd : decode C.code pc = some (i, pcd)) :
    pc' = pcd ∧ runChecks C prev (checksOf i) S = .ok S' ∧ Small i := by
  unfold verifyOp at h
  unfold decode at hd
  rw [hop] at hd
  simp only at hd
  split at h
  · rename_i h130
    rw [if_pos h130] at hd
    obtain ⟨n, h1, h⟩ := bind_ok_iff.1 h
    rw [readAt_ok] at h1
    rw [Verif.VM.operands_one h1] at hd
    simp only at hd h
    split at h
    · cases h
    · split at hd
      · cases h
        cases hd
        refine ⟨by omega, rfl, trivial⟩
      · cases hd
  · rename_i h130
    rw [if_neg h130] at hd
    by_cases h120 : op.toNat = 120
    · rw [h120] at h
      have h' : (match operands C.code pc 0 with
        | none => Out.ub
        | some vs => (do let S ← runChecks C prev [Check.reject] S; .ok (pc + 1 + 0, S))) = Out.ok (pc', S') := h
      split at h'
      · cases h'
      · cases h'
    · have ha := rules_agree op.toNat h120
      split at h
      · cases h
      · rename_i m g hq
        split at hd
        · cases hd
        · rename_i n f hr
          obtain ⟨hnm, hag⟩ := ha n f m g hr hq
          subst hnm
          split at h
          · cases h
          · rename_i vs hvs
            rw [hvs] at hd
            simp only at hd
            have hlen : vs.length = n := by
              unfold operands at hvs
              split at hvs
              · cases hvs
                rw [List.length_take, List.length_drop]
                omega
              · cases hvs
            split at hd
            · cases hd
            · rename_i j hf
              cases hd
              obtain ⟨hg, hs⟩ := hag vs _ hlen hf
              rw [hg] at h
              simp only at h
              obtain ⟨S1, h1, h2⟩ := bind_ok_iff.1 h
              cases h2
              exact ⟨rfl, h1, hs⟩

/-! ## Effects -/

/-- Checks that leave the balance, the tracker, the scopes and the maximum alone. -/
def Check.quiet : Check → Bool
  | .slot _ _ | .dat _ | .width _ | .native _ | .params _ | .dims _ | .mem _ | .heap _ | .init _ _ _ _ _ => true
  | _ => false

/-- The same but for the heap. -/
def Alike (S S' : Cur) : Prop := S'.data.bal = S.data.bal ∧ S'.data.trk = S.data.trk ∧ S'.data.depth = S.data.depth ∧ S'.max = S.max

theorem Alike.refl (S : Cur) : Alike S S := ⟨rfl, rfl, rfl, rfl⟩

theorem Alike.trans {S S' S'' : Cur} (h : Alike S S') (h' : Alike S' S'') : Alike S S'' :=
  ⟨h'.1.trans h.1, h'.2.1.trans h.2.1, h'.2.2.1.trans h.2.2.1, h'.2.2.2.trans h.2.2.2⟩

theorem slotOk_ok {C : Ctx} {o : Int} {n : Nat} {S S' : Cur} (h : slotOk C o n S = .ok S') : S' = S := by
  unfold slotOk at h
  repeat' split at h
  all_goals first
    | (cases h; done)
    | (cases h; rfl)

theorem datOk_ok {C : Ctx} {o : Int} {S S' : Cur} (h : datOk C o S = .ok S') : S' = S ∧ 0 ≤ o ∧ o < C.datSize := by
  unfold datOk at h
  split at h
  · cases h
  · cases h
    exact ⟨rfl, by omega, by omega⟩

theorem initOk_ok {C : Ctx} {a iv cp fl : Int} {v : Cell} {S S' : Cur} (h : initOk C a iv cp fl v S = .ok S') : S' = S := by
  unfold initOk at h
  split at h
  · cases h
  · split at h
    · cases h
    · simp only at h
      split at h
      · cases h
      · split at h
        · cases h; rfl
        · obtain ⟨S1, h1, h2⟩ := bind_ok_iff.1 h
          rw [(datOk_ok h2).1, (datOk_ok h1).1]

theorem pushHeap_alike {n : Nat} {S S' : Cur} (h : pushHeap n S = .ok S') : Alike S S' := by
  unfold pushHeap at h
  repeat' split at h
  all_goals first
    | (cases h; done)
    | (cases h; exact ⟨rfl, rfl, rfl, rfl⟩)

theorem popHeap_alike {n : Nat} {S S' : Cur} (h : popHeap n S = .ok S') : Alike S S' := by
  unfold popHeap at h
  repeat' split at h
  all_goals first
    | (cases h; done)
    | (cases h; exact ⟨rfl, rfl, rfl, rfl⟩)

theorem quiet_alike {C : Ctx} {prev : Option Nat} {c : Check} {S S' : Cur} (hq : c.quiet = true) (h : c.run C prev S = .ok S') : Alike S S' := by
  cases c
  case slot o n => rw [slotOk_ok h]; exact .refl S
  case dat o => rw [(datOk_ok h).1]; exact .refl S
  case init a iv cp fl v => rw [initOk_ok h]; exact .refl S
  case heap v =>
    simp only [Check.run] at h
    split at h
    · cases h
    · split at h
      · split at h
        · exact pushHeap_alike h
        · exact popHeap_alike h
      · split at h
        · cases h
        · cases h; exact .refl S
  all_goals first
    | (cases hq; done)
    | (simp only [Check.run] at h; split at h <;> cases h; exact .refl S)

theorem quiets_alike {C : Ctx} {prev : Option Nat} : ∀ (cs : List Check) (S S' : Cur), (∀ c ∈ cs, c.quiet = true) →
    runChecks C prev cs S = .ok S' → Alike S S'
  | [], S, S', _, h => by cases h; exact .refl S
  | c :: cs, S, S', hq, h => by
    unfold runChecks at h
    obtain ⟨S1, h1, h2⟩ := bind_ok_iff.1 h
    exact (quiet_alike (hq c (by simp)) h1).trans (quiets_alike cs S1 S' (fun c hc => hq c (by simp [hc])) h2)

theorem runChecks_append {C : Ctx} {prev : Option Nat} : ∀ (cs ds : List Check) (S S' : Cur), runChecks C prev (cs ++ ds) S = .ok S' →
    ∃ S1, runChecks C prev cs S = .ok S1 ∧ runChecks C prev ds S1 = .ok S'
  | [], ds, S, S', h => ⟨S, rfl, h⟩
  | c :: cs, ds, S, S', h => by
    rw [List.cons_append] at h
    unfold runChecks at h
    obtain ⟨S1, h1, h2⟩ := bind_ok_iff.1 h
    obtain ⟨S2, h3, h4⟩ := runChecks_append cs ds S1 S' h2
    refine ⟨S2, ?_, h4⟩
    rw [runChecks, bind_ok_iff]
    exact ⟨S1, h1, h3⟩

theorem runChecks_dat {C : Ctx} {prev : Option Nat} {o : Int} : ∀ (cs : List Check) (S S' : Cur), runChecks C prev cs S = .ok S' →
    Check.dat o ∈ cs → 0 ≤ o ∧ o < C.datSize
  | [], _, _, _, hm => by cases hm
  | c :: cs, S, S', h, hm => by
    unfold runChecks at h
    obtain ⟨S1, h1, h2⟩ := bind_ok_iff.1 h
    rcases List.mem_cons.1 hm with rfl | hm
    · exact (datOk_ok h1).2
    · exact runChecks_dat cs S1 S' h2 hm

theorem mem1 {a b : Int} (h : a ∈ [b]) : Check.dat a ∈ [Check.dat b] := by
  rw [List.mem_singleton] at h ⊢
  rw [h]

theorem globals_checked {i : Insn} {a : Int} (h : a ∈ globals i) : Check.dat a ∈ checksOf i := by
  cases i
  case pushA vs =>
    have h : a ∈ vs.map (·.toInt) := h
    rw [List.mem_map] at h
    obtain ⟨v, hv, rfl⟩ := h
    refine List.mem_append_left _ ?_
    rw [List.mem_flatMap]
    exact ⟨v, hv, List.mem_singleton.2 rfl⟩
  case loadBoth x y =>
    have h : a ∈ [x, y] := h
    show Check.dat a ∈ [Check.dat x, Check.dat y]
    simp at h ⊢
    exact h
  all_goals first
    | exact mem1 h
    | (cases h; done)

/-- Scopes an instruction opens. -/
def scopes (i : Insn) : Int := scopesOpen [i]

/-- Tracker entries an instruction makes. -/
def tracks (i : Insn) : Int := tracked [i]

/-- Admissible in the mode the code is in. -/
def Mode (C : Ctx) (i : Insn) : Prop := if C.scopes then i ≠ .trackPop ∧ ∀ n, i ≠ .trackPushC n else i ≠ .heapSave ∧ i ≠ .heapRestore

/-- What an accepted instruction does to the verifier's data, with the maximum `max_stack_`. -/
structure Effect (C : Ctx) (i : Insn) (S S' : Cur) : Prop where
  pops : pops i ≤ S.data.bal
  mono : S.max ≤ S'.max
  within : S.data.bal ≤ S.max → S'.data.bal ≤ S'.max
  depth : (S'.data.depth : Int) = S.data.depth + scopes i
  trk : (S'.data.trk.length : Int) = S.data.trk.length + if C.scopes then 0 else tracks i
  modes : Mode C i

theorem pushStack_ok {n : Nat} {S S' : Cur} (h : pushStack n S = .ok S') :
    S'.data = { S.data with bal := S.data.bal + n } ∧ S.max ≤ S'.max ∧ S'.data.bal ≤ S'.max ∧ S'.data.bal ≤ 536870911 := by
  unfold pushStack at h
  split at h
  · cases h
  · split at h
    · cases h
    · cases h
      refine ⟨rfl, ?_, ?_, ?_⟩
      · simp only; split <;> omega
      · simp only; split <;> omega
      · simp only; omega

theorem popStack_ok {n : Int} {S S' : Cur} (h : popStack n S = .ok S') :
    (n % 4294967296).toNat ≤ S.data.bal ∧ S' = ⟨{ S.data with bal := S.data.bal - (n % 4294967296).toNat }, S.max⟩ := by
  unfold popStack at h
  simp only at h
  split at h
  · cases h
  · cases h
    exact ⟨by omega, rfl⟩

theorem pop_ok {C : Ctx} {prev : Option Nat} {n : Int} {S S' : Cur} (h : (Check.pop n).run C prev S = .ok S') :
    (n % 4294967296).toNat ≤ S.data.bal ∧ S' = ⟨{ S.data with bal := S.data.bal - (n % 4294967296).toNat }, S.max⟩ := by
  simp only [Check.run] at h
  split at h
  · cases h
  · exact popStack_ok h

theorem trackPopOk_ok {C : Ctx} {S S' : Cur} (h : trackPopOk C S = .ok S') : C.scopes = false ∧ S'.data.bal = S.data.bal ∧
    S'.data.depth = S.data.depth ∧ S'.max = S.max ∧ S.data.trk.length = S'.data.trk.length + 1 := by
  unfold trackPopOk at h
  split at h
  · cases h
  · rename_i hs
    have hs : C.scopes = false := by simpa using hs
    split at h
    · cases h
    · rename_i amount trk ht
      rw [ht]
      split at h
      · cases h; exact ⟨hs, rfl, rfl, rfl, rfl⟩
      · split at h
        · split at h
          · cases h
          · split at h
            · cases h
            · cases h; exact ⟨hs, rfl, rfl, rfl, rfl⟩
        · obtain ⟨heap, _, h⟩ := bind_ok_iff.1 h
          cases h; exact ⟨hs, rfl, rfl, rfl, rfl⟩

theorem trackPushOk_ok {C : Ctx} {v : Int} {S S' : Cur} (h : trackPushOk C v S = .ok S') : C.scopes = false ∧ S'.data.bal = S.data.bal ∧
    S'.data.depth = S.data.depth ∧ S'.max = S.max ∧ S'.data.trk.length = S.data.trk.length + 1 := by
  unfold trackPushOk at h
  split at h
  · cases h
  · rename_i hs
    have hs : C.scopes = false := by simpa using hs
    split at h
    · cases h
    · simp only at h
      split at h
      · obtain ⟨t, _, h⟩ := bind_ok_iff.1 h
        split at h
        · cases h
        · cases h; exact ⟨hs, rfl, rfl, rfl, rfl⟩
      · cases h; exact ⟨hs, rfl, rfl, rfl, rfl⟩

theorem run_one {C : Ctx} {prev : Option Nat} {c : Check} {S S' : Cur} (h : runChecks C prev [c] S = .ok S') : c.run C prev S = .ok S' := by
  unfold runChecks at h
  obtain ⟨S1, h1, h2⟩ := bind_ok_iff.1 h
  cases h2
  exact h1

theorem mkE {C : Ctx} {i : Insn} {S S' : Cur} {p sc tr nt : Int} (hp : pops i = p) (hsc : scopes i = sc) (htr : tracks i = tr) (hnt : net i = nt)
    (h1 : p ≤ S.data.bal) (h2 : S.max ≤ S'.max) (h3 : S.data.bal ≤ S.max → S'.data.bal ≤ S'.max)
    (h4 : (S'.data.depth : Int) = S.data.depth + sc)
    (h5 : (S'.data.trk.length : Int) = S.data.trk.length + if C.scopes then 0 else tr) (h6 : Mode C i)
    (h7 : (S'.data.bal : Int) = S.data.bal + nt) : Effect C i S S' ∧ (S'.data.bal : Int) = S.data.bal + net i :=
  ⟨⟨hp ▸ h1, h2, h3, hsc ▸ h4, htr ▸ h5, h6⟩, hnt ▸ h7⟩

theorem zeroTrk {C : Ctx} {n m : Nat} (h : n = m) : (n : Int) = m + if C.scopes then 0 else (0 : Int) := by
  rw [h]
  split <;> exact (Int.add_zero _).symm

theorem modes_of {C : Ctx} {i : Insn} (h1 : i ≠ .trackPop) (h2 : ∀ n, i ≠ .trackPushC n) (h3 : i ≠ .heapSave) (h4 : i ≠ .heapRestore) :
    Mode C i := by
  unfold Mode
  split
  · exact ⟨h1, h2⟩
  · exact ⟨h3, h4⟩

theorem push_effect {C : Ctx} {i : Insn} {n : Nat} {S S' : Cur} (h : pushStack n S = .ok S') (h1 : pops i ≤ 0) (h2 : scopes i = 0)
    (h3 : tracks i = 0) (h4 : Mode C i) (hn : net i = n) : Effect C i S S' ∧ (S'.data.bal : Int) = S.data.bal + net i := by
  obtain ⟨g1, g2, g3, _⟩ := pushStack_ok h
  refine mkE rfl h2 h3 hn (by omega) g2 (fun _ => g3) ?_ (zeroTrk ?_) h4 ?_
  · rw [g1]; simp
  · rw [g1]
  · rw [g1]; simp

theorem pushes_effect {C : Ctx} {prev : Option Nat} {i : Insn} {vs : List Cell} {f : Cell → Check} {S S' : Cur}
    (h : runChecks C prev ((vs.flatMap fun a => [f a]) ++ [.push vs.length]) S = .ok S') (hq : ∀ a, (f a).quiet = true)
    (h1 : pops i ≤ 0) (h2 : scopes i = 0) (h3 : tracks i = 0) (h4 : Mode C i)
    (hn : net i = vs.length) : Effect C i S S' ∧ (S'.data.bal : Int) = S.data.bal + net i := by
  obtain ⟨S1, g1, g2⟩ := runChecks_append _ _ _ _ h
  obtain ⟨k1, k2, k3, k4⟩ := quiets_alike _ _ _ (by
    intro c hc
    rw [List.mem_flatMap] at hc
    obtain ⟨a, _, hc⟩ := hc
    simp at hc
    rw [hc]; exact hq a) g1
  have g2 := run_one g2
  obtain ⟨e1, e2, e3, _⟩ := pushStack_ok g2
  refine mkE rfl h2 h3 hn (by omega) (by omega) (fun _ => e3) ?_ (zeroTrk ?_) h4 ?_
  · rw [e1]; simp [k3]
  · rw [e1, k2]
  · rw [e1]; simp [k1]

/-- Replacements are called with the arguments they take. -/
def NativeFits (E : Verif.VM.Env) : Insn → Prop
  | .sysreqN i n => ∀ nat k f, E.natives i.toNat = some nat → nat.bound = true → nat.fixed = true → nat.replacement = some (k, f) → n = k
  | _ => True

theorem quiet1 {C : Ctx} {prev : Option Nat} {c : Check} {S S' : Cur} (hq : c.quiet = true) (h : runChecks C prev [c] S = .ok S') : Alike S S' :=
  quiet_alike hq (run_one h)

theorem quiet2 {C : Ctx} {prev : Option Nat} {c d : Check} {S S' : Cur} (hq : c.quiet = true) (hd : d.quiet = true)
    (h : runChecks C prev [c, d] S = .ok S') : Alike S S' := by
  unfold runChecks at h
  obtain ⟨S1, h1, h2⟩ := bind_ok_iff.1 h
  exact (quiet_alike hq h1).trans (quiet1 hd h2)

theorem quiet0 {C : Ctx} {prev : Option Nat} {S S' : Cur} (h : runChecks C prev [] S = .ok S') : Alike S S' := by
  cases h; exact .refl S

theorem Alike.effect {C : Ctx} {i : Insn} {S S' : Cur} (h : Alike S S') (h1 : pops i = 0) (h2 : scopes i = 0) (h3 : tracks i = 0)
    (h4 : Mode C i) (h5 : net i = 0) : Effect C i S S' ∧ (S'.data.bal : Int) = S.data.bal + net i := by
  obtain ⟨g1, g2, g3, g4⟩ := h
  exact mkE h1 h2 h3 h5 (by omega) (by omega) (by omega) (by omega) (zeroTrk (by rw [g2])) h4 (by omega)

/-- An accepted instruction other than a CALL. -/
theorem effect {C : Ctx} {prev : Option Nat} {i : Insn} {S S' : Cur} (h : runChecks C prev (checksOf i) S = .ok S') (hs : Small i)
    (hc : ∀ o, i ≠ .call o) : (Effect C i S S' ∧ (S'.data.bal : Int) = S.data.bal + net i) ∧ ∀ E, NativeFits E i → Fits E i := by
  cases i
  case call o => exact absurd rfl (hc o)
  case halt v => cases h
  case push r =>
    exact ⟨push_effect (run_one h) (Int.le_refl 0) rfl rfl (modes_of nofun nofun nofun nofun) rfl, fun _ _ => trivial⟩
  case pop r =>
    obtain ⟨g1, g2⟩ := pop_ok (run_one h)
    subst g2
    exact ⟨mkE (p := 1) (sc := 0) (tr := 0) (nt := -1) rfl rfl rfl rfl (by omega) (Nat.le_refl _) (by simp only; omega) (Int.add_zero _).symm (zeroTrk rfl)
      (modes_of nofun nofun nofun nofun) (by simp only; omega), fun _ _ => trivial⟩
  case swap r =>
    replace h : runChecks C prev [.pop 1, .push 1] S = .ok S' := h
    unfold runChecks at h
    obtain ⟨S1, h1, h2⟩ := bind_ok_iff.1 h
    obtain ⟨g1, g2⟩ := pop_ok h1
    subst g2
    obtain ⟨k1, k2, k3, _⟩ := pushStack_ok (run_one h2)
    simp only at k1 k2
    exact ⟨mkE (p := 1) (sc := 0) (tr := 0) (nt := 0) rfl rfl rfl rfl (by omega) k2 (fun _ => k3) (by rw [k1]; simp) (zeroTrk (by rw [k1]))
      (modes_of nofun nofun nofun nofun) (by rw [k1]; simp only; omega), fun _ _ => trivial⟩
  case pushC vs =>
    exact ⟨push_effect (run_one h) (Int.le_refl 0) rfl rfl (modes_of nofun nofun nofun nofun) rfl, fun _ _ => trivial⟩
  case pushA vs =>
    exact ⟨pushes_effect (f := fun a => .dat a.toInt) h (fun _ => rfl) (Int.le_refl 0) rfl rfl (modes_of nofun nofun nofun nofun) rfl, fun _ _ => trivial⟩
  case pushS vs =>
    exact ⟨pushes_effect (f := fun a => .slot a.toInt 4) h (fun _ => rfl) (Int.le_refl 0) rfl rfl (modes_of nofun nofun nofun nofun) rfl, fun _ _ => trivial⟩
  case pushAdr vs =>
    exact ⟨pushes_effect (f := fun a => .slot a.toInt 0) h (fun _ => rfl) (Int.le_refl 0) rfl rfl (modes_of nofun nofun nofun nofun) rfl, fun _ _ => trivial⟩
  case pushII64 =>
    exact ⟨push_effect (run_one h) (Int.le_refl 0) rfl rfl (modes_of nofun nofun nofun nofun) rfl, fun _ _ => trivial⟩
  case stack n =>
    have h := run_one h
    obtain ⟨hs1, hs2⟩ : Is32 n := hs
    simp only [Check.run] at h
    split at h
    · cases h
    · split at h
      · cases h
      · rename_i hn4
        have hn4 : n % 4 = 0 := Decidable.byContradiction hn4
        split at h
        · rename_i hneg
          refine ⟨push_effect h (show n / 4 ≤ 0 by omega) rfl rfl (modes_of nofun nofun nofun nofun) (show -(n / 4) = _ by omega),
            fun _ _ => hn4⟩
        · rename_i hpos
          obtain ⟨g1, g2⟩ := popStack_ok h
          subst g2
          exact ⟨mkE (p := n / 4) (sc := 0) (tr := 0) (nt := -(n / 4)) rfl rfl rfl rfl (by omega) (Nat.le_refl _) (by simp only; omega)
            (Int.add_zero _).symm (zeroTrk rfl) (modes_of nofun nofun nofun nofun) (by simp only; omega), fun _ _ => hn4⟩
  case sysreqN j n =>
    obtain ⟨hs1, hs2⟩ : Is32 n := hs
    replace h : runChecks C prev [.native j, .push 1, .pop (n + 1), .params n] S = .ok S' := h
    unfold runChecks at h
    obtain ⟨S1, h1, hr⟩ := bind_ok_iff.1 h
    have e1 : S1 = S := by
      simp only [Check.run] at h1
      split at h1 <;> cases h1
      rfl
    subst e1
    unfold runChecks at hr
    obtain ⟨S2, h2, hr⟩ := bind_ok_iff.1 hr
    obtain ⟨k1, k2, k3, _⟩ := pushStack_ok h2
    unfold runChecks at hr
    obtain ⟨S3, h3, h4⟩ := bind_ok_iff.1 hr
    obtain ⟨g1, g2⟩ := pop_ok h3
    have h4 := run_one h4
    simp only [Check.run] at h4
    split at h4
    · cases h4
    · rename_i hn
      cases h4
      subst g2
      have kb : S2.data.bal = S1.data.bal + 1 := by rw [k1]
      refine ⟨mkE (p := n) (sc := 0) (tr := 0) (nt := -n) rfl rfl rfl rfl (by omega) k2 (by simp only; omega) (by rw [k1]; simp)
        (zeroTrk (by rw [k1])) (modes_of nofun nofun nofun nofun) (by simp only; omega), ?_⟩
      intro E hE
      exact ⟨by omega, by omega, hE⟩
  case genarray n zr =>
    obtain ⟨hs1, hs2⟩ : Is32 n := hs
    replace h : runChecks C prev [.dims n, .pop (n - 1), .array] S = .ok S' := h
    unfold runChecks at h
    obtain ⟨S1, h1, h⟩ := bind_ok_iff.1 h
    simp only [Check.run] at h1
    split at h1
    · cases h1
    · rename_i hn
      cases h1
      unfold runChecks at h
      obtain ⟨S2, h2, h⟩ := bind_ok_iff.1 h
      obtain ⟨g1, g2⟩ := pop_ok h2
      have h := run_one h
      simp only [Check.run] at h
      subst g2
      split at h
      · rename_i hsc
        have hsc : C.scopes = false := by simpa using hsc
        cases h
        exact ⟨mkE (p := n - 1) (sc := 0) (tr := 1) (nt := -(n - 1)) rfl rfl rfl rfl (by omega) (Nat.le_refl _) (by simp only; omega)
          (Int.add_zero _).symm (by rw [hsc]; simp) (modes_of nofun nofun nofun nofun) (by simp only; omega), fun _ _ => ⟨by omega, by omega⟩⟩
      · rename_i hsc
        have hsc : C.scopes = true := by simpa using hsc
        cases h
        exact ⟨mkE (p := n - 1) (sc := 0) (tr := 1) (nt := -(n - 1)) rfl rfl rfl rfl (by omega) (Nat.le_refl _) (by simp only; omega)
          (Int.add_zero _).symm (by rw [hsc]; simp) (modes_of nofun nofun nofun nofun) (by simp only; omega), fun _ _ => ⟨by omega, by omega⟩⟩
  case trackPushC n =>
    obtain ⟨g1, g2, g3, g4, g5⟩ := trackPushOk_ok (run_one h)
    exact ⟨mkE (p := 0) (sc := 0) (tr := 1) (nt := 0) rfl rfl rfl rfl (by omega) (by omega) (by omega) (by omega) (by rw [g1, g5]; simp)
      (by unfold Mode; rw [g1]; exact ⟨nofun, nofun⟩) (by omega), fun _ _ => trivial⟩
  case trackPop =>
    obtain ⟨g1, g2, g3, g4, g5⟩ := trackPopOk_ok (run_one h)
    exact ⟨mkE (p := 0) (sc := 0) (tr := -1) (nt := 0) rfl rfl rfl rfl (by omega) (by omega) (by omega) (by omega) (by rw [g1]; simp; omega)
      (by unfold Mode; rw [g1]; exact ⟨nofun, nofun⟩) (by omega), fun _ _ => trivial⟩
  case heapSave =>
    have h := run_one h
    simp only [Check.run] at h
    split at h
    · cases h
    · rename_i hsc
      have hsc : C.scopes = true := by simpa using hsc
      cases h
      exact ⟨mkE (p := 0) (sc := 1) (tr := 0) (nt := 0) rfl rfl rfl rfl (by omega) (by simp) (by simp) (by simp) (zeroTrk rfl)
        (by unfold Mode; rw [hsc]; exact ⟨nofun, nofun⟩) (by simp), fun _ _ => trivial⟩
  case heapRestore =>
    have h := run_one h
    simp only [Check.run] at h
    split at h
    · cases h
    · rename_i hsc
      have hsc : C.scopes = true := by simpa using hsc
      split at h
      · cases h
      · cases h
        exact ⟨mkE (p := 0) (sc := -1) (tr := 0) (nt := 0) rfl rfl rfl rfl (by omega) (by simp) (by simp) (by simp; omega) (zeroTrk rfl)
          (by unfold Mode; rw [hsc]; exact ⟨nofun, nofun⟩) (by simp), fun _ _ => trivial⟩
  all_goals
    have hq : Alike S S' := by first
      | exact quiet0 h
      | exact quiet1 rfl h
      | exact quiet2 rfl rfl h
    exact ⟨hq.effect rfl rfl rfl (modes_of nofun nofun nofun nofun) rfl, fun _ _ => trivial⟩

end Verif.Verifier

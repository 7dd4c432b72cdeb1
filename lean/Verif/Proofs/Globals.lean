import Verif.Proofs.Checks

/-! Instructions that name global addresses, on a well laid out plugin. -/
namespace Verif.Verifier
open Verif.VM
open Verif.Graph (Out bind_ok_iff)

/-- A laid out plugin with `n` bytes of data. -/
def Fine (n : Int) (s : State) : Prop := Layout s ∧ s.dataSize = n

/-- Not undefined, and no invalid address. -/
def VSafe {α : Type} (n : Int) (x : VMM α) : Prop := ∀ s, Fine n s →
  x s ≠ .ub ∧ (∀ s', x s ≠ .fail s' .invalidAddress) ∧ ∀ s' a, x s = .ok s' a → Fine n s'

theorem vsafe_bind {α β : Type} {n : Int} {x : VMM α} {f : α → VMM β} (hx : VSafe n x) (hf : ∀ a, VSafe n (f a)) : VSafe n (x >>= f) := by
  intro s hs
  obtain ⟨h1, h2, h3⟩ := hx s hs
  show VMM.bind x f s ≠ _ ∧ (∀ s', VMM.bind x f s ≠ _) ∧ ∀ s' a, VMM.bind x f s = _ → _
  unfold VMM.bind
  cases hxs : x s with
  | ok s1 a => simp only; exact hf a s1 (h3 s1 a hxs)
  | fail s1 e =>
    simp only
    refine ⟨nofun, ?_, nofun⟩
    intro s' hh; cases hh
    exact h2 _ hxs
  | ub => exact absurd hxs h1

theorem vsafe_pure {α : Type} {n : Int} (a : α) : VSafe n (pure a : VMM α) := by
  intro s hs
  exact ⟨nofun, nofun, fun s' b h => by cases h; exact hs⟩

theorem vsafe_check {n a : Int} (h0 : 0 ≤ a) (h1 : a < n) : VSafe n (throwIfBadAddress a) := by
  intro s hs
  obtain ⟨⟨l1, l2, l3, l4, l5, l6⟩, hd⟩ := hs
  have : throwIfBadAddress a s = .ok s a := by
    unfold throwIfBadAddress
    rw [if_neg (by omega)]
  rw [this]
  exact ⟨nofun, nofun, fun s' b h => by cases h; exact ⟨⟨l1, l2, l3, l4, l5, l6⟩, hd⟩⟩

theorem vsafe_load {n a : Int} (h0 : 0 ≤ a) (h1 : a < n) : VSafe n (loadRaw a) := by
  intro s hs
  obtain ⟨⟨l1, l2, l3, l4, l5, l6⟩, hd⟩ := hs
  have : loadRaw a s = .ok s (rd32 s.mem a) := by
    unfold loadRaw
    rw [if_pos (by constructor <;> omega)]
  rw [this]
  exact ⟨nofun, nofun, fun s' b h => by cases h; exact ⟨⟨l1, l2, l3, l4, l5, l6⟩, hd⟩⟩

theorem vsafe_store {n a : Int} {v : Cell} (h0 : 0 ≤ a) (h1 : a < n) : VSafe n (storeRaw a v) := by
  intro s hs
  obtain ⟨⟨l1, l2, l3, l4, l5, l6⟩, hd⟩ := hs
  have : storeRaw a v s = .ok { s with mem := wr32 s.mem a v } () := by
    unfold storeRaw
    rw [if_pos (by constructor <;> omega)]
  rw [this]
  exact ⟨nofun, nofun, fun s' b h => by cases h; exact ⟨⟨l1, l2, l3, l4, l5, l6⟩, hd⟩⟩

theorem vsafe_get {n a : Int} (h0 : 0 ≤ a) (h1 : a < n) : VSafe n (getCellValue a) := by
  intro s hs
  have hc : throwIfBadAddress a s = .ok s a := by
    obtain ⟨⟨l1, l2, l3, l4, l5, l6⟩, hd⟩ := hs
    unfold throwIfBadAddress
    rw [if_neg (by omega)]
  have : getCellValue a s = loadRaw a s := by
    show VMM.bind _ _ s = _
    unfold VMM.bind
    rw [hc]
  rw [this]
  exact vsafe_load h0 h1 s hs

theorem vsafe_set {n a : Int} {v : Cell} (h0 : 0 ≤ a) (h1 : a < n) : VSafe n (setCellValue a v) := by
  intro s hs
  have hc : throwIfBadAddress a s = .ok s a := by
    obtain ⟨⟨l1, l2, l3, l4, l5, l6⟩, hd⟩ := hs
    unfold throwIfBadAddress
    rw [if_neg (by omega)]
  have : setCellValue a v s = storeRaw a v s := by
    show VMM.bind _ _ s = _
    unfold VMM.bind
    rw [hc]
  rw [this]
  exact vsafe_store h0 h1 s hs

theorem vsafe_bump {n a : Int} {v : Cell} (h0 : 0 ≤ a) (h1 : a < n) : VSafe n (bumpCell a v) := by
  intro s hs
  have hc : throwIfBadAddress a s = .ok s a := by
    obtain ⟨⟨l1, l2, l3, l4, l5, l6⟩, hd⟩ := hs
    unfold throwIfBadAddress
    rw [if_neg (by omega)]
  have : bumpCell a v s = (loadRaw a >>= fun w => storeRaw a (w + v)) s := by
    show VMM.bind _ _ s = _
    unfold VMM.bind
    rw [hc]
  rw [this]
  exact vsafe_bind (vsafe_load h0 h1) (fun _ => vsafe_store h0 h1) s hs

theorem vsafe_push {n : Int} (v : Cell) : VSafe n (Verif.VM.pushStack v) := by
  intro s hs
  obtain ⟨⟨l1, l2, l3, l4, l5, l6⟩, hd⟩ := hs
  unfold Verif.VM.pushStack
  rw [wrap32_id (x := s.hp + 4) (by omega) (by omega)]
  split
  · exact ⟨nofun, nofun, nofun⟩
  · rw [wrap32_id (x := s.sp - 4) (by omega) (by omega)]
    have : storeRaw (s.sp - 4) v { s with sp := s.sp - 4 } = .ok { s with sp := s.sp - 4, mem := wr32 s.mem (s.sp - 4) v } () := by
      unfold storeRaw
      rw [if_pos (by constructor <;> somega)]
    rw [this]
    refine ⟨nofun, nofun, ?_⟩
    intro s' b h
    cases h
    exact ⟨⟨l1, l2, by somega, by somega, l5, l6⟩, hd⟩

theorem vsafe_pushAddrs {n : Int} : ∀ vs : List Cell, (∀ v ∈ vs, 0 ≤ v.toInt ∧ v.toInt < n) → VSafe n (pushAddrs vs)
  | [], _ => vsafe_pure ()
  | v :: vs, h => vsafe_bind (vsafe_get (h v (by simp)).1 (h v (by simp)).2) fun w => vsafe_bind (vsafe_push w) fun _ =>
      vsafe_pushAddrs vs fun x hx => h x (by simp [hx])

/-- As `VSafe`, for the interpreter. -/
def ISafe {α : Type} (n : Int) (x : IM α) : Prop := ∀ s, Fine n s.vm →
  x s ≠ .ub ∧ (∀ s', x s ≠ .fail s' .invalidAddress) ∧ ∀ s' a, x s = .ok s' a → Fine n s'.vm

theorem isafe_bind {α β : Type} {n : Int} {x : IM α} {f : α → IM β} (hx : ISafe n x) (hf : ∀ a, ISafe n (f a)) : ISafe n (x >>= f) := by
  intro s hs
  obtain ⟨h1, h2, h3⟩ := hx s hs
  show IM.bind x f s ≠ _ ∧ (∀ s', IM.bind x f s ≠ _) ∧ ∀ s' a, IM.bind x f s = _ → _
  unfold IM.bind
  cases hxs : x s with
  | ok s1 a => simp only; exact hf a s1 (h3 s1 a hxs)
  | fail s1 e =>
    simp only
    refine ⟨nofun, ?_, nofun⟩
    intro s' hh; cases hh
    exact h2 _ hxs
  | ub => exact absurd hxs h1

theorem isafe_pure {α : Type} {n : Int} (a : α) : ISafe n (pure a : IM α) := by
  intro s hs
  exact ⟨nofun, nofun, fun s' b h => by cases h; exact hs⟩

theorem isafe_getR {n : Int} (r : Reg) : ISafe n (getR r) := by
  intro s hs
  exact ⟨nofun, nofun, fun s' b h => by cases h; exact hs⟩

theorem isafe_setR {n : Int} (r : Reg) (v : Cell) : ISafe n (setR r v) := by
  intro s hs
  refine ⟨nofun, nofun, fun s' b h => ?_⟩
  cases h
  cases r <;> exact hs

theorem isafe_vmOp {α : Type} {n : Int} {x : VMM α} (h : VSafe n x) : ISafe n (vmOp x) := by
  intro s hs
  obtain ⟨h1, h2, h3⟩ := h s.vm hs
  unfold vmOp
  cases hx : x s.vm with
  | ok s1 a =>
    refine ⟨nofun, nofun, ?_⟩
    intro s' b hh; cases hh
    exact h3 _ _ hx
  | fail s1 e =>
    refine ⟨nofun, ?_, nofun⟩
    intro s' hh; cases hh
    exact h2 _ hx
  | ub => exact absurd hx h1

theorem isafe_done {n : Int} {x : IM Unit} (h : ISafe n x) : ISafe n (do x; pure Ctl.next : IM Ctl) :=
  isafe_bind h fun _ => isafe_pure _

/-- An instruction that names addresses inside the data. -/
theorem visit_globals (E : Env) (m : Nat) (h : Int) (i : Insn) (n : Int) (hne : globals i ≠ [])
    (hin : ∀ a ∈ globals i, 0 ≤ a ∧ a < n) : ISafe n (visit E m h i) := by
  cases i
  case load r a =>
    obtain ⟨h0, h1⟩ := hin a (List.mem_singleton.2 rfl)
    exact isafe_done (isafe_bind (isafe_vmOp (vsafe_get h0 h1)) fun v => isafe_setR r v)
  case stor a r =>
    obtain ⟨h0, h1⟩ := hin a (List.mem_singleton.2 rfl)
    exact isafe_done (isafe_bind (isafe_getR r) fun v => isafe_vmOp (vsafe_set h0 h1))
  case incA a =>
    obtain ⟨h0, h1⟩ := hin a (List.mem_singleton.2 rfl)
    exact isafe_done (isafe_vmOp (vsafe_bump h0 h1))
  case decA a =>
    obtain ⟨h0, h1⟩ := hin a (List.mem_singleton.2 rfl)
    exact isafe_done (isafe_vmOp (vsafe_bump h0 h1))
  case zeroA a =>
    obtain ⟨h0, h1⟩ := hin a (List.mem_singleton.2 rfl)
    exact isafe_done (isafe_vmOp (vsafe_set h0 h1))
  case constA a v =>
    obtain ⟨h0, h1⟩ := hin a (List.mem_singleton.2 rfl)
    exact isafe_done (isafe_vmOp (vsafe_set h0 h1))
  case loadBoth a b =>
    obtain ⟨h0, h1⟩ := hin a (List.mem_cons_self ..)
    obtain ⟨k0, k1⟩ := hin b (List.mem_cons_of_mem _ (List.mem_singleton.2 rfl))
    exact isafe_done (isafe_bind (isafe_vmOp (vsafe_get h0 h1)) fun v => isafe_bind (isafe_setR _ v) fun _ =>
      isafe_bind (isafe_vmOp (vsafe_get k0 k1)) fun w => isafe_setR _ w)
  case pushA vs =>
    refine isafe_done (isafe_vmOp (vsafe_pushAddrs vs ?_))
    intro v hv
    exact hin v.toInt (List.mem_map.2 ⟨v, hv, rfl⟩)
  all_goals exact absurd rfl hne

/-- The template of an accepted INITARRAY. -/
theorem init_template {C : Ctx} {a iv cp fl : Int} {v : Cell} {S S' : Cur} (h : initOk C a iv cp fl v S = .ok S') (ha : Is32 a) :
    0 ≤ iv ∧ 0 ≤ cp ∧ 0 ≤ fl ∧ (iv ≠ 0 ∨ cp ≠ 0 → 0 ≤ a ∧ a % 4 = 0 ∧ a + 4 * (iv + cp) ≤ C.datSize) := by
  obtain ⟨ha1, ha2⟩ := ha
  unfold initOk at h
  split at h
  · cases h
  · split at h
    · cases h
    · rename_i hb
      simp only at h
      split at h
      · cases h
      · rename_i hw
        refine ⟨by omega, by omega, by omega, ?_⟩
        intro hne
        rw [if_neg (by omega)] at h
        obtain ⟨S1, h1, h2⟩ := bind_ok_iff.1 h
        obtain ⟨_, k1, k2⟩ := datOk_ok h1
        obtain ⟨_, k3, k4⟩ := datOk_ok h2
        unfold wrap32 at hw k3 k4
        omega

end Verif.Verifier

import Verif.Proofs.History

/-! An executable checker for histories, used for the non-vacuity examples. -/
namespace Verif.VM

instance (b s : State) (g : List Link) (op : Op) : Decidable (Legal b s g op) := by
  cases op with
  | push v => exact isTrue trivial
  | enter => exact isTrue trivial
  | trackPush n => exact isTrue trivial
  | pop => unfold Legal; infer_instance
  | stack n => unfold Legal; infer_instance
  | heap n => unfold Legal; infer_instance
  | trackPop => unfold Legal; infer_instance
  | call => unfold Legal; infer_instance
  | store a v => unfold Legal; infer_instance
  | leave =>
    exact match g with
    | .scope a sc :: g' => isTrue ⟨a, sc, g', rfl⟩
    | [] => isFalse (by rintro ⟨a, sc, g', h⟩; cases h)
    | .frame .. :: _ => isFalse (by rintro ⟨a, sc, g', h⟩; cases h)
  | ret =>
    exact match h : toFrame g with
    | .frame a b c d e :: g' => isTrue ⟨a, b, c, d, e, g', h⟩
    | [] => isFalse (by rintro ⟨a, b, c, d, e, g', h'⟩; rw [h] at h'; cases h')
    | .scope .. :: _ => isFalse (by rintro ⟨a, b, c, d, e, g', h'⟩; rw [h] at h'; cases h')

/-- Run a list of operations, checking legality. -/
def runFrom (b : State) : State → List Link → List Op → Option (State × List Link)
  | s, g, [] => some (s, g)
  | s, g, op :: ops =>
    if Legal b s g op then
      match op.exec s with
      | .ok s' _ => runFrom b s' (shadow s g op) ops
      | _ => none
    else none

theorem runFrom_sound {b : State} : ∀ {ops pre s g s' g'}, History b pre s g →
    runFrom b s g ops = some (s', g') → History b (pre ++ ops) s' g'
  | [], pre, s, g, s', g', H, h => by
      simp only [runFrom, Option.some.injEq, Prod.mk.injEq] at h
      obtain ⟨rfl, rfl⟩ := h
      simpa using H
  | op :: ops, pre, s, g, s', g', H, h => by
      unfold runFrom at h
      split at h
      · rename_i hl
        split at h
        · rename_i s1 a e
          have := runFrom_sound (.step H hl e) h
          simpa using this
        · cases h
      · cases h

theorem runFrom_isSome {b : State} {ops : List Op} (h : (runFrom b b [] ops).isSome = true) :
    ∃ s g, History b ops s g := by
  obtain ⟨⟨s, g⟩, h⟩ := Option.isSome_iff_exists.1 h
  exact ⟨s, g, by simpa using runFrom_sound .start h⟩

end Verif.VM

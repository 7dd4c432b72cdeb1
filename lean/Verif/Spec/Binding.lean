import Verif.Model.Binding

/-! What the arguments of a call mean. -/
namespace Verif.Binding

variable {E : Type}

/-- The arguments without names that come first; `this` is the first of them. -/
def positional (this : Option E) (ws : List (Written E)) : List (Option E) :=
  (this.map some).toList ++ (ws.takeWhile (·.name.isNone)).map (·.value)

/-- The arguments after them. -/
def byName (ws : List (Written E)) : List (Written E) := ws.dropWhile (·.name.isNone)

/-- The argument for the parameter `i`: the one in its position, or the one with its name. -/
def argFor (f : Sig) (this : Option E) (ws : List (Written E)) (i : Nat) : Option E :=
  if i < (positional this ws).length then ((positional this ws)[i]?).join
  else ((byName ws).find? fun w => w.name.bind f.find == some i).bind (·.value)

/-- What the parameter `i` gets: its argument, which has to fit it, or its own default value. -/
def received (f : Sig) (this : Option E) (ws : List (Written E)) (i : Nat) : Slot E :=
  match argFor f this ws i with
  | some e => .given e i
  | none => .default i

/-- The arguments for `...`. -/
def extra (f : Sig) (this : Option E) (ws : List (Written E)) : List (Option E) := (positional this ws).drop f.params.length

/-- All that is passed. -/
def passed (f : Sig) (this : Option E) (ws : List (Written E)) : List (Slot E) :=
  (List.range f.params.length).map (received f this ws) ++ ((extra f this ws).filterMap id).map (.given · f.params.length)

/-- A call that can be understood. -/
structure Legal (f : Sig) (fits : Nat → E → Bool) (this : Option E) (ws : List (Written E)) : Prop where
  /-- names come last -/
  last : ∀ w ∈ byName ws, w.name.isSome
  /-- every name is that of a parameter that has no argument by position, -/
  names : ∀ w ∈ byName ws, ∃ i, w.name.bind f.find = some i ∧ (positional this ws).length ≤ i ∧ i < 127
  /-- and no parameter is named twice -/
  once : ((byName ws).map fun w => w.name.bind f.find).Nodup
  /-- there are not too many arguments, -/
  count : (positional this ws).length ≤ f.params.length ∨ f.variadic = true
  limit : (positional this ws).length ≤ 127
  /-- those for `...` are expressions, -/
  extras : ∀ x ∈ extra f this ws, ∃ e, x = some e ∧ fits f.params.length e = true
  /-- and every parameter has an argument that fits it, or a default value -/
  each : ∀ i p, f.params[i]? = some p → match argFor f this ws i with
    | some e => fits i e = true
    | none => p.hasDefault = true

end Verif.Binding

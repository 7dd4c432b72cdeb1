/-! The stack usage estimate (compiler/code-generator.cpp:2033-2054, 2215-2222, 2254-2310). -/
namespace Verif.StackUsage

/-- compiler/sc.h:113 kMaxCells. -/
def maxCells : Nat := 268435455

/-- What ComputeStackUsage works on: `callgraph_` (its iteration order is not specified, so any order), `max_callee_stack` of each function,
and `max_script_memory_`.  The numbers are `int`s that are never negative. -/
structure CG where
  graph : List (Nat × List Nat)
  callee : Nat → Nat
  memory : Nat

/-- The map lookup. -/
def find (g : List (Nat × List Nat)) (f : Nat) : Option (List Nat) := g.lookup f

/-- The map without one entry. -/
def erase (g : List (Nat × List Nat)) (f : Nat) : List (Nat × List Nat) := g.filter (fun e => e.1 != f)

/-- `fail`: error 431.  `fuel` does not occur (see `usage_terminates`). -/
inductive Out
  | ok (c : CG)
  | fail
  | fuel

/-- compiler/code-generator.cpp:2272-2277 and 2288-2293: both sums are checked the same way. -/
def tooMuch (a b : Nat) : Bool := decide (a + b > 4294967295 ∨ a + b ≥ maxCells)

/-- compiler/code-generator.cpp:2254-2301 ComputeStackUsage(iterator): the loop over the targets of `caller`, last one first, and what
follows it.  The entry of `caller` has been erased.  `local` is `max_local_stack`. -/
def usage (loc : Nat → Nat) : Nat → CG → Nat → List Nat → Nat → Out
  | 0, _, _, _, _ => .fuel
  | _+1, c, caller, [], _ =>
    if tooMuch (loc caller) (c.callee caller) then .fail
    else .ok { c with memory := max (loc caller + c.callee caller) c.memory }
  | fuel+1, c, caller, target :: rest, maxChild =>
    let sub := if c.callee target = 0 then
        (find c.graph target).elim (.ok c) fun ts => usage loc fuel { c with graph := erase c.graph target } target ts.reverse 0
      else .ok c
    match sub with
    | .ok c =>
      if tooMuch (loc target) (c.callee target) then .fail
      else
        let m := max maxChild (loc target + c.callee target)
        usage loc fuel { c with callee := fun f => if f = caller then m else c.callee f } caller rest m
    | .fail => .fail
    | .fuel => .fuel

/-- The number of entries and targets. -/
def weight (g : List (Nat × List Nat)) : Nat := (g.map (fun e => e.2.length + 1)).sum

/-- compiler/code-generator.cpp:2303-2308 ComputeStackUsage(): from the first entry only.  At the start no function has a callee stack. -/
def computeStackUsage (loc : Nat → Nat) (g : List (Nat × List Nat)) (memory : Nat) : Out :=
  match g with
  | [] => .ok ⟨g, fun _ => 0, memory⟩
  | (f, ts) :: _ => usage loc (weight g + 1) ⟨erase g f, fun _ => 0, memory⟩ f ts.reverse 0

/-- compiler/code-generator.cpp:2215-2222 DynamicMemorySize; `std::max(…) * sizeof(cell_t)` is a `size_t` that becomes an `int`. -/
def dynamicMemorySize (memory : Nat) (custom : Int) : Int :=
  let minCells : Int := if (maxCells : Int) - 4096 > memory then memory + 4096 else memory
  (max minCells custom * 4).bmod 4294967296

end Verif.StackUsage

import Verif.Proofs.StorageCode

/-! C76: the fields of enum structs and the elements of arrays do not share storage. -/
namespace Verif.Storage
open Verif.VM (Cell IM IState Layout)

/-- **C76, declarations.** In an accepted program every enum struct has exactly the fields that were written, with their types, and takes
as many bytes as they do together. -/
theorem C76_fields {ds : List Decl} {S : Structs} (h : Accepted ds S) {d : Decl} (hd : d ∈ ds) :
    ∃ l, find S d.name = some l ∧ l.fields.map (fun x => (x.name, x.ty)) = d.fields.map (fun f => (f.name, f.declared)) ∧ d.fields ≠ [] ∧
      (d.fields.map (·.name)).Nodup ∧
      bytes S (.obj (.one (.struct d.name))) = (d.fields.map fun f => bytes S (.obj f.declared)).sum := by
  obtain ⟨l, h1, h2, h3⟩ := enterAll_fields h d hd
  obtain ⟨g1, g2⟩ := accepted_good h d.name l h1
  refine ⟨l, h1, h2, h3, ?_, ?_⟩
  · have : d.fields.map (·.name) = l.fields.map (·.name) := by
      have := congrArg (List.map Prod.fst) h2
      simpa [List.map_map, Function.comp_def] using this.symm
    rw [this]
    exact g2
  · have e : (d.fields.map fun f => bytes S (.obj f.declared)) = l.fields.map fun x => bytes S (.obj x.ty) := by
      have := congrArg (List.map fun p : Nat × Ty => bytes S (.obj p.2)) h2
      simpa [List.map_map, Function.comp_def] using this.symm
    rw [e]
    have := laid_sum g1
    have hb : bytes S (.obj (.one (.struct d.name))) = l.size * 4 := by
      simp only [bytes, baseBytes, h1, Option.map_some, Option.getD_some]
    omega

theorem enterMethods_nodup : ∀ (ms seen : List Nat), enterMethods seen ms = [] → ms.Nodup ∧ ∀ m ∈ ms, m ∉ seen
  | [], _, _ => ⟨List.nodup_nil, fun _ h => by cases h⟩
  | m :: ms, seen, h => by
    simp only [enterMethods] at h
    split at h
    · cases h
    · rename_i hm
      obtain ⟨h1, h2⟩ := enterMethods_nodup ms (m :: seen) h
      refine ⟨List.nodup_cons.mpr ⟨fun hc => h2 m hc (by simp), h1⟩, fun x hx => ?_⟩
      rcases List.mem_cons.mp hx with rfl | hx
      · exact hm
      · exact fun hc => h2 x hx (List.mem_cons_of_mem _ hc)

theorem enterAll_names : ∀ {ds : List Decl} {S S' : Structs}, enterAll S ds = some (S', []) → ∀ d ∈ ds,
    (d.fields.map (·.name) ++ d.methods).Nodup
  | [], S, S', h, d, hd => by cases hd
  | a :: ds, S, S', h, d, hd => by
    simp only [enterAll] at h
    split at h
    · cases h
    · rename_i S1 r h1
      split at h
      · cases h
      · rename_i S2 r' h2
        simp only [Option.some.injEq, Prod.mk.injEq, List.append_eq_nil_iff] at h
        obtain ⟨rfl, rfl, rfl⟩ := h
        rcases List.mem_cons.mp hd with rfl | hd
        · unfold enter at h1
          split at h1
          · simp at h1
          · split at h1
            · cases h1
            · rename_i s hs
              simp only [Option.some.injEq, Prod.mk.injEq, List.append_eq_nil_iff] at h1
              obtain ⟨_, ⟨hr, _⟩, hm⟩ := h1
              obtain ⟨⟨_, i2, i3⟩, e⟩ := enterFields_inv (s := ⟨0, [], [], []⟩) ⟨rfl, rfl, List.nodup_nil⟩ hs hr
              have en : s.fields.map (·.name) = d.fields.map (·.name) := by
                have := congrArg (List.map Prod.fst) e
                simpa [List.map_map, Function.comp_def] using this
              obtain ⟨m1, m2⟩ := enterMethods_nodup _ _ hm
              rw [List.nodup_append]
              refine ⟨en ▸ i3, m1, fun x hx y hy hxy => ?_⟩
              subst hxy
              exact m2 x hy (by rw [i2, List.mem_reverse, en]; exact hx)
        · exact enterAll_names h2 d hd

/-- **C76, names.** In an accepted program the fields and methods of an enum struct all have different names. -/
theorem C76_names {ds : List Decl} {S : Structs} (h : Accepted ds S) {d : Decl} (hd : d ∈ ds) : (d.fields.map (·.name) ++ d.methods).Nodup :=
  enterAll_names h d hd

/-- **C76, storage.** In an accepted program every part of a variable lies within the variable, and two parts, neither of which is a part of
the other, have no byte in common. -/
theorem C76_disjoint {ds : List Decl} {S : Structs} (h : Accepted ds S) {t : Ty} {xs ys : List Step} {o o' : Nat} {p q : Place}
    (hx : follow S (.obj t) xs = some (o, p)) (hy : follow S (.obj t) ys = some (o', q)) :
    o + bytes S p ≤ bytes S (.obj t) ∧ (¬ xs <+: ys → ¬ ys <+: xs → o + bytes S p ≤ o' ∨ o' + bytes S q ≤ o) :=
  ⟨follow_inside (accepted_good h) hx, follow_disjoint (accepted_good h) hx hy⟩

/-- **C76, code.** The code of an access to a variable with declared sizes, which is somewhere in memory, comes to its end only with the address of
the part that the access means; in particular, only if all indices are in range.  If the code of the indices comes to its end and there is room on
the stack, then the code of the access does too, or it stops because an index is out of range. -/
theorem C76_code_partial {ds : List Decl} {S : Structs} (h : Accepted ds S) {t : Ty} (hk : Known S t) {e : Access} {q : Place}
    (hc : check S t e = some q) (E : Verif.VM.Env) (m : Nat) (here : Int) {ev : Nat → IM Unit} {v : Nat → Cell} (hv : Evaluates ev v)
    {base : Nat} (hb : base + bytes S (.obj t) ≤ 2147483648) {s : IState} (L : Layout s.vm) (hp : s.pri.toNat = base) :
    (∀ s' u, run E m here ev (emit S t e) s = .ok s' u →
      ∃ o, follow S (.obj t) (e.steps v) = some (o, q) ∧ s'.pri.toNat = base + o ∧ s'.vm.sp = s.vm.sp) ∧
    ((∀ k s, ∃ s', ev k s = .ok s' ()) → s.vm.hp + 4 < s.vm.sp →
      ((follow S (.obj t) (e.steps v)).isSome → ∃ s', run E m here ev (emit S t e) s = .ok s' ()) ∧
      (follow S (.obj t) (e.steps v) = none → ∃ s', run E m here ev (emit S t e) s = .fail s' .arrayBounds)) := by
  have G := accepted_good h
  have hp' : s.pri = BitVec.ofNat 32 base := by
    rw [← hp]
    exact BitVec.eq_of_toNat_eq (by simp)
  constructor
  · intro s' u hr
    obtain ⟨o, h1, h2, _, h4, _⟩ := emit_ok G hk E m here hv hb hc L hp' hr
    have := follow_inside G h1
    refine ⟨o, h1, ?_, h4⟩
    rw [h2, BitVec.toNat_ofNat]
    have : bytes S q ≥ 0 := Nat.zero_le _
    omega
  · intro ht hroom
    constructor
    · intro hs
      rcases emit_total G hk E m here hv ht hb hc L hp' hroom with h1 | ⟨h0, _⟩
      · exact h1
      · rw [h0] at hs; cases hs
    · intro hs
      rcases emit_total G hk E m here hv ht hb hc L hp' hroom with ⟨s', h1⟩ | ⟨_, h1⟩
      · obtain ⟨o, h2, _⟩ := emit_ok G hk E m here hv hb hc L hp' h1
        rw [hs] at h2
        cases h2
      · exact h1

/-! ### Where it fails -/

/-- Sizes are added without a check: an enum struct with an array of 2147483647 cells and one more field overflows `int`, which is undefined. -/
theorem C76_overflow : enterAll [] [⟨0, [⟨1, .cell, [some 0x7fffffff], false⟩, ⟨2, .cell, [], false⟩], []⟩] = none := by decide +kernel

/-- In an array without a size, such as a parameter `int x[]`, every index that is not negative is let through. -/
theorem C76_open_array (E : Verif.VM.Env) (m : Nat) (here : Int) (s : IState) (h : 0 ≤ s.pri.toInt) :
    emit [] (.array .cell 0) (.index .var (.code 0)) =
      [.op (.push .pri), .index 0, .op (.bounds 2147483647), .op (.pop .alt), .op .idxaddr] ∧
    Verif.VM.visit E m here (.bounds 2147483647) s = .ok s .next := by
  refine ⟨rfl, ?_⟩
  simp only [Verif.VM.visit]
  rw [if_neg]
  have hcond := BitVec.toInt_eq_toNat_cond s.pri
  have := s.pri.isLt
  split at hcond <;> omega

/-! ### Cases -/

/-- `enum struct A { int x; char s[6]; int64 y; }  enum struct B { A a; int z[3]; A as[2]; }` -/
def c76Decls : List Decl :=
  [⟨0, [⟨1, .cell, [], false⟩, ⟨2, .char, [some 6], false⟩, ⟨3, .int64, [], false⟩], []⟩,
   ⟨10, [⟨11, .struct 0, [], false⟩, ⟨12, .cell, [some 3], false⟩, ⟨13, .struct 0, [some 2], false⟩], [14]⟩]

def c76Structs : Structs :=
  [⟨0, [⟨1, .one .cell, 0⟩, ⟨2, .array .char 6, 1⟩, ⟨3, .one .int64, 3⟩], [], 5⟩,
   ⟨10, [⟨11, .one (.struct 0), 0⟩, ⟨12, .array .cell 3, 5⟩, ⟨13, .array (.struct 0) 2, 8⟩], [14], 18⟩]

theorem c76_accepted : Accepted c76Decls c76Structs := by unfold Accepted; decide +kernel

/-- `B b[4]; … b[i].as[1].s[j]` -/
def c76Access : Access := .index (.field (.index (.field (.index .var (.code 0)) 13) (.const 1)) 2) (.code 1)

example : check c76Structs (.array (.struct 10) 4) c76Access = some .byte := by decide +kernel
example : Known c76Structs (.array (.struct 10) 4) := ⟨by decide, by decide +kernel⟩
example : bytes c76Structs (.obj (.array (.struct 10) 4)) = 288 := by decide +kernel
example : follow c76Structs (.obj (.array (.struct 10) 4)) (c76Access.steps fun k => if k = 0 then 2 else 5) =
    some (2 * 72 + 8 * 4 + 1 * 20 + 4 + 5, .byte) := by decide +kernel
example : follow c76Structs (.obj (.array (.struct 10) 4)) (c76Access.steps fun k => if k = 0 then 4 else 5) = none := by decide +kernel
example : ¬ [Step.field 11, .field 3] <+: [.field 12, .index 0] := by decide
/-- a name twice, a struct in itself, two dimensions -/
example : enterAll [] [⟨0, [⟨1, .cell, [], false⟩, ⟨1, .cell, [], false⟩, ⟨2, .struct 0, [some 2], false⟩, ⟨3, .cell, [some 2, some 2], false⟩], [1]⟩] =
    some ([⟨0, [⟨1, .one .cell, 0⟩], [1], 1⟩], [103, 87, 65, 103]) := by decide +kernel
/-- Index expressions that are numbers. -/
example (v : Nat → Cell) : Evaluates (fun k s => .ok { s with pri := v k } ()) v := by
  intro k s s' u L h
  cases h
  exact ⟨rfl, L, rfl, rfl, rfl, rfl⟩

end Verif.Storage

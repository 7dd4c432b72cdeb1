/-
Methodmaps: how their names are entered, how a map is tied to the one it extends, and how
members, destructors, constructors and base types are found.
-/
namespace Verif.Methodmap

/-- A name.  compiler/parse-node.h: `Atom*`; atoms are interned, so two are equal when their
texts are. -/
abbrev Atom := List Char

/-- A method as it is written: its name, `~`, `static`, `native`, whether a return type is written
before the name.  compiler/parser.cpp:1898-1943 (`parse_methodmap_method`).  The parameters and the
body are left out. -/
structure Method where
  name : Atom
  isDtor : Bool := false
  isStatic : Bool := false
  isNative : Bool := false
  typed : Bool := true
deriving DecidableEq, Repr

/-- A methodmap as it is written.  compiler/parser.cpp:1843-1896 (`parse_methodmap`).  Properties
are kept by name: their types, getters and setters are left out. -/
structure Decl where
  name : Atom
  isNullable : Bool := false
  extends_ : Option Atom := none
  properties : List Atom := []
  methods : List Method := []
deriving DecidableEq, Repr

/-- compiler/parser.cpp:1944: `is_ctor = (!is_dtor && map->name() == symbol)`. -/
def isCtor (d : Decl) (m : Method) : Bool := !m.isDtor && d.name == m.name

/-- compiler/parser.cpp:1961-1963: the methods that `parse_function` gives a `this` parameter. -/
def hasThis (m : Method) : Bool := m.isDtor || (m.typed && !m.isStatic)

/-- compiler/parser.cpp:1956-1959: error 434, a return type before a constructor's name.  The code
reports it for a destructor with one too. -/
def parseErrors (d : Decl) : Nat :=
  d.methods.countP fun m => d.name == m.name && m.typed

/-! ### Entering names: compiler/name-resolution.cpp:1034-1096 (`MethodmapDecl::EnterNames`) -/

/-- lines 1062-1069: the properties.  Gives the names seen and the number of errors. -/
def enterProps : List Atom → List Atom → Nat → List Atom × Nat
  | [], seen, errs => (seen, errs)
  | n :: ns, seen, errs =>
    if seen.contains n then enterProps ns seen (errs + 1)
    else enterProps ns (n :: seen) errs

/-- What the loop over the methods carries: the names seen, the constructor and the destructor
(by position), the names the methods have now, latest first, and the number of errors. -/
structure Entering where
  seen : List Atom
  ctor : Option Nat := none
  dtor : Option Nat := none
  names : List Atom := []
  errs : Nat := 0
deriving DecidableEq, Repr

/-- lines 1071-1094: one turn of the loop over the methods, at position `k`. -/
def enterMethod (d : Decl) (e : Entering) (k : Nat) (m : Method) : Entering :=
  if e.seen.contains m.name then
    { e with errs := e.errs + 1, names := m.name :: e.names }
  else if m.isDtor then
    if e.dtor.isSome then
      { e with seen := m.name :: e.seen, errs := e.errs + 1, names := m.name :: e.names }
    else
      { e with seen := m.name :: e.seen, dtor := some k, names := ('~' :: d.name) :: e.names
               errs := if m.name ≠ d.name then e.errs + 1 else e.errs }
  else if isCtor d m then
    if e.ctor.isSome then
      { e with seen := m.name :: e.seen, errs := e.errs + 1, names := m.name :: e.names }
    else
      { e with seen := m.name :: e.seen, ctor := some k, names := m.name :: e.names }
  else
    { e with seen := m.name :: e.seen, names := m.name :: e.names }

/-- lines 1071-1094: the loop over the methods. -/
def enterMethods (d : Decl) : List Method → Nat → Entering → Entering
  | [], _, e => e
  | m :: ms, k, e => enterMethods d ms (k + 1) (enterMethod d e k m)

/-- A methodmap after its names were entered.  compiler/parse-node.h:1811-1860 (`MethodmapDecl`):
`ctor_`, `dtor_`, `properties_` and the names of `methods_`. -/
structure Map where
  decl : Decl
  ctor : Option Nat
  dtor : Option Nat
  names : List Atom
deriving DecidableEq, Repr

/-- lines 1062-1095: the members of one map, and the number of errors. -/
def enterMembers (d : Decl) : Map × Nat :=
  let (seen, errs) := enterProps d.properties [] 0
  let e := enterMethods d d.methods 0 { seen := seen, errs := errs }
  ({ decl := d, ctor := e.ctor, dtor := e.dtor, names := e.names.reverse }, e.errs)

/-- lines 1037-1060: error 432 or 11 when the name is taken.  Simplified: the only other
declarations are methodmaps; an enumeration of the same name, to which a map may be attached, is
left out. -/
def enterNames : List Decl → List Atom → List Map × Nat
  | [], _ => ([], 0)
  | d :: ds, taken =>
    let (m, e1) := enterMembers d
    let (ms, e2) := enterNames ds (d.name :: taken)
    (m :: ms, (if taken.contains d.name then 1 else e1) + e2)

/-! ### Binding: compiler/name-resolution.cpp:1098-1181 (`MethodmapDecl::Bind`) -/

/-- What binding changes in a map: `parent_`, `is_bound_` and `nullable_`. -/
structure Bound where
  parent : Option Nat := none
  isBound : Bool := false
  nullable : Bool := false
deriving DecidableEq, Repr

abbrev State := List Bound

/-- A map's `parent_`. -/
def parentOf (s : State) (i : Nat) : Option Nat := s[i]?.bind (·.parent)

/-- `FindSymbol(cc.globals(), name)` and `LookupMethodmap`: the map of that name, the first if
there are more (the others were not added).  compiler/parse-node.cpp:186-192. -/
def lookup (ds : List Decl) (n : Atom) : Option Nat := ds.findIdx? (·.name == n)

/-- lines 1116-1121: does the loop from `iter` reach `this`?  The loop has no bound in the code;
here it is given `fuel` turns, and gives `none` when they are not enough. -/
def reaches (s : State) : Nat → Nat → Nat → Option Bool
  | 0, _, _ => none
  | fuel + 1, iter, this =>
    if iter = this then some true
    else match parentOf s iter with
      | none => some false
      | some p => reaches s fuel p this

/-- lines 1153-1178: the errors for one method: 175 (static constructor), 441, 118, 439
(destructor static, not native, with a return type) and 114 (no return type).  Left out: 438 (the
destructor's parameters) and the errors of binding the function itself. -/
def methodErrors (d : Decl) (m : Method) : Nat :=
  if isCtor d m then (if m.isStatic then 1 else 0)
  else if m.isDtor then
    (if m.isStatic then 1 else 0) + (if m.isNative then 0 else 1) + (if m.typed then 1 else 0)
  else if m.typed then 0 else 1

/-- lines 1104-1127: tie map `i` to the one it extends.  Gives the new state and the number of
errors, or `none` when the loop that looks for a cycle does not end within `fuel` turns. -/
def tie (fuel : Nat) (ds : List Decl) (s : State) (i : Nat) (d : Decl) : Option (State × Nat) :=
  let b := (s[i]?).getD {}
  match d.extends_ with
  | none => some (s.set i { b with isBound := true }, 0)
  | some n =>
    match lookup ds n with
    | none => some (s.set i { b with isBound := true }, 1)
    | some p =>
      let s1 := s.set i { b with isBound := true, parent := some p }
      let errs := if ((s1[p]?).getD {}).isBound then 0 else 1
      match reaches s1 fuel p i with
      | none => none
      | some true => some (s.set i { b with isBound := true }, errs + 1)
      | some false =>
        some (s.set i { b with isBound := true, parent := some p
                               nullable := ((s1[p]?).getD {}).nullable }, errs)

/-- lines 1098-1181: bind one map. -/
def bindMap (fuel : Nat) (ds : List Decl) (s : State) (i : Nat) (d : Decl) :
    Option (State × Nat) :=
  match tie fuel ds s i d with
  | none => none
  | some (s', e) => some (s', e + (d.methods.map (methodErrors d)).sum)

/-- The maps are bound one after another, in the order they are declared.
compiler/name-resolution.cpp:130-140 (`StmtList::Bind`). -/
def bindFrom (fuel : Nat) (ds : List Decl) : List Decl → Nat → State → Option (State × Nat)
  | [], _, s => some (s, 0)
  | d :: rest, i, s =>
    match bindMap fuel ds s i d with
    | none => none
    | some (s1, e1) =>
      match bindFrom fuel ds rest (i + 1) s1 with
      | none => none
      | some (s2, e2) => some (s2, e1 + e2)

/-- Before binding: compiler/parse-node.h:1814-1820 (the constructor of `MethodmapDecl`). -/
def start (ds : List Decl) : State := ds.map fun d => { nullable := d.isNullable }

/-- A program's maps once names are resolved. -/
structure Resolved where
  maps : List Map
  state : State
  errs : Nat
deriving DecidableEq, Repr

/-- Names are entered for the whole file, then everything is bound.
compiler/name-resolution.cpp:112-128 (`ParseTree::ResolveNames`, `StmtList::EnterNames`). -/
def resolve (fuel : Nat) (ds : List Decl) : Option Resolved :=
  let (maps, e1) := enterNames ds []
  match bindFrom fuel ds ds 0 (start ds) with
  | none => none
  | some (s, e2) => some { maps := maps, state := s, errs := (ds.map parseErrors).sum + e1 + e2 }

/-! ### Looking things up -/

/-- A member of a map: a property or a method, by position. -/
inductive Member where
  | property (k : Nat)
  | method (k : Nat)
deriving DecidableEq, Repr

/-- A map's own members.  compiler/parse-node.cpp:194-202. -/
def ownMember (m : Map) (n : Atom) : Option Member :=
  match m.decl.properties.findIdx? (· == n) with
  | some k => some (.property k)
  | none => (m.names.findIdx? (· == n)).map .method

/-- compiler/parse-node.cpp:194-206 (`MethodmapDecl::FindMember`).  Gives the map that has the
member and the member; `none` is a recursion that `fuel` does not allow. -/
def findMember (r : Resolved) : Nat → Nat → Atom → Option (Option (Nat × Member))
  | 0, _, _ => none
  | fuel + 1, i, n =>
    match r.maps[i]?.bind (ownMember · n) with
    | some m => some (some (i, m))
    | none => match parentOf r.state i with
      | none => some none
      | some p => findMember r fuel p n

/-- compiler/semantics.cpp:2516-2526: the map whose destructor `delete` calls. -/
def findDtor (r : Resolved) : Nat → Nat → Option (Option (Nat × Nat))
  | 0, _ => none
  | fuel + 1, i =>
    match r.maps[i]?.bind (·.dtor) with
    | some k => some (some (i, k))
    | none => match parentOf r.state i with
      | none => some none
      | some p => findDtor r fuel p

/-- compiler/expressions.cpp:240-249 (`HasTagOnInheritanceChain`): is `other` the type of map `i`
or of one it extends? -/
def onChain (r : Resolved) (fuel i other : Nat) : Option Bool := reaches r.state fuel i other

/-- What an access to a member comes to: an error, a property of the given map, or a function of
the given map and whether the object is passed to it. -/
inductive Access where
  | error (code : Nat)
  | property (map k : Nat)
  | call (map k : Nat) (passThis : Bool)
deriving DecidableEq, Repr

/-- The method at position `k` of map `i`. -/
def methodAt (r : Resolved) (i k : Nat) : Option Method :=
  r.maps[i]?.bind fun m => m.decl.methods[k]?

/-- `x.name(...)` for a value `x` of map `i`, or `x.name`.
compiler/semantics.cpp:1589-1629 (`CheckFieldAccessExpr`), 1636-1667 (`BindCallTarget`), for a
call; a property that is called is error 12. -/
def accessValue (r : Resolved) (fuel i : Nat) (n : Atom) (fromCall : Bool) : Option Access :=
  match findMember r fuel i n with
  | none => none
  | some none => some (.error 105)
  | some (some (j, .property k)) => some (if fromCall then .error 12 else .property j k)
  | some (some (j, .method k)) =>
    match methodAt r j k with
    | none => none
    | some m =>
      if m.isStatic then some (.error 177)
      else if !fromCall then some (.error 50)
      else if (r.maps[j]?.bind (·.ctor)) = some k then some (.error 84)
      else some (.call j k (!m.isStatic))

/-- `Map.name(...)` for the name of map `i`.  compiler/semantics.cpp:1565-1583 and 1636-1667. -/
def accessType (r : Resolved) (fuel i : Nat) (n : Atom) : Option Access :=
  match findMember r fuel i n with
  | none => none
  | some none => some (.error 444)
  | some (some (_, .property _)) => some (.error 444)
  | some (some (j, .method k)) =>
    match methodAt r j k with
    | none => none
    | some m =>
      if !m.isStatic then some (.error 176)
      else if (r.maps[j]?.bind (·.ctor)) = some k then some (.error 84)
      else some (.call j k (!m.isStatic))

/-- `new Map(...)` and `Map(...)`: the constructor called, or the error.
compiler/semantics.cpp:1700-1725 (`BindNewTarget`), 1672-1684 (`BindCallTarget`). -/
def construct (r : Resolved) (i : Nat) (withNew : Bool) : Except Nat Nat :=
  let nullable := ((r.state[i]?).getD {}).nullable
  let ctor := r.maps[i]?.bind (·.ctor)
  if withNew then
    if !nullable then .error 171
    else match ctor with
      | none => .error 172
      | some k => .ok k
  else match ctor with
    | none => .error 172
    | some k => if nullable then .error 170 else .ok k

end Verif.Methodmap

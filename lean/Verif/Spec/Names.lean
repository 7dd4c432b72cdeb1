import Verif.Model.Names

/-!
What the names in a plugin refer to, by the rules of a language with nested scopes.  Only the syntax and the events are
shared with the model: here a scope is a list of names, every block has one, and it is gone when the block ends.
-/
namespace Verif.Names

/-- The names of a scope, the newest first. -/
abbrev Names := List (Atom × Decl)

/-- The scopes around a place, the innermost first. -/
structure Frame where
  kind : Kind
  names : Names

/-- A name refers to the innermost declaration. -/
def lookupIn : List Frame → Atom → Option Decl
  | [], _ => none
  | f :: fs, a =>
    match f.names.lookup a with
    | some d => some d
    | none => lookupIn fs a

/-- The names of an expression are looked up in order.  The arguments of an unknown function are not. -/
def useExpr (fs : List Frame) : NExpr → List Event × Bool
  | .sym a => ([.use a (lookupIn fs a)], (lookupIn fs a).isSome)
  | .call t args =>
    let (l, ok) := useExpr fs t
    if ok then (l ++ (useExpr fs args).1, (useExpr fs args).2) else (l, false)
  | .lit => ([], true)
  | .pair l r => ((useExpr fs l).1 ++ (useExpr fs r).1, (useExpr fs l).2 && (useExpr fs r).2)

def useOpt (fs : List Frame) : Option NExpr → List Event
  | some e => (useExpr fs e).1
  | none => []

/-- A declaration in the innermost scope `f` of `f :: fs`, in a function or in its list of parameters: a name can be
declared once in a scope.  There is a warning if it hides another one, except that parameters may hide functions, and
parameters of natives anything. -/
def declare (native : Bool) (f : Frame) (fs : List Frame) (d : Decl) (a : Atom) : Frame × List Event × Bool :=
  match f.names.lookup a with
  | some _ => (f, [.dup a], false)
  | none =>
    ({ f with names := (a, d) :: f.names },
      match lookupIn fs a with
      | none => []
      | some other => if native ∨ (f.kind = .argument ∧ other.isFun) then [] else [.shadow a],
      true)

/-- A variable: what it is initialised with does not see it. -/
def specVar (native : Bool) (f : Frame) (fs : List Frame) (d : Nat) (a : Atom) (init : Option NExpr) : Frame × List Event :=
  let (f', l, _) := declare native f fs ⟨d, false⟩ a
  (f', useOpt (f :: fs) init ++ l ++ match init with
    | some _ => [.use a (lookupIn (f' :: fs) a)]
    | none => [])

/-- The names of an enum: each sees those before it. -/
def specFields (f : Frame) (fs : List Frame) : List (Nat × Atom × Option NExpr) → Frame × List Event
  | [] => (f, [])
  | (d, a, e) :: rest =>
    let (f', l, _) := declare false f fs ⟨d, false⟩ a
    let (f'', l') := specFields f' fs rest
    (f'', useOpt (f :: fs) e ++ l ++ l')

/-- Statements, in the scope `f` inside `fs`. -/
def specStmt (f : Frame) (fs : List Frame) : NStmt → Frame × List Event
  | .skip => (f, [])
  | .seq s t =>
    let (f', l) := specStmt f fs s
    let (f'', l') := specStmt f' fs t
    (f'', l ++ l')
  | .expr e => (f, (useExpr (f :: fs) e).1)
  | .var d a init => specVar false f fs d a init
  | .const d a e =>
    let (f', l, ok) := declare false f fs ⟨d, false⟩ a
    (f', l ++ if ok then (useExpr (f :: fs) e).1 else [])
  | .enum name fields =>
    match name with
    | some (d, a) =>
      let (f', l, _) := declare false f fs ⟨d, false⟩ a
      let (f'', l') := specFields f' fs fields
      (f'', l ++ l')
    | none => specFields f fs fields
  | .block s => (f, (specStmt ⟨.local, []⟩ (f :: fs) s).2)
  | .for_ init cond advance body =>
    if init.declares then
      let (g, l) := specStmt ⟨.local, []⟩ (f :: fs) init
      (f, l ++ (useExpr (g :: f :: fs) cond).1 ++ (useExpr (g :: f :: fs) advance).1 ++ (specStmt g (f :: fs) body).2)
    else
      let (g, l) := specStmt f fs init
      let (g', l') := specStmt g fs body
      (g', l ++ (useExpr (g :: fs) cond).1 ++ (useExpr (g :: fs) advance).1 ++ l')

/-- The names of a plugin: those of all files, and those that are static in each file; and the file we are in. -/
structure Plugin where
  globals : Names
  statics : Nat → Names
  file : Nat

/-- In a file, its static names are inside the names of all files. -/
def Plugin.frames (P : Plugin) : List Frame := [⟨.fileStatic, P.statics P.file⟩, ⟨.global, P.globals⟩]

def Plugin.add (P : Plugin) (static : Bool) (d : Decl) (a : Atom) : Plugin :=
  if static then { P with statics := fun n => if n = P.file then (a, d) :: P.statics n else P.statics n }
  else { P with globals := (a, d) :: P.globals }

/-- A declaration outside of functions: there is a warning if a static name hides one of all files. -/
def Plugin.declare (P : Plugin) (static : Bool) (d : Decl) (a : Atom) : Plugin × List Event × Bool :=
  match (P.statics P.file).lookup a, P.globals.lookup a with
  | some _, _ => (P, [.dup a], false)
  | none, none => (P.add static d a, [], true)
  | none, some _ => if static then (P.add static d a, [.shadow a], true) else (P, [.dup a], false)

def Plugin.fields (P : Plugin) : List (Nat × Atom × Option NExpr) → Plugin × List Event
  | [] => (P, [])
  | (d, a, e) :: rest =>
    let (Q, l, _) := P.declare false ⟨d, false⟩ a
    let (R, l') := Q.fields rest
    (R, useOpt P.frames e ++ l ++ l')

/-- The declarations of the files, from top to bottom. -/
def Plugin.top (P : Plugin) : TopDecl → Plugin × List Event
  | .file n => ({ P with file := n }, [])
  | .var d a static init =>
    let (Q, l, _) := P.declare static ⟨d, false⟩ a
    (Q, useOpt P.frames init ++ l ++ match init with
      | some _ => [.use a (lookupIn Q.frames a)]
      | none => [])
  | .const d a e =>
    let (Q, l, ok) := P.declare false ⟨d, false⟩ a
    (Q, l ++ if ok then (useExpr P.frames e).1 else [])
  | .enum name fields =>
    match name with
    | some (d, a) =>
      let (Q, l, _) := P.declare false ⟨d, false⟩ a
      let (R, l') := Q.fields fields
      (R, l ++ l')
    | none => P.fields fields
  | .fn d a static _ _ _ =>
    match lookupIn P.frames a with
    | some other => (P, [.again a other])
    | none => (P.add static ⟨d, true⟩ a, [])

def Plugin.all (P : Plugin) : List TopDecl → Plugin × List Event
  | [] => (P, [])
  | d :: ds =>
    let (Q, l) := P.top d
    let (R, l') := Q.all ds
    (R, l ++ l')

def specArgs (native : Bool) (f : Frame) (fs : List Frame) : List (Nat × Atom × Option NExpr) → Frame × List Event
  | [] => (f, [])
  | (d, a, e) :: rest =>
    let (f', l) := specVar native f fs d a e
    let (f'', l') := specArgs native f' fs rest
    (f'', l ++ l')

/-- The bodies of the functions: they see all names of the plugin, wherever they are declared. -/
def Plugin.bodies (P : Plugin) : List TopDecl → List Event
  | [] => []
  | .file n :: ds => Plugin.bodies { P with file := n } ds
  | .fn _ _ _ native args body :: ds =>
    let (f, l) := specArgs native ⟨.argument, []⟩ P.frames args
    l ++ (specStmt ⟨.local, []⟩ (f :: P.frames) body).2 ++ P.bodies ds
  | _ :: ds => P.bodies ds

def Event.isError : Event → Bool
  | .use _ none | .dup _ => true
  | _ => false

/-- No constant is defined by itself, in a statement. -/
def NStmt.fair : NStmt → Bool
  | .seq s t => s.fair && t.fair
  | .const _ a e => !e.mentions a
  | .block s => s.fair
  | .for_ init _ _ body => init.fair && body.fair
  | _ => true

/-- No constant is defined by itself, natives have no body, and the files exist. -/
def TopDecl.fair (files : Nat) : TopDecl → Prop
  | .file n => n < files
  | .const _ a e => e.mentions a = false
  | .fn _ _ _ native _ body => body.fair = true ∧ (native = true → body = .skip)
  | _ => True

end Verif.Names

import Verif.Model.StmtParser
import Verif.Spec.ExprGrammar
/-!
The grammar of statements: which sequences of tokens are ways of writing a statement.  `semi` of the expressions is `true`.
-/
namespace Verif.Parse

/-- Sizes after a name: `[]` or `[e]`. -/
inductive WDims : List (Option Ex) → List Tok → Prop where
  | nil : WDims [] []
  | unsized {ds : List (Option Ex)} {ts : List Tok} : WDims ds ts → WDims (none :: ds) (.lbr :: .rbr :: ts)
  | sized {e : Ex} {ds : List (Option Ex)} {l ts : List Tok} : Writes true true (.ex 14 e) l → WDims ds ts →
      WDims (some e :: ds) (.lbr :: l ++ .rbr :: ts)

/-- `= e`, or nothing. -/
inductive WInit : Option Ex → List Tok → Prop where
  | none : WInit none []
  | some {e : Ex} {l : List Tok} : Writes true true (.ex 14 e) l → WInit (some e) (.asg .plain :: l)

/-- A variable after its name.  Sizes are after the name or after the type, not both. -/
def WDcl (pre : Nat) (v : Dcl) (ts : List Tok) : Prop :=
  ∃ l r, WDims v.dims l ∧ WInit v.init r ∧ ts = l ++ r ∧ (0 < pre → v.dims = [])

/-- The variables of a declaration, after the name of the first. -/
inductive WDcls (pre : Nat) : Nat → List Dcl → List Tok → Prop where
  | last {v : Dcl} {l : List Tok} : WDcl pre v l → WDcls pre v.name [v] l
  | more {v : Dcl} {vs : List Dcl} {n : Nat} {l r : List Tok} : WDcl pre v l → WDcls pre n vs r →
      WDcls pre v.name (v :: vs) (l ++ .comma :: .sym n false :: r)
  /-- a name that is left out is taken to be the one before (see `C87_name_left_out`) -/
  | again {v : Dcl} {vs : List Dcl} {l r : List Tok} : WDcl pre v l → WDcls pre v.name vs r →
      WDcls pre v.name (v :: vs) (l ++ .comma :: r)

/-- `n` times `[]`. -/
def brackets : Nat → List Tok
  | 0 => []
  | n + 1 => .lbr :: .rbr :: brackets n

/-- The token of a type: a keyword or a name. -/
def IsType (t : Tok) : Prop := (t = Kw.int.tok ∨ t = Kw.char.tok ∨ t = Kw.void.tok ∨ t = Kw.object.tok) ∨ ∃ s, t = .sym s false

/-- A declaration, without the semicolon. -/
def WDecl (d : DeclS) (ts : List Tok) : Prop :=
  ∃ n r, IsType d.ty ∧ WDcls d.pre n d.vars r ∧ ts = d.ty :: brackets d.pre ++ .sym n false :: r

/-- The first part of a `for`, with its semicolon. -/
inductive WFor : Init → List Tok → Prop where
  | none : WFor .none [.term]
  | decl {d : DeclS} {l : List Tok} : WDecl d l → WFor (.decl d) (l ++ [.term])
  | expr {e : Ex} {l : List Tok} : WritesExpr true true e l → WFor (.expr e) (l ++ [.term])

/-- An expression or nothing. -/
inductive WOpt : Option Ex → List Tok → Prop where
  | none : WOpt none []
  | some {e : Ex} {l : List Tok} : WritesExpr true true e l → WOpt (some e) l

/-- A statement that ends with an `if` to which an `else` could be added. -/
def St.open : St → Bool
  | .ifs _ _ => true
  | .ifElse _ _ e => e.open
  | .whiles _ b => b.open
  | .fors _ _ _ b => b.open
  | _ => false

/-- What may be written: a statement (`allow`: it may be a declaration; `inl`: it is in a loop), the statements of a block with
the closing brace, and the cases of a switch with the closing brace. -/
inductive SPhrase where
  | stmt (allow inl : Bool) (s : St)
  | block (inl : Bool) (ss : List St)
  | cases (inl : Bool) (cs : List (List Ex × St)) (d : Option St)

/-- `SWrites p ts`: the tokens `ts` are a way of writing `p`. -/
inductive SWrites : SPhrase → List Tok → Prop where
  | expr {a i : Bool} {e : Ex} {l : List Tok} : WritesExpr true true e l → SWrites (.stmt a i (.expr e)) (l ++ [.term])
  | decl {i : Bool} {d : DeclS} {l : List Tok} : WDecl d l → SWrites (.stmt true i (.decl d)) (l ++ [.term])
  | ifs {a i : Bool} {c : Ex} {t : St} {l m : List Tok} : WritesExpr true true c l → SWrites (.stmt false i t) m →
      SWrites (.stmt a i (.ifs c t)) (Kw.kIf.tok :: .lpar :: l ++ .rpar :: m)
  /-- an `else` belongs to the nearest `if` -/
  | ifElse {a i : Bool} {c : Ex} {t e : St} {l m n : List Tok} : WritesExpr true true c l → SWrites (.stmt false i t) m →
      t.open = false → SWrites (.stmt false i e) n →
      SWrites (.stmt a i (.ifElse c t e)) (Kw.kIf.tok :: .lpar :: l ++ .rpar :: m ++ Kw.kElse.tok :: n)
  | whiles {a i : Bool} {c : Ex} {b : St} {l m : List Tok} : WritesExpr true true c l → SWrites (.stmt false true b) m →
      SWrites (.stmt a i (.whiles c b)) (Kw.kWhile.tok :: .lpar :: l ++ .rpar :: m)
  | doWhile {a i : Bool} {c : Ex} {b : St} {l m : List Tok} : SWrites (.stmt false true b) m → WritesExpr true true c l →
      SWrites (.stmt a i (.doWhile b c)) (Kw.kDo.tok :: m ++ Kw.kWhile.tok :: .lpar :: l ++ [.rpar, .term])
  | fors {a i : Bool} {ini : Init} {c s : Option Ex} {b : St} {l1 l2 l3 m : List Tok} : WFor ini l1 → WOpt c l2 → WOpt s l3 →
      SWrites (.stmt false true b) m →
      SWrites (.stmt a i (.fors ini c s b)) (Kw.kFor.tok :: .lpar :: l1 ++ l2 ++ .term :: l3 ++ .rpar :: m)
  | switch {a i : Bool} {e : Ex} {cs : List (List Ex × St)} {d : Option St} {l m : List Tok} : WritesExpr true true e l →
      SWrites (.cases i cs d) m →
      SWrites (.stmt a i (.switch e cs d)) (Kw.kSwitch.tok :: .lpar :: l ++ .rpar :: Kw.lbrace.tok :: m)
  | block {a i : Bool} {ss : List St} {m : List Tok} : SWrites (.block i ss) m →
      SWrites (.stmt a i (.block ss)) (Kw.lbrace.tok :: m)
  | ret {a i : Bool} {e : Option Ex} {l : List Tok} : WOpt e l →
      SWrites (.stmt a i (.ret e)) (Kw.kReturn.tok :: l ++ [.term])
  | brk {a : Bool} : SWrites (.stmt a true .brk) [Kw.kBreak.tok, .term]
  | cont {a : Bool} : SWrites (.stmt a true .cont) [Kw.kContinue.tok, .term]
  | assert {a i : Bool} {e : Ex} {l : List Tok} : WritesExpr true true e l →
      SWrites (.stmt a i (.assert e)) (Kw.kAssert.tok :: .lpar :: l ++ [.rpar, .term])
  | delete {a i : Bool} {e : Ex} {l : List Tok} : WritesExpr true true e l →
      SWrites (.stmt a i (.delete e)) (Kw.kDelete.tok :: l ++ [.term])
  | exit {a i : Bool} {e : Option Ex} {l : List Tok} : WOpt e l →
      SWrites (.stmt a i (.exit e)) (Kw.kExit.tok :: l ++ [.term])
  | done {i : Bool} : SWrites (.block i []) [Kw.rbrace.tok]
  | next {i : Bool} {s : St} {ss : List St} {l m : List Tok} : SWrites (.stmt true i s) l → SWrites (.block i ss) m →
      SWrites (.block i (s :: ss)) (l ++ m)
  | noCase {i : Bool} : SWrites (.cases i [] none) [Kw.rbrace.tok]
  /-- nothing follows the default case -/
  | dflt {i : Bool} {s : St} {l : List Tok} : SWrites (.stmt false i s) l →
      SWrites (.cases i [] (some s)) (Kw.kDefault.tok :: .colon :: l ++ [Kw.rbrace.tok])
  | case {i : Bool} {es : List Ex} {s : St} {cs : List (List Ex × St)} {d : Option St} {l m n : List Tok} :
      Writes true false (.list es) l → SWrites (.stmt false i s) m → SWrites (.cases i cs d) n →
      SWrites (.cases i ((es, s) :: cs) d) (Kw.kCase.tok :: l ++ .colon :: m ++ n)

end Verif.Parse

import Verif.Model.ExprParser

/-!
The grammar of expressions: which sequences of tokens are ways of writing an expression.

Precedence levels, from the tightest binding: 0 names, literals and parentheses; 1 suffixes; 2 prefix operators and postfix
`++`; 3 to 12 binary operators; 13 the conditional; 14 assignment.
-/
namespace Verif.Parse

/-- The precedence of the binary operators. -/
def prec : BinOp → Nat
  | .mul | .div | .mod => 3
  | .add | .sub => 4
  | .shl | .shr | .shru => 5
  | .and => 6
  | .xor => 7
  | .or => 8
  | .lt | .gt | .le | .ge => 9
  | .eq | .ne => 10
  | .land => 11
  | .lor => 12

/-- How the prefix operators are written. -/
def UnOp.tok : UnOp → Tok
  | .inv => .tilde
  | .neg => .op .sub
  | .not => .bang

/-- What may be written: an expression at a level, expressions separated by commas, the rest of a comparison chain, the
arguments of a call with the closing parenthesis (`named`: only named ones from here on), and one argument. -/
inductive Phrase where
  | ex (k : Nat) (e : Ex)
  | list (es : List Ex)
  | cmps (cs : List (BinOp × Ex))
  | call (as : List Arg)
  | args (named : Bool) (as : List Arg)
  | arg (named : Bool) (a : Arg)

/-- `Writes semi tags p ts`: the tokens `ts` are a way of writing `p`.  `tags`: a name directly followed by a colon is a tag.
`semi`: statements end with semicolons only. -/
inductive Writes (semi : Bool) : Bool → Phrase → List Tok → Prop where
  | lit {tg : Bool} (n : Nat) : Writes semi tg (.ex 0 (.lit n)) [.lit n]
  | sym {tg c : Bool} (s : Nat) (h : tg = false ∨ c = false) : Writes semi tg (.ex 0 (.sym s)) [.sym s c]
  | paren {tg : Bool} {e : Ex} {ts : List Tok} : Writes semi true (.ex 14 e) ts →
      Writes semi tg (.ex 0 e) (.lpar :: ts ++ [.rpar])
  | comma {tg : Bool} {es : List Ex} {ts : List Tok} (h : 2 ≤ es.length) : Writes semi true (.list es) ts →
      Writes semi tg (.ex 0 (.comma es)) (.lpar :: ts ++ [.rpar])
  | cast {tg : Bool} {e : Ex} {ts : List Tok} (t : Nat) : Writes semi tg (.ex 14 e) ts →
      Writes semi tg (.ex 1 (.cast t e)) (.viewAs t :: .lpar :: ts ++ [.rpar])
  | field {tg c : Bool} {b : Ex} {l : List Tok} (d : Bool) (s : Nat) (h : tg = false ∨ c = false) : Writes semi tg (.ex 1 b) l →
      Writes semi tg (.ex 1 (.field d b s)) (l ++ [.dot d, .sym s c])
  | index {tg : Bool} {b i : Ex} {l r : List Tok} : Writes semi tg (.ex 1 b) l → Writes semi tg (.ex 14 i) r →
      Writes semi tg (.ex 1 (.index b i)) (l ++ .lbr :: r ++ [.rbr])
  | call {tg : Bool} {b : Ex} {as : List Arg} {l r : List Tok} : Writes semi tg (.ex 1 b) l → Writes semi tg (.call as) r →
      Writes semi tg (.ex 1 (.call b as)) (l ++ .lpar :: r)
  | pre {tg : Bool} {e : Ex} {ts : List Tok} (d nl : Bool) : Writes semi tg (.ex 2 e) ts →
      Writes semi tg (.ex 2 (.pre d e)) (.inc d nl :: ts)
  | un {tg : Bool} {e : Ex} {ts : List Tok} (o : UnOp) : Writes semi tg (.ex 2 e) ts →
      Writes semi tg (.ex 2 (.un o e)) (o.tok :: ts)
  | tag {e : Ex} {ts : List Tok} (s : Nat) : Writes semi true (.ex 2 e) ts →
      Writes semi true (.ex 2 (.tag s e)) (.sym s true :: .colon :: ts)
  /-- on the same line as the operand, unless statements end with semicolons only -/
  | post {tg : Bool} {e : Ex} {l : List Tok} (d nl : Bool) (h : nl = false ∨ semi = true) : Writes semi tg (.ex 1 e) l →
      Writes semi tg (.ex 2 (.post d e)) (l ++ [.inc d nl])
  /-- to the left -/
  | bin {tg : Bool} {a b : Ex} {l r : List Tok} {k : Nat} (o : BinOp) (h : prec o = k + 1) (h9 : k ≠ 8) :
      Writes semi tg (.ex (k + 1) a) l → Writes semi tg (.ex k b) r → Writes semi tg (.ex (k + 1) (.bin o a b)) (l ++ .op o :: r)
  /-- comparisons do not group: one is a binary operator, more are a chain -/
  | rel {tg : Bool} {a b : Ex} {l r : List Tok} (o : BinOp) : Writes semi tg (.ex 8 a) l → Writes semi tg (.cmps [(o, b)]) r →
      Writes semi tg (.ex 9 (.bin o a b)) (l ++ r)
  | chain {tg : Bool} {a : Ex} {cs : List (BinOp × Ex)} {l r : List Tok} (h : 2 ≤ cs.length) : Writes semi tg (.ex 8 a) l →
      Writes semi tg (.cmps cs) r → Writes semi tg (.ex 9 (.chain a cs)) (l ++ r)
  /-- to the right; no tags between `?` and `:` -/
  | tern {tg : Bool} {c a b : Ex} {l m r : List Tok} : Writes semi tg (.ex 12 c) l → Writes semi false (.ex 13 a) m →
      Writes semi tg (.ex 13 b) r → Writes semi tg (.ex 13 (.tern c a b)) (l ++ .quest :: m ++ .colon :: r)
  /-- to the right -/
  | asg {tg : Bool} {a b : Ex} {l r : List Tok} (o : AsgOp) : Writes semi tg (.ex 13 a) l → Writes semi tg (.ex 14 b) r →
      Writes semi tg (.ex 14 (.asg o a b)) (l ++ .asg o :: r)
  /-- what binds tighter may stand where something that binds less tight is allowed -/
  | up {tg : Bool} {e : Ex} {ts : List Tok} {k : Nat} (h : k < 14) : Writes semi tg (.ex k e) ts → Writes semi tg (.ex (k + 1) e) ts
  | one {tg : Bool} {e : Ex} {ts : List Tok} : Writes semi tg (.ex 14 e) ts → Writes semi tg (.list [e]) ts
  | more {tg : Bool} {e : Ex} {es : List Ex} {l r : List Tok} : Writes semi tg (.ex 14 e) l → Writes semi tg (.list es) r →
      Writes semi tg (.list (e :: es)) (l ++ .comma :: r)
  | cmp1 {tg : Bool} {b : Ex} {r : List Tok} (o : BinOp) (h : prec o = 9) : Writes semi tg (.ex 8 b) r →
      Writes semi tg (.cmps [(o, b)]) (.op o :: r)
  | cmps {tg : Bool} {b : Ex} {cs : List (BinOp × Ex)} {l r : List Tok} (o : BinOp) (h : prec o = 9) : Writes semi tg (.ex 8 b) l →
      Writes semi tg (.cmps cs) r → Writes semi tg (.cmps ((o, b) :: cs)) (.op o :: l ++ r)
  | noArgs {tg : Bool} : Writes semi tg (.call []) [.rpar]
  | someArgs {tg : Bool} {as : List Arg} {r : List Tok} : Writes semi tg (.args false as) r → Writes semi tg (.call as) r
  | lastArg {tg n n' : Bool} {a : Arg} {l : List Tok} (h : n = true → n' = true) : Writes semi tg (.arg n' a) l →
      Writes semi tg (.args n [a]) (l ++ [.rpar])
  /-- after a named argument only named arguments follow -/
  | moreArgs {tg n n' : Bool} {a : Arg} {as : List Arg} {l r : List Tok} (h : n = true → n' = true) : Writes semi tg (.arg n' a) l →
      Writes semi tg (.args n' as) r → Writes semi tg (.args n (a :: as)) (l ++ .comma :: r)
  | pos {tg : Bool} {e : Ex} {ts : List Tok} : Writes semi tg (.ex 14 e) ts → Writes semi tg (.arg false (.pos e)) ts
  | dflt {tg : Bool} : Writes semi tg (.arg false .dflt) [.under]
  | named {tg c : Bool} {e : Ex} {ts : List Tok} (s : Nat) (h : tg = false ∨ c = false) : Writes semi tg (.ex 14 e) ts →
      Writes semi tg (.arg true (.named s e)) (.dot false :: .sym s c :: .asg .plain :: ts)
  /-- `.name = _` loses the name (see `C59_named_default`). -/
  | namedDflt {tg c : Bool} (s : Nat) (h : tg = false ∨ c = false) :
      Writes semi tg (.arg true .dflt) [.dot false, .sym s c, .asg .plain, .under]

/-- An expression with the commas a statement allows outside parentheses. -/
def WritesExpr (semi tg : Bool) (e : Ex) (ts : List Tok) : Prop :=
  Writes semi tg (.ex 14 e) ts ∨ ∃ es, 2 ≤ es.length ∧ e = .comma es ∧ Writes semi tg (.list es) ts

/-- Tokens that continue an expression. -/
def Tok.continues (semi : Bool) : Tok → Bool
  | .dot _ | .lbr | .lpar | .op _ | .asg _ | .quest | .comma => true
  | .inc _ nl => nl = false ∨ semi = true
  | _ => false

/-- Nothing follows that continues an expression. -/
def Ends (semi : Bool) (rest : List Tok) : Prop := ∀ t r, rest = t :: r → t.continues semi = false

end Verif.Parse

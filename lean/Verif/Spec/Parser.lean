import Verif.Model.Parser
/-! # Specification vocabulary for the expression parser -/

namespace Pynare

variable {V : Type}

/-- Syntactic categories of the published grammar. -/
inductive Lvl where
  | atom | call | expo | term | expr
  deriving DecidableEq, Repr

/-- The grammar published in the docstrings of `/repo/pynare/parsing/parser.py:64-203`:

    atom     : ID | NUMBER | LPARE expr RPARE | (MINUS | PLUS) term
    call     : atom | FUNCTION LPARE expr RPARE
    exponent : call (POWER exponent)*
    term     : exponent ((MUL | DIV) exponent)*
    expr     : term ((PLUS | MINUS) term)*

with powers grouping to the right and the other operators to the left; in model equations
(`m = true`) an atom may also be `ID LPARE (PLUS | MINUS) NUMBER RPARE`.

As published the grammar is ambiguous: in `- a * b` the operand of the sign may be `a` or `a * b`.
`Gram amb m pc o` carries a flag `o`, true when the phrase ends in the operand of a sign.  With
`amb = True` it is the published grammar.  With `amb = False` such a phrase must not be followed by
`*`, `/` or `^`: the operand of a sign extends as far as possible. -/
inductive Gram (amb : Prop) (m : Bool) (pc : PCfg V) :
    Bool → Lvl → List (Tok V) → Expr V → Prop
  | id {x} : Gram amb m pc false .atom [.id x] (.var x)
  | pid {x s d v k} : m = true → Sym.sign s = some d → pc.trunc v = .ok k →
      Gram amb m pc false .atom [.id x, .sym .lpare, .sym s, .num v, .sym .rpare]
        (.pvar x (if d = .pos then (k : Int) else -(k : Int)))
  | num {v} : Gram amb m pc false .atom [.num v] (.num v)
  | paren {o ts e} : Gram amb m pc o .expr ts e →
      Gram amb m pc false .atom (.sym .lpare :: ts ++ [.sym .rpare]) e
  | sign {o s u ts e} : Sym.sign s = some u → Gram amb m pc o .term ts e →
      Gram amb m pc true .atom (.sym s :: ts) (.un u e)
  | atom {o ts e} : Gram amb m pc o .atom ts e → Gram amb m pc o .call ts e
  | func {o f ts e} : Gram amb m pc o .expr ts e →
      Gram amb m pc false .call (.func f :: .sym .lpare :: ts ++ [.sym .rpare]) (.fn f e)
  | call {o ts e} : Gram amb m pc o .call ts e → Gram amb m pc o .expo ts e
  | pow {o o' ts us l r} : amb ∨ o = false → Gram amb m pc o .call ts l →
      Gram amb m pc o' .expo us r → Gram amb m pc o' .expo (ts ++ .sym .power :: us) (.bin .pow l r)
  | expo {o ts e} : Gram amb m pc o .expo ts e → Gram amb m pc o .term ts e
  | mul {o o' s b ts us l r} : amb ∨ o = false → Sym.mulOp s = some b → Gram amb m pc o .term ts l →
      Gram amb m pc o' .expo us r → Gram amb m pc o' .term (ts ++ .sym s :: us) (.bin b l r)
  | term {o ts e} : Gram amb m pc o .term ts e → Gram amb m pc o .expr ts e
  | add {o o' s b ts us l r} : Sym.addOp s = some b → Gram amb m pc o .expr ts l →
      Gram amb m pc o' .term us r → Gram amb m pc o' .expr (ts ++ .sym s :: us) (.bin b l r)

/-- The published grammar of `expr`. -/
def Published (m : Bool) (pc : PCfg V) (ts : List (Tok V)) (e : Expr V) : Prop :=
  ∃ o, Gram True m pc o .expr ts e

/-- The disambiguated grammar of `expr`. -/
def Derives (m : Bool) (pc : PCfg V) (ts : List (Tok V)) (e : Expr V) : Prop :=
  ∃ o, Gram False m pc o .expr ts e

/-- The parser of numeric expressions (`m = false`) and of model equations (`m = true`). -/
def readExpr (pc : PCfg V) (m : Bool) (ts : List (Tok V)) : Out (Expr V × List (Tok V)) :=
  if m then parseMExpr pc ts else parseExpr pc ts

/-- The next token exists and cannot continue an expression: it is no operator and no function,
and in model equations no opening parenthesis (which would start a period offset). -/
def Stops (m : Bool) (rest : List (Tok V)) : Prop :=
  ∃ t ts, rest = t :: ts ∧ (∀ f, t ≠ .func f) ∧ (m = true → t ≠ .sym .lpare) ∧
    ∀ s ∈ [Sym.power, .mul, .div, .plus, .minus], t ≠ .sym s

/-- No function call directly follows a closing parenthesis. -/
def NoCallAfterParen (ts : List (Tok V)) : Prop :=
  ∀ pre f post, ts ≠ pre ++ .sym .rpare :: .func f :: post

/-- Trees that the expression parsers can produce: no comparison, and period variables only in
model equations. -/
def Expr.plain (m : Bool) : Expr V → Prop
  | .num _ | .var _ => True
  | .pvar _ _ => m = true
  | .cmp _ _ _ => False
  | .un _ e | .fn _ e => e.plain m
  | .bin _ l r => l.plain m ∧ r.plain m

/-- Tokens of the operators. -/
def UnOp.sym : UnOp → Sym
  | .pos => .plus
  | .neg => .minus
def BinOp.sym : BinOp → Sym
  | .add => .plus
  | .sub => .minus
  | .mul => .mul
  | .div => .div
  | .pow => .power

/-- The token that writes a comparison. -/
def CmpOp.sym : CmpOp → Sym
  | .lt => .lt
  | .le => .ltoe
  | .gt => .gt
  | .ge => .gtoe
  | .eq => .equality

/-- Put parentheses around tokens when asked. -/
def parens (b : Bool) (ts : List (Tok V)) : List (Tok V) :=
  if b then .sym .lpare :: ts ++ [.sym .rpare] else ts

/-- Print a tree as a phrase of the given category; `o` says whether the phrase may end in the
operand of a sign.  Parentheses are put only where the category or `o` requires them.  `lit`
writes the number in a period offset. -/
def Expr.print (lit : Nat → V) (lvl : Lvl) (o : Bool) : Expr V → List (Tok V)
  | .num v => [.num v]
  | .var x => [.id x]
  | .pvar x k =>
    [.id x, .sym .lpare, .sym (if 0 ≤ k then .plus else .minus), .num (lit k.natAbs), .sym .rpare]
  | .cmp _ l _ => l.print lit lvl o
  | .fn f e => .func f :: .sym .lpare :: e.print lit .expr true ++ [.sym .rpare]
  | .un u e => parens (!o) (.sym u.sym :: e.print lit .term true)
  | .bin b l r =>
    match b with
    | .pow =>
      if lvl = .atom ∨ lvl = .call then
        parens true (l.print lit .call false ++ .sym .power :: r.print lit .expo true)
      else l.print lit .call false ++ .sym .power :: r.print lit .expo o
    | .mul | .div =>
      if lvl = .expr ∨ lvl = .term then
        l.print lit .term false ++ .sym b.sym :: r.print lit .expo o
      else parens true (l.print lit .term false ++ .sym b.sym :: r.print lit .expo true)
    | .add | .sub =>
      if lvl = .expr then l.print lit .expr true ++ .sym b.sym :: r.print lit .term o
      else parens true (l.print lit .expr true ++ .sym b.sym :: r.print lit .term true)

/-- Tokens that end an operand, tokens that start one. -/
def Tok.endsOperand : Tok V → Bool
  | .id _ | .num _ | .sym .rpare => true
  | _ => false
def Tok.startsOperand : Tok V → Bool
  | .id _ | .num _ | .func _ | .sym .lpare => true
  | _ => false

/-- Tokens that numeric expressions are made of. -/
def Tok.inExpr : Tok V → Bool
  | .id _ | .num _ | .func _ => true
  | .sym s => s ∈ [.lpare, .rpare, .plus, .minus, .mul, .div, .power]
  | _ => false

/-- Number of tokens of a given punctuation type. -/
def symCount (s : Sym) (ts : List (Tok V)) : Nat := (ts.filter fun t => isSym s [t]).length

/-- A sequence of tokens that is visibly one expression: it is made of tokens of expressions, an
operand never directly follows an operand, and no closing parenthesis lacks its opening one. -/
structure OneExpr (ts : List (Tok V)) : Prop where
  toks : ∀ t ∈ ts, t.inExpr = true
  apart : ∀ pre a b post, ts = pre ++ a :: b :: post → a.endsOperand = true →
    b.startsOperand = false
  opened : ∀ pre post, ts = pre ++ post → symCount .rpare pre ≤ symCount .lpare pre

/-! ### Model files -/

/-- Names of a declaration, separated by commas or nothing. -/
inductive DeclNames : List (Tok V) → Prop
  | nil : DeclNames []
  | name {x us} : DeclNames us → DeclNames (.id x :: us)
  | comma {x us} : DeclNames us → DeclNames (.sym .comma :: .id x :: us)

/-- A statement of the preamble: a declaration or an assignment. -/
inductive PreItem (pc : PCfg V) : List (Tok V) → Prop
  | decl {k us} : k ∈ varTypes → DeclNames us → PreItem pc (.kw k :: us ++ [.sym .semi])
  | assign {x us e} : Derives false pc us e →
      PreItem pc (.id x :: .sym .equals :: us ++ [.sym .semi])

/-- Tokens with which a statement of the preamble, or the model block, can start. -/
def StartsItem (t : Tok V) : Prop :=
  (∃ x, t = .id x) ∨ t = .kw "model" ∨ ∃ k ∈ varTypes, t = .kw k

end Pynare

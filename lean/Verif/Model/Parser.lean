import Verif.Model.Lexer
/-!
# The parsers

Mirrors `BaseParser` and `DynareParser` of `/repo/pynare/parsing/parser.py`.

The parser state is the list of tokens from `current_token` on, so `peek(k)` is the element with
index `k`.  Functions that recurse take a bound on the depth of the call tree as first argument
and answer `hang` when it is exhausted; `exprFuel` is large enough for every token list
(`expr_not_hang`).  Python's own recursion limit is not modelled.
-/

namespace Pynare

variable {V : Type}

/-- What the parser takes from Python: `int(float)` on the number in a period offset
(`/repo/pynare/parsing/ast.py:180-181`; it may raise), and the number `0` of an equation without
right side (`/repo/pynare/parsing/parser.py:431-432`). -/
structure PCfg (V : Type) where
  trunc : V → Except Err Nat
  zero : V

/-- A raised exception, as an outcome. -/
def Out.ofExcept {α : Type} : Except Err α → Out α
  | .ok a => .ok a
  | .error e => .err e

/-- Advance to the next token, `/repo/pynare/parsing/lexer.py:84-98`: past the end of the token
stream the list index raises `IndexError`. -/
def adv : List (Tok V) → Out (List (Tok V))
  | _ :: t :: ts => .ok (t :: ts)
  | _ => .err .indexError

/-- `eat` on a punctuation token, `/repo/pynare/parsing/parser.py:48-56`. -/
def eatSym (s : Sym) : List (Tok V) → Out (List (Tok V))
  | [] => .err .indexError
  | t :: ts => match t with
    | .sym s' => if s' = s then adv (t :: ts) else .err .pynareSyntaxError
    | _ => .err .pynareSyntaxError

/-- `eat` on a keyword token, `/repo/pynare/parsing/parser.py:48-56`. -/
def eatKw (k : String) : List (Tok V) → Out (List (Tok V))
  | [] => .err .indexError
  | t :: ts => match t with
    | .kw k' => if k' = k then adv (t :: ts) else .err .pynareSyntaxError
    | _ => .err .pynareSyntaxError

/-- `variable`, `/repo/pynare/parsing/parser.py:325-331`: the name, after `eat(ID)`. -/
def eatId : List (Tok V) → Out (String × List (Tok V))
  | [] => .err .indexError
  | t :: ts => match t with
    | .id x => do
      let r ← adv (t :: ts)
      .ok (x, r)
    | _ => .err .pynareSyntaxError

/-- `eat(NUMBER)`, returning the number. -/
def eatNum : List (Tok V) → Out (V × List (Tok V))
  | [] => .err .indexError
  | t :: ts => match t with
    | .num v => do
      let r ← adv (t :: ts)
      .ok (v, r)
    | _ => .err .pynareSyntaxError

/-- Sign tokens: `(PLUS, MINUS)` as unary operators. -/
def Sym.sign : Sym → Option UnOp
  | .plus => some .pos
  | .minus => some .neg
  | _ => none

/-- `(PLUS, MINUS)` as binary operators, `/repo/pynare/parsing/parser.py:169`. -/
def Sym.addOp : Sym → Option BinOp
  | .plus => some .add
  | .minus => some .sub
  | _ => none

/-- `(MUL, DIV)`, `/repo/pynare/parsing/parser.py:151`. -/
def Sym.mulOp : Sym → Option BinOp
  | .mul => some .mul
  | .div => some .div
  | _ => none

/-- `COMPS`, `/repo/pynare/parsing/parser.py:208`. -/
def Sym.cmpOp : Sym → Option CmpOp
  | .lt => some .lt
  | .ltoe => some .le
  | .gt => some .gt
  | .gtoe => some .ge
  | .equality => some .eq
  | _ => none

/-- Operator of the current token, if it is one of the given class. -/
def headOp {α : Type} (f : Sym → Option α) : List (Tok V) → Option α
  | .sym s :: _ => f s
  | _ => none

/-- Whether the current token has the given punctuation type. -/
def isSym (s : Sym) : List (Tok V) → Bool
  | .sym s' :: _ => s' = s
  | _ => false

/-- Whether the current token is the given keyword. -/
def isKw (k : String) : List (Tok V) → Bool
  | .kw k' :: _ => k' = k
  | _ => false

/-- `period_offset` and the constructor of `PeriodVar`,
`/repo/pynare/parsing/parser.py:350-364`, `/repo/pynare/parsing/ast.py:180-181`: the sign and the
truncated number. -/
def periodOffset (pc : PCfg V) (ts : List (Tok V)) : Out (Int × List (Tok V)) := do
  let ts ← eatSym .lpare ts
  match headOp Sym.sign ts with
  | none => .err .pynareSyntaxError
  | some d => do
    let ts ← adv ts
    let r ← eatNum ts
    let ts ← eatSym .rpare r.2
    let o ← Out.ofExcept (pc.trunc r.1)
    .ok (if d = .pos then (o : Int) else -(o : Int), ts)

/-- `maybe_period_variable`, `/repo/pynare/parsing/parser.py:333-348`. -/
def maybePeriodVar (pc : PCfg V) (ts : List (Tok V)) : Out (Expr V × List (Tok V)) := do
  let r ← eatId ts
  if isSym .lpare r.2 then do
    let o ← periodOffset pc r.2
    .ok (.pvar r.1 o.1, o.2)
  else .ok (.var r.1, r.2)

mutual
/-- `atom` and (with `m`) `matom`, `/repo/pynare/parsing/parser.py:64-96,497-522`. -/
def pAtom (pc : PCfg V) (m : Bool) : Nat → List (Tok V) → Out (Expr V × List (Tok V))
  | 0, _ => .hang
  | n + 1, ts =>
    match ts with
    | [] => .err .indexError
    | .id x :: ts' =>
      if m then maybePeriodVar pc ts
      else do
        let r ← adv (.id x :: ts')
        .ok (.var x, r)
    | .num v :: ts' => do
      let r ← adv (.num v :: ts')
      .ok (.num v, r)
    | .sym s :: ts' =>
      if s = .lpare then do
        let r ← adv (.sym s :: ts')
        let e ← pExpr pc m n r
        let r' ← eatSym .rpare e.2
        .ok (e.1, r')
      else match s.sign with
        | some u => do
          let r ← adv (.sym s :: ts')
          let e ← pTerm pc m n r
          .ok (.un u e.1, e.2)
        | none => .err .pynareSyntaxError
    | _ :: _ => .err .pynareSyntaxError

/-- `call` and `mcall`, `/repo/pynare/parsing/parser.py:98-122,524-538`.  The last argument is
the local variable `node`, unbound (`none`) until the first function call has been read. -/
def pCall (pc : PCfg V) (m : Bool) : Nat → Option (Expr V) → List (Tok V) →
    Out (Expr V × List (Tok V))
  | 0, _, _ => .hang
  | n + 1, node, ts =>
    match ts with
    | .func f :: ts' => do
      let r ← adv (.func f :: ts')
      let r ← eatSym .lpare r
      let e ← pExpr pc m n r
      let r' ← eatSym .rpare e.2
      pCall pc m n (some (.fn f e.1)) r'
    | _ => match node with
      | some e => .ok (e, ts)
      | none => pAtom pc m n ts

/-- `exponent` and `mexponent`, `/repo/pynare/parsing/parser.py:124-143,540-553`. -/
def pExpo (pc : PCfg V) (m : Bool) : Nat → List (Tok V) → Out (Expr V × List (Tok V))
  | 0, _ => .hang
  | n + 1, ts => do
    let l ← pCall pc m n none ts
    pExpoLoop pc m n l.1 l.2

/-- The loop of `exponent` (which returns from its first round) and of `mexponent` (which goes
on), `/repo/pynare/parsing/parser.py:130-141,543-551`. -/
def pExpoLoop (pc : PCfg V) (m : Bool) : Nat → Expr V → List (Tok V) → Out (Expr V × List (Tok V))
  | 0, _, _ => .hang
  | n + 1, l, ts =>
    if isSym .power ts then do
      let r ← adv ts
      let e ← pExpo pc m n r
      if m then pExpoLoop pc m n (.bin .pow l e.1) e.2
      else .ok (.bin .pow l e.1, e.2)
    else .ok (l, ts)

/-- `term` and `mterm`, `/repo/pynare/parsing/parser.py:145-161,555-568`. -/
def pTerm (pc : PCfg V) (m : Bool) : Nat → List (Tok V) → Out (Expr V × List (Tok V))
  | 0, _ => .hang
  | n + 1, ts => do
    let l ← pExpo pc m n ts
    pTermLoop pc m n l.1 l.2

/-- The loop of `term`, `/repo/pynare/parsing/parser.py:151-159,558-566`. -/
def pTermLoop (pc : PCfg V) (m : Bool) : Nat → Expr V → List (Tok V) → Out (Expr V × List (Tok V))
  | 0, _, _ => .hang
  | n + 1, l, ts =>
    match headOp Sym.mulOp ts with
    | some o => do
      let r ← adv ts
      let e ← pExpo pc m n r
      pTermLoop pc m n (.bin o l e.1) e.2
    | none => .ok (l, ts)

/-- `expr` and `mexpr`, `/repo/pynare/parsing/parser.py:163-179,570-583`. -/
def pExpr (pc : PCfg V) (m : Bool) : Nat → List (Tok V) → Out (Expr V × List (Tok V))
  | 0, _ => .hang
  | n + 1, ts => do
    let l ← pTerm pc m n ts
    pExprLoop pc m n l.1 l.2

/-- The loop of `expr`, `/repo/pynare/parsing/parser.py:169-177,573-581`. -/
def pExprLoop (pc : PCfg V) (m : Bool) : Nat → Expr V → List (Tok V) → Out (Expr V × List (Tok V))
  | 0, _, _ => .hang
  | n + 1, l, ts =>
    match headOp Sym.addOp ts with
    | some o => do
      let r ← adv ts
      let e ← pTerm pc m n r
      pExprLoop pc m n (.bin o l e.1) e.2
    | none => .ok (l, ts)
end

/-- Depth of calls that suffices for any token list of this length. -/
def exprFuel (ts : List (Tok V)) : Nat := 8 * ts.length + 8

/-- `expr`, `/repo/pynare/parsing/parser.py:163-179`. -/
def parseExpr (pc : PCfg V) (ts : List (Tok V)) : Out (Expr V × List (Tok V)) :=
  pExpr pc false (exprFuel ts) ts

/-- `mexpr`, `/repo/pynare/parsing/parser.py:570-583`. -/
def parseMExpr (pc : PCfg V) (ts : List (Tok V)) : Out (Expr V × List (Tok V)) :=
  pExpr pc true (exprFuel ts) ts

/-- `comp_expr`, `/repo/pynare/parsing/parser.py:181-203`. -/
def parseComp (pc : PCfg V) (ts : List (Tok V)) : Out (Expr V × List (Tok V)) := do
  let l ← parseExpr pc ts
  match headOp Sym.cmpOp l.2 with
  | some o => do
    let r ← adv l.2
    let e ← parseExpr pc r
    .ok (.cmp o l.1 e.1, e.2)
  | none => .ok l

/-- `BaseParser.parse` after tokenising, `/repo/pynare/parsing/parser.py:26-43,205-206`: the rest
of the tokens is not looked at. -/
def parseTokens (pc : PCfg V) (ts : List (Tok V)) : Out (Expr V) := do
  let r ← parseComp pc ts
  .ok r.1

/-- `parse_string`, `/repo/pynare/parsing/api.py:36-58`. -/
def parseString (cfg : LexCfg V) (pc : PCfg V) (text : List Char) : Out (Expr V) := do
  let ts ← cfg.kinds text
  parseTokens pc ts

/-- `evaluate` on a string, `/repo/pynare/parsing/api.py:62-89`. -/
def evaluateString (cfg : LexCfg V) (pc : PCfg V) (ops : Ops V) (scope : Dict V)
    (text : List Char) : Out V := do
  let e ← parseString cfg pc text
  Out.ofExcept (eval ops (dictScope scope) e)

/-! ### Model files -/

/-- `Argument`, `/repo/pynare/parsing/ast.py:264-275`: no value, a string or name token, or an
expression. -/
inductive ArgVal (V : Type) where
  | none
  | str (s : String)
  | id (s : String)
  | expr (e : Expr V)
  deriving DecidableEq, Repr

/-- Model statements, `/repo/pynare/parsing/ast.py:300-322`: an equation with its tags (`none`
when there is no tag list), or a local declaration. -/
inductive Stmt (V : Type) where
  | eqn (l r : Expr V) (tags : Option (List (String × Option String)))
  | loc (x : String) (e : Expr V)
  deriving DecidableEq, Repr

/-- Shocks, `/repo/pynare/parsing/ast.py:362-407`. -/
inductive Shock (V : Type) where
  | corr (x y : String) (e : Expr V)
  | cov (x y : String) (e : Expr V)
  | variance (x : String) (e : Expr V)
  | stderr (x : String) (e : Expr V)
  | det (x : String) (periods : List (V × V)) (values : List (Expr V))
  deriving DecidableEq, Repr

/-- A boundary block, `/repo/pynare/parsing/ast.py:251-258`. -/
structure Bound (V : Type) where
  args : List (String × ArgVal V)
  vals : List (String × Expr V)
  deriving DecidableEq, Repr

/-- A shocks block, `/repo/pynare/parsing/ast.py:354-360`. -/
structure Shocks (V : Type) where
  args : List (String × ArgVal V)
  shocks : List (Shock V)
  deriving DecidableEq, Repr

/-- `ModelActions` with its `ModelBoundaryValues`, `/repo/pynare/parsing/ast.py:329-351`. -/
structure Actions (V : Type) where
  initval : Option (Bound V)
  endval : Option (Bound V)
  histval : Option (Bound V)
  shocks : Option (Shocks V)
  deriving DecidableEq, Repr

/-- `ModelFile` with its preamble and model definition,
`/repo/pynare/parsing/ast.py:72-82,190-227,282-298`.  `decls` are the names with the keyword they
were declared by. -/
structure ModelFile (V : Type) where
  decls : List (String × String)
  params : List (String × Expr V)
  args : List (String × ArgVal V)
  stmts : List (Stmt V)
  actions : Actions V
  deriving DecidableEq, Repr

/-- `dynare_variable_types`, `/repo/pynare/parsing/parser.py:256-259`. -/
def varTypes : List String :=
  ["var", "varexo", "varexo_det", "parameters", "predetermined_variables", "trend_var",
    "log_trend_var"]

/-- The loop of `variable_type_declaration`, `/repo/pynare/parsing/parser.py:290-297`. -/
def declNames : Nat → List (Tok V) → Out (List String × List (Tok V))
  | 0, _ => .hang
  | n + 1, ts =>
    match ts with
    | .sym .comma :: _ => do
      let r ← adv ts
      let v ← eatId r
      let vs ← declNames n v.2
      .ok (v.1 :: vs.1, vs.2)
    | .id _ :: _ => do
      let v ← eatId ts
      let vs ← declNames n v.2
      .ok (v.1 :: vs.1, vs.2)
    | _ => .ok ([], ts)

/-- `variable_type_declaration`, `/repo/pynare/parsing/parser.py:278-303`; the current token is
the keyword `k`. -/
def typeDecl (k : String) (ts : List (Tok V)) : Out (List (String × String) × List (Tok V)) := do
  let r ← adv ts
  let vs ← declNames (r.length + 1) r
  let r' ← eatSym .semi vs.2
  .ok (vs.1.map (fun x => (x, k)), r')

/-- `variable_assignment`, `/repo/pynare/parsing/parser.py:305-321`. -/
def assignment (pc : PCfg V) (ts : List (Tok V)) : Out ((String × Expr V) × List (Tok V)) := do
  let x ← eatId ts
  let r ← eatSym .equals x.2
  let e ← parseExpr pc r
  let r' ← eatSym .semi e.2
  .ok ((x.1, e.1), r')

/-- The loop of `variable_preamble`, `/repo/pynare/parsing/parser.py:263-271`.  When the current
token is neither `model`, nor a declaration keyword, nor a name, the body does nothing and the
loop goes round for ever. -/
def preambleLoop (pc : PCfg V) : Nat → List (Tok V) →
    Out ((List (String × String) × List (String × Expr V)) × List (Tok V))
  | 0, _ => .hang
  | n + 1, ts =>
    match ts with
    | [] => .err .indexError
    | .kw k :: ts' =>
      if k = "model" then .ok (([], []), ts)
      else if k ∈ varTypes then do
        let d ← typeDecl k (.kw k :: ts')
        let r ← preambleLoop pc n d.2
        .ok ((d.1 ++ r.1.1, r.1.2), r.2)
      else .hang
    | .id x :: ts' => do
      let a ← assignment pc (.id x :: ts')
      let r ← preambleLoop pc n a.2
      .ok ((r.1.1, a.1 :: r.1.2), r.2)
    | _ :: _ => .hang

/-- `variable_preamble`, `/repo/pynare/parsing/parser.py:238-276`. -/
def preamble (pc : PCfg V) (ts : List (Tok V)) :
    Out ((List (String × String) × List (String × Expr V)) × List (Tok V)) :=
  preambleLoop pc (ts.length + 1) ts

/-- `single_argument`, `/repo/pynare/parsing/parser.py:899-938`. -/
def singleArg (pc : PCfg V) (ts : List (Tok V)) : Out ((String × ArgVal V) × List (Tok V)) := do
  let x ← eatId ts
  if isSym .equals x.2 then do
    let r ← adv x.2
    match r with
    | .str s :: _ => do
      let r' ← adv r
      .ok ((x.1, .str s), r')
    | .id s :: _ => do
      let r' ← adv r
      .ok ((x.1, .id s), r')
    | _ => do
      let e ← parseExpr pc r
      .ok ((x.1, .expr e.1), e.2)
  else .ok ((x.1, .none), x.2)

/-- The loop of `argument_list`, `/repo/pynare/parsing/parser.py:891-894`. -/
def argLoop (pc : PCfg V) : Nat → List (Tok V) → Out (List (String × ArgVal V) × List (Tok V))
  | 0, _ => .hang
  | n + 1, ts =>
    if isSym .comma ts then do
      let r ← adv ts
      let a ← singleArg pc r
      let as ← argLoop pc n a.2
      .ok (a.1 :: as.1, as.2)
    else .ok ([], ts)

/-- `optional_argument_list` and `argument_list`, `/repo/pynare/parsing/parser.py:870-897`. -/
def optArgs (pc : PCfg V) (ts : List (Tok V)) : Out (List (String × ArgVal V) × List (Tok V)) :=
  if isSym .lpare ts then do
    let r ← adv ts
    let a ← singleArg pc r
    let as ← argLoop pc (a.2.length + 1) a.2
    let r' ← eatSym .rpare as.2
    .ok (a.1 :: as.1, r')
  else .ok ([], ts)

/-- `single_tag`, `/repo/pynare/parsing/parser.py:454-471`. -/
def singleTag (ts : List (Tok V)) : Out ((String × Option String) × List (Tok V)) := do
  let x ← eatId ts
  if isSym .equals x.2 then do
    let r ← adv x.2
    match r with
    | .str s :: _ => do
      let r' ← adv r
      .ok ((x.1, some s), r')
    | _ => .err .pynareSyntaxError
  else .ok ((x.1, none), x.2)

/-- The loop of `tag_list`, `/repo/pynare/parsing/parser.py:447-449`. -/
def tagLoop : Nat → List (Tok V) → Out (List (String × Option String) × List (Tok V))
  | 0, _ => .hang
  | n + 1, ts =>
    if isSym .comma ts then do
      let r ← adv ts
      let a ← singleTag r
      let as ← tagLoop n a.2
      .ok (a.1 :: as.1, as.2)
    else .ok ([], ts)

/-- `tag_list`, `/repo/pynare/parsing/parser.py:439-452`. -/
def tagList (ts : List (Tok V)) : Out (List (String × Option String) × List (Tok V)) := do
  let r ← eatSym .lbracket ts
  let a ← singleTag r
  let as ← tagLoop (a.2.length + 1) a.2
  let r' ← eatSym .rbracket as.2
  .ok (a.1 :: as.1, r')

/-- `model_expression`, `/repo/pynare/parsing/parser.py:419-437`: left and right side. -/
def modelExpression (pc : PCfg V) (ts : List (Tok V)) :
    Out ((Expr V × Expr V) × List (Tok V)) := do
  let l ← parseMExpr pc ts
  if isSym .equals l.2 then do
    let r ← adv l.2
    let e ← parseMExpr pc r
    .ok ((l.1, e.1), e.2)
  else .ok ((l.1, .num pc.zero), l.2)

/-- `local_declaration`, `/repo/pynare/parsing/parser.py:473-491`. -/
def localDecl (pc : PCfg V) (ts : List (Tok V)) : Out ((String × Expr V) × List (Tok V)) := do
  let r ← eatSym .pound ts
  let x ← eatId r
  let r ← eatSym .equals x.2
  let e ← parseMExpr pc r
  .ok ((x.1, e.1), e.2)

/-- `model_statement`, `/repo/pynare/parsing/parser.py:399-417`. -/
def modelStatement (pc : PCfg V) (ts : List (Tok V)) : Out (Stmt V × List (Tok V)) :=
  if isSym .pound ts then do
    let d ← localDecl pc ts
    let r ← eatSym .semi d.2
    .ok (.loc d.1.1 d.1.2, r)
  else if isSym .lbracket ts then do
    let t ← tagList ts
    let e ← modelExpression pc t.2
    let r ← eatSym .semi e.2
    .ok (.eqn e.1.1 e.1.2 (some t.1), r)
  else do
    let e ← modelExpression pc ts
    let r ← eatSym .semi e.2
    .ok (.eqn e.1.1 e.1.2 none, r)

/-- `model`, `/repo/pynare/parsing/parser.py:387-397`. -/
def modelLoop (pc : PCfg V) : Nat → List (Tok V) → Out (List (Stmt V) × List (Tok V))
  | 0, _ => .hang
  | n + 1, ts =>
    if isKw "end" ts then .ok ([], ts)
    else do
      let s ← modelStatement pc ts
      let r ← modelLoop pc n s.2
      .ok (s.1 :: r.1, r.2)

/-- `model_definition`, `/repo/pynare/parsing/parser.py:368-385`. -/
def modelDefinition (pc : PCfg V) (ts : List (Tok V)) :
    Out ((List (String × ArgVal V) × List (Stmt V)) × List (Tok V)) := do
  let r ← eatKw "model" ts
  let a ← optArgs pc r
  let r ← eatSym .semi a.2
  let s ← modelLoop pc (r.length + 1) r
  let r ← eatKw "end" s.2
  let r ← eatSym .semi r
  .ok ((a.1, s.1), r)

/-- The loop of `boundary_values`, `/repo/pynare/parsing/parser.py:639-641`. -/
def boundLoop (pc : PCfg V) : Nat → List (Tok V) → Out (List (String × Expr V) × List (Tok V))
  | 0, _ => .hang
  | n + 1, ts =>
    if isKw "end" ts then .ok ([], ts)
    else do
      let a ← assignment pc ts
      let r ← boundLoop pc n a.2
      .ok (a.1 :: r.1, r.2)

/-- `boundary_values`, `/repo/pynare/parsing/parser.py:620-645`. -/
def boundaryValues (pc : PCfg V) (ts : List (Tok V)) : Out (Bound V × List (Tok V)) := do
  let r ← adv ts
  let a ← optArgs pc r
  let r ← eatSym .semi a.2
  let s ← boundLoop pc (r.length + 1) r
  let r ← eatKw "end" s.2
  let r ← eatSym .semi r
  .ok (⟨a.1, s.1⟩, r)

/-- `shock_periods_list`, `/repo/pynare/parsing/parser.py:792-827`. -/
def periodsLoop : Nat → List (Tok V) → Out (List (V × V) × List (Tok V))
  | 0, _ => .hang
  | n + 1, ts => do
    let go : List (Tok V) → Out (List (V × V) × List (Tok V)) := fun ts => do
      let s ← eatNum ts
      if isSym .colon s.2 then do
        let r ← adv s.2
        let e ← eatNum r
        let rest ← periodsLoop n e.2
        .ok ((s.1, e.1) :: rest.1, rest.2)
      else do
        let rest ← periodsLoop n s.2
        .ok ((s.1, s.1) :: rest.1, rest.2)
    match ts with
    | .sym .comma :: _ => do
      let r ← adv ts
      go r
    | .num _ :: _ => go ts
    | _ => .ok ([], ts)

/-- `shock_values_list`, `/repo/pynare/parsing/parser.py:829-856`. -/
def valuesLoop (pc : PCfg V) : Nat → List (Tok V) → Out (List (Expr V) × List (Tok V))
  | 0, _ => .hang
  | n + 1, ts => do
    let go : List (Tok V) → Out (List (Expr V) × List (Tok V)) := fun ts =>
      match ts with
      | .num v :: _ => do
        let r ← adv ts
        let rest ← valuesLoop pc n r
        .ok (.num v :: rest.1, rest.2)
      | _ => do
        let r ← eatSym .lpare ts
        let e ← parseExpr pc r
        let r ← eatSym .rpare e.2
        let rest ← valuesLoop pc n r
        .ok (e.1 :: rest.1, rest.2)
    match ts with
    | .sym .comma :: _ => do
      let r ← adv ts
      go r
    | .num _ :: _ => go ts
    | .sym .lpare :: _ => go ts
    | _ => .ok ([], ts)

/-- `correlated_shock` and `covarying_shock` after their keyword,
`/repo/pynare/parsing/parser.py:696-734`. -/
def pairShock (pc : PCfg V) (mk : String → String → Expr V → Shock V) (ts : List (Tok V)) :
    Out (Shock V × List (Tok V)) := do
  let r ← adv ts
  let x ← eatId r
  let r ← eatSym .comma x.2
  let y ← eatId r
  let r ← eatSym .equals y.2
  let e ← parseExpr pc r
  .ok (mk x.1 y.1 e.1, e.2)

/-- `variance_shock`, `/repo/pynare/parsing/parser.py:736-750`. -/
def varianceShock (pc : PCfg V) (ts : List (Tok V)) : Out (Shock V × List (Tok V)) := do
  let r ← adv ts
  let x ← eatId r
  let r ← eatSym .equals x.2
  let e ← parseExpr pc r
  .ok (.variance x.1 e.1, e.2)

/-- `stderr_shock`, `/repo/pynare/parsing/parser.py:752-768`. -/
def stderrShock (pc : PCfg V) (ts : List (Tok V)) : Out (Shock V × List (Tok V)) := do
  let r ← adv ts
  let x ← eatId r
  let r ← eatSym .semi x.2
  let r ← eatKw "stderr" r
  let e ← parseExpr pc r
  .ok (.stderr x.1 e.1, e.2)

/-- `deterministic_shock`, `/repo/pynare/parsing/parser.py:770-790`. -/
def detShock (pc : PCfg V) (ts : List (Tok V)) : Out (Shock V × List (Tok V)) := do
  let r ← adv ts
  let x ← eatId r
  let r ← eatSym .semi x.2
  let r ← eatKw "periods" r
  let ps ← periodsLoop (r.length + 1) r
  let r ← eatSym .semi ps.2
  let r ← eatKw "values" r
  let vs ← valuesLoop pc (r.length + 1) r
  .ok (.det x.1 ps.1 vs.1, vs.2)

/-- `shock`, `/repo/pynare/parsing/parser.py:664-694`, on a current token `corr` or `var`.
Looking beyond the end of the tokens raises `SyntaxError`
(`/repo/pynare/parsing/lexer.py:100-105`). -/
def shock (pc : PCfg V) (ts : List (Tok V)) : Out (Shock V × List (Tok V)) :=
  if isKw "corr" ts then pairShock pc .corr ts
  else match ts.drop 2 with
    | [] => .err .syntaxError
    | t :: r =>
      if isSym .comma (t :: r) then pairShock pc .cov ts
      else if isSym .equals (t :: r) then varianceShock pc ts
      else if isSym .semi (t :: r) then
        match r with
        | [] => .err .syntaxError
        | t' :: r' => if isKw "stderr" (t' :: r') then stderrShock pc ts else detShock pc ts
      else detShock pc ts

/-- The loop of `shocks_block`, `/repo/pynare/parsing/parser.py:655-658`. -/
def shocksLoop (pc : PCfg V) : Nat → List (Tok V) → Out (List (Shock V) × List (Tok V))
  | 0, _ => .hang
  | n + 1, ts =>
    if isKw "corr" ts || isKw "var" ts then do
      let s ← shock pc ts
      let r ← eatSym .semi s.2
      let rest ← shocksLoop pc n r
      .ok (s.1 :: rest.1, rest.2)
    else .ok ([], ts)

/-- `shocks_block`, `/repo/pynare/parsing/parser.py:647-662`. -/
def shocksBlock (pc : PCfg V) (ts : List (Tok V)) : Out (Shocks V × List (Tok V)) := do
  let r ← adv ts
  let a ← optArgs pc r
  let r ← eatSym .semi a.2
  let s ← shocksLoop pc (r.length + 1) r
  let r ← eatKw "end" s.2
  let r ← eatSym .semi r
  .ok (⟨a.1, s.1⟩, r)

/-- The loop of `general_model_actions`, `/repo/pynare/parsing/parser.py:603-618`, with
`model_actions` (lines 858-866), which always raises.  A later block of the same kind replaces
an earlier one (`/repo/pynare/parsing/ast.py:336-351`). -/
def actionsLoop (pc : PCfg V) : Nat → Actions V → List (Tok V) → Out (Actions V)
  | 0, _, _ => .hang
  | n + 1, acc, ts =>
    match ts with
    | [] => .err .indexError
    | .eof :: _ => .ok acc
    | .kw k :: ts' =>
      if k = "initval" then do
        let b ← boundaryValues pc (.kw k :: ts')
        actionsLoop pc n { acc with initval := some b.1 } b.2
      else if k = "endval" then do
        let b ← boundaryValues pc (.kw k :: ts')
        actionsLoop pc n { acc with endval := some b.1 } b.2
      else if k = "histval" then do
        let b ← boundaryValues pc (.kw k :: ts')
        actionsLoop pc n { acc with histval := some b.1 } b.2
      else if k = "shocks" then do
        let s ← shocksBlock pc (.kw k :: ts')
        actionsLoop pc n { acc with shocks := some s.1 } s.2
      else .err .notImplemented
    | .id x :: ts' => do
      let _ ← assignment pc (.id x :: ts')
      .err .notImplemented
    | _ :: _ => .err .notImplemented

/-- `model_file`, `/repo/pynare/parsing/parser.py:223-233`. -/
def parseModel (pc : PCfg V) (ts : List (Tok V)) : Out (ModelFile V) := do
  let p ← preamble pc ts
  let d ← modelDefinition pc p.2
  let a ← actionsLoop pc (d.2.length + 1) ⟨none, none, none, none⟩ d.2
  .ok ⟨p.1.1, p.1.2, d.1.1, d.1.2, a⟩

end Pynare

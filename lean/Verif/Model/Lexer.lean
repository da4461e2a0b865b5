import Verif.Model.Expr
/-!
# The lexer

Mirrors `BaseLexer` and `DynareLexer` of `/repo/pynare/parsing/lexer.py`.

The text is held as the list of characters not yet consumed, so `current_char` is the head
of the list (`None` when it is empty) and `peek()` the second element.
-/

namespace Pynare

/-- Outcome of code that returns, raises, or never returns. -/
inductive Out (α : Type) where
  | ok (a : α)
  | err (e : Err)
  | hang
  deriving DecidableEq, Repr

/-- Sequencing: an exception or a hang stops everything. -/
def Out.bind {α β : Type} : Out α → (α → Out β) → Out β
  | .ok a, f => f a
  | .err e, _ => .err e
  | .hang, _ => .hang

instance : Monad Out where
  pure := .ok
  bind := Out.bind

/-- The punctuation tokens, `/repo/pynare/parsing/base.py:26-57`. -/
inductive Sym where
  | comma | period | semi | colon | pound | ampersand | pipe | atsign | exclamation | tilde
  | percent | backslash | lt | ltoe | gt | gtoe | equality | power | plus | minus | mul | div
  | lpare | rpare | lbracket | rbracket | lbrace | rbrace | equals
  deriving DecidableEq, Repr

/-- Kind and value of a token, `/repo/pynare/parsing/base.py:82-108`.  A keyword token has its
own spelling as type and value (`/repo/pynare/parsing/dynare.py:130-266`). -/
inductive Tok (V : Type) where
  | id (s : String)
  | kw (s : String)
  | func (f : Fn)
  | num (v : V)
  | str (s : String)
  | sym (s : Sym)
  | eof
  deriving DecidableEq, Repr

/-- `current_line`, `line_pos`. -/
structure Pos where
  line : Nat
  col : Nat
  deriving DecidableEq, Repr

/-- Position after `advance(n)` away from the character `c`,
`/repo/pynare/parsing/lexer.py:62-73`: only the character being left is inspected. -/
def Pos.over (p : Pos) (c : Char) (n : Nat := 1) : Pos :=
  if c = '\n' then ⟨p.line + 1, 0⟩ else ⟨p.line, p.col + n⟩

/-- Spelling of the reserved functions, `/repo/pynare/parsing/base.py:62-79,111-130`. -/
def Fn.ofName (s : String) : Option Fn :=
  if s = "exp" then some .exp else if s = "log" then some .log else if s = "ln" then some .ln
  else if s = "log10" then some .log10 else if s = "sqrt" then some .sqrt
  else if s = "abs" then some .abs else if s = "sign" then some .sign
  else if s = "sin" then some .sin else if s = "cos" then some .cos
  else if s = "tan" then some .tan else if s = "asin" then some .asin
  else if s = "acos" then some .acos else if s = "atan" then some .atan
  else if s = "max" then some .max else if s = "min" then some .min
  else if s = "normcdf" then some .normcdf else if s = "normpdf" then some .normpdf
  else if s = "erf" then some .erf else none

/-- Which lexer, plus what is taken from Python: the Unicode character classes
(`str.isspace`, `isalpha`, `isalnum`, `isdigit`) and `float()` on strings (`none` when it
raises `ValueError`). -/
structure LexCfg (V : Type) where
  isSpace : Char → Bool
  isAlpha : Char → Bool
  isAlnum : Char → Bool
  isDigit : Char → Bool
  toNum : List Char → Option V
  /-- `DynareLexer` rather than `BaseLexer` -/
  dynare : Bool
  /-- `exp == 'python'` -/
  pyExp : Bool
  /-- keys of `reserved_kw` besides the functions -/
  keywords : List String

variable {V : Type}

/-- `valid_varchar`, `/repo/pynare/parsing/lexer.py:203-207,399-404`. -/
def LexCfg.varChar (cfg : LexCfg V) (c : Char) : Bool := cfg.isAlnum c || c == '_'

/-- `valid_begchar`, `/repo/pynare/parsing/lexer.py:209-213,406-411`. -/
def LexCfg.begChar (cfg : LexCfg V) (c : Char) : Bool :=
  if cfg.dynare then cfg.isAlpha c else cfg.isAlpha c || c == '_'

/-- `valid_numchar`, `/repo/pynare/parsing/lexer.py:215-219`. -/
def LexCfg.numChar (cfg : LexCfg V) (c : Char) : Bool := cfg.isDigit c || c == '.'

/-- Consume characters while a test holds: the loops at
`/repo/pynare/parsing/lexer.py:117-119,144-146,160-165`.  Returns what was consumed, what is
left, and the position. -/
def spanAdv (f : Char → Bool) : List Char → Pos → List Char × List Char × Pos
  | [], p => ([], [], p)
  | c :: cs, p =>
    if f c then
      let r := spanAdv f cs (p.over c)
      (c :: r.1, r.2)
    else ([], c :: cs, p)

/-- `skip_whitespace`, `/repo/pynare/parsing/lexer.py:117-119`. -/
def LexCfg.skipWs (cfg : LexCfg V) (cs : List Char) (p : Pos) : List Char × Pos :=
  (spanAdv cfg.isSpace cs p).2

/-- The loop `while self.current_char != '\n': self.advance()` of
`/repo/pynare/parsing/lexer.py:425-426`.  At the end of the text `current_char` is `None`
for ever: `none` (see `skipLineLoop_exact`). -/
def skipLineLoop : List Char → Pos → Option (List Char × Pos)
  | [], _ => none
  | c :: cs, p => if c = '\n' then some (c :: cs, p) else skipLineLoop cs (p.over c)

/-- The loop `while (self.current_char != '*') and (self.peek() != '/')` of
`/repo/pynare/parsing/lexer.py:437-438`; `none` when it never exits. -/
def skipBlockLoop : List Char → Pos → Option (List Char × Pos)
  | [], _ => none
  | c :: cs, p =>
    if c ≠ '*' ∧ cs.head? ≠ some '/' then skipBlockLoop cs (p.over c) else some (c :: cs, p)

/-- `advance(2)` from a non-empty rest. -/
def advance2 : List Char → Pos → List Char × Pos
  | [], p => ([], ⟨p.line, p.col + 2⟩)
  | c :: cs, p => (cs.drop 1, p.over c 2)

/-- `is_singleline_comment`, `/repo/pynare/parsing/lexer.py:123-124,414-421`. -/
def LexCfg.isLine (cfg : LexCfg V) : List Char → Bool
  | [] => false
  | c :: cs => cfg.dynare && (c == '%' || (c == '/' && cs.head? == some '/'))

/-- `is_multiline_comment`, `/repo/pynare/parsing/lexer.py:126-127,429-432`. -/
def LexCfg.isBlock (cfg : LexCfg V) : List Char → Bool
  | [] => false
  | c :: cs => cfg.dynare && (c == '/' && cs.head? == some '*')

/-- `skip_singleline_comment`, `/repo/pynare/parsing/lexer.py:423-427`. -/
def LexCfg.skipLine (cfg : LexCfg V) (cs : List Char) (p : Pos) : Out (List Char × Pos) :=
  match skipLineLoop cs p with
  | none => .hang
  | some (cs', p') => .ok (cfg.skipWs cs' p')

/-- `skip_multiline_comment`, `/repo/pynare/parsing/lexer.py:434-442`. -/
def LexCfg.skipBlock (cfg : LexCfg V) (cs : List Char) (p : Pos) : Out (List Char × Pos) :=
  let s := advance2 cs p
  match skipBlockLoop s.1 s.2 with
  | none => .hang
  | some (cs', p') =>
    let s' := advance2 cs' p'
    .ok (cfg.skipWs s'.1 s'.2)

/-- `while self.is_singleline_comment(): self.skip_singleline_comment()`,
`/repo/pynare/parsing/lexer.py:236-237`.  The first argument bounds the number of rounds; each
round consumes a character, so the bound used in `nextToken` is never the reason for `hang`
(`skipLines_fuel`). -/
def LexCfg.skipLines (cfg : LexCfg V) : Nat → List Char → Pos → Out (List Char × Pos)
  | 0, _, _ => .hang
  | n + 1, cs, p =>
    if cfg.isLine cs then do
      let s ← cfg.skipLine cs p
      cfg.skipLines n s.1 s.2
    else .ok (cs, p)

/-- `while self.is_multiline_comment(): self.skip_multiline_comment()`,
`/repo/pynare/parsing/lexer.py:239-240`. -/
def LexCfg.skipBlocks (cfg : LexCfg V) : Nat → List Char → Pos → Out (List Char × Pos)
  | 0, _, _ => .hang
  | n + 1, cs, p =>
    if cfg.isBlock cs then do
      let s ← cfg.skipBlock cs p
      cfg.skipBlocks n s.1 s.2
    else .ok (cs, p)

/-- `_id`, `/repo/pynare/parsing/lexer.py:137-152`.  The reserved `Token` objects are shared
and their location is overwritten by the latest occurrence; locations of reserved tokens are
given here as of creation. -/
def LexCfg.lexId (cfg : LexCfg V) (cs : List Char) (p : Pos) : Tok V × List Char × Pos :=
  let r := spanAdv cfg.varChar cs p
  let s := String.ofList r.1
  let t := if s ∈ cfg.keywords then .kw s
    else match Fn.ofName s with
      | some f => .func f
      | none => .id s
  (t, r.2)

/-- `_number`, `/repo/pynare/parsing/lexer.py:154-167`. -/
def LexCfg.lexNum (cfg : LexCfg V) (cs : List Char) (p : Pos) : Out (Tok V × List Char × Pos) :=
  let r := spanAdv cfg.numChar cs p
  match cfg.toNum r.1 with
  | some v => .ok (.num v, r.2)
  | none => .err .valueError

/-- `_string` after the opening quote, `/repo/pynare/parsing/lexer.py:176-180`: at the end of
the text `result += None` raises `TypeError`. -/
def lexStrBody (q : Char) : List Char → Pos → Out (List Char × List Char × Pos)
  | [], _ => .err .typeError
  | c :: cs, p =>
    if c = q then .ok ([], cs, p.over c)
    else do
      let r ← lexStrBody q cs (p.over c)
      .ok (c :: r.1, r.2)

/-- The punctuation branches of `next_token`, `/repo/pynare/parsing/lexer.py:263-379`, in order:
the token for the current character `c` and `peek()`, and how many characters it takes.  The
`PERIOD` branch (lines 267-269) is kept although `valid_numchar` catches the period first. -/
def symOf (pyExp : Bool) (c : Char) (next : Option Char) : Option (Sym × Nat) :=
  if c = ',' then some (.comma, 1)
  else if c = '.' then some (.period, 1)
  else if c = ';' then some (.semi, 1)
  else if c = ':' then some (.colon, 1)
  else if c = '#' then some (.pound, 1)
  else if c = '&' then some (.ampersand, 1)
  else if c = '|' then some (.pipe, 1)
  else if c = '@' then some (.atsign, 1)
  else if c = '!' then some (.exclamation, 1)
  else if c = '~' then some (.tilde, 1)
  else if c = '%' then some (.percent, 1)
  else if c = '<' ∧ next = some '=' then some (.ltoe, 2)
  else if c = '<' then some (.lt, 1)
  else if c = '>' ∧ next = some '=' then some (.gtoe, 2)
  else if c = '>' then some (.gt, 1)
  else if c = '=' ∧ next = some '=' then some (.equality, 2)
  else if c = '\\' then some (.backslash, 1)
  else if pyExp = false ∧ c = '^' then some (.power, 1)
  else if pyExp = true ∧ c = '*' ∧ next = some '*' then some (.power, 2)
  else if c = '+' then some (.plus, 1)
  else if c = '-' then some (.minus, 1)
  else if c = '*' then some (.mul, 1)
  else if c = '/' then some (.div, 1)
  else if c = '(' then some (.lpare, 1)
  else if c = ')' then some (.rpare, 1)
  else if c = '[' then some (.lbracket, 1)
  else if c = ']' then some (.rbracket, 1)
  else if c = '{' then some (.lbrace, 1)
  else if c = '}' then some (.rbrace, 1)
  else if c = '=' then some (.equals, 1)
  else none

/-- The part of `next_token` after comments, `/repo/pynare/parsing/lexer.py:242-383`.  At the
end of the text every test fails, `error(None)` does nothing, and the outer loop ends:
end-of-file. -/
def LexCfg.lexOne (cfg : LexCfg V) : List Char → Pos → Out (Tok V × List Char × Pos)
  | [], p => .ok (.eof, [], p)
  | c :: cs, p =>
    if cfg.begChar c then .ok (cfg.lexId (c :: cs) p)
    else if cfg.numChar c then cfg.lexNum (c :: cs) p
    else if c = '\'' ∨ c = '"' then do
      let r ← lexStrBody c cs (p.over c)
      .ok (.str (String.ofList r.1), r.2)
    else match symOf cfg.pyExp c cs.head? with
      | some (s, n) => .ok (.sym s, cs.drop (n - 1), p.over c n)
      | none => .err .syntaxError

/-- `next_token`, `/repo/pynare/parsing/lexer.py:223-383`. -/
def LexCfg.nextToken (cfg : LexCfg V) (cs : List Char) (p : Pos) :
    Out (Tok V × List Char × Pos) :=
  let s := cfg.skipWs cs p
  match s.1 with
  | [] => .ok (.eof, [], s.2)
  | _ :: _ => do
    let s1 ← cfg.skipLines (s.1.length + 1) s.1 s.2
    let s2 ← cfg.skipBlocks (s1.1.length + 1) s1.1 s1.2
    cfg.lexOne s2.1 s2.2

/-- The loop of `tokenize`, `/repo/pynare/parsing/lexer.py:44-48`, with a bound on the number
of tokens.  Tokens carry the position recorded at their creation. -/
def LexCfg.tokLoop (cfg : LexCfg V) : Nat → List Char → Pos → Out (List (Tok V × Pos))
  | 0, _, _ => .hang
  | n + 1, cs, p =>
    match cs with
    | [] => .ok [(.eof, p)]
    | _ :: _ => do
      let r ← cfg.nextToken cs p
      let ts ← cfg.tokLoop n r.2.1 r.2.2
      .ok ((r.1, r.2.2) :: ts)

/-- Construction and `tokenize`, `/repo/pynare/parsing/lexer.py:23-48`: the constructor reads
`text[0]`, which raises `IndexError` on the empty text.  The bound is never the reason for a
hang (`tokLoop_fuel`). -/
def LexCfg.tokenize (cfg : LexCfg V) (text : List Char) : Out (List (Tok V × Pos)) :=
  match text with
  | [] => .err .indexError
  | _ :: _ => cfg.tokLoop (text.length + 1) text ⟨1, 0⟩

/-- Kinds and values of the tokens of a text. -/
def LexCfg.kinds (cfg : LexCfg V) (text : List Char) : Out (List (Tok V)) := do
  let ts ← cfg.tokenize text
  .ok (ts.map Prod.fst)

end Pynare

import Verif.Model.Py
/-!
# Expression trees, evaluation and substitution

Mirrors `/repo/pynare/parsing/ast.py` (expression nodes), `_BaseEvaluator` and
`_ASTSubstitution` of `/repo/pynare/parsing/base.py`.
-/

namespace Pynare

/-- Token types allowed in `BinaryOp.op`: `/repo/pynare/parsing/base.py:53-57`. -/
inductive BinOp where
  | add | sub | mul | div | pow
  deriving DecidableEq, Repr

/-- Token types allowed in `UnaryOp.op`: `/repo/pynare/parsing/parser.py:87`. -/
inductive UnOp where
  | pos | neg
  deriving DecidableEq, Repr

/-- Token types allowed in `CompOp.op`: `/repo/pynare/parsing/parser.py:208`. -/
inductive CmpOp where
  | lt | le | gt | ge | eq
  deriving DecidableEq, Repr

/-- The reserved functions, `/repo/pynare/parsing/base.py:62-79`. -/
inductive Fn where
  | exp | log | ln | log10 | sqrt | abs | sign | sin | cos | tan | asin | acos | atan
  | max | min | normcdf | normpdf | erf
  deriving DecidableEq, Repr

/-- Expression nodes, `/repo/pynare/parsing/ast.py:89-184`.  `V` is the type of
numbers.  Source positions are not part of the tree.  `PeriodVar` keeps the integer
`period_offset` computed at `ast.py:180-181`.  `ModelExpression(l, r)` evaluates as
`l - r` (`base.py:178-180`) and is represented by `bin sub l r`, the node that
`factory.py:301-305` builds from it. -/
inductive Expr (V : Type) where
  | num (v : V)
  | var (x : String)
  | pvar (x : String) (off : Int)
  | un (op : UnOp) (e : Expr V)
  | bin (op : BinOp) (l r : Expr V)
  | cmp (op : CmpOp) (l r : Expr V)
  | fn (f : Fn) (e : Expr V)
  deriving Repr, DecidableEq

/-- Arithmetic on numbers.  Each operation may raise (for instance
`ZeroDivisionError` on Python floats).  `fn` holds the numpy/scipy functions that
`/repo/pynare/parsing/base.py:225-277` dispatches to. -/
structure Ops (V : Type) where
  bin : BinOp → V → V → Except Err V
  un : UnOp → V → Except Err V
  cmp : CmpOp → V → V → Except Err V
  fn : Fn → V → Except Err V

/-- Whether `visit_Function` raises `NotImplementedError`,
`/repo/pynare/parsing/base.py:264-274`. -/
def Fn.unsupported : Fn → Bool
  | .max | .min | .normcdf | .normpdf => true
  | _ => false

/-- `_BaseEvaluator.visit`, `/repo/pynare/parsing/base.py:175-277`.  `look` is the
scope as seen by `visit_Var` (lines 215-223), error included.  `ln` and `log` call the
same numpy function (line 231).  There is no `visit_PeriodVar`, hence the bare
`Exception` of line 151. -/
def eval {V : Type} (ops : Ops V) (look : String → Except Err V) : Expr V → Except Err V
  | .num v => .ok v
  | .var x => look x
  | .pvar _ _ => .error .exception
  | .un op e => do
    let v ← eval ops look e
    ops.un op v
  | .bin op l r => do
    let a ← eval ops look l
    let b ← eval ops look r
    ops.bin op a b
  | .cmp op l r => do
    let a ← eval ops look l
    let b ← eval ops look r
    ops.cmp op a b
  | .fn f e =>
    if f.unsupported then .error .notImplemented
    else do
      let v ← eval ops look e
      ops.fn (if f = .ln then .log else f) v

/-- Scope given as a `dict`: `visit_Var` turns `KeyError` into `SyntaxError`,
`/repo/pynare/parsing/base.py:215-223`. -/
def dictScope {V : Type} (d : Dict V) (x : String) : Except Err V :=
  match d.get? x with
  | some v => .ok v
  | none => .error .syntaxError

/-- `_ASTSubstitution.maybe_substitute`, `/repo/pynare/parsing/base.py:305-320`: only a
direct `Var` child is replaced, and only when the scope has a value for it. -/
def maybeSubst {V : Type} (σ : String → Option V) : Expr V → Expr V
  | .var x => match σ x with
    | some v => .num v
    | none => .var x
  | e => e

/-- `_ASTSubstitution.visit`, `/repo/pynare/parsing/base.py:322-350`, as a function
returning the updated tree (the class mutates a deep copy).  `CompOp` has no visit
method: bare `Exception`.  A function node substitutes before it descends (line
348-350), the others after. -/
def substVisit {V : Type} (σ : String → Option V) : Expr V → Except Err (Expr V)
  | .num v => .ok (.num v)
  | .var x => .ok (.var x)
  | .pvar x o => .ok (.pvar x o)
  | .un op e => do
    let e' ← substVisit σ e
    .ok (.un op (maybeSubst σ e'))
  | .bin op l r => do
    let l' ← substVisit σ l
    let r' ← substVisit σ r
    .ok (.bin op (maybeSubst σ l') (maybeSubst σ r'))
  | .cmp _ _ _ => .error .exception
  | .fn f e =>
    match maybeSubst σ e with
    | .num v => .ok (.fn f (.num v))
    | _ => do
      let e' ← substVisit σ e
      .ok (.fn f e')

end Pynare

import Verif.Model.Linear
import Verif.Model.OccBin
import Verif.Model.ModelObj
/-!
# Constraints, the constants of alternative regimes, and the checks before a constrained solution

Mirrors the rest of `/repo/pynare/core/solve/binding.py`.
-/

namespace Pynare

variable {V : Type}

/-! ### evaluating constraints -/

/-- What `evaluate` works on when the scope holds columns of an array, `/repo/pynare/core/solve/binding.py:111-112`:
numbers, and columns with an entry for each period. -/
inductive PathVal (V : Type) where
  | num (v : V)
  | col (l : List V)

/-- What `numpy` does with the entries of arrays; it does not raise exceptions. -/
structure EltOps (V : Type) where
  bin : BinOp → V → V → V
  un : UnOp → V → V
  cmp : CmpOp → V → V → V
  fn : Fn → V → V

/-- An operation with two arguments, one of which may be a number and the other a column, as it is done by
`numpy` for the evaluator, `/repo/pynare/parsing/base.py:182-204`.  Columns of different lengths do not occur;
for those `numpy` raises `ValueError`, unless one has length one. -/
def bcast2 (f : V → V → Except Err V) (g : V → V → V) : PathVal V → PathVal V → Except Err (PathVal V)
  | .num a, .num b => do
    let v ← f a b
    .ok (.num v)
  | .num a, .col l => .ok (.col (l.map (g a)))
  | .col l, .num b => .ok (.col (l.map fun a => g a b))
  | .col l, .col m => if l.length = m.length then .ok (.col (List.zipWith g l m)) else .error .valueError

/-- An operation with one argument, `/repo/pynare/parsing/base.py:206-210`, `225-277`. -/
def bcast1 (f : V → Except Err V) (g : V → V) : PathVal V → Except Err (PathVal V)
  | .num a => do
    let v ← f a
    .ok (.num v)
  | .col l => .ok (.col (l.map g))

/-- The operations of the evaluator, `/repo/pynare/parsing/base.py:178-277`, on numbers and columns. -/
def pathOps (ops : Ops V) (elt : EltOps V) : Ops (PathVal V) where
  bin o := bcast2 (ops.bin o) (elt.bin o)
  un o := bcast1 (ops.un o) (elt.un o)
  cmp o := bcast2 (ops.cmp o) (elt.cmp o)
  fn f := bcast1 (ops.fn f) (elt.fn f)

/-- The same tree, whose numbers are numbers among the values. -/
def Expr.onPaths : Expr V → Expr (PathVal V)
  | .num v => .num (.num v)
  | .var x => .var x
  | .pvar x o => .pvar x o
  | .un o e => .un o e.onPaths
  | .bin o l r => .bin o l.onPaths r.onPaths
  | .cmp o l r => .cmp o l.onPaths r.onPaths
  | .fn f e => .fn f e.onPaths

/-- Column `c` of an array with `T` rows. -/
def pathCol (T : Nat) (paths : Nat → Nat → V) (c : Nat) : List V := (List.range T).map fun t => paths t c

/-- `{**dict(zip(self.endog, np.hsplit(paths, paths.shape[1]))), **self.params}`,
`/repo/pynare/core/solve/binding.py:111-112`, for an array with a column for each variable. -/
def pathScope (endog : List String) (params : Dict V) (T : Nat) (paths : Nat → Nat → V) : Dict (PathVal V) :=
  let d : Dict (PathVal V) := (endog.zipIdx).foldl (fun d p => d.set p.1 (.col (pathCol T paths p.2))) []
  params.foldl (fun d p => d.set p.1 (.num p.2)) d

/-- The value of one condition, `/repo/pynare/core/solve/binding.py:117-118`, `125-126`. -/
def evalPath (ops : Ops V) (elt : EltOps V) (endog : List String) (params : Dict V) (T : Nat) (paths : Nat → Nat → V)
    (e : Expr V) : Except Err (PathVal V) :=
  eval (pathOps ops elt) (dictScope (pathScope endog params T paths)) e.onPaths

/-- `Constraint.__call__` for one pair of conditions, `/repo/pynare/core/solve/binding.py:114-128`.  `np.hstack`
raises `ValueError` when only one of the two is a column; two numbers make a vector of length two, and reading its
columns raises `IndexError` where the result is used (line 333). -/
def constraintPair (ops : Ops V) (elt : EltOps V) (endog : List String) (params : Dict V) (T : Nat)
    (paths : Nat → Nat → V) (ref alt : Expr V) : Except Err (List V × List V) := do
  let r ← evalPath ops elt endog params T paths ref
  let a ← evalPath ops elt endog params T paths alt
  match r, a with
  | .col l, .col m => .ok (l, m)
  | .num _, .num _ => .error .indexError
  | _, _ => .error .valueError

/-! ### making constraints -/

/-- `Constraint`: the pairs of conditions, `/repo/pynare/core/solve/binding.py:20-88`. -/
structure Constr (V : Type) where
  pairs : List (Expr V × Expr V)

/-- What is given as a constraint, `/repo/pynare/core/solve/binding.py:28,142`: something that is no sequence, or a
text; a `Constraint`, which is no sequence either (it has no `__iter__`); a sequence of texts; a sequence of sequences
of texts.  Sequences of both are not modelled. -/
inductive ConstraintArg (V : Type) where
  | other
  | made (c : Constr V)
  | flat (l : List String)
  | nested (l : List (List String))

/-- One pair, `/repo/pynare/core/solve/binding.py:55-65`, `70-82`. -/
def parsePair (parse : String → Except Err (Expr V)) : List String → Except Err (Expr V × Expr V)
  | [r, a] => do
    let r ← parse r
    let a ← parse a
    .ok (r, a)
  | _ => .error .valueError

/-- The loop over pairs, `/repo/pynare/core/solve/binding.py:54-65`. -/
def parsePairs (parse : String → Except Err (Expr V)) : List (List String) → Except Err (List (Expr V × Expr V))
  | [] => .ok []
  | p :: ps => do
    let x ← parsePair parse p
    let xs ← parsePairs parse ps
    .ok (x :: xs)

/-- `Constraint.__init__`, `/repo/pynare/core/solve/binding.py:47-88`; `constraint[0]` raises `IndexError` for an
empty sequence. -/
def Constr.make (parse : String → Except Err (Expr V)) : ConstraintArg V → Except Err (Constr V)
  | .other => .error .typeError
  | .made _ => .error .typeError
  | .flat [] => .error .indexError
  | .nested [] => .error .indexError
  | .flat l => do
    let p ← parsePair parse l
    .ok ⟨[p]⟩
  | .nested l => do
    let ps ← parsePairs parse l
    .ok ⟨ps⟩

/-- `Constraint.__len__`, `/repo/pynare/core/solve/binding.py:90-93`. -/
def Constr.len (c : Constr V) : Nat := c.pairs.length

/-! ### checks before a solution -/

/-- Which variables are shocked: none given, a name, a list of names. -/
inductive ExogArg where
  | none
  | one (x : String)
  | many (xs : List String)

/-- The positions of the shocked variables: a number, or an array of numbers. -/
inductive ExogIdx where
  | one (i : Nat)
  | many (is : List Nat)
  deriving DecidableEq

/-- The shape of the shocks: a vector, or an array with the given number of columns. -/
inductive ShockShape where
  | vec (n : Nat)
  | mat (n m : Nat)

/-- The number of rows. -/
def ShockShape.len : ShockShape → Nat
  | .vec n => n
  | .mat n _ => n

/-- `exog_idx`, `/repo/pynare/core/solve/binding.py:794-798`. -/
def exogIdx (stoch : List String) : ExogArg → Except Err ExogIdx
  | .none => .ok (.one 0)
  | .one x => do
    let i ← getLoc1 stoch x
    .ok (.one i)
  | .many xs => do
    let is ← getLoc stoch xs
    .ok (.many is)

/-- `_process_occbin_parameters`, `/repo/pynare/core/solve/binding.py:790-813`: the position of the shocked variables
and the number of periods.  Not modelled: conversion of the shocks to an array; the default of `init`; lines 815-827
are modelled in `Holder.refFirst`. -/
def occbinArgs (stoch : List String) (exog : ExogArg) (shape : ShockShape) (periods : Option Nat) :
    Except Err (ExogIdx × Nat) := do
  let p := match periods with
    | some (k + 1) => k + 1
    | _ => shape.len
  let idx ← exogIdx stoch exog
  match shape, idx with
  | .mat _ m, .one _ => if 1 ≠ m then .error .valueError else .ok (idx, p)
  | .mat _ m, .many is => if is.length ≠ m then .error .valueError else .ok (idx, p)
  | .vec _, .one _ => .ok (idx, p)
  | .vec _, .many _ => .error .valueError

/-- `innovs`, `/repo/pynare/core/solve/binding.py:617-623`, for the row `shock` of the shocks. -/
def innovOf [Zero V] (n : Nat) (idx : ExogIdx) (shock : List V) : Except Err (List V) :=
  match idx with
  | .one i => match shock with
    | [v] => if i < n then .ok ((List.replicate n 0).set i v) else .error .indexError
    | _ => .error .valueError
  | .many is =>
    (is.zipIdx).foldlM (fun (acc : List V) (p : Nat × Nat) => match shock[p.2]? with
      | some v => if p.1 < n then .ok (acc.set p.1 v) else .error .indexError
      | none => .error .indexError) (List.replicate n 0)

/-- What `_ensure_variables_match` looks at. -/
structure ModelNames where
  endog : List String
  stoch : List String
  params : List String

/-- `np.sort`. -/
def sortNames (l : List String) : List String := l.mergeSort fun a b => decide (a ≤ b)

/-- `_ensure_variables_match`, `/repo/pynare/core/solve/binding.py:900-930`. -/
def ensureMatch (md other : ModelNames) : Except Err Unit :=
  if md.endog ≠ other.endog then .error .modelVarError
  else if md.stoch ≠ other.stoch then .error .modelVarError
  else if sortNames md.params ≠ sortNames other.params then .error .modelVarError
  else .ok ()

/-! ### the constant of an alternative regime -/

/-- Taking entries of a vector by position. -/
def takeAll (ss : List V) : List Nat → Except Err (List V)
  | [] => .ok []
  | i :: is => match ss[i]? with
    | some v => do
      let vs ← takeAll ss is
      .ok (v :: vs)
    | none => .error .indexError

/-- `_translate_ss`, `/repo/pynare/core/solve/binding.py:934-943`. -/
def translateSs (t : Typer) (ss : List V) : Except Err (List V) :=
  takeAll ss (t.state ++ t.cont ++ t.forward)

/-- `Dstar`, `/repo/pynare/core/solve/binding.py:300`, `459-461`. -/
def regimeConst [Zero V] (t : Llx) (nExog : Nat) (fs : List (List V → Except Err V)) (ssRef : List V) :
    Except Err (List V) := do
  let v ← translateSs t.toTyper ssRef
  dynamicCall t nExog fs v

/-- The arrays of an alternative regime, `/repo/pynare/core/solve/binding.py:297-300`, `454-461`: derivatives at the
steady state of the alternative model, the constant at that of the reference model. -/
def altArrays [Zero V] (ad : Autograd V) (t : Llx) (nExog : Nat) (fs : List (List V → Except Err V))
    (ssRef ssAlt : List V) : Except Err (Regime V) := do
  let J ← modelJacobian ad t.toTyper nExog fs ssAlt
  let D ← regimeConst t nExog fs ssRef
  .ok (Regime.ofJacobian t nExog J fun i => (D[i]?).getD 0)

end Pynare

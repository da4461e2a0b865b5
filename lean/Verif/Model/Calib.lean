import Verif.Model.Expr
import Mathlib.Data.List.Sort
/-!
# Parameter calibration

Mirrors `ModelCalibration`, `solve_calibration`, `ParamLocator`,
`evaluate_parameter` and `order_precedence` of `/repo/pynare/core/variables.py:780-984`.
-/

namespace Pynare

/-- A parameter definition: a number or an expression tree.
`/repo/pynare/core/variables.py:856-869` also accepts strings, which are parsed to a tree
first, and `Num` nodes, which are replaced by their number; both happen before anything
else and are represented here by their result. -/
inductive Def (V : Type) where
  | num (v : V)
  | ast (e : Expr V)
  deriving Repr

/-- Insert into a Python `set` kept as a duplicate-free list. -/
def setAdd (s : List String) (x : String) : List String := if x ∈ s then s else s ++ [x]

/-- `ParamLocator.visit`, `/repo/pynare/core/variables.py:890-918`.  Comparisons and
out-of-period variables have no visit method: bare `Exception`. -/
def locate {V : Type} : Expr V → List String → Except Err (List String)
  | .num _, s => .ok s
  | .var x, s => .ok (setAdd s x)
  | .pvar _ _, _ => .error .exception
  | .cmp _ _ _, _ => .error .exception
  | .un _ e, s => locate e s
  | .fn _ e, s => locate e s
  | .bin _ l r, s => do
    let s' ← locate l s
    locate r s'

/-- The names a definition depends on, `/repo/pynare/core/variables.py:872-877`. -/
def rhsOf {V : Type} : Def V → Except Err (List String)
  | .num _ => .ok []
  | .ast e => locate e []

/-- `rhs_vars`, `/repo/pynare/core/variables.py:872-877`. -/
def rhsVars {V : Type} : Dict (Def V) → Except Err (Dict (List String))
  | [] => .ok []
  | (k, d) :: rest => do
    let r ← rhsOf d
    let rs ← rhsVars rest
    .ok ((k, r) :: rs)

/-- Initial precedence table, `/repo/pynare/core/variables.py:961-964`. -/
def initPrec (rhs : Dict (List String)) : Dict Nat :=
  rhs.map fun (k, v) => (k, if v.isEmpty then 1 else 0)

/-- `[precedence[var] for var in rhs]`, `/repo/pynare/core/variables.py:975-976`. -/
def lookupAll (prec : Dict Nat) : List String → Except Err (List Nat)
  | [] => .ok []
  | x :: xs => match prec.get? x with
    | none => .error .keyError
    | some n => do
      let ns ← lookupAll prec xs
      .ok (n :: ns)

/-- Body of the `for` loop for one parameter,
`/repo/pynare/core/variables.py:971-977`. -/
def stepPrec (st : Dict Nat × Nat) (k : String) (rhs : List String) :
    Except Err (Dict Nat × Nat) :=
  match st.1.get? k with
  | none => .error .keyError
  | some p =>
    if p = 0 then do
      let ns ← lookupAll st.1 rhs
      if ns.all (fun n => n > 0) then
        .ok (st.1.set k (ns.sum + 1), st.2 - 1)
      else .ok st
    else .ok st

/-- One pass of the `for` loop, `/repo/pynare/core/variables.py:971-977`. -/
def passPrec (st : Dict Nat × Nat) : Dict (List String) → Except Err (Dict Nat × Nat)
  | [] => .ok st
  | (k, rhs) :: rest => do
    let st' ← stepPrec st k rhs
    passPrec st' rest

/-- The `while` loop, `/repo/pynare/core/variables.py:970-979`; the first argument is
`total_iters`. -/
def loopPrec (rhs : Dict (List String)) : Nat → Dict Nat × Nat → Except Err (Dict Nat × Nat)
  | 0, st => .ok st
  | n + 1, st =>
    if st.2 > 0 then do
      let st' ← passPrec st rhs
      loopPrec rhs n st'
    else .ok st

/-- Precedence of a name in a finished table; every key is present. -/
def precOf (prec : Dict Nat) (k : String) : Nat := (prec.get? k).getD 0

/-- `order_precedence`, `/repo/pynare/core/variables.py:946-984`.  `n_funcs` is kept as a
natural number (it is decremented once per parameter that gets a precedence, so it cannot
become negative).  `sorted` is a stable sort, and so is `List.insertionSort`. -/
def orderPrecedence (rhs : Dict (List String)) : Except Err (List String) := do
  let p0 := initPrec rhs
  let nFuncs := p0.length - (p0.map Prod.snd).sum
  let st ← loopPrec rhs (nFuncs * (nFuncs + 1) / 2) (p0, nFuncs)
  if (st.1.map Prod.snd).any (fun p => p == 0) then .error .calibrationError
  else .ok (st.1.keys.insertionSort fun a b => precOf st.1 a ≤ precOf st.1 b)

/-- The scope of `evaluate_parameter`: the partly evaluated table.  A name that is still
a tree would be returned as a tree object, on which arithmetic raises `TypeError`; we
raise at the lookup (the theorems show that this is never reached). -/
def calibScope {V : Type} (c : Dict (Def V)) (x : String) : Except Err V :=
  match c.get? x with
  | none => .error .syntaxError
  | some (.ast _) => .error .typeError
  | some (.num v) => .ok v

/-- `evaluate_parameter`, `/repo/pynare/core/variables.py:922-943`. -/
def evalParam {V : Type} (ops : Ops V) (c : Dict (Def V)) : Def V → Except Err V
  | .num v => .ok v
  | .ast e => eval ops (calibScope c) e

/-- The final loop of `solve_calibration`, `/repo/pynare/core/variables.py:883-885`. -/
def fillCalib {V : Type} (ops : Ops V) : List String → Dict (Def V) → Except Err (Dict (Def V))
  | [], c => .ok c
  | k :: ks, c => match c.get? k with
    | none => .error .keyError
    | some d => do
      let v ← evalParam ops c d
      fillCalib ops ks (c.set k (.num v))

/-- `solve_calibration`, `/repo/pynare/core/variables.py:841-886`. -/
def solveCalibration {V : Type} (ops : Ops V) (defs : Dict (Def V)) :
    Except Err (Dict (Def V)) := do
  let rhs ← rhsVars defs
  let order ← orderPrecedence rhs
  fillCalib ops order defs

/-- The state of a `ModelCalibration` object, `/repo/pynare/core/variables.py:780-797`. -/
structure Calibration (V : Type) where
  defs : Dict (Def V)
  calib : Dict (Def V)

/-- `ModelCalibration.__init__`, `/repo/pynare/core/variables.py:785-796`.  (The local
`calib` built at lines 788-793 is never used.) -/
def Calibration.create {V : Type} (ops : Ops V) (defs : Dict (Def V)) :
    Except Err (Calibration V) := do
  let c ← solveCalibration ops defs
  .ok ⟨defs, c⟩

/-- `ModelCalibration.__setitem__`, `/repo/pynare/core/variables.py:804-806`: the object
after the call together with the exception it raised, if any. -/
def Calibration.setItem {V : Type} (ops : Ops V) (c : Calibration V) (k : String) (d : Def V) :
    Calibration V × Option Err :=
  let defs := c.defs.set k d
  match solveCalibration ops defs with
  | .ok calib => (⟨defs, calib⟩, none)
  | .error e => (⟨defs, c.calib⟩, some e)

/-- `ModelCalibration.__delitem__`, `/repo/pynare/core/variables.py:808-810`. -/
def Calibration.delItem {V : Type} (c : Calibration V) (k : String) :
    Calibration V × Option Err :=
  match c.defs.get? k with
  | none => (c, some .keyError)
  | some _ =>
    let defs := c.defs.erase k
    match c.calib.get? k with
    | none => (⟨defs, c.calib⟩, some .keyError)
    | some _ => (⟨defs, c.calib.erase k⟩, none)

end Pynare

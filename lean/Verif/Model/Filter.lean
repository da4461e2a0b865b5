import Verif.Model.Stats
import Verif.Model.ModelObj
/-!
# Filters and observed models

Mirrors `_simple_kalman_transition_selection`, `KalmanFilter` and `filter_model`
(`/repo/pynare/stats/filters.py:78-288`), `inv_sym_pd` (`/repo/pynare/utils/numpy.py:549-595`) and `ObservedModel`
(`/repo/pynare/stats/observation.py:28-104`).
-/

namespace Pynare

variable {V : Type}

/-- What is delegated to LAPACK and numpy: `dpotrf` and `dpotri` (`none`: a nonzero `info`), `linalg.det`, `np.log`. -/
structure Lapack (V : Type) where
  potrf : Arr V → Option (Arr V)
  potri : Arr V → Option (Arr V)
  det : Arr V → Except Err V
  log : V → V

/-- `upper_triangular_to_symmetric`, `/repo/pynare/utils/numpy.py:583-595`: entries below the diagonal are replaced by
those above it. -/
def symFromUpper (a : Arr V) : Arr V := ⟨a.r, a.c, fun i j => if j < i then a.e j i else a.e i j⟩

/-- `inv_sym_pd`, `/repo/pynare/utils/numpy.py:549-578`. -/
def invSymPd (lp : Lapack V) (a : Arr V) : Except Err (Arr V) :=
  match lp.potrf a with
  | none => .error .valueError
  | some c => match lp.potri c with
    | none => .error .valueError
    | some b => .ok (symFromUpper b)

section kalman

variable [Zero V] [Add V] [Mul V] [Neg V]

/-- The part of one iteration that looks at covariances only, `/repo/pynare/stats/filters.py:275-278,280,283,285`: the
logarithm of the determinant, the gain `PFi` and the next `P`. -/
def kalmanGain (lp : Lapack V) (T Q : Arr V) (locs : List Nat) (P : Arr V) : Except Err (V × Arr V × Arr V) := do
  let Pl ← P.cols locs
  let Ft ← Pl.rows locs
  let Fi ← invSymPd lp Ft
  let PFi ← Pl.dot Fi
  let Pr ← P.rows locs
  let h ← PFi.dot Pr
  let Ptt ← P.add h.neg
  let a ← Ptt.dot T.tr
  let b ← T.dot a
  let P' ← b.add Q
  let d ← lp.det Ft
  .ok (lp.log d, PFi, P')

/-- The part of one iteration that looks at the data, `/repo/pynare/stats/filters.py:274,279,282`.  Vectors are arrays
with one column; `y` is the row of the data.  Simplified: numpy would also repeat a single entry of `y`. -/
def kalmanState (T PFi : Arr V) (locs : List Nat) (x y : Arr V) : Except Err (Arr V) := do
  let xl ← x.rows locs
  let vt ← y.add xl.neg
  let g ← PFi.dot vt
  let xtt ← x.add g
  T.dot xtt

/-- A row of the data as a column. -/
def dataRow (data : Arr V) (i : Nat) : Arr V := ⟨data.c, 1, fun k _ => data.e i k⟩

/-- The loop of `_simple_kalman_transition_selection` after `n` iterations, `/repo/pynare/stats/filters.py:270-286`: the
sum, the prediction and its covariance.  Simplified: the order of statements within an iteration, which matters only
for which of several exceptions is raised. -/
def kalmanRun (lp : Lapack V) (T Q : Arr V) (locs : List Nat) (x0 P0 : Arr V) (data : Arr V) :
    Nat → Except Err (V × Arr V × Arr V)
  | 0 => .ok (0, x0, P0)
  | n + 1 => do
    let (llk, x, P) ← kalmanRun lp T Q locs x0 P0 data n
    let (l, PFi, P') ← kalmanGain lp T Q locs P
    let x' ← kalmanState T PFi locs x (dataRow data n)
    .ok (llk + l, x', P')

/-- `_simple_kalman_transition_selection`, `/repo/pynare/stats/filters.py:250-288`. -/
def kalmanSelection (lp : Lapack V) (data x0 P0 T Q : Arr V) (locs : List Nat) : Except Err V := do
  let (llk, _, _) ← kalmanRun lp T Q locs x0 P0 data data.r
  .ok llk

end kalman

/-! ### the classes -/

section obj

variable {SS S : Type}

/-- `KalmanFilter`, `/repo/pynare/stats/filters.py:78-97`: the observed model, its observed variables and the data. -/
structure KFilter (V SS S : Type) where
  model : MState V SS S
  obs : List String
  data : Arr V

/-- `np.array([...], dtype=float)` of boundary values, `/repo/pynare/core/generic.py:190-195,315-323`: `None` becomes
nan. -/
def boundDict (nan : V) (f : Endog V → Option V) (es : List (Endog V)) : Dict V :=
  es.foldl (fun d e => d.set e.name ((f e).getD nan)) []

/-- `ObservedModel.__init__`, `/repo/pynare/stats/observation.py:33-66` through `/repo/pynare/core/generic.py:34-67,
135-155,217-265`.  `nan` is not a number; equations are given as texts.  The shocks are the objects of the model.  The
class has no `model_scope` of its own, so that the parameters alone are the scope of the equations
(`/repo/pynare/core/generic.py:60-64`).  About the concatenation of variables see `MState.addEndog`; what the copied
boundary values do besides being stored is left to `mkSS`. -/
def observedModel [Zero V] (env : MEnv V SS S) (nan : V) (m : MState V SS S) (exprs : List (String × String)) :
    Except Err (MState V SS S) :=
  if exprs = [] then .error .valueError
  else
    match exprLoop env.parse (exprs.map fun p => .text (p.1 ++ " = " ++ p.2)) m.exprs with
    | (_, some e) => .error e
    | (xs, none) => do
      let params ← m.params.nest env.ops
      let names := m.endogNames ++ exprs.map Prod.fst
      let ll ← readLeadLags names xs.exprs
      let steady ← steadyFuncs env.ops env.okName names (scopeOf params ⟨[], []⟩) xs.exprs
      let endog := names.map fun x => Endog.create x (ll.get? x) ((boundDict nan Endog.initial m.endog).get? x)
        ((boundDict nan Endog.terminal m.endog).get? x) ((boundDict nan Endog.historical m.endog).get? x)
      let idx ← buildLlx (endog.map fun e => e.leadLag.getD [])
      let dynamic ← dynamicFuncs env.ops env.okName names m.stochNames idx.toTyper (scopeOf params ⟨[], []⟩) xs.exprs
      let ss ← env.mkSS endog m.stoch.length idx steady dynamic
      .ok { name := m.name, endog := endog, params := params, locals := ⟨[], []⟩, exprs := xs, stoch := m.stoch,
            determ := m.determ, altered := false, sigma := none, indexes := idx, steady := steady,
            dynamic := dynamic, statespace := ss, sol := none }

/-- `KalmanFilter.indices`, `/repo/pynare/stats/filters.py:100-111`: after reading the order of the states, `meas_idx` is
read, which is set nowhere: `AttributeError`. -/
def KFilter.indices [Zero V] [Mul V] (env : MEnv V SS S) (f : KFilter V SS S) :
    MState V SS S × Except Err (List Nat × List Nat × List Nat) :=
  match f.model.readAttr env MState.indexes with
  | (m, .error e) => (m, .error e)
  | (m, .ok _) => (m, .error .attributeError)

/-- `KalmanFilter.filter`, `/repo/pynare/stats/filters.py:129-142,164-176`: reads `indices` first; `rest` is what would
follow. -/
def KFilter.filter [Zero V] [Mul V] (env : MEnv V SS S) (f : KFilter V SS S)
    (rest : List Nat × List Nat × List Nat → Except Err V) : MState V SS S × Except Err V :=
  match f.indices env with
  | (m, .error e) => (m, .error e)
  | (m, .ok i) => (m, rest i)

/-- `KalmanFilter.loglike`, `/repo/pynare/stats/filters.py:144-161,198-246` and
`/repo/pynare/stats/observation.py:68-104`: only for one name of a model is the solution made; `rest` – solving, the
Lyapunov equation, the loop – may raise, and the function it ends with has no `return`. -/
def KFilter.loglike (f : KFilter V SS S) (rest : Except Err Unit) : Except Err (Option V) :=
  if f.model.name ≠ "herbst_schorfheide" then .error .notImplemented
  else do
    rest
    .ok none

/-- `filter_model` and `KalmanFilter.__init__`, `/repo/pynare/stats/filters.py:24-70,85-97,180-194`, for a model that is
not observed yet. -/
def filterModel [Zero V] (env : MEnv V SS S) (nan : V) (m : MState V SS S) (labels : List String) (data : Arr V)
    (obs : List (String × String)) (kind init : String) : Except Err (KFilter V SS S) :=
  if kind ≠ "kalman" then .error .notImplemented
  else do
    let om ← observedModel env nan m obs
    let d ← filterData (obs.map Prod.fst) labels data
    if init ≠ "" then .error .notImplemented
    else .ok ⟨om, obs.map Prod.fst, d⟩

end obj

end Pynare

import Verif.Model.Py
/-!
# The solution that a model keeps

`Model.solve` stores its result in the model (`/repo/pynare/core/model.py:152-206`), and statistics, simulations and
constrained solutions read it from there, or have it made.  This file mirrors who reads and writes it, and who reads
and writes the transition arrays that the `StateSpace` object of the model keeps
(`/repo/pynare/core/solve/statespace.py:90-108`).  What the solvers compute is a parameter.

Every function returns the model afterwards together with its result or exception: what was stored before an
exception stays stored.
-/

namespace Pynare

/-- The solutions a model can keep: `FirstOrderSolution`, `SecondOrderSolution` with its `lower_solution`
(`/repo/pynare/core/solve/second_order.py:22-25`), and `OccBinSolution`. -/
inductive Sol (F S O : Type) where
  | first (f : F)
  | second (lower : F) (s : S)
  | binding (o : O)
  deriving DecidableEq

/-- How alternative regimes are given: not at all (or by something false), by one dictionary, or by several
(`/repo/pynare/regimes.py:42-60`). -/
inductive AltExprs where
  | none
  | one
  | many
  deriving DecidableEq

/-- The arguments of `solve` for a constrained solution, `/repo/pynare/core/model.py:175-189`: `sigma` and `init` tell
whether these were given; everything else is in `detail`. -/
structure BindArgs (C : Type) where
  exprs : AltExprs
  sigma : Bool := false
  init : Bool := false
  detail : C

/-- What is computed from definitions of models.  `first` and `second` are the solvers, `alts` makes the alternative
regimes, `constr` reads the constraint, `args` checks shocks and names
(`/repo/pynare/core/solve/binding.py:775-813`), `copyDef` is the definition of a copy of the model, `bind` makes the
paths, `kalman` the transition arrays, `rest` the steady state, and the other functions are the statistics and
simulations. -/
structure Solvers (D F S O K A C : Type) where
  first : D → Except Err F
  second : D → F → Except Err S
  copyDef : D → Except Err D
  alts : D → C → Except Err Unit
  constr : C → Except Err Unit
  args : D → C → Except Err Unit
  bind : D → C → F → Except Err O
  kalman : D → F → Except Err K
  rest : D → Except Err A
  mean2 : D → F → S → K → Except Err A
  moments : D → F → K → Except Err A
  simul : D → Sol F S O → Except Err A

/-- A model: its definition, the attribute `_solution` if there is one, and the transition arrays kept by its
`StateSpace`. -/
structure Holder (D F S O K : Type) where
  defn : D
  slot : Option (Sol F S O) := none
  trans : Option K := none

variable {D F S O K A C : Type}

/-- The attribute `order` of solutions; an `OccBinSolution` has none (`/repo/pynare/core/solve/binding.py:131-172`). -/
def Sol.order : Sol F S O → Option Nat
  | .first _ => some 1
  | .second _ _ => some 2
  | .binding _ => none

/-- `solution_order`, `/repo/pynare/core/model.py:316-324`: `None` without solution, and also if the solution has no
`order`. -/
def Holder.order (m : Holder D F S O K) : Option Nat := m.slot.bind Sol.order

/-- A change of the definition.  The next reading makes another `StateSpace` (`/repo/pynare/core/generic.py:346-351`,
`427-438`); simplified: it is made at once, and making it does not raise. -/
def Holder.alter (d : D) (m : Holder D F S O K) : Holder D F S O K := { m with defn := d, trans := none }

section
variable (env : Solvers D F S O K A C)

/-- `solve(order=1)`, `/repo/pynare/core/model.py:197-206`. -/
def Holder.solveFirst (m : Holder D F S O K) : Holder D F S O K × Except Err F :=
  match env.first m.defn with
  | .ok f => ({ m with slot := some (.first f) }, .ok f)
  | .error e => (m, .error e)

/-- `solve(order=2)`: making the object solves the model at first order, which stores that solution
(`/repo/pynare/core/solve/second_order.py:22-34`). -/
def Holder.solveSecond (m : Holder D F S O K) : Holder D F S O K × Except Err (Sol F S O) :=
  match m.solveFirst env with
  | (m', .error e) => (m', .error e)
  | (m', .ok f) => match env.second m'.defn f with
    | .ok s => ({ m' with slot := some (.second f s) }, .ok (.second f s))
    | .error e => (m', .error e)

/-- `solve` without constraint, `/repo/pynare/core/model.py:193-206`; the default order is 2
(`/repo/pynare/core/solve/__init__.py:19`). -/
def Holder.solve (order : Int) (m : Holder D F S O K) : Holder D F S O K × Except Err (Sol F S O) :=
  let order := if order = 0 then 2 else order
  if order = 1 then
    match m.solveFirst env with
    | (m', .ok f) => (m', .ok (.first f))
    | (m', .error e) => (m', .error e)
  else if order = 2 then m.solveSecond env
  else (m, .error .valueError)

/-- `solution`, `/repo/pynare/core/model.py:302-313`. -/
def Holder.solution (m : Holder D F S O K) : Holder D F S O K × Except Err (Sol F S O) :=
  match m.slot with
  | some s => (m, .ok s)
  | none => m.solve env 2

/-- The first-order part of a solution, `/repo/pynare/core/model.py:339-344`: the attribute `order` is missing from
constrained solutions. -/
def Sol.lower : Sol F S O → Except Err F
  | .first f => .ok f
  | .second f _ => .ok f
  | .binding _ => .error .attributeError

/-- `first_order_solution`, `/repo/pynare/core/model.py:327-344`. -/
def Holder.firstOrder (m : Holder D F S O K) : Holder D F S O K × Except Err F :=
  match m.solution env with
  | (m', .ok s) => (m', s.lower)
  | (m', .error e) => (m', .error e)

/-- The first part of making an `OccBinSolution`, `/repo/pynare/core/solve/binding.py:148-165`, and of
`RegimeSwitchingModel`, `/repo/pynare/regimes.py:35-60`: the definition of the reference model, which is the model
itself if the regimes are given by one dictionary, and a copy if by several.  A `Model` cannot be indexed. -/
def bindSetup (c : BindArgs C) (d : D) : Except Err D :=
  match c.exprs with
  | .none => do env.constr c.detail; .error .typeError
  | .one => do
    if c.sigma then .error .notImplemented
    env.alts d c.detail
    env.constr c.detail
    .ok d
  | .many => do
    if c.sigma then .error .notImplemented
    let d' ← env.copyDef d
    env.alts d c.detail
    env.constr c.detail
    .ok d'

/-- The first-order solution of the reference model, `/repo/pynare/core/solve/binding.py:815-827` and `288-290`: a
model that has a solution with an order is not solved again, otherwise it is solved at first order.  A copy has no
solution. -/
def Holder.refFirst (exprs : AltExprs) (d' : D) (m : Holder D F S O K) : Holder D F S O K × Except Err F :=
  if exprs = .many then (m, env.first d')
  else match m.slot with
    | some (.first f) => (m, .ok f)
    | some (.second f _) => (m, .ok f)
    | _ => m.solveFirst env

/-- `solve` with a constraint, `/repo/pynare/core/model.py:175-189`, `205`: `init` is read from the keyword arguments
and left in them, so that the method `solve` of the `OccBinSolution` (`/repo/pynare/core/solve/binding.py:174-180`)
receives an argument it does not know. -/
def Holder.solveBinding (c : BindArgs C) (m : Holder D F S O K) : Holder D F S O K × Except Err (Sol F S O) :=
  match bindSetup env c m.defn with
  | .error e => (m, .error e)
  | .ok d' => match env.args d' c.detail with
    | .error e => (m, .error e)
    | .ok _ => match m.refFirst env c.exprs d' with
      | (m', .error e) => (m', .error e)
      | (m', .ok f) =>
        if c.init then (m', .error .typeError)
        else match env.bind d' c.detail f with
          | .error e => (m', .error e)
          | .ok o => ({ m' with slot := some (.binding o) }, .ok (.binding o))

/-- `kalman_transition` of the `StateSpace` of the model, `/repo/pynare/core/solve/statespace.py:90-108`; see
`SpaceObj.readKalman` for the checks on the way.  Simplified: here they are part of `kalman`, after the solution. -/
def Holder.transition (m : Holder D F S O K) : Holder D F S O K × Except Err K :=
  match m.trans with
  | some k => (m, .ok k)
  | none => match m.firstOrder env with
    | (m', .error e) => (m', .error e)
    | (m', .ok f) => match env.kalman m'.defn f with
      | .error e => (m', .error e)
      | .ok k => ({ m' with trans := some k }, .ok k)

/-- `if not md.solution_order: md.solve()`, `/repo/pynare/stats/moments.py:34-35`, `139-140`, `214-215`,
`/repo/pynare/stats/var.py:58-59`. -/
def Holder.ensureOrder (m : Holder D F S O K) : Holder D F S O K × Except Err Unit :=
  match m.order with
  | some _ => (m, .ok ())
  | none => match m.solve env 0 with
    | (m', .ok _) => (m', .ok ())
    | (m', .error e) => (m', .error e)

/-- `cov`, `/repo/pynare/stats/moments.py:139-165`, and `autocov`, `/repo/pynare/stats/moments.py:214-247`, and
`var_decomp` for more than one shock, `/repo/pynare/stats/var.py:58-120`; `var`, `std`, `corr` and `autocorr` are made
from the first two. -/
def Holder.moments (m : Holder D F S O K) : Holder D F S O K × Except Err A :=
  match m.ensureOrder env with
  | (m', .error e) => (m', .error e)
  | (m', .ok _) => match m'.firstOrder env with
    | (m', .error e) => (m', .error e)
    | (m', .ok f) => match m'.transition env with
      | (m', .error e) => (m', .error e)
      | (m', .ok k) => (m', env.moments m'.defn f k)

/-- `mean`, `/repo/pynare/stats/moments.py:32-66`. -/
def Holder.mean (m : Holder D F S O K) : Holder D F S O K × Except Err A :=
  match env.rest m.defn with
  | .error e => (m, .error e)
  | .ok ss => match m.ensureOrder env with
    | (m', .error e) => (m', .error e)
    | (m', .ok _) => match m'.slot with
      | some (.first _) => (m', .ok ss)
      | some (.second f s) => match m'.transition env with
        | (m', .error e) => (m', .error e)
        | (m', .ok k) => (m', env.mean2 m'.defn f s k)
      | _ => (m', .error .notImplemented)

/-- The solution that is simulated, `/repo/pynare/simul.py:311-320`. -/
def Holder.simSolution (order : Int) (m : Holder D F S O K) : Holder D F S O K × Except Err (Sol F S O) :=
  if order ≠ 0 then m.solve env order
  else match m.slot with
    | some s => (m, .ok s)
    | none => m.solve env 0

/-- `simulate`, `/repo/pynare/simul.py:311-327`: the simulator updates the model first, so that another `StateSpace` is
made (`/repo/pynare/simul.py:153-157`).  The impulse response (`/repo/pynare/impulse.py:70-88`) is one simulation with
`order = 0`. -/
def Holder.simulate (order : Int) (m : Holder D F S O K) : Holder D F S O K × Except Err A :=
  match m.simSolution env order with
  | (m', .error e) => (m', .error e)
  | (m', .ok (.binding _)) => (m', .error .notImplemented)
  | (m', .ok s) => ({ m' with trans := none }, env.simul m'.defn s)

/-- What can be asked of a model. -/
inductive Ask (D C : Type) where
  | alter (d : D)
  | solve (order : Int)
  | solveBinding (c : BindArgs C)
  | solution
  | firstOrder
  | transition
  | mean
  | moments
  | simulate (order : Int)

/-- Forgets the result of a request. -/
def drop1 {α β : Type} (x : α × Except Err β) : α := x.1

/-- The model after a request; exceptions are caught by the caller. -/
def Holder.step (m : Holder D F S O K) : Ask D C → Holder D F S O K
  | .alter d => m.alter d
  | .solve o => drop1 (m.solve env o)
  | .solveBinding c => drop1 (m.solveBinding env c)
  | .solution => drop1 (m.solution env)
  | .firstOrder => drop1 (m.firstOrder env)
  | .transition => drop1 (m.transition env)
  | .mean => drop1 (m.mean env)
  | .moments => drop1 (m.moments env)
  | .simulate o => drop1 (m.simulate env o)

/-- The model after several requests. -/
def Holder.run (m : Holder D F S O K) (rs : List (Ask D C)) : Holder D F S O K := rs.foldl (Holder.step env) m

end

end Pynare

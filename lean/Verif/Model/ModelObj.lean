import Verif.Model.Exprs
import Verif.Model.Sigma
import Verif.Model.Calib
/-!
# Model objects

Mirrors `VarArray.get_loc`, `EndogVar`, `DetermVar` and their makers
(`/repo/pynare/core/variables.py:86-126,154-176,229-240,248-401`), `ModelSkeleton`,
`StructuredModel`, `DynamicModel` (`/repo/pynare/core/generic.py:27-498`), `Model.__init__`, `solve`,
`solution` and `model_scope` (`/repo/pynare/core/model.py:32-62,152-205,290-313`) and
`RegimeSwitchingModel` (`/repo/pynare/regimes.py`).
-/

namespace Pynare

variable {V : Type}

/-! ### lookup -/

/-- `np.where(name == self.names)[0]`. -/
def nameLocs (names : List String) (x : String) : List Nat :=
  (List.range names.length).filter fun i => names[i]? == some x

/-- `VarArray.get_loc` for one name, `/repo/pynare/core/variables.py:120-126`: `item()` raises
`ValueError` when there are several locations. -/
def getLoc1 (names : List String) (x : String) : Except Err Nat :=
  match nameLocs names x with
  | [] => .error .keyError
  | [i] => .ok i
  | _ => .error .valueError

/-- `VarArray.get_loc` for several names, `/repo/pynare/core/variables.py:108-118`: `idx[i] = loc`
raises `ValueError` when there are several locations. -/
def getLoc (names : List String) : List String → Except Err (List Nat)
  | [] => .ok []
  | x :: xs => do
    let i ← getLoc1 names x
    let is ← getLoc names xs
    .ok (i :: is)

/-! ### variables -/

/-- `EndogVar`, `/repo/pynare/core/variables.py:154-176`; `leadLag = none` is Python's `None`. -/
structure Endog (V : Type) where
  name : String
  leadLag : Option (List Int) := none
  initial : Option V := none
  terminal : Option V := none
  historical : Option V := none

/-- `EndogVar.__init__`, `/repo/pynare/core/variables.py:156-176`: without terminal and historical
value the initial value defaults to zero (a false value, that is zero, is replaced by zero). -/
def Endog.create [Zero V] (x : String) (ll : Option (List Int)) (i t h : Option V) : Endog V :=
  match t, h with
  | none, none => ⟨x, ll, some (i.getD 0), none, none⟩
  | _, _ => ⟨x, ll, i, t, h⟩

/-- `DetermVar`, `/repo/pynare/core/variables.py:229-240`. -/
structure Determ (V : Type) where
  name : String
  periods : Option (List Int) := none
  values : Option (List V) := none

/-- The dictionary given for one exogenous variable, `/repo/pynare/core/variables.py:325-330,
373-375`. -/
structure Moments (V : Type) where
  other : Option String := none
  variance : Option V := none
  corr : Option V := none
  cov : Option V := none
  periods : Option (List Int) := none
  values : Option (List V) := none

/-- `_create_stoch`, `/repo/pynare/core/variables.py:340-346`: an unexpected keyword raises
`TypeError`. -/
def makeStoch [One V] (shocks : Dict (Moments V)) (x : String) : Except Err (Stoch V) :=
  match shocks.get? x with
  | none => .ok { name := x, variance := some 1 }
  | some d =>
    if d.periods.isSome || d.values.isSome then .error .typeError
    else .ok ⟨x, d.other.getD "", d.variance, d.corr, d.cov⟩

/-- `_create_determ`, `/repo/pynare/core/variables.py:385-391`.  (The default `periods = 0`,
`values = 1` is represented by one-element lists.) -/
def makeDeterm [One V] (shocks : Dict (Moments V)) (x : String) : Except Err (Determ V) :=
  match shocks.get? x with
  | none => .ok ⟨x, some [0], some [1]⟩
  | some d =>
    if d.other.isSome || d.variance.isSome || d.corr.isSome || d.cov.isSome then .error .typeError
    else .ok ⟨x, d.periods, d.values⟩

/-- `[f(name) for name in names]` for an `f` that may raise. -/
def makeAll {α β : Type} (f : α → Except Err β) : List α → Except Err (List β)
  | [] => .ok []
  | x :: xs => do
    let y ← f x
    let ys ← makeAll f xs
    .ok (y :: ys)

/-! ### the object -/

/-- A residual function. -/
abbrev ResFun (V : Type) := List V → Except Err V

/-- What the model object delegates: arithmetic, legality of names, the parser, the square root,
the construction of a `StateSpace` (`/repo/pynare/core/solve/statespace.py:19-41`: the steady state
found from the initial values and the steady functions, the jacobian of the dynamic functions – which
needs the number of stochastic variables –, and the matrices derived from it), and of a solution. -/
structure MEnv (V SS S : Type) where
  ops : Ops V
  okName : String → Bool
  parse : String → Except Err (Expr V)
  sqrt : V → V
  mkSS : List (Endog V) → Nat → Llx → List (ResFun V) → List (ResFun V) → Except Err SS
  mkSol : SS → Sig V → Except Err S

/-- The attributes of a `Model`. -/
structure MState (V SS S : Type) where
  name : String
  endog : List (Endog V)
  params : Calibration V
  locals : Calibration V
  exprs : ModelExprs V
  stoch : List (Stoch V)
  determ : List (Determ V)
  altered : Bool
  sigma : Option (Sig V)
  indexes : Llx
  steady : List (ResFun V)
  dynamic : List (ResFun V)
  statespace : SS
  sol : Option S

/-- The number of a solved calibration, if any. -/
def Calibration.val (c : Calibration V) (x : String) : Option V :=
  match c.calib.get? x with
  | some (.num v) => some v
  | _ => none

/-- `Model.model_scope`, `/repo/pynare/core/model.py:289-291`: local parameters take precedence. -/
def scopeOf (params locals : Calibration V) (x : String) : Option V :=
  match locals.val x with
  | some v => some v
  | none => params.val x

section obj

variable {SS S : Type}

/-- `model_scope` of the object. -/
def MState.scope (m : MState V SS S) : String → Option V := scopeOf m.params m.locals

/-- Names of the endogenous variables. -/
def MState.endogNames (m : MState V SS S) : List String := m.endog.map Endog.name

/-- Names of the stochastic variables. -/
def MState.stochNames (m : MState V SS S) : List String := m.stoch.map Stoch.name

/-- Arguments of `Model.__init__`, `/repo/pynare/core/model.py:32-46`; the names of variables are
strings, the equations a container made by `ModelExprs.init` (or given as one,
`/repo/pynare/core/expressions.py:34-36`). -/
structure MArgs (V : Type) where
  endog : List String := []
  stoch : List String := []
  determ : List String := []
  params : Dict (Def V) := []
  shocks : Dict (Moments V) := []
  exprs : ModelExprs V := ⟨[], []⟩
  locals : Dict (Def V) := []
  initial : Dict V := []
  terminal : Dict V := []
  historical : Dict V := []
  language : String := "dynare"
  name : String := ""

/-- `Model.__init__`, `/repo/pynare/core/model.py:48-62` and `/repo/pynare/core/generic.py:34-67,
135-155,217-265`, for calibrations that are made already. -/
def MState.build [Zero V] [One V] (env : MEnv V SS S) (a : MArgs V) (params locals : Calibration V) :
    Except Err (MState V SS S) := do
  let ll ← readLeadLags a.endog a.exprs.exprs
  let steady ← steadyFuncs env.ops env.okName a.endog (scopeOf params locals) a.exprs.exprs
  let endog := a.endog.map fun x =>
    Endog.create x (ll.get? x) (a.initial.get? x) (a.terminal.get? x) (a.historical.get? x)
  let stoch ← makeAll (makeStoch a.shocks) a.stoch
  let determ ← makeAll (makeDeterm a.shocks) a.determ
  let idx ← buildLlx (endog.map fun e => e.leadLag.getD [])
  let dynamic ← dynamicFuncs env.ops env.okName a.endog (stoch.map Stoch.name) idx.toTyper
    (scopeOf params locals) a.exprs.exprs
  let ss ← env.mkSS endog stoch.length idx steady dynamic
  .ok { name := a.name, endog := endog, params := params, locals := locals, exprs := a.exprs,
        stoch := stoch, determ := determ, altered := false, sigma := none, indexes := idx,
        steady := steady, dynamic := dynamic, statespace := ss, sol := none }

/-- `Model.__init__`, `/repo/pynare/core/model.py:32-62`. -/
def MState.create [Zero V] [One V] (env : MEnv V SS S) (a : MArgs V) : Except Err (MState V SS S) := do
  let locals ← Calibration.create env.ops a.locals
  if a.language ≠ "dynare" then .error .valueError
  else do
    let params ← Calibration.create env.ops a.params
    MState.build env a params locals

/-! ### update -/

/-- `self.endog = set_lead_lags(self.endog, self.exprs)`, `/repo/pynare/core/generic.py:430` and
`/repo/pynare/core/variables.py:404-431`. -/
def MState.setLeadLags (m : MState V SS S) : Except Err (MState V SS S) := do
  let d ← readLeadLags m.endogNames m.exprs.exprs
  .ok { m with endog := m.endog.map fun e => { e with leadLag := d.get? e.name } }

/-- `/repo/pynare/core/generic.py:431`. -/
def MState.setSigma [Zero V] [Mul V] (env : MEnv V SS S) (m : MState V SS S) :
    Except Err (MState V SS S) := do
  let s ← defineSigma env.sqrt m.stoch
  .ok { m with sigma := some s }

/-- `/repo/pynare/core/generic.py:435`. -/
def MState.setIndexes (m : MState V SS S) : Except Err (MState V SS S) := do
  let t ← buildLlx (m.endog.map fun e => e.leadLag.getD [])
  .ok { m with indexes := t }

/-- `/repo/pynare/core/generic.py:436`. -/
def MState.setSteady [Zero V] (env : MEnv V SS S) (m : MState V SS S) :
    Except Err (MState V SS S) := do
  let fs ← steadyFuncs env.ops env.okName m.endogNames m.scope m.exprs.exprs
  .ok { m with steady := fs }

/-- `/repo/pynare/core/generic.py:437`. -/
def MState.setDynamic (env : MEnv V SS S) (m : MState V SS S) : Except Err (MState V SS S) := do
  let fs ← dynamicFuncs env.ops env.okName m.endogNames m.stochNames m.indexes.toTyper m.scope
    m.exprs.exprs
  .ok { m with dynamic := fs }

/-- `/repo/pynare/core/generic.py:438`. -/
def MState.setSpace (env : MEnv V SS S) (m : MState V SS S) : Except Err (MState V SS S) := do
  let ss ← env.mkSS m.endog m.stoch.length m.indexes m.steady m.dynamic
  .ok { m with statespace := ss }

/-- Statements that update the object one after another: the object after the last statement that
did not raise, and the exception of the one that did. -/
def runStages (stages : List (MState V SS S → Except Err (MState V SS S))) (m : MState V SS S) :
    MState V SS S × Option Err :=
  match stages with
  | [] => (m, none)
  | s :: ss => match s m with
    | .ok m' => runStages ss m'
    | .error e => (m, some e)

/-- `DynamicModel.update`, `/repo/pynare/core/generic.py:427-438`: the flag is cleared first. -/
def MState.update [Zero V] [Mul V] (env : MEnv V SS S) (m : MState V SS S) :
    MState V SS S × Option Err :=
  runStages [MState.setLeadLags, MState.setSigma env, MState.setIndexes, MState.setSteady env,
    MState.setDynamic env, MState.setSpace env] { m with altered := false }

/-- `if self.is_altered: self.update()`, `/repo/pynare/core/generic.py:183,329,340,347`. -/
def MState.refresh [Zero V] [Mul V] (env : MEnv V SS S) (m : MState V SS S) :
    MState V SS S × Option Err :=
  if m.altered then m.update env else (m, none)

/-- A property that returns an attribute after refreshing. -/
def MState.readAttr [Zero V] [Mul V] {α : Type} (env : MEnv V SS S) (get : MState V SS S → α)
    (m : MState V SS S) : MState V SS S × Except Err α :=
  match m.refresh env with
  | (m', none) => (m', .ok (get m'))
  | (m', some e) => (m', .error e)

/-- `sigma`, `/repo/pynare/core/generic.py:354-359`: also updates when the attribute is missing; the
missing attribute itself raises `AttributeError`. -/
def MState.readSigma [Zero V] [Mul V] (env : MEnv V SS S) (m : MState V SS S) :
    MState V SS S × Except Err (Sig V) :=
  match (if m.altered || m.sigma.isNone then m.update env else (m, none)) with
  | (m', none) => match m'.sigma with
    | some s => (m', .ok s)
    | none => (m', .error .attributeError)
  | (m', some e) => (m', .error e)

/-! ### edits -/

/-- `add_endog`, `/repo/pynare/core/generic.py:77-96`, for names and a common initial, terminal and
historical value.  The concatenation of two arrays of variables is taken to be the array of all of
them; whether numpy calls `__array_finalize__` (`/repo/pynare/core/variables.py:28`) on the result
before filling it, which would raise `TypeError`, is not modelled. -/
def MState.addEndog [Zero V] (m : MState V SS S) (names : List String) (i t h : Option V) :
    MState V SS S × Option Err :=
  ({ m with endog := m.endog ++ names.map (fun x => Endog.create x none i t h), altered := true },
    none)

/-- The loop of `add_params`, `/repo/pynare/core/generic.py:112-113`. -/
def paramLoop (ops : Ops V) : List (String × Def V) → Calibration V → Calibration V × Option Err
  | [], c => (c, none)
  | (k, d) :: kvs, c => match c.setItem ops k d with
    | (c', none) => paramLoop ops kvs c'
    | (c', some e) => (c', some e)

/-- `add_params`, `/repo/pynare/core/generic.py:98-115`. -/
def MState.addParams (env : MEnv V SS S) (m : MState V SS S) (kvs : List (String × Def V)) :
    MState V SS S × Option Err :=
  match paramLoop env.ops kvs m.params with
  | (c, none) => ({ m with params := c, altered := true }, none)
  | (c, some e) => ({ m with params := c }, some e)

/-- `extend` of `MutableSequence`, which appends one after another. -/
def exprLoop (parse : String → Except Err (Expr V)) : List (ExprArg V) → ModelExprs V →
    ModelExprs V × Option Err
  | [], x => (x, none)
  | a :: as, x => match x.append parse a with
    | .ok x' => exprLoop parse as x'
    | .error e => (x, some e)

/-- `add_exprs`, `/repo/pynare/core/generic.py:157-175`. -/
def MState.addExprs (env : MEnv V SS S) (m : MState V SS S) (as : List (ExprArg V)) :
    MState V SS S × Option Err :=
  match exprLoop env.parse as m.exprs with
  | (x, none) => ({ m with exprs := x, altered := true }, none)
  | (x, some e) => ({ m with exprs := x }, some e)

/-- `add_stoch`, `/repo/pynare/core/generic.py:268-287`; about the concatenation see `addEndog`. -/
def MState.addStoch [One V] (m : MState V SS S) (names : List String) (shocks : Dict (Moments V)) :
    MState V SS S × Option Err :=
  match makeAll (makeStoch shocks) names with
  | .ok ss => ({ m with stoch := m.stoch ++ ss, altered := true }, none)
  | .error e => (m, some e)

/-- `add_determ`, `/repo/pynare/core/generic.py:289-308`. -/
def MState.addDeterm [One V] (m : MState V SS S) (names : List String) (shocks : Dict (Moments V)) :
    MState V SS S × Option Err :=
  match makeAll (makeDeterm shocks) names with
  | .ok ds => ({ m with determ := m.determ ++ ds, altered := true }, none)
  | .error e => (m, some e)

/-! ### solutions -/

/-- `solve` without constraint, `/repo/pynare/core/model.py:191-205`: the solution is made from the
state space and the covariance matrix, which are read from the model (and so refreshed). -/
def MState.solve [Zero V] [Mul V] (env : MEnv V SS S) (m : MState V SS S) :
    MState V SS S × Except Err S :=
  match m.readAttr env MState.statespace with
  | (m', .error e) => (m', .error e)
  | (m', .ok ss) => match m'.readSigma env with
    | (m'', .error e) => (m'', .error e)
    | (m'', .ok sg) => match env.mkSol ss sg with
      | .ok s => ({ m'' with sol := some s }, .ok s)
      | .error e => (m'', .error e)

/-- `solution`, `/repo/pynare/core/model.py:302-313`. -/
def MState.solution [Zero V] [Mul V] (env : MEnv V SS S) (m : MState V SS S) :
    MState V SS S × Except Err S :=
  match m.sol with
  | some s => (m, .ok s)
  | none => m.solve env

/-! ### copies -/

/-- The dictionary of the values of an attribute that are not `None`,
`/repo/pynare/core/generic.py:444-454`. -/
def attrDict {α β : Type} (nm : α → String) (f : α → Option β) (xs : List α) : Dict β :=
  xs.foldl (fun d e => match f e with
    | some v => d.set (nm e) v
    | none => d) []

/-- `shocks` in `copy`, first loop, `/repo/pynare/core/generic.py:457-470`. -/
def stochDict (ss : List (Stoch V)) (d : Dict (Moments V)) : Dict (Moments V) :=
  ss.foldl (fun d s => d.set s.name
    { other := some s.other, variance := s.variance, corr := s.corr, cov := s.cov }) d

/-- `shocks` in `copy`, second loop, `/repo/pynare/core/generic.py:473-483`. -/
def determDict (ds : List (Determ V)) (d : Dict (Moments V)) : Dict (Moments V) :=
  ds.foldl (fun d s => d.set s.name { periods := s.periods, values := s.values }) d

/-- `ModelCalibration(defs)` when `defs` is a `ModelCalibration` itself (the copied parameters,
`/repo/pynare/core/generic.py:490` and `/repo/pynare/core/variables.py:785-796`): the items of the
inner object are its values, and the outer object solves them once more. -/
def Calibration.nest (ops : Ops V) (c : Calibration V) : Except Err (Calibration V) := do
  let calib ← solveCalibration ops c.calib
  .ok ⟨c.defs, calib⟩

/-- `__setitem__` of the outer object: sets in the inner one, then solves the inner values once
more, `/repo/pynare/core/variables.py:804-806`.  (`c.defs` are the definitions of the inner object
and `c.calib` the values of both.) -/
def Calibration.nestSet (ops : Ops V) (c : Calibration V) (k : String) (d : Def V) :
    Calibration V × Option Err :=
  match c.setItem ops k d with
  | (c', some e) => (⟨c'.defs, c.calib⟩, some e)
  | (c', none) => match solveCalibration ops c'.calib with
    | .ok calib => (⟨c'.defs, calib⟩, none)
    | .error e => (⟨c'.defs, c.calib⟩, some e)

/-- The arguments `copy` passes on, `/repo/pynare/core/generic.py:441-498`: no `local_params`. -/
def MState.copyArgs (m : MState V SS S) : MArgs V :=
  { endog := m.endogNames
    stoch := m.stochNames
    determ := m.determ.map Determ.name
    shocks := determDict m.determ (stochDict m.stoch [])
    exprs := m.exprs
    initial := attrDict Endog.name Endog.initial m.endog
    terminal := attrDict Endog.name Endog.terminal m.endog
    historical := attrDict Endog.name Endog.historical m.endog
    name := m.name }

/-- `copy`, `/repo/pynare/core/generic.py:441-498`. -/
def MState.copy [Zero V] [One V] (env : MEnv V SS S) (m : MState V SS S) :
    Except Err (MState V SS S) := do
  let params ← m.params.nest env.ops
  MState.build env m.copyArgs params ⟨[], []⟩

/-! ### regime switching -/

/-- The `exprs` argument of `RegimeSwitchingModel`, `/repo/pynare/regimes.py:27-32`. -/
inductive RegimeArg (V : Type) where
  | dict (d : List (Int × ExprArg V))
  | seq (ds : List (List (Int × ExprArg V)))

/-- `for eq, expr in d.items(): mc.exprs[eq] = expr`, `/repo/pynare/regimes.py:47-48,59-60`. -/
def replaceEqs (parse : String → Except Err (Expr V)) : List (Int × ExprArg V) → ModelExprs V →
    Except Err (ModelExprs V)
  | [], x => .ok x
  | (k, a) :: rest, x => do
    let x' ← x.setItem parse k a
    replaceEqs parse rest x'

/-- One alternative regime, `/repo/pynare/regimes.py:46-50,56-60`. -/
def altRegime [Zero V] [One V] (env : MEnv V SS S) (m : MState V SS S) (d : List (Int × ExprArg V)) :
    Except Err (MState V SS S) := do
  let mc ← m.copy env
  let x ← replaceEqs env.parse d mc.exprs
  .ok { mc with exprs := x, altered := true }

/-- `RegimeSwitchingModel.__init__` without `sigma`, `/repo/pynare/regimes.py:33-62`: the list of
models. -/
def regimeModels [Zero V] [One V] (env : MEnv V SS S) (m : MState V SS S) :
    RegimeArg V → Except Err (List (MState V SS S))
  | .dict d =>
    if d = [] then .error .valueError
    else do
      let mc ← altRegime env m d
      .ok [m, mc]
  | .seq ds =>
    if ds = [] then .error .valueError
    else do
      let base ← m.copy env
      let ms ← makeAll (altRegime env m) ds
      .ok (base :: ms)

/-- `__len__`, `/repo/pynare/regimes.py:67-68`. -/
def regimeLen : RegimeArg V → Nat
  | .dict d => d.length + 1
  | .seq ds => ds.length + 1

end obj

/-! ### parameter dictionaries by reference -/

/-- The memory as far as parameters go: dictionaries of definitions by address.  Address 0 is the
default argument `params: dict = {}` of `Model.__init__` (`/repo/pynare/core/model.py:37`), one
dictionary for all calls. -/
abbrev ParamHeap (V : Type) := Nat → Dict (Def V)

/-- A `ModelCalibration` in memory: its definitions are kept by reference
(`/repo/pynare/core/variables.py:786`), its values are its own. -/
structure CalibRef (V : Type) where
  addr : Nat
  calib : Dict (Def V)

/-- `ModelCalibration(defs)`, `/repo/pynare/core/variables.py:785-796`, for the dictionary at an
address. -/
def CalibRef.create (ops : Ops V) (h : ParamHeap V) (addr : Nat) : Except Err (CalibRef V) := do
  let c ← solveCalibration ops (h addr)
  .ok ⟨addr, c⟩

/-- `__setitem__`, `/repo/pynare/core/variables.py:804-806`. -/
def CalibRef.setItem (ops : Ops V) (h : ParamHeap V) (c : CalibRef V) (k : String) (d : Def V) :
    ParamHeap V × CalibRef V × Option Err :=
  let h' : ParamHeap V := fun a => if a = c.addr then (h a).set k d else h a
  match solveCalibration ops (h' c.addr) with
  | .ok calib => (h', ⟨c.addr, calib⟩, none)
  | .error e => (h', c, some e)

end Pynare

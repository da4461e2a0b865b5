import Verif.Model.Exprs
import Mathlib.Algebra.Ring.Defs
/-!
# Steady states

Mirrors `/repo/pynare/core/steady.py` and the property `ss` of models.  The minimiser of scipy is a parameter.
-/

namespace Pynare

/-- The argument `method`: nothing, a string, a number (`i` is what `int` makes of it; for floats that are not
finite `int` raises), or another object that is true or false. -/
inductive Method where
  | none
  | text (s : String)
  | number (i : Int)
  | other (truthy : Bool)
deriving DecidableEq

/-- What the selection of a method returns: one of three functions, a string that describes a method, or `None`. -/
inductive Algo where
  | dogleg
  | described
  | gradient
  | simplex
  | nothing
deriving DecidableEq

/-- `_dynare_mappings`, `/repo/pynare/core/steady.py:204-217`. -/
def dynareMapping (i : Int) : Option Algo :=
  if i = 0 then some .dogleg
  else if i = 8 then some .gradient
  else if 1 ≤ i ∧ i ≤ 11 then some .described
  else none

/-- `_nonlang_mappings`, `/repo/pynare/core/steady.py:220-222`. -/
def nonlangMapping : Method → Except Err Algo
  | .text s => if s = "nelder-mead" then .ok .simplex else .error .keyError
  | _ => .error .keyError

/-- `_SteadyStateManager.__new__`, `/repo/pynare/core/steady.py:224-249`.  A `KeyError` sends the method to the other
table; for another object that is true `select` has no value; for another language nothing is returned. -/
def selectAlgo (language : String) (m : Method) : Except Err Algo :=
  if language = "dynare" then
    match m with
    | .text s => if s = "" then .ok .gradient else nonlangMapping m
    | .number i => match dynareMapping i with
      | some a => .ok a
      | none => nonlangMapping m
    | .none => .ok .gradient
    | .other false => .ok .gradient
    | .other true => .error .unboundLocal
  else .ok .nothing

section
variable {V : Type} [Add V] [Mul V] [Zero V]

/-- The residual function of a model's equations and its starting values. -/
structure SteadyProblem (V : Type) where
  functions : List V → Except Err (List V)
  start : List V

/-- `_define_simple_least_squares`, `/repo/pynare/core/steady.py:86-107`. -/
def leastSquares (p : SteadyProblem V) (x : List V) : Except Err V := do
  let vs ← p.functions x
  .ok ((vs.map fun v => v * v).foldl (· + ·) 0)

/-- The result of scipy's `minimize`: the last point, and whether the minimiser succeeded. -/
structure OptResult (V : Type) where
  x : List V
  success : Bool

/-- `scipy.optimize.minimize`: the method, the objective and the starting values. -/
abbrev Minimizer (V : Type) := Algo → (List V → Except Err V) → List V → Except Err (OptResult V)

/-- Calling what `_SteadyStateManager` returned, `/repo/pynare/core/steady.py:110-196`: the first algorithm is not there,
and a string or `None` cannot be called. -/
def runAlgo (opt : Minimizer V) (p : SteadyProblem V) : Algo → Except Err (OptResult V)
  | .dogleg => .error .notImplemented
  | .described => .error .typeError
  | .nothing => .error .typeError
  | .gradient => opt .gradient (leastSquares p) p.start
  | .simplex => opt .simplex (leastSquares p) p.start

/-- A `SteadyState` object, `/repo/pynare/core/steady.py:18-22`. -/
structure SteadyObj (V : Type) where
  results : Option (OptResult V) := none
  vals : Option (List V) := none

/-- `SteadyState.compute`, `/repo/pynare/core/steady.py:25-59`: the object afterwards and what is returned. -/
def SteadyObj.compute (opt : Minimizer V) (lang : String) (p : SteadyProblem V) (s : SteadyObj V) (m : Method) :
    SteadyObj V × Except Err (List V) :=
  match selectAlgo lang m with
  | .error e => (s, .error e)
  | .ok a => match runAlgo opt p a with
    | .error e => (s, .error e)
    | .ok r => (⟨some r, some r.x⟩, .ok r.x)

/-- `SteadyState.values`, `/repo/pynare/core/steady.py:69-73`. -/
def SteadyObj.values (opt : Minimizer V) (lang : String) (p : SteadyProblem V) (s : SteadyObj V) :
    SteadyObj V × Except Err (List V) :=
  match s.vals with
  | some v => (s, .ok v)
  | none => s.compute opt lang p .none

/-- `model.ss.compute(method)`: the property makes an object each time, `/repo/pynare/core/generic.py:188-194`. -/
def modelCompute (opt : Minimizer V) (lang : String) (p : SteadyProblem V) (m : Method) : Except Err (List V) :=
  (({} : SteadyObj V).compute opt lang p m).2

/-- `model.ss.values`, with an object of its own, `/repo/pynare/core/generic.py:188-194`. -/
def modelValues (opt : Minimizer V) (lang : String) (p : SteadyProblem V) : Except Err (List V) :=
  (({} : SteadyObj V).values opt lang p).2

/-- The problem of a model, `/repo/pynare/core/expressions.py:151-167` and `/repo/pynare/core/generic.py:196-202`. -/
def steadyProblem (ops : Ops V) (okName : String → Bool) (endo : List String) (σ : String → Option V)
    (es : List (Expr V)) (start : List V) : Except Err (SteadyProblem V) := do
  let fs ← steadyFuncs ops okName endo σ es
  .ok ⟨callAll fs, start⟩

/-- Requests on one `SteadyState` object. -/
inductive SteadyReq where
  | compute (m : Method)
  | values

/-- one request, `/repo/pynare/core/steady.py:25-73` -/
def SteadyObj.step (opt : Minimizer V) (lang : String) (p : SteadyProblem V) (s : SteadyObj V) :
    SteadyReq → SteadyObj V × Except Err (List V)
  | .compute m => s.compute opt lang p m
  | .values => s.values opt lang p

end
end Pynare

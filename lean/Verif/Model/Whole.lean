import Verif.Model.Reading
import Verif.Model.Steady
import Verif.Model.Linear
import Verif.Model.FirstOrder
import Verif.Model.SecondOrder
/-!
# From the definition of a model to its solution

Puts together what the other files model one by one: making a `StateSpace` finds the steady state, differentiates the
equations there and decomposes the jacobian; solving reads it.  What is left to libraries are the minimiser,
`autograd` and LAPACK.
-/

namespace Pynare

/-- The libraries a model is solved with: LAPACK, the generalised Schur decomposition of the second-order solver,
`autograd`, the minimiser, and the number that is not a number. -/
structure Libs (V : Type) where
  la : LinAlg V
  qz : Arr V → Arr V → Except Err (GQZ V)
  ad : Autograd V
  opt : Minimizer V
  nan : V

/-- A `StateSpace` together with what it is made from: the table of the variables, the number of shocks, the dynamic
equations, the steady values and the jacobian there, `/repo/pynare/core/solve/statespace.py:17-41`. -/
structure ModelSpace (V : Type) where
  indexes : Llx
  nExog : Nat
  dynamic : List (ResFun V)
  steady : List V
  jacobian : Arr V
  space : Space V

variable {V : Type} [Zero V] [One V] [Add V] [Mul V] [Neg V]

/-- `model.initial`, `/repo/pynare/core/generic.py:196-202`: `None` becomes nan. -/
def startValues (nan : V) (es : List (Endog V)) : List V := es.map fun e => e.initial.getD nan

/-- `StateSpace(model)`, `/repo/pynare/core/solve/statespace.py:19-41,126-150`, through `model.jacobian`,
`/repo/pynare/core/generic.py:361-364` and `/repo/pynare/core/expressions.py:207-209`, `model.ss.values`, `/repo/pynare/core/generic.py:188-194`, and
`/repo/pynare/core/linearizing.py:52-63`, where steady values of another number than the variables cannot be indexed.
Simplified: the steady state is computed once (the code computes it each time it is asked for, with the same result);
the matrix is not kept. -/
def modelSpace (lib : Libs V) (es : List (Endog V)) (nExog : Nat) (t : Llx) (st dy : List (ResFun V)) :
    Except Err (ModelSpace V) := do
  let ss ← modelValues lib.opt "dynare" ⟨callAll st, startValues lib.nan es⟩
  if ss.length ≠ t.n then .error .indexError
  else do
    let J ← modelJacobian lib.ad t.toTyper nExog dy ss
    let s ← Space.create lib.la t.toTyper J
    .ok ⟨t, nExog, dy, ss, J, s⟩

/-- `solve(order=1)`, `/repo/pynare/core/solve/first_order.py:23-25`, before the final `squeeze`. -/
def firstSolution (lib : Libs V) (sp : ModelSpace V) (_ : Sig V) : Except Err (Arr V × Arr V) :=
  solveFirstOrder lib.la sp.indexes sp.nExog sp.space

/-- The model object whose `StateSpace` and first-order solution are those above,
`/repo/pynare/core/model.py:191-205`. -/
def MEnv.first {SS S : Type} (e : MEnv V SS S) (lib : Libs V) : MEnv V (ModelSpace V) (Arr V × Arr V) :=
  ⟨e.ops, e.okName, e.parse, e.sqrt, modelSpace lib, firstSolution lib⟩

/-- What reading a file leaves to libraries, with solutions of first order, `/repo/pynare/core/model.py:65-101`. -/
def ReadEnv.first {SS S : Type} (r : ReadEnv V SS S) (lib : Libs V) : ReadEnv V (ModelSpace V) (Arr V × Arr V) :=
  ⟨r.cfg, r.pc, r.sq, r.env.first lib⟩

variable [Sub V] [DecidableEq V]

/-- `solve(order=2)`, `/repo/pynare/core/solve/second_order.py:22-34`: the first-order arrays, then those of the second
order, made from the hessian at the steady state and the covariance matrix; `half` is one half. -/
def secondSolution (lib : Libs V) (half : V) (sp : ModelSpace V) (sig : Sig V) :
    Except Err ((Arr V × Arr V) × SecondNd V) := do
  let (gy, gu) ← solveFirstOrder lib.la sp.indexes sp.nExog sp.space
  let H ← modelHessian lib.ad sp.indexes.toTyper sp.nExog sp.dynamic sp.steady
  let so ← solveSecondOrder lib.la lib.qz half sp.indexes.toTyper sp.nExog sp.jacobian H ⟨sp.nExog, sp.nExog, sig⟩
    (Nd.mat gy).squeeze (Nd.mat gu).squeeze
  .ok ((gy, gu), so.stored half)

/-- The model object whose `StateSpace` and second-order solution are those above,
`/repo/pynare/core/model.py:191-205`. -/
def MEnv.second {SS S : Type} (e : MEnv V SS S) (lib : Libs V) (half : V) :
    MEnv V (ModelSpace V) ((Arr V × Arr V) × SecondNd V) :=
  ⟨e.ops, e.okName, e.parse, e.sqrt, modelSpace lib, secondSolution lib half⟩

/-- What reading a file leaves to libraries, with solutions of second order, `/repo/pynare/core/model.py:65-101`. -/
def ReadEnv.second {SS S : Type} (r : ReadEnv V SS S) (lib : Libs V) (half : V) :
    ReadEnv V (ModelSpace V) ((Arr V × Arr V) × SecondNd V) :=
  ⟨r.cfg, r.pc, r.sq, r.env.second lib half⟩

end Pynare

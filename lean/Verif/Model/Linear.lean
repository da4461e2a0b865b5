import Verif.Model.Exprs
import Verif.Model.Arr
/-!
# Arrays of derivatives

Mirrors `/repo/pynare/core/linearizing.py`.  The library `autograd` is not part of the code: what its two
functions return is a parameter.
-/

namespace Pynare

variable {V : Type}

/-- What `autograd.grad` and `autograd.jacobian` return for a function, evaluated at a vector,
`/repo/pynare/core/linearizing.py:7`: a list of numbers, and a list of rows. -/
structure Autograd (V : Type) where
  grad : (List V → Except Err V) → List V → Except Err (List V)
  jacobian : (List V → Except Err (List V)) → List V → Except Err (List (List V))

/-- The assignment `jac[i, :] = row` to a row of `n` entries, `/repo/pynare/core/linearizing.py:47,144`:
a single number is repeated, any other length is refused. -/
def assignRow (n : Nat) (row : List V) : Except Err (List V) :=
  if row.length = n then .ok row
  else match row with
    | [v] => .ok (List.replicate n v)
    | _ => .error .valueError

/-- The loop at `/repo/pynare/core/linearizing.py:46-47,137-144`. -/
def assignRows (n : Nat) (p : List V) : List (List V → Except Err (List V)) → Except Err (List (List V))
  | [] => .ok []
  | f :: fs => do
    let row ← f p
    let row ← assignRow n row
    let rows ← assignRows n p fs
    .ok (row :: rows)

/-- The array with the given rows. -/
def rowsArr [Zero V] (n : Nat) (rows : List (List V)) : Arr V :=
  ⟨rows.length, n, fun i k => ((rows[i]?.getD [])[k]?).getD 0⟩

/-- `Linearization.differentiate_functions` and `Linearization.array`,
`/repo/pynare/core/linearizing.py:29-49`, of the functions `fs` at the point `p`.  Not modelled: that the
array is kept. -/
def jacobianArray [Zero V] (ad : Autograd V) (fs : List (List V → Except Err V)) (p : List V) :
    Except Err (Arr V) := do
  let rows ← assignRows p.length p (fs.map ad.grad)
  .ok (rowsArr p.length rows)

/-- `ModelHessian.differentiate_functions` and `ModelHessian.array`,
`/repo/pynare/core/linearizing.py:122-146`. -/
def hessianArray [Zero V] (ad : Autograd V) (fs : List (List V → Except Err V)) (p : List V) :
    Except Err (Arr V) := do
  let rows ← assignRows (p.length ^ 2) p (fs.map fun f x => do
    let h ← ad.jacobian (ad.grad f) x
    .ok h.flatten)
  .ok (rowsArr (p.length ^ 2) rows)

/-- `ModelJacobian(model).array`, `/repo/pynare/core/linearizing.py:96-106`, with the point of
lines 52-63. -/
def modelJacobian [Zero V] (ad : Autograd V) (t : Typer) (nStoch : Nat) (fs : List (List V → Except Err V))
    (ss : List V) : Except Err (Arr V) := jacobianArray ad fs (linPoint t nStoch ss)

/-- `ModelHessian(model).array`, `/repo/pynare/core/linearizing.py:110-146`, with the point of
lines 52-63. -/
def modelHessian [Zero V] (ad : Autograd V) (t : Typer) (nStoch : Nat) (fs : List (List V → Except Err V))
    (ss : List V) : Except Err (Arr V) := hessianArray ad fs (linPoint t nStoch ss)

/-- `SteadyJacobian(model).array`, `/repo/pynare/core/linearizing.py:73-88`. -/
def steadyJacobian [Zero V] (ad : Autograd V) (fs : List (List V → Except Err V)) (ss : List V) :
    Except Err (Arr V) := jacobianArray ad fs ss

end Pynare

import Verif.Spec.Order
import Verif.Spec.SecondUnique
/-!
# Specification vocabulary for models written in another order, at second order
-/

namespace Pynare

variable {V : Type}

/-- The model with equations `es`, solved to second order: `H` holds its second derivatives, for which the
order of differentiation does not matter, `sigma` the covariances of its shocks, and `so` the second-order
part of the solution.  Otherwise as `SolvedModel`. -/
structure SecondModel [Field V] [DecidableEq V] (φ : V →+* ℂ) (ops : Ops V) (okName : String → Bool) (ad : Autograd V)
    (la : LinAlg V) (qz : Arr V → Arr V → Except Err (GQZ V)) (half : V) (σ : String → Option V)
    (endo exo : List String) (es : List (Expr V)) (ss : List V) (t : Llx) (J H sigma gy gu : Arr V)
    (so : SecondNd V) (s : Space V) (q : QZ V) (ev : Nat → Option ℂ) : Prop extends
    SolvedModel φ ops okName ad la σ endo exo es ss t J gy gu s q ev where
  hessian : ∃ fs, dynamicFuncs ops okName endo exo t.toTyper σ es = .ok fs ∧
    modelHessian ad t.toTyper exo.length fs ss = .ok H
  symmetric : SymmetricHessian t exo.length H
  sigma_rows : sigma.r = exo.length
  sigma_cols : sigma.c = exo.length
  sigma_symm : ∀ j < exo.length, ∀ k < exo.length, sigma.e j k = sigma.e k j
  second : solveSecondOrder la qz half t.toTyper exo.length J H sigma (Nd.mat gy).squeeze (Nd.mat gu).squeeze = .ok so

end Pynare

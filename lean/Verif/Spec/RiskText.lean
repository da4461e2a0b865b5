import Verif.Spec.Whole
import Verif.Spec.Risk
/-!
# Specification vocabulary for risk in model files
-/

namespace Pynare

variable {V : Type}

/-- What the `shocks` block of a file says about the covariance of the `i`-th and the `j`-th shock: the variance or the
square of the standard deviation for `i = j`; a correlation times the square root of the product of the variances; a
covariance; or nothing, which means zero. -/
inductive FileCov [Mul V] [Zero V] [One V] (ops : Ops V) (sq : V → Except Err V) (sqrt : V → V) (exo : List String)
    (ρ : String → Option V) (ss : List (Shock V)) (i j : Nat) : V → Prop
  | var {x v} : i = j → exo[i]? = some x → VarOf ops sq ρ ss x v → FileCov ops sq sqrt exo ρ ss i j v
  | corr {x y e c vx vy} : exo[i]? = some x → exo[j]? = some y →
      Shock.corr x y e ∈ ss ∨ Shock.corr y x e ∈ ss → Evals ops ρ e c → VarOf ops sq ρ ss x vx →
      VarOf ops sq ρ ss y vy → FileCov ops sq sqrt exo ρ ss i j (sqrt (vx * vy) * c)
  | cov {x y e c} : exo[i]? = some x → exo[j]? = some y → Shock.cov x y e ∈ ss ∨ Shock.cov y x e ∈ ss →
      Evals ops ρ e c → FileCov ops sq sqrt exo ρ ss i j c
  | none {x y} : i ≠ j → exo[i]? = some x → exo[j]? = some y → (∀ s ∈ ss, ¬ s.isPair x y ∧ ¬ s.isPair y x) →
      FileCov ops sq sqrt exo ρ ss i j 0

end Pynare

import Verif.Spec.Sigma
/-!
# Specification vocabulary for shocks blocks with larger standard deviations
-/

namespace Pynare

variable {V : Type}

/-- Two shocks blocks about the same pairs of the shocks `names`.  In the second, standard deviations are `k` times as large:
variances and covariances are `k * k` times those in the first, correlations are the same. -/
structure BlockTimes [One V] [Mul V] (ops : Ops V) (sq : V → Except Err V) (ρ : String → Option V) (k : V) (names : List String)
    (ss ss' : List (Shock V)) : Prop where
  variances : ∀ x ∈ names, ∃ v, VarOf ops sq ρ ss x v ∧ VarOf ops sq ρ ss' x (k * k * v)
  correlations : ∀ x y e, Shock.corr x y e ∈ ss → ∃ c e', Evals ops ρ e c ∧ Shock.corr x y e' ∈ ss' ∧ Evals ops ρ e' c
  covariances : ∀ x y e, Shock.cov x y e ∈ ss →
    ∃ c e', Evals ops ρ e c ∧ Shock.cov x y e' ∈ ss' ∧ Evals ops ρ e' (k * k * c)
  others : ∀ s' ∈ ss', ∀ x y, s'.isPair x y → ∃ s ∈ ss, s.isPair x y

/-- The function gives the root of this number. -/
def RootAt [Zero V] [Mul V] [LE V] (f : V → V) (v : V) : Prop := 0 ≤ f v ∧ f v * f v = v

/-- The roots taken for the correlations of a shocks block, and for those with standard deviations `k` times as large, are
exact. -/
def RootsOfBlock [Zero V] [One V] [Mul V] [LE V] (ops : Ops V) (sq : V → Except Err V) (sqrt : V → V) (ρ : String → Option V) (k : V)
    (ss : List (Shock V)) : Prop :=
  ∀ x y e, Shock.corr x y e ∈ ss → ∀ v w, VarOf ops sq ρ ss x v → VarOf ops sq ρ ss y w →
    RootAt sqrt (v * w) ∧ RootAt sqrt (k * k * v * (k * k * w))

end Pynare

import Mathlib.Algebra.Algebra.Basic
import Verif.Model.Mean
import Verif.Spec.SecondOrder
/-!
# Specification vocabulary for the mean

Random variables are elements of some algebra, and expectation is a linear functional on it.
-/

namespace Pynare

variable {V R : Type} [CommRing V] [CommRing R] [Algebra V R]

/-- The shocks of a period have mean zero. -/
structure ShockMean (nExog : Nat) (E : R →ₗ[V] V) (u : Nat → R) : Prop where
  one : E 1 = 1
  zero : ∀ k < nExog, E (u k) = 0

/-- One period of a process that follows the policy functions `gy`, `gu`: `x` are the states of the last
period, `u` the shocks and `y` the variables as declared (all in deviation from the steady state).  The
states have the same mean in both periods. -/
structure FirstStep (t : Typer) (nExog : Nat) (gy gu : Arr V) (E : R →ₗ[V] V) (x u y : Nat → R) : Prop where
  policy : ∀ (i c : Nat), t.drOrder[i]? = some c →
    y c = (sumTo t.nBackward fun a => gy.e i a • x a) + sumTo nExog fun k => gu.e i k • u k
  mean : ∀ b < t.nBackward, E (stateVals t y b) = E (x b)

/-- Row `i` of `X` applied to the products of the entries of two vectors of random variables. -/
def quadRandom (X : Arr V) (i r : Nat) (v : Nat → R) (r' : Nat) (w : Nat → R) : R :=
  sumTo r fun a => sumTo r' fun b => X.e i (a * r' + b) • (v a * w b)

/-- The second-order part of this period: `x` and `w` are the first- and second-order parts of last period's
states, `y` and `z` those of all variables.  The shocks have covariances `sigma` and are uncorrelated with
the states; the first-order parts of the states have the same second moments in both periods, the
second-order parts the same mean. -/
structure SecondStep (t : Typer) (nExog : Nat) (gy sigma : Arr V) (s : SecondNd V) (E : R →ₗ[V] V)
    (x w u y z : Nat → R) : Prop where
  policy : ∀ (i c : Nat), t.drOrder[i]? = some c →
    z c = (sumTo t.nBackward fun a => gy.e i a • w a) +
      quadRandom s.ghxx.to2 i t.nBackward x t.nBackward x + quadRandom s.ghxu.to2 i t.nBackward x nExog u +
      quadRandom s.ghuu.to2 i nExog u nExog u + s.del2.to2.e i 0 • 1
  shocks : ∀ k < nExog, ∀ l < nExog, E (u k * u l) = sigma.e k l
  apart : ∀ a < t.nBackward, ∀ k < nExog, E (x a * u k) = 0
  moments : ∀ a < t.nBackward, ∀ b < t.nBackward, E (stateVals t y a * stateVals t y b) = E (x a * x b)
  mean : ∀ b < t.nBackward, E (stateVals t z b) = E (w b)

end Pynare

import Verif.Spec.Linear
/-!
# Specification vocabulary for expectations over next period's shocks
-/

namespace Pynare

variable {V : Type}

section
variable [Zero V] [Add V] [Mul V]

/-- The expected value of `f` when case `ω`, of `N`, has probability `w ω`. -/
def expect (N : Nat) (w f : Nat → V) : V := sumTo N fun ω => w ω * f ω

end

section
variable [Field V] [LinearOrder V]

/-- Shocks that take finitely many values: in case `ω`, which has probability `w ω`, shock `k` is `z ω k`.  They are zero
on average and have covariances `sigma`. -/
structure ShockDist (N : Nat) (w : Nat → V) (z : Nat → Nat → V) (nExog : Nat) (sigma : Arr V) : Prop where
  nonneg : ∀ ω < N, 0 ≤ w ω
  total : expect N w (fun _ => 1) = 1
  mean : ∀ k < nExog, expect N w (fun ω => z ω k) = 0
  cov : ∀ j < nExog, ∀ k < nExog, expect N w (fun ω => z ω j * z ω k) = sigma.e j k

/-- `y` is what a second-order solution makes of last period's deviations `ym` and the shocks `u`, with the constant for
risk multiplied by `κ`.  For `κ = 1` this is the solution as it is returned. -/
def FollowsRisk (t : Typer) (nExog : Nat) (s : SecondNd V) (gy gu : Arr V) (κ : V) (ym u y : Nat → V) : Prop :=
  ∀ (i c : Nat), t.drOrder[i]? = some c →
    y c = (sumTo t.nBackward fun b => gy.e i b * stateVals t ym b) + (sumTo nExog fun k => gu.e i k * u k) +
      quadForm s.ghxx.to2 i t.nBackward (stateVals t ym) t.nBackward (stateVals t ym) +
      quadForm s.ghxu.to2 i t.nBackward (stateVals t ym) nExog u +
      quadForm s.ghuu.to2 i nExog u nExog u + κ * s.del2.to2.e i 0

end

end Pynare

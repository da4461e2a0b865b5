import Verif.Spec.SecondOrder
import Verif.Spec.Stability
/-!
# Specification vocabulary for the uniqueness of second-order solutions

What the second order adds to a solution is any function `F` of last period's variables and the shocks,
not necessarily one that comes from arrays of coefficients.
-/

namespace Pynare

variable {V : Type} [Field V]

/-- Adding `F` to the first-order solution `gy`, `gu` makes the second-order part of every equation vanish,
wherever the variables were and whatever the shocks: if the first-order part is `y` now and `yp` next
period, then half the second derivative in that direction plus the effects of `F ym u` now and of what
follows from it, with the addition `F y 0`, next period is zero. -/
def SolvesSecond (t : Llx) (nExog : Nat) (half : V) (J H gy gu : Arr V) (F : (Nat → V) → (Nat → V) → Nat → V) : Prop :=
  ∀ ym u y yp q' : Nat → V, FollowsPolicy t.toTyper nExog gy gu ym u y →
    FollowsPolicy t.toTyper nExog gy gu y (fun _ => 0) yp →
    (∀ (i c : Nat), t.drOrder[i]? = some c →
      q' c = (sumTo t.nBackward fun b => gy.e i b * stateVals t.toTyper (F ym u) b) + F y (fun _ => 0) c) →
    ∀ i < t.n, half * curvature t nExog H i ⟨ym, y, yp, u⟩ ⟨ym, y, yp, u⟩ +
      linearised t nExog J i (fun _ => 0) (F ym u) q' (fun _ => 0) = 0

/-- `F` is bounded as long as the variables (the first `n`) and the shocks (the first `m`) are. -/
def BoundedOnBounded (φ : V →+* ℂ) (n m : Nat) (F : (Nat → V) → (Nat → V) → Nat → V) : Prop :=
  ∀ X : ℝ, ∃ B : ℝ, ∀ x u : Nat → V, (∀ c < n, ‖φ (x c)‖ ≤ X) → (∀ k < m, ‖φ (u k)‖ ≤ X) →
    ∀ c < n, ‖φ (F x u c)‖ ≤ B

/-- The shock `j` alone, of size one. -/
def unitShock (j : Nat) : Nat → V := fun k => if k = j then 1 else 0

/-- What the shocks `j` and `k` add together beyond what they add one by one, halved. -/
def pairEffect (half : V) (F : (Nat → V) → (Nat → V) → Nat → V) (c j k : Nat) : V :=
  half * (F (fun _ => 0) (fun l => unitShock j l + unitShock k l) c - F (fun _ => 0) (unitShock j) c -
    F (fun _ => 0) (unitShock k) c)

/-- Adding the constant `c` as well makes up for the risk of next period's shocks, whose covariances are
`sigma`: half the expected second derivative of every equation, plus the effects of `c` now and, next
period, of `c`, what follows from it and what `F` is expected to add, is zero. -/
def SolvesRisk (t : Llx) (nExog : Nat) (half : V) (J H sigma gy gu : Arr V)
    (F : (Nat → V) → (Nat → V) → Nat → V) (c : Nat → V) : Prop :=
  ∀ (lead : Nat → Nat → V) (e : Nat → V),
    (∀ j < nExog, FollowsPolicy t.toTyper nExog gy gu (fun _ => 0) (unitShock j) (lead j)) →
    (∀ (i v : Nat), t.drOrder[i]? = some v → e v = c v +
      (sumTo t.nBackward fun b => gy.e i b * stateVals t.toTyper c b) +
      overShocks nExog sigma fun j k => pairEffect half F v j k) →
    ∀ i < t.n, half * (overShocks nExog sigma fun j k => curvature t nExog H i
        ⟨fun _ => 0, fun _ => 0, lead j, fun _ => 0⟩ ⟨fun _ => 0, fun _ => 0, lead k, fun _ => 0⟩) +
      linearised t nExog J i (fun _ => 0) c e (fun _ => 0) = 0

end Pynare

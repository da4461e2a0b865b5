import Verif.Model.Linear
import Verif.Spec.SecondOrder
import Mathlib.Algebra.Order.Field.Basic
import Mathlib.Algebra.Order.Group.Abs
/-!
# Specification vocabulary for derivatives and approximate solutions
-/

namespace Pynare

variable {V : Type}

section
variable [Field V] [LinearOrder V]

/-- The entry of a vector. -/
def vecEntry (x : List V) (k : Nat) : V := (x[k]?).getD 0

/-- All entries of `x` are within `r` of those of `p`. -/
def Near (p : List V) (r : V) (x : List V) : Prop :=
  x.length = p.length ∧ ∀ k < p.length, |vecEntry x k - vecEntry p k| ≤ r

/-- `g` holds the partial derivatives of `f` at `p`: `f` has values near `p`, and the error of the linear
approximation is small compared with the distance. -/
def IsDerivAt (f : List V → Except Err V) (p : List V) (g : Nat → V) : Prop :=
  ∃ v₀, f p = .ok v₀ ∧ ∀ ε > 0, ∃ δ > 0, ∀ r, 0 ≤ r → r ≤ δ → ∀ x, Near p r x → ∃ v, f x = .ok v ∧
    |v - v₀ - sumTo p.length fun k => g k * (vecEntry x k - vecEntry p k)| ≤ ε * r

/-- `g` holds the first, `h` the second partial derivatives of `f` at `p`, those for entry `k` before those for
entry `k + 1`: the error of the quadratic approximation is small compared with the square of the distance. -/
def IsTaylorAt (f : List V → Except Err V) (p : List V) (g h : Nat → V) : Prop :=
  ∃ v₀, f p = .ok v₀ ∧ ∀ ε > 0, ∃ δ > 0, ∀ r, 0 ≤ r → r ≤ δ → ∀ x, Near p r x → ∃ v, f x = .ok v ∧
    |v - v₀ - (sumTo p.length fun k => g k * (vecEntry x k - vecEntry p k)) -
      1 / 2 * sumTo p.length fun k => sumTo p.length fun l =>
        h (k * p.length + l) * ((vecEntry x k - vecEntry p k) * (vecEntry x l - vecEntry p l))| ≤ ε * (r * r)

/-- Row `k` of `h` holds the partial derivatives of entry `k` of `G` at `p`. -/
def IsJacobianAt (G : List V → Except Err (List V)) (p : List V) (h : List (List V)) : Prop :=
  ∃ g₀, G p = .ok g₀ ∧ h.length = g₀.length ∧ ∀ ε > 0, ∃ δ > 0, ∀ r, 0 ≤ r → r ≤ δ → ∀ x, Near p r x →
    ∃ g, G x = .ok g ∧ ∀ k < g₀.length,
      |vecEntry g k - vecEntry g₀ k - sumTo p.length fun l => vecEntry (h[k]?.getD []) l * (vecEntry x l - vecEntry p l)| ≤ ε * r

/-- What `autograd` returns is exact: the first function returns the derivatives of a function with numbers
for values, the second those of a function with vectors for values. -/
structure Autograd.Exact (ad : Autograd V) : Prop where
  grad : ∀ f p g, ad.grad f p = .ok g → g.length = p.length ∧ IsDerivAt f p (vecEntry g)
  jacobian : ∀ G p h, ad.jacobian G p = .ok h → (∀ row ∈ h, row.length = p.length) ∧ IsJacobianAt G p h

/-- Differentiating `f` twice with `autograd` gives symmetric second derivatives that approximate it to second order at
`p`.  Over the real numbers this follows from `Autograd.Exact`. -/
def Autograd.SecondExactAt (ad : Autograd V) (f : List V → Except Err V) (p : List V) : Prop :=
  ∀ h, ad.jacobian (ad.grad f) p = .ok h → ∃ g, ad.grad f p = .ok g ∧ h.length = p.length ∧
    (∀ k < p.length, ∀ l < p.length, vecEntry (h[k]?.getD []) l = vecEntry (h[l]?.getD []) k) ∧
    ∀ H : Nat → V, (∀ k < p.length, ∀ l < p.length, H (k * p.length + l) = vecEntry (h[k]?.getD []) l) →
      IsTaylorAt f p (vecEntry g) H

/-- `vec` is the vector of arguments of the equations when the variables deviate by `d` from the steady state
`ss`. -/
structure Assembled (t : Llx) (nExog : Nat) (ss : List V) (d : Around V) (vec : List V) : Prop where
  len : vec.length = t.count + nExog
  before : ∀ c k, t.cell 0 c = some k → vec[k]? = some (vecEntry ss c + d.before c)
  now : ∀ c k, t.cell 1 c = some k → vec[k]? = some (vecEntry ss c + d.now c)
  after : ∀ c k, t.cell 2 c = some k → vec[k]? = some (vecEntry ss c + d.after c)
  shock : ∀ j < nExog, vec[t.count + j]? = some (d.shock j)

/-- `y` is what a second-order solution makes of last period's deviations `ym` and the shocks `u`, leaving out
the constant for risk. -/
def FollowsSecond (t : Typer) (nExog : Nat) (s : SecondNd V) (gy gu : Arr V) (ym u y : Nat → V) : Prop :=
  ∀ (i c : Nat), t.drOrder[i]? = some c →
    y c = (sumTo t.nBackward fun b => gy.e i b * stateVals t ym b) + (sumTo nExog fun k => gu.e i k * u k) +
      quadForm s.ghxx.to2 i t.nBackward (stateVals t ym) t.nBackward (stateVals t ym) +
      quadForm s.ghxu.to2 i t.nBackward (stateVals t ym) nExog u +
      quadForm s.ghuu.to2 i nExog u nExog u

end

end Pynare

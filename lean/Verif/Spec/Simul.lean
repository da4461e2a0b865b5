import Verif.Model.Simul
import Verif.Spec.FirstOrder
/-!
# Specification vocabulary for simulations
-/

namespace Pynare

variable {V : Type}

/-- Row `k` of an array of paths in deviation from the steady state. -/
def dev [Zero V] [Sub V] (ys : List V) (paths : Arr V) (k : Nat) : Nat → V :=
  fun c => paths.e k c - ys[c]?.getD 0

section
variable [Zero V] [One V] [Add V] [Mul V]

/-- The factorisation of the covariance matrix is exact: `uᵀ u` is the matrix. -/
def CholExact (chol : Chol V) : Prop :=
  ∀ s u, chol s = .ok u → u.r = s.r ∧ u.c = s.r ∧ s.c = s.r ∧ u.tr.IsProd u s

/-- The second-order Taylor expansion of the policy of variable number `i` (decision-rule order) at
deviations `yhat` of the states and shocks `u`: `ghxx` and `ghuu` are the second derivatives, column
`j * (number of states) + l` belonging to the pair `j`, `l` (`ghxu`: state `j`, shock `l`); `del2` is the
constant, `yss` the steady state. -/
def taylor2 (half : V) (gy gu : Arr V) (s : Second V) (yss : V) (yhat u : List V) (i : Nat) : V :=
  yss + s.del2.e i 0 +
    (sumTo yhat.length fun j => gy.e i j * yhat[j]?.getD 0) +
    (sumTo u.length fun j => gu.e i j * u[j]?.getD 0) +
    half * (sumTo yhat.length fun j => sumTo yhat.length fun l =>
      s.ghxx.e i (j * yhat.length + l) * (yhat[j]?.getD 0 * yhat[l]?.getD 0)) +
    half * (sumTo u.length fun j => sumTo u.length fun l =>
      s.ghuu.e i (j * u.length + l) * (u[j]?.getD 0 * u[l]?.getD 0)) +
    (sumTo yhat.length fun j => sumTo u.length fun l =>
      s.ghxu.e i (j * u.length + l) * (yhat[j]?.getD 0 * u[l]?.getD 0))

/-- The second-order arrays have the shapes that belong to `n` variables, `nb` states and `k` shocks. -/
def Second.Fits (s : Second V) (n nb k : Nat) : Prop :=
  (s.ghxx.r = n ∧ s.ghxx.c = nb * nb) ∧ (s.ghuu.r = n ∧ s.ghuu.c = k * k) ∧
  (s.ghxu.r = n ∧ s.ghxu.c = nb * k)

end

end Pynare

import Mathlib.Algebra.Module.LinearMap.Basic
import Mathlib.Algebra.Module.LinearMap.End
import Mathlib.Algebra.Order.Field.Basic
import Mathlib.Algebra.Order.AbsoluteValue.Basic
import Verif.Model.Stats
/-!
# Specification vocabulary for moments

Random variables are vectors of some module, and their covariance is a symmetric bilinear form on it; the
statements hold whatever these are.
-/

namespace Pynare

variable {V : Type}

/-- The solver of the Lyapunov equation is exact whenever it returns: `X = A X Aᵀ + Q`. -/
def LyapExact [CommRing V] (lyap : Lyap V) : Prop :=
  ∀ A Q X : Arr V, A.c = A.r → Q.r = A.r → Q.c = A.r → lyap A Q = .ok X → X.r = A.r ∧ X.c = A.r ∧
    ∀ i < A.r, ∀ j < A.r,
      X.e i j = (sumTo A.r fun k => sumTo A.r fun l => A.e i k * X.e k l * A.e j l) + Q.e i j

/-- The arrays have the shapes of a first-order solution: the table lists every variable once, and there is a
row for every variable and a column for every state. -/
structure SolutionShape (t : Typer) (gy gu : Arr V) : Prop where
  perm : t.drOrder.Perm (List.range t.n)
  gyr : gy.r = t.n
  gyc : gy.c = t.nBackward
  gur : gu.r = t.n

/-- A stochastic process that follows the policy functions `gy`, `gu`: `y k c` is variable `c` (as declared)
in period `k`, `u k l` is shock `l` in period `k`.  Shocks have covariances `sigma` within a period, none
across periods, and none with the variables in period zero. -/
structure LinearProcess [CommRing V] {M : Type} [AddCommGroup M] [Module V M] (t : Typer) (m : Nat)
    (gy gu sigma : Arr V) (cov : M →ₗ[V] M →ₗ[V] V) (y u : Nat → Nat → M) : Prop where
  policy : ∀ k i c : Nat, t.drOrder[i]? = some c →
    y (k + 1) c = (sumTo t.nBackward fun j => gy.e i j • y k (t.drState[j]?.getD 0)) +
      sumTo m fun l => gu.e i l • u (k + 1) l
  symm : ∀ a b, cov a b = cov b a
  within : ∀ k, ∀ l < m, ∀ l' < m, cov (u k l) (u k l') = sigma.e l l'
  across : ∀ k k', k ≠ k' → ∀ l < m, ∀ l' < m, cov (u k l) (u k' l') = 0
  start : ∀ k c l, l < m → cov (y 0 c) (u (k + 1) l) = 0

/-- The states start with the covariances `X`. -/
def StartsWith [CommRing V] {M : Type} [AddCommGroup M] [Module V M] (t : Typer) (X : Arr V)
    (cov : M →ₗ[V] M →ₗ[V] V) (y : Nat → Nat → M) : Prop :=
  ∀ i < t.nBackward, ∀ j < t.nBackward,
    cov (y 0 (t.drState[i]?.getD 0)) (y 0 (t.drState[j]?.getD 0)) = X.e i j

/-- The covariance of variables `c` and `d` tends to `v`. -/
def LongRun [CommRing V] [LinearOrder V] {M : Type} [AddCommGroup M] [Module V M]
    (cov : M →ₗ[V] M →ₗ[V] V) (y : Nat → Nat → M) (c d : Nat) (v : V) : Prop :=
  ∀ ε : V, 0 < ε → ∃ k0, ∀ k ≥ k0, |cov (y (k + 1) c) (y (k + 1) d) - v| < ε

/-- `k` periods after the states were `x`, without shocks. -/
def iterate [CommRing V] (A : Arr V) (x : Nat → V) : Nat → Nat → V
  | 0 => x
  | k + 1 => fun i => sumTo A.r fun j => A.e i j * iterate A x k j

/-- Without shocks the states return to the steady state. -/
def Stable [CommRing V] [LinearOrder V] (A : Arr V) : Prop :=
  ∀ (x : Nat → V) (ε : V), 0 < ε → ∃ k0, ∀ k ≥ k0, ∀ i < A.r, |iterate A x k i| < ε

/-- The part of the policy function that moves the states. -/
def stateRows (t : Typer) (gy : Arr V) : Arr V :=
  ⟨t.nBackward, t.nBackward, fun i j => gy.e ((t.permute t.drOrder).state[i]?.getD 0) j⟩

/-- No linear combination has a negative variance. -/
def PosSemi [CommRing V] [LinearOrder V] (C : Arr V) : Prop :=
  ∀ w : Nat → V, 0 ≤ sumTo C.r fun i => sumTo C.r fun j => w i * C.e i j * w j

/-- A symmetric square array. -/
def SymmArr (C : Arr V) : Prop := C.c = C.r ∧ ∀ i < C.r, ∀ j < C.r, C.e i j = C.e j i

/-- `sq` finds the square root of `x`. -/
def RootOf [Field V] [LinearOrder V] (sq : V → Option V) (x : V) : Prop :=
  ∃ r, sq x = some r ∧ 0 ≤ r ∧ r * r = x

/-- A lower factor is exact whenever there is one: `L Lᵀ` is the given array, and `L` is lower triangular with
a positive diagonal. -/
def CholLower [CommRing V] [LinearOrder V] (chol : Chol V) : Prop :=
  ∀ s L : Arr V, chol s = .ok L → L.r = s.r ∧ L.c = s.r ∧ s.c = s.r ∧
    (∀ i < s.r, ∀ j < s.r, (sumTo s.r fun k => L.e i k * L.e j k) = s.e i j) ∧
    (∀ i < s.r, ∀ j < s.r, i < j → L.e i j = 0) ∧ ∀ i < s.r, 0 < L.e i i

/-- The covariance matrix with the small number `tol` added to the variances. -/
def perturbed [CommRing V] (tol : V) (sigma : Arr V) : Arr V :=
  ⟨sigma.r, sigma.c, fun i j => sigma.e i j + if i = j then tol else 0⟩

/-- Only shock `i` is active, with the variance it has in `sigma`. -/
def onlyShock [CommRing V] (sigma : Arr V) (i : Nat) : Arr V :=
  ⟨sigma.r, sigma.c, fun k l => if k = i ∧ l = i then sigma.e i i else 0⟩

/-- Column `j` of `out` is the column of the data that carries the name of observed variable `j`. -/
def Labelled (obs labels : List String) (data out : Arr V) : Prop :=
  out.r = data.r ∧ out.c = obs.length ∧ ∀ (i j : Nat) (o : String), obs[j]? = some o → labels[i]? = some o →
    ∀ k < data.r, out.e k j = data.e k i

end Pynare

import Verif.Spec.Stats
import Verif.Model.Filter
/-!
# Specification vocabulary for filters
-/

namespace Pynare

variable {V : Type}

/-- LAPACK is exact whenever it succeeds: for a symmetric array, the entries on and above the diagonal of the result
are those of a symmetric inverse. -/
def LapackExact [CommRing V] (lp : Lapack V) : Prop :=
  ∀ a c b : Arr V, SymmArr a → lp.potrf a = some c → lp.potri c = some b → b.r = a.r ∧ b.c = a.r ∧
    ∃ g : Nat → Nat → V,
      (∀ i < a.r, ∀ j < a.r, g i j = g j i ∧ (sumTo a.r fun l => a.e i l * g l j) = if i = j then 1 else 0) ∧
      ∀ i < a.r, ∀ j < a.r, i ≤ j → b.e i j = g i j

/-- The arguments of the filter fit: `n` states, of which those at `locs` are observed, symmetric covariances. -/
structure KShape (n : Nat) (x0 P0 T Q : Arr V) (locs : List Nat) : Prop where
  x : x0.r = n ∧ x0.c = 1
  t : T.r = n ∧ T.c = n
  p : P0.r = n ∧ SymmArr P0
  q : Q.r = n ∧ SymmArr Q
  locs : ∀ k ∈ locs, k < n

/-- The number of the `k`-th observed state. -/
def obsAt (locs : List Nat) (k : Nat) : Nat := locs[k]?.getD 0

section process

variable [CommRing V] {M : Type} [AddCommGroup M] [Module V M]

/-- States that follow `s(t+1) = T s(t) + e(t+1)`.  Innovations have mean zero and covariances `Q` within a period, none
across periods and none with the first states, which have means `x0` and covariances `P0`.  Random variables are
vectors of a module; `cov` and `mean` are whatever is linear in them. -/
structure ObservedProcess (n : Nat) (x0 P0 T Q : Arr V) (cov : M →ₗ[V] M →ₗ[V] V) (mean : M →ₗ[V] V)
    (s e : Nat → Nat → M) : Prop where
  step : ∀ t, ∀ i < n, s (t + 1) i = (sumTo n fun j => T.e i j • s t j) + e (t + 1) i
  symm : ∀ a b, cov a b = cov b a
  within : ∀ t, ∀ i < n, ∀ j < n, cov (e (t + 1) i) (e (t + 1) j) = Q.e i j
  across : ∀ t t', t ≠ t' → ∀ i < n, ∀ j < n, cov (e (t + 1) i) (e (t' + 1) j) = 0
  start : ∀ t, ∀ i < n, ∀ j < n, cov (s 0 i) (e (t + 1) j) = 0
  first : ∀ i < n, ∀ j < n, cov (s 0 i) (s 0 j) = P0.e i j
  firstMean : ∀ i < n, mean (s 0 i) = x0.e i 0
  noise : ∀ t, ∀ i < n, mean (e (t + 1) i) = 0

/-- A linear combination, with weights `w τ k`, of what was observed before period `N`. -/
def weighted (locs : List Nat) (w : Nat → Nat → V) (s : Nat → Nat → M) (N : Nat) : M :=
  sumTo N fun τ => sumTo locs.length fun k => w τ k • s τ (obsAt locs k)

/-- State `i` in period `N` is predicted by `c i` plus the observations weighted with `w i`: the prediction is right on
average, its error is uncorrelated with everything observed before, and the errors have covariances `P`. -/
structure Predicts (n : Nat) (locs : List Nat) (N : Nat) (c : Nat → V) (w : Nat → Nat → Nat → V) (P : Arr V)
    (cov : M →ₗ[V] M →ₗ[V] V) (mean : M →ₗ[V] V) (s : Nat → Nat → M) : Prop where
  unbiased : ∀ i < n, mean (s N i) = c i + mean (weighted locs (w i) s N)
  uncorrelated : ∀ i < n, ∀ τ < N, ∀ k < locs.length,
    cov (s N i - weighted locs (w i) s N) (s τ (obsAt locs k)) = 0
  errors : ∀ i < n, ∀ j < n,
    cov (s N i - weighted locs (w i) s N) (s N j - weighted locs (w j) s N) = P.e i j

end process

/-- The same with numbers: `c` plus the weighted data of the first `N` periods. -/
def weightedData [CommRing V] (m : Nat) (c : V) (w : Nat → Nat → V) (data : Arr V) (N : Nat) : V :=
  c + sumTo N fun τ => sumTo m fun k => w τ k * data.e τ k

/-- The logarithm of the density of a normal vector of length `m`: `d` is the logarithm of the determinant of its
covariance matrix, `G` the inverse of that matrix, `v` the deviation from the mean, `c` stands for `log 2π`. -/
def normalLogDensity [Field V] (c : V) (m : Nat) (d : V) (G : Nat → Nat → V) (v : Nat → V) : V :=
  -(m * c + d + sumTo m fun k => sumTo m fun l => v k * G k l * v l) / 2

end Pynare

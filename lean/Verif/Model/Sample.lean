import Mathlib.Algebra.Field.Basic
import Verif.Model.Simul
import Verif.Model.Stats
/-!
# Sample moments of simulated paths

Mirrors `ModelSimulation.corr` and `ModelSimulation.autocorr` of `/repo/pynare/simul.py`.  Floating point is
not modelled: arithmetic is that of a field, and a result that is not a number or infinite is `none`.
-/

namespace Pynare

variable {V : Type} [Field V] [DecidableEq V]

/-- A quotient as numpy computes it (`/repo/pynare/simul.py:70,72,124,125`): division by zero gives no number. -/
def quot (a b : V) : Option V := if b = 0 then none else some (a / b)

/-- `np.mean(paths, axis=0)`, `/repo/pynare/simul.py:67,115`; of no periods it is not a number. -/
def colMean (x : Arr V) (j : Nat) : Option V := quot (sumTo x.r fun k => x.e k j) (x.r : V)

/-- `centered[k, j]`, `/repo/pynare/simul.py:67,115`, for a mean that is a number. -/
def devn (x : Arr V) (m : V) (k j : Nat) : V := x.e k j - m

/-- `cov[i, j]`, `/repo/pynare/simul.py:70`. -/
def sampleCov (x : Arr V) (i j : Nat) : Option V := match colMean x i, colMean x j with
  | some a, some b => quot (sumTo x.r fun k => devn x a k i * devn x b k j) (x.r : V)
  | _, _ => none

/-- `np.std(paths, axis=0)`, `/repo/pynare/simul.py:71`, the root of the mean square; `sq` is `np.sqrt`. -/
def sampleStd (sq : V → Option V) (x : Arr V) (j : Nat) : Option V := match sampleCov x j j with
  | some v => sq v
  | none => none

/-- `corr`, `/repo/pynare/simul.py:45-75`. -/
def sampleCorr (sq : V → Option V) (paths : Arr V) (drop : Int) : Except Err (Arr (Option V)) := do
  let x ← dropPaths paths drop
  .ok ⟨x.c, x.c, fun i j => match sampleCov x i j with
    | some c => scaled c (sampleStd sq x i) (sampleStd sq x j)
    | none => none⟩

/-- `arr[j, k - 1]`, `/repo/pynare/simul.py:120-125`. -/
def lagCorr (x : Arr V) (k j : Nat) : Option V := match colMean x j, sampleCov x j j with
  | some m, some v => match quot (sumTo (x.r - k) fun i => devn x m (i + k) j * devn x m i j) ((x.r : V) - (k : V)) with
    | some ssq => quot ssq v
    | none => none
  | _, _ => none

/-- `autocorr`, `/repo/pynare/simul.py:78-131`: `np.full` refuses a negative number of columns. -/
def sampleAutocorr (paths : Arr V) (p drop : Int) : Except Err (Arr (Option V)) := do
  let x ← dropPaths paths drop
  if p > x.r then .error .valueError
  else if p < 0 then .error .valueError
  else .ok ⟨x.c, p.toNat, fun j k => lagCorr x (k + 1) j⟩

end Pynare

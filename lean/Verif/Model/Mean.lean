import Verif.Model.SecondOrder
import Verif.Model.Stats
/-!
# The mean of a solved model

Mirrors `mean` of `/repo/pynare/stats/moments.py`.
-/

namespace Pynare

variable {V : Type} [Zero V] [One V] [Add V] [Mul V] [Neg V] [Sub V]

/-- `x.flatten()` of a two-dimensional array. -/
def flatNd (x : Arr V) : Nd V := .vec (x.r * x.c) fun k => x.e (k / x.c) (k % x.c)

/-- `second_order`, `/repo/pynare/stats/moments.py:52-53`. -/
def stateShift (half : V) (idx : List Nat) (sol : SecondNd V) (X sigma : Arr V) : Except Err (Nd V) := do
  let d ← sol.del2.rows idx
  let xs ← sol.ghxx.rows idx
  let x ← Nd.matmul xs (flatNd X)
  let us ← sol.ghuu.rows idx
  let u ← Nd.matmul us (flatNd sigma)
  let dx ← Nd.zip (· + ·) d x
  let s ← Nd.zip (· + ·) dx u
  .ok (s.map (half * ·))

/-- `adj_mean_inv`, `/repo/pynare/stats/moments.py:57-59`. -/
def meanShift (half : V) (gy : Nd V) (sol : SecondNd V) (X sigma : Arr V) (ex : Nd V) : Except Err (Nd V) := do
  let g ← Nd.matmulScalar gy ex
  let x ← Nd.matmulScalar sol.ghxx (flatNd X)
  let u ← Nd.matmulScalar sol.ghuu (flatNd sigma)
  let dx ← Nd.zip (· + ·) sol.del2 x
  let s ← Nd.zip (· + ·) dx u
  Nd.zip (· + ·) g (s.map (half * ·))

/-- `mean` of a model solved to second order, `/repo/pynare/stats/moments.py:40-62`; `sol` are the arrays
of the solution object, `ss` the steady state, `half` is one half. -/
def meanSecond (la : LinAlg V) (lyap : Lyap V) (half : V) (t : Typer) (s : Space V) (gy gu sigma : Arr V)
    (sol : SecondNd V) (ss : Nat → V) : Except Err (Nd V) := do
  let X ← stateVar la lyap t s gy gu sigma
  let AB ← kalmanTransition la t s gy gu
  let b ← stateShift half (t.permute t.drOrder).state sol X sigma
  let ex ← la.solveNd ⟨AB.1.r, AB.1.c, fun i j => (if i = j then 1 else 0) - AB.1.e i j⟩ b
  let m ← meanShift half (Nd.mat gy).squeeze sol X sigma ex
  let d ← m.rows t.dcOrder
  Nd.zip (· + ·) (.vec t.n ss) d

/-- `mean`, `/repo/pynare/stats/moments.py:13-68`, for a solution of the given order. -/
def mean (la : LinAlg V) (lyap : Lyap V) (half : V) (order : Nat) (t : Typer) (s : Space V)
    (gy gu sigma : Arr V) (sol : SecondNd V) (ss : Nat → V) : Except Err (Nd V) :=
  if order = 1 then .ok (.vec t.n ss)
  else if order = 2 then meanSecond la lyap half t s gy gu sigma sol ss
  else .error .notImplemented

end Pynare

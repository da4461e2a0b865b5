import Verif.Model.FirstOrder
/-!
# Simulations and impulse responses

Mirrors `/repo/pynare/simul.py` and `/repo/pynare/impulse.py`.

Arrays of solutions are given before numpy's `squeeze`; `Arr.squeezed` accounts for it.  Floating point
is not modelled.
-/

namespace Pynare

variable {V : Type}

/-- The results of the linear algebra the simulation needs: `scipy.linalg.cholesky`, which raises
`LinAlgError` (here `valueError`) unless its argument is positive definite. -/
abbrev Chol (V : Type) := Arr V → Except Err (Arr V)

/-- `row[order] = v`: later positions win over earlier ones. -/
def scatter (order : List Nat) (v : Nat → V) (row : Nat → V) : Nat → V :=
  order.zipIdx.foldl (fun row p => fun c => if c = p.1 then v p.2 else row c) row

/-- `dr_order[dr.state]`, `/repo/pynare/simul.py:168-172,196`: the state variables in the order of the
columns of the policy matrix.  (A single one is turned into a number, which changes nothing.) -/
def Typer.drState (t : Typer) : List Nat :=
  (t.permute t.drOrder).state.map fun j => t.drOrder[j]?.getD 0

section
variable [Zero V] [One V] [Add V] [Mul V] [Neg V] [Sub V]

/-- `paths[t, dr_order] = np.dot(gy, paths[t-1, dr_state]) + innovs[t-1, :]`,
`/repo/pynare/simul.py:203-205`. -/
def stepFirst (t : Typer) (gy : Arr V) (innov : Nat → V) (prev : Nat → V) : Nat → V :=
  scatter t.drOrder
    (fun i => (sumTo gy.c fun j => gy.e i j * prev (t.drState[j]?.getD 0)) + innov i) fun _ => 0

/-- The rows of `paths` in deviation from the steady state, `/repo/pynare/simul.py:187,203-205`. -/
def devFirst (t : Typer) (gy : Arr V) (innov : Nat → Nat → V) (d0 : Nat → V) : Nat → Nat → V
  | 0 => d0
  | k + 1 => stepFirst t gy (innov k) (devFirst t gy innov d0 k)

/-- `_simulate_first_order`, `/repo/pynare/simul.py:174-209`.  `paths[0, :]` raises `IndexError`
without periods.  Simplified: an initial value of the wrong length raises `ValueError` (numpy repeats a
single one). -/
def simulateFirst (t : Typer) (gy gu : Arr V) (ys : List V) (shocks : Arr V) (init : List V) :
    Except Err (Arr V) :=
  if shocks.r = 0 then .error .indexError
  else if init.length ≠ ys.length then .error .valueError
  else do
    let innovs ← shocks.dot gu.squeezed.tr
    if gu.r * gu.c = 0 then .error .notImplemented
    else if gy.r * gy.c = 0 then .error .notImplemented
    else if shocks.r > 1 ∧ ¬ (gy.c = t.drState.length ∧ gy.r = t.drOrder.length ∧ innovs.c = gy.r) then
      .error .valueError
    else
      let d0 := fun c => init[c]?.getD 0 - ys[c]?.getD 0
      .ok ⟨shocks.r, ys.length, fun k c => devFirst t gy innovs.e d0 k c + ys[c]?.getD 0⟩

/-- The arrays of a second-order solution. -/
structure Second (V : Type) where
  ghxx : Arr V
  ghxu : Arr V
  ghuu : Arr V
  del2 : Arr V

/-- `h * a`. -/
def Arr.scale (h : V) (a : Arr V) : Arr V := ⟨a.r, a.c, fun i j => h * a.e i j⟩

/-- `SecondOrderSolution.solve` stores half of two of the arrays computed,
`/repo/pynare/core/solve/second_order.py:31-32`; `half` is one half. -/
def Second.stored (half : V) (s : Second V) : Second V :=
  ⟨s.ghxx.scale half, s.ghxu, s.ghuu.scale half, s.del2⟩

/-- The arrays used by the simulation, `/repo/pynare/simul.py:229-230`. -/
def Second.used (half : V) (s : Second V) : Second V :=
  ⟨s.ghxx.scale half, s.ghxu, s.ghuu.scale half, s.del2.scale half⟩

/-- A term of the sum at `/repo/pynare/simul.py:252`; a two-dimensional one makes the sum
two-dimensional, and it no longer fits into the row (unless the row has one entry). -/
def termOf (n : Nat) : Arr12 V → Except Err (Nat → V)
  | .one v => .ok fun i => v[i]?.getD 0
  | .two a => if n = 1 then .ok fun i => a.e i 0 else .error .valueError

/-- `paths[t, dr_order]`, `/repo/pynare/simul.py:239-252`, from the deviations `yhat` of the states, the
shocks `u` and the arrays used.  The products of `gy` and `gu` are those of `unp.matmul_scalar`, which
treats arrays with one entry as numbers. -/
def stepSecond (t : Typer) (gy gu : Arr V) (s : Second V) (ys : List V) (yhat u : List V) :
    Except Err (Nat → V) := do
  let n := t.drOrder.length
  let xx ← matrixKroneckerVec s.ghxx yhat yhat
  let uu ← matrixKroneckerVec s.ghuu u u
  let xu ← matrixKroneckerVec s.ghxu yhat u
  let dxx ← termOf n xx
  let duu ← termOf n uu
  let dxu ← termOf n xu
  .ok (scatter t.drOrder (fun i =>
    s.del2.e i 0 + ys[t.drOrder[i]?.getD 0]?.getD 0 + (sumTo yhat.length fun j => gy.e i j * yhat[j]?.getD 0) +
      (sumTo u.length fun j => gu.e i j * u[j]?.getD 0) + dxx i + duu i + dxu i) fun _ => 0)

/-- The rows of `paths`, `/repo/pynare/simul.py:239-252`, in levels. -/
def pathSecond (t : Typer) (gy gu : Arr V) (s : Second V) (ys : List V) (shocks : Arr V)
    (p0 : Nat → V) : Nat → Except Err (Nat → V)
  | 0 => .ok p0
  | k + 1 => do
    let prev ← pathSecond t gy gu s ys shocks p0 k
    stepSecond t gy gu s ys (t.drState.map fun c => prev c - ys[c]?.getD 0)
      ((List.range shocks.c).map fun j => shocks.e k j)

/-- `_simulate_second_order`, `/repo/pynare/simul.py:211-254`, from the stored solution.  Simplified
as `simulateFirst`; the arrays must be of the shapes `first` and `second` order solutions have. -/
def simulateSecond (half : V) (t : Typer) (gy gu : Arr V) (s : Second V) (ys : List V)
    (shocks : Arr V) (init : List V) : Except Err (Arr V) :=
  if shocks.r = 0 then .error .indexError
  else if init.length ≠ ys.length then .error .valueError
  else if shocks.r > 1 ∧ ¬ (gy.c = t.drState.length ∧ gu.c = shocks.c) then .error .valueError
  else do
    let p := pathSecond t gy gu (s.used half) ys shocks fun c => init[c]?.getD 0
    let _ ← p (shocks.r - 1)
    .ok ⟨shocks.r, ys.length, fun k c => match p k with
      | .ok row => row c
      | .error _ => 0⟩

/-- A solution as kept by the model. -/
inductive LinSol (V : Type) where
  | first (gy gu : Arr V)
  | second (gy gu : Arr V) (s : Second V)

/-- `_generate_simul_shocks`, `/repo/pynare/simul.py:331-356`: `given` are the shocks given or the random
numbers drawn.  `linalg.cholesky` returns the upper factor. -/
def simulShocks (chol : Chol V) (sigma given : Arr V) : Except Err (Arr V) := do
  let u ← chol sigma
  given.dot u

/-- `LinearSimulator.simulate`, `/repo/pynare/simul.py:256-275`; without initial values the steady state
is used. -/
def simulate (chol : Chol V) (half : V) (t : Typer) (sol : LinSol V) (ys : List V) (sigma given : Arr V)
    (init : Option (List V)) : Except Err (Arr V) := do
  let shocks ← simulShocks chol sigma given
  let y0 := init.getD ys
  match sol with
  | .first gy gu => simulateFirst t gy gu ys shocks y0
  | .second gy gu s => simulateSecond half t gy gu s ys shocks y0

/-- `shocks[0, exog_index] = size` on an array of zeros, `/repo/pynare/impulse.py:76-79`; without periods
`IndexError`. -/
def impulseShocks (periods n idx : Nat) (size : V) : Except Err (Arr V) :=
  if periods = 0 ∨ n ≤ idx then .error .indexError
  else .ok ⟨periods, n, fun k j => if k = 0 ∧ j = idx then size else 0⟩

/-- `impulse_response`, `/repo/pynare/impulse.py:46-88`, for a model that has been solved; `idx` is the
position of the shock. -/
def impulseResponse (chol : Chol V) (half : V) (t : Typer) (sol : LinSol V) (ys : List V) (sigma : Arr V)
    (periods idx : Nat) (size : V) : Except Err (Arr V) := do
  let shocks ← impulseShocks periods sigma.r idx size
  let paths ← simulate chol half t sol ys sigma shocks none
  .ok ⟨paths.r, paths.c, fun k c => paths.e k c - ys[c]?.getD 0⟩

end

/-- `_drop_simulated_paths`, `/repo/pynare/simul.py:359-389`. -/
def dropPaths (paths : Arr V) (drop : Int) : Except Err (Arr V) :=
  if drop < 0 then .error .valueError
  else if drop > paths.r then .error .valueError
  else .ok ⟨paths.r - drop.toNat, paths.c, fun k c => paths.e (k + drop.toNat) c⟩

end Pynare

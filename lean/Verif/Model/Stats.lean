import Verif.Model.Simul
/-!
# Moments of a solved model

Mirrors `/repo/pynare/stats/moments.py`, `/repo/pynare/stats/var.py`, the variance of the states in
`/repo/pynare/core/solve/statespace.py` and the treatment of labelled data in
`/repo/pynare/stats/filters.py`.

As in `Simul`, arrays of solutions are given before numpy's `squeeze`.  The models are solved already,
and floating point is not modelled: a result that is not a number or infinite is `none`.
-/

namespace Pynare

variable {V : Type}

/-- `scipy.linalg.solve_discrete_lyapunov`: may raise `LinAlgError`. -/
abbrev Lyap (V : Type) := Arr V → Arr V → Except Err (Arr V)

/-- `a[rows]` for a two-dimensional array. -/
def Arr.rows (a : Arr V) (rs : List Nat) : Except Err (Arr V) :=
  if rs.all fun i => decide (i < a.r) then .ok ⟨rs.length, a.c, fun i j => a.e (rs[i]?.getD 0) j⟩
  else .error .indexError

/-- `ensure_2darray(a.squeeze()[rows])`, `/repo/pynare/stats/moments.py:159-160` and
`/repo/pynare/core/solve/statespace.py:103-108`: an array with one entry has become a number, which
cannot be indexed; one with one row has become a vector, of which entries are taken. -/
def Arr.storedRows (a : Arr V) (rs : List Nat) : Except Err (Arr V) :=
  if a.r = 1 ∧ a.c = 1 then .error .indexError
  else if a.r = 1 then a.tr.rows rs
  else a.rows rs

section
variable [Zero V] [One V] [Add V] [Mul V]

/-- `np.matmul(a, np.matmul(x, np.transpose(a)))`. -/
def sandwich (a x : Arr V) : Except Err (Arr V) := do
  let y ← x.dot a.tr
  a.dot y

/-- `kalman_transition`, `/repo/pynare/core/solve/statespace.py:90-108`.  Simplified: `gy` must have a
column for every state (numpy would repeat a single one). -/
def kalmanTransition (la : LinAlg V) (t : Typer) (s : Space V) (gy gu : Arr V) :
    Except Err (Arr V × Arr V) := do
  s.verify la t
  let A ← gy.storedRows (t.permute t.drOrder).state
  if A.c ≠ A.r then .error .valueError
  else do
    let B ← gu.storedRows (t.permute t.drOrder).state
    .ok (A, B)

/-- `sigma`, `/repo/pynare/core/solve/statespace.py:74-88`: the variance of the states. -/
def stateVar (la : LinAlg V) (lyap : Lyap V) (t : Typer) (s : Space V) (gy gu sigma : Arr V) :
    Except Err (Arr V) := do
  let AB ← kalmanTransition la t s gy gu
  let Q ← sandwich AB.2 sigma
  lyap AB.1 Q

/-- `cov`, `/repo/pynare/stats/moments.py:130-169`. -/
def covArr (la : LinAlg V) (lyap : Lyap V) (t : Typer) (s : Space V) (gy gu sigma : Arr V) :
    Except Err (Arr V) := do
  let gyd ← gy.storedRows t.dcOrder
  let gud ← gu.storedRows t.dcOrder
  let X ← stateVar la lyap t s gy gu sigma
  let x ← sandwich gyd X
  let u ← sandwich gud sigma
  x.add u

/-- `var`, `/repo/pynare/stats/moments.py:71-86`: the diagonal. -/
def varList (la : LinAlg V) (lyap : Lyap V) (t : Typer) (s : Space V) (gy gu sigma : Arr V) :
    Except Err (List V) := do
  let C ← covArr la lyap t s gy gu sigma
  .ok ((List.range C.r).map fun i => C.e i i)

/-- The loop at `/repo/pynare/stats/moments.py:248-252`. -/
def autocovLoop (gyd A : Arr V) : Nat → Arr V → Except Err (List (Arr V))
  | 0, _ => .ok []
  | p + 1, o => do
    let v ← gyd.dot o
    let o' ← A.dot o
    let rest ← autocovLoop gyd A p o'
    .ok (v :: rest)

/-- `autocov`, `/repo/pynare/stats/moments.py:205-254`. -/
def autocov (la : LinAlg V) (lyap : Lyap V) (t : Typer) (s : Space V) (gy gu sigma : Arr V) (p : Nat) :
    Except Err (List (Arr V)) := do
  let X ← stateVar la lyap t s gy gu sigma
  let AB ← kalmanTransition la t s gy gu
  let gyd ← gy.storedRows t.dcOrder
  let gud ← gu.storedRows t.dcOrder
  let x0 ← X.dot gyd.tr
  let x ← AB.1.dot x0
  let u0 ← sigma.dot gud.tr
  let u ← AB.2.dot u0
  let o ← x.add u
  autocovLoop gyd AB.1 p o

end

section
variable [Zero V] [One V] [Add V] [Mul V] [Div V] [DecidableEq V]

/-- An entry of `np.divide(a, scale)` where the scale is a product of two roots. -/
def scaled (a : V) (s s' : Option V) : Option V := match s, s' with
  | some x, some y => if x * y = 0 then none else some (a / (x * y))
  | _, _ => none

/-- `corr`, `/repo/pynare/stats/moments.py:107-127`; `sq` is `np.sqrt`. -/
def corrArr (la : LinAlg V) (lyap : Lyap V) (sq : V → Option V) (t : Typer) (s : Space V)
    (gy gu sigma : Arr V) : Except Err (Arr (Option V)) := do
  let C ← covArr la lyap t s gy gu sigma
  .ok ⟨C.r, C.c, fun i j => scaled (C.e i j) (sq (C.e i i)) (sq (C.e j j))⟩

/-- `autocorr`, `/repo/pynare/stats/moments.py:172-202`. -/
def autocorr (la : LinAlg V) (lyap : Lyap V) (sq : V → Option V) (t : Typer) (s : Space V)
    (gy gu sigma : Arr V) (p : Nat) : Except Err (List (Arr (Option V))) := do
  let acv ← autocov la lyap t s gy gu sigma p
  let C ← covArr la lyap t s gy gu sigma
  .ok (acv.map fun a => ⟨a.r, a.c, fun i j => scaled (a.e i j) (sq (C.e i i)) (sq (C.e j j))⟩)

end

/-! ### variance decomposition -/

/-- `endog_idx`, `stoch_idx`, `/repo/pynare/stats/var.py:44-49,109-127`: positions of names; `ValueError`
for an unknown one. -/
def nameIdx (names : List String) : List String → Except Err (List Nat)
  | [] => .ok []
  | q :: qs => match names.idxOf? q with
    | none => .error .valueError
    | some i => do
      let rest ← nameIdx names qs
      .ok (i :: rest)

/-- `np.outer(a[:, i], a[:, i])`. -/
def outerCol [Mul V] (a : Arr V) (i : Nat) : Arr V := ⟨a.r, a.r, fun k l => a.e k i * a.e l i⟩

section
variable [Zero V] [One V] [Add V] [Mul V] [Div V] [DecidableEq V]

/-- `xi_term + ui_term`, `/repo/pynare/stats/var.py:91-97`, for shock `i`. -/
def shockPart (lyap : Lyap V) (A gyd sc gc : Arr V) (i : Nat) : Except Err (Arr V) := do
  let X ← lyap A (outerCol sc i)
  let x ← sandwich gyd X
  x.add (outerCol gc i)

/-- The loop at `/repo/pynare/stats/var.py:91-98`, up to the diagonals. -/
def shockParts (lyap : Lyap V) (A gyd sc gc : Arr V) : List Nat → Except Err (List (Arr V))
  | [] => .ok []
  | i :: is => do
    let d ← shockPart lyap A gyd sc gc i
    let rest ← shockParts lyap A gyd sc gc is
    .ok (d :: rest)

/-- `/repo/pynare/stats/var.py:98-105`: contributions, their sums, and shares; `mag` is `np.abs`. -/
def shares (mag : V → V) (n : Nat) (parts : List (Arr V)) : Arr (Option V) :=
  let d := fun c i => match parts[i]? with
    | some a => mag (a.e c c)
    | none => 0
  ⟨n, parts.length, fun c i =>
    let total := sumTo parts.length fun k => d c k
    if total = 0 then none else some (d c i / total)⟩

/-- `decomp_shares` of a model with several shocks, `/repo/pynare/stats/var.py:55-105`.  `tol` is
`1e-12`, `chol` is `scipy.linalg.cholesky` with `lower=True`. -/
def decompShares (la : LinAlg V) (lyap : Lyap V) (chol : Chol V) (mag : V → V) (tol : V) (t : Typer)
    (s : Space V) (gy gu sigma : Arr V) (nEndog nStoch : Nat) : Except Err (Arr (Option V)) := do
  let gyd ← gy.squeezed.rows t.dcOrder
  let gud ← gu.squeezed.rows t.dcOrder
  let AB ← kalmanTransition la t s gy gu
  let perturbed ← sigma.add ((Arr.eye sigma.r sigma.c 0).scale tol)
  let L ← chol perturbed
  let sc ← AB.2.dot L
  let gc ← gud.dot L
  let Q ← sc.dot sc.tr
  let _ ← lyap AB.1 Q
  let parts ← shockParts lyap AB.1 gyd sc gc (List.range nStoch)
  .ok (shares mag nEndog parts)

/-- The selection at `/repo/pynare/stats/var.py:107-138`. -/
def selectShares {W : Type} (d : Arr W) (endogNames stochNames endog stoch : List String) :
    Except Err (Arr W) := do
  let ei ← nameIdx endogNames endog
  let si ← nameIdx stochNames stoch
  if ei ≠ [] ∧ si ≠ [] then do
    let r ← d.rows ei
    r.cols si
  else if ei ≠ [] then d.rows ei
  else if si ≠ [] then d.cols si
  else .ok d

/-- `var_decomp`, `/repo/pynare/stats/var.py:14-138`; without names everything is returned.  With one
stochastic variable the model is not looked at. -/
def varDecomp (la : LinAlg V) (lyap : Lyap V) (chol : Chol V) (mag : V → V) (tol : V) (t : Typer)
    (s : Space V) (gy gu sigma : Arr V) (endogNames stochNames endog stoch : List String) :
    Except Err (Arr (Option V)) :=
  if stochNames.length = 1 then
    let ones : Arr (Option V) := ⟨endogNames.length, 1, fun _ _ => some 1⟩
    if endog = [] then .ok ones
    else do
      let ei ← nameIdx endogNames endog
      ones.rows ei
  else do
    let d ← decompShares la lyap chol mag tol t s gy gu sigma endogNames.length stochNames.length
    selectShares d endogNames stochNames endog stoch

end

/-! ### data -/

/-- `ModelFilter.__init__`, `/repo/pynare/stats/filters.py:45-73`, for data as an array with column
labels (none: `[]`) and the names of the observed variables. -/
def filterData (obs labels : List String) (data : Arr V) : Except Err (Arr V) :=
  if labels = [] then
    if data.c ≠ obs.length then .error .valueError else .ok data
  else if labels.length ≠ obs.length then .error .valueError
  else if ¬ labels.all (fun l => decide (l ∈ obs)) then .error .nameError
  else do
    let idx ← nameIdx obs labels
    data.cols idx

end Pynare

import Verif.Model.Arr
import Verif.Model.Index
/-!
# The state space and the first-order solution

Mirrors `/repo/pynare/core/solve/statespace.py`, `partitioned_qz` of
`/repo/pynare/utils/numpy.py:204-289` and `/repo/pynare/core/solve/first_order.py`.

LAPACK is a parameter (`LinAlg`).  Floating point is not modelled.
-/

namespace Pynare

variable {V : Type}

/-- What the code asks of a generalised eigenvalue: `eig > 1`, `np.isinf(eig)` and
`np.absolute(eig) > 1`, `/repo/pynare/utils/numpy.py:267` and
`/repo/pynare/core/solve/statespace.py:58-59`. -/
structure Eig where
  gt1 : Bool
  inf : Bool
  big : Bool
  deriving DecidableEq, Repr

/-- Result of `scipy.linalg.ordqz(B, A, sort='iuc')` with the quotients of the eigenvalues. -/
structure QZ (V : Type) where
  S : Arr V
  T : Arr V
  eigs : List Eig
  Q : Arr V
  Zt : Arr V

/-- The routines of `numpy.linalg` and `scipy.linalg`. -/
structure LinAlg (V : Type) where
  qr : Arr V → Except Err (Arr V × Arr V)
  rank : Arr V → Nat
  ordqz : Arr V → Arr V → Except Err (QZ V)
  inv : Arr V → Except Err (Arr V)
  solve : Arr V → Arr V → Except Err (Arr V)

/-- `scipy.linalg.ordqz` raises `ValueError` unless both arrays are square and of the same shape. -/
def LinAlg.ordqzChecked (la : LinAlg V) (b a : Arr V) : Except Err (QZ V) :=
  if b.r = b.c ∧ a.r = a.c ∧ b.r = a.r then la.ordqz b a else .error .valueError

/-- `np.linalg.inv` raises `LinAlgError` (a `ValueError`) unless the array is square. -/
def LinAlg.invChecked (la : LinAlg V) (a : Arr V) : Except Err (Arr V) :=
  if a.r = a.c then la.inv a else .error .valueError

/-- `np.linalg.solve` raises `ValueError` unless the first array is square and the second has as many
rows. -/
def LinAlg.solveChecked (la : LinAlg V) (a b : Arr V) : Except Err (Arr V) :=
  if a.r = a.c ∧ b.r = a.r then la.solve a b else .error .valueError

/-! ### partition -/

/-- The arrays `partitioned_qz` returns (those without use are left out). -/
structure QZParts (V : Type) where
  eigs : List Eig
  Z11 : Arr V
  Z12 : Arr V
  Z21 : Arr V
  Z22 : Arr V
  T11 : Arr V
  S11 : Arr V

/-- The row at which `X[:expl]` and `X[expl:]` are cut, for `n` rows. -/
def cutAt (n : Nat) (expl : Int) : Nat := if expl < 0 then n - 1 else expl.toNat

/-- `partitioned_qz`, `/repo/pynare/utils/numpy.py:259-289`. -/
def partitionedQZ (la : LinAlg V) (a b : Arr V) : Except Err (QZParts V) := do
  let q ← la.ordqzChecked b a
  let expl ← findFirst (q.eigs.map fun x => x.gt1 || x.inf)
  let n := q.Zt.r
  let k := cutAt n expl
  let z := q.Zt.tr
  .ok { eigs := q.eigs
        Z11 := z.slice 0 k 0 k
        Z12 := z.slice 0 k k n
        Z21 := z.slice k n 0 k
        Z22 := z.slice k n k n
        T11 := q.T.slice 0 k 0 k
        S11 := q.S.slice 0 k 0 k }

/-! ### structural state space -/

section
variable [Zero V] [One V] [Add V] [Mul V] [Neg V]

/-- `np.dot(np.transpose(Q), J)` after the check of the rank, or a copy of `J`,
`/repo/pynare/core/solve/statespace.py:146-160`. -/
def rotated (la : LinAlg V) (t : Typer) (J : Arr V) : Except Err (Arr V) :=
  let ns := t.timed t.static 1
  if ns = [] then .ok J
  else do
    let js ← J.cols ns
    let (Q, R) ← la.qr js
    if la.rank R ≠ t.nStatic then .error .identification
    else Q.tr.dot J

/-- `A0m_tilde`, `/repo/pynare/core/solve/statespace.py:168-171`. -/
def a0mTilde (t : Typer) (A : Arr V) : Except Err (Arr V) := do
  let dr := t.permute t.drOrder
  let nd := t.n - t.nStatic
  let x ← (A.bottom nd).cols (dr.timed dr.pureBackward 1)
  if x.r * x.c = 0 then .ok (Arr.zeros nd 1) else .ok x

/-- The arrays `D` and `E`, `/repo/pynare/core/solve/statespace.py:174-199`, without mixed
variables. -/
def assemblePure (Ap Am A0p A0m : Arr V) : Except Err (Arr V × Arr V) := do
  let D ← A0m.hstack Ap
  let e ← Am.hstack A0p
  .ok (D, e.neg)

/-- `A0m_tilde` and `Im` with mixed variables, `/repo/pynare/core/solve/statespace.py:182-190`. -/
def padded (t : Typer) (A0m : Arr V) : Except Err (Arr V × Arr V) :=
  let nm := t.nMixed
  let nDiff := t.n - (t.nForward + t.nStatic)
  if nDiff ≠ 0 then do
    let A0m' ← A0m.hstack (Arr.zeros (t.n - t.nStatic) nm)
    .ok (A0m', Arr.eye nm t.nBackward nDiff)
  else .ok (A0m, Arr.eye nm t.nBackward 0)

/-- The arrays `D` and `E` with mixed variables, `/repo/pynare/core/solve/statespace.py:176-195`.
(`n_endog - (n_forward + n_static)` is taken not to be negative.) -/
def assembleMixed (t : Typer) (Ap Am A0p A0m : Arr V) : Except Err (Arr V × Arr V) := do
  let nm := t.nMixed
  let (A0m', Im) ← padded t A0m
  let D ← Arr.block A0m' Ap Im (Arr.zeros nm t.nForward)
  let E ← Arr.block Am.neg A0p.neg (Arr.zeros nm t.nBackward) (Arr.eye nm t.nForward 0)
  .ok (D, E)

/-- The arrays `D` and `E`, `/repo/pynare/core/solve/statespace.py:174-199`. -/
def assemble (t : Typer) (Ap Am A0p A0m : Arr V) : Except Err (Arr V × Arr V) :=
  if t.nMixed > 0 then assembleMixed t Ap Am A0p A0m else assemblePure Ap Am A0p A0m

/-- `_compute_structural_state_space`, `/repo/pynare/core/solve/statespace.py:126-200`: `D`, `E` and
the rotated jacobian. -/
def structSpace (la : LinAlg V) (t : Typer) (J : Arr V) : Except Err (Arr V × Arr V × Arr V) := do
  let A ← rotated la t J
  let dr := t.permute t.drOrder
  let nd := t.n - t.nStatic
  let Ap ← (A.bottom nd).cols (dr.timed dr.forward 2)
  let Am ← (A.bottom nd).cols (dr.timed dr.state 0)
  let A0p ← (A.bottom nd).cols (dr.timed dr.forward 1)
  let A0m ← a0mTilde t A
  let (D, E) ← assemble t Ap Am A0p A0m
  .ok (D, E, A)

/-- A `StateSpace`, `/repo/pynare/core/solve/statespace.py:19-41`. -/
structure Space (V : Type) where
  jac : Arr V
  lhs : Arr V
  rhs : Arr V
  parts : QZParts V

/-- `StateSpace.__init__`, `/repo/pynare/core/solve/statespace.py:19-41`. -/
def Space.create (la : LinAlg V) (t : Typer) (J : Arr V) : Except Err (Space V) := do
  let (D, E, A) ← structSpace la t J
  let p ← partitionedQZ la D E
  .ok ⟨A, D, E, p⟩

/-- `verify`, `/repo/pynare/core/solve/statespace.py:44-72`, when run for the first time.  (`solve`
does not call it; the moments and the Kalman matrices do.) -/
def Space.verify (la : LinAlg V) (t : Typer) (s : Space V) : Except Err Unit :=
  if (s.parts.eigs.countP fun x => x.big || x.inf) ≠ t.nForward then .error .identification
  else if la.rank s.parts.Z22 ≠ s.parts.Z22.r then .error .identification
  else .ok ()

/-! ### first-order solution -/

/-- `solve_nonstatic_endo`, `/repo/pynare/core/solve/first_order.py:107-141`: `gym`, `gyp`. -/
def solveNonstatic (la : LinAlg V) (p : QZParts V) : Except Err (Arr V × Arr V) := do
  let x ← la.solveChecked p.Z22 p.Z21
  let T11i ← la.invChecked p.T11
  let l ← p.Z11.tr.dot T11i
  let Z11ti ← la.invChecked p.Z11.tr
  let r ← p.S11.dot Z11ti
  let gym ← l.dot r
  .ok (gym, x.neg)

/-- `solve_static_endo`, `/repo/pynare/core/solve/first_order.py:145-189`. -/
def solveStatic (la : LinAlg V) (t : Typer) (A gym gyp : Arr V) : Except Err (Arr V) := do
  let dr := t.permute t.drOrder
  let ns := t.nStatic
  let Ap ← (A.top ns).cols (dr.timed dr.forward 2)
  let Am ← (A.top ns).cols (dr.timed dr.state 0)
  let A0s ← (A.top ns).cols (dr.timed dr.static 1)
  let A0d ← (A.top ns).cols (dr.timed dr.dynamic 1)
  let gyd ← arrayShingle gym gyp t.nMixed
  let x ← Ap.dot gyp
  let Agp ← x.dot gym
  let Agd ← A0d.dot gyd
  let Ai ← la.invChecked A0s
  let s1 ← Agp.add Agd
  let s2 ← s1.add Am
  let y ← Ai.dot s2
  .ok y.neg

/-- `solve_exo`, `/repo/pynare/core/solve/first_order.py:192-226`. -/
def solveExo (la : LinAlg V) (t : Typer) (A gyp fu : Arr V) : Except Err (Arr V) := do
  let dr := t.permute t.drOrder
  let cs ← A.cols (dr.timed dr.static 1)
  let cb ← A.cols (dr.timed dr.state 1)
  let cf ← A.cols (dr.timed dr.pureForward 1)
  let Ap ← A.cols (dr.timed dr.forward 2)
  let x ← Ap.dot gyp
  let ib ← x.add cb
  let u1 ← cs.hstack ib
  let U ← u1.hstack cf
  let g ← la.solveChecked U fu
  .ok g.neg

/-- `solve_first_order`, `/repo/pynare/core/solve/first_order.py:47-103`, before the final `squeeze`:
`gy`, `gu`.  Without shocks the name `J` is unknown (line 95). -/
def solveFirstOrder (la : LinAlg V) (t : Llx) (nExog : Nat) (s : Space V) :
    Except Err (Arr V × Arr V) := do
  let (gym, gyp) ← solveNonstatic la s.parts
  let gyd ← arrayShingle gym gyp t.nMixed
  let gys ← solveStatic la t.toTyper s.jac gym gyp
  let gy ← gys.vstack gyd
  if nExog = 0 then .error .nameError
  else do
    let fu ← s.jac.cols (t.exogJacobian nExog)
    let gu ← solveExo la t.toTyper s.jac gyp fu
    .ok (gy, gu)

end

end Pynare

import Verif.Model.Nd
import Verif.Model.Sylvester
import Verif.Model.Simul
/-!
# The second-order solution

Mirrors `/repo/pynare/core/solve/second_order.py`.  LAPACK is a parameter; floating point is not modelled.
The arrays `gy`, `gu` of the first-order solution are given as stored, after `squeeze`.
-/

namespace Pynare

variable {V : Type}

/-! ### indices -/

/-- `_nonnan_int` of a row of the table in decision-rule order,
`/repo/pynare/core/solve/second_order.py:79-82,437-442`. -/
def Typer.drCols (t : Typer) (r : Nat) : List Nat :=
  (t.permute t.drOrder).timed (List.range (t.permute t.drOrder).n) r

/-- The positions at which a row of that table is not nan, `/repo/pynare/core/solve/second_order.py:117,118`.
Simplified: numpy also checks that such a mask is as long as the axis. -/
def Typer.drMask (t : Typer) (r : Nat) : List Nat :=
  (t.permute t.drOrder).sel fun c => (t.permute t.drOrder).has r c

/-- `tloc`, `/repo/pynare/core/solve/second_order.py:71-76`. -/
def Typer.tloc (t : Typer) : List Nat := List.range' t.nStatic t.nBackward

/-- `dr_sq[np.ix_(cs, cs)].flatten()`, `/repo/pynare/core/solve/second_order.py:92-93,411`, where `dr_sq`
has `nz` rows. -/
def squareCols (nz : Nat) (cs : List Nat) : Except Err (List Nat) :=
  if cs.all fun c => decide (c < nz) then .ok (cs.flatMap fun p => cs.map fun q => p * nz + q)
  else .error .indexError

/-- The array `dr`, `/repo/pynare/core/solve/second_order.py:86-87`. -/
def Typer.drAll (t : Typer) (nExog : Nat) : List Nat :=
  let edr := t.drCols 0 ++ t.drCols 1 ++ t.drCols 2
  edr ++ (List.range nExog).map (edr.length + ·)

/-- `x[tloc]`, where an array of one position has been replaced by the position,
`/repo/pynare/core/solve/second_order.py:71-76`. -/
def Nd.loc (x : Nd V) (ps : List Nat) : Except Err (Nd V) :=
  match ps with
  | [p] => x.row p
  | ps => x.rows ps

section
variable [Zero V] [One V] [Add V] [Mul V] [Neg V] [Sub V]

/-! ### the system -/

/-- The array `A` before the update, `/repo/pynare/core/solve/second_order.py:116-117`: column `j` is the
column of the jacobian that belongs to the current value of variable `j`. -/
def currentJac (t : Typer) (J : Arr V) : Arr V :=
  ⟨t.n, t.n, fun i j => match (t.permute t.drOrder).cell 1 j with
    | some k => J.e i k
    | none => 0⟩

/-- The array `A`, `/repo/pynare/core/solve/second_order.py:116-119`; `gyf` are the rows of `gy` that belong
to forward-looking variables.  Simplified: a jacobian with another number of rows than variables raises
`ValueError` (numpy repeats a single row). -/
def systemA (t : Typer) (J foreJac : Arr V) (gyf : Nd V) : Except Err (Arr V) :=
  if J.r ≠ t.n then .error .valueError
  else do
    let A := currentJac t J
    let upd ← Nd.matmulScalar (.mat foreJac) gyf
    match t.tloc with
    | [p] =>
      if p < t.n then do
        let s ← Nd.zip (· + ·) (.vec t.n fun i => A.e i p) upd
        let w ← s.intoVec t.n
        .ok ⟨t.n, t.n, fun i j => if j = p then w i else A.e i j⟩
      else .error .indexError
    | ps => do
      let sub ← A.cols ps
      let s ← Nd.zip (· + ·) (.mat sub) upd
      let w ← s.intoMat t.n ps.length
      .ok ⟨t.n, t.n, fun i j => match ps.idxOf? j with
        | some q => w i q
        | none => A.e i j⟩

/-- The array `C`, `/repo/pynare/core/solve/second_order.py:124-125`.  Without forward-looking variables the
slice `-0:` is the whole array, into which an array without columns does not fit. -/
def systemC (t : Typer) (foreJac : Arr V) : Except Err (Arr V) :=
  if foreJac.r ≠ t.n ∨ foreJac.c = 0 then .error .valueError
  else .ok ⟨t.n, t.n, fun i j => if t.n - foreJac.c ≤ j then foreJac.e i (j - (t.n - foreJac.c)) else 0⟩

/-- `_setup_system`, `/repo/pynare/core/solve/second_order.py:96-130`: `A`, `C` and `D` (`B` is an identity
array). -/
def setupSystem (t : Typer) (J : Arr V) (gy : Nd V) : Except Err (Arr V × Arr V × Nd V) := do
  let _ ← J.cols (t.drCols 1)
  let foreJac ← J.cols (t.drCols 2)
  let gyf ← gy.rows (t.drMask 2)
  let A ← systemA t J foreJac gyf
  let C ← systemC t foreJac
  let gs ← gy.loc t.tloc
  let D := Nd.kron gs gs
  .ok (A, C, match D with
    | .mat d => .mat d.tr
    | d => d)

/-- `concatenate_maybe_1d` of four arrays, `/repo/pynare/utils/numpy.py:129-160`. -/
def stack4 (a b c d : Nd V) : Except Err (Nd V) := do
  let x ← a.to2.vstack b.to2
  let y ← x.vstack c.to2
  let z ← y.vstack d.to2
  .ok (Nd.mat z).squeeze

/-- `_hess_coefs_dx`, `/repo/pynare/core/solve/second_order.py:133-152`. -/
def hessCoefsDx (t : Typer) (nExog : Nat) (gy : Nd V) : Except Err (Nd V) := do
  let gc ← gy.rows (t.drMask 1)
  let gf ← gy.rows (t.drMask 2)
  let gs ← gy.loc t.tloc
  let fore ← Nd.matmulScalar gf gs
  stack4 (.mat (Arr.eye t.nBackward t.nBackward 0)) gc fore (.mat (Arr.zeros nExog t.nBackward))

/-- The product of `_hess_coefs_du`, `/repo/pynare/core/solve/second_order.py:170-174`: if it raises
`ValueError`, the outer product is used. -/
def matmulOrOuter (x y : Nd V) : Except Err (Nd V) :=
  match Nd.matmulScalar x y with
  | .error .valueError => .ok (Nd.outer x y)
  | r => r

/-- `_hess_coefs_du`, `/repo/pynare/core/solve/second_order.py:155-179`. -/
def hessCoefsDu (t : Typer) (nExog : Nat) (gy gu : Nd V) : Except Err (Nd V) := do
  let gc ← gu.rows (t.drMask 1)
  let gf ← gy.rows (t.drMask 2)
  let gs ← gu.loc t.tloc
  let fore ← matmulOrOuter gf gs
  stack4 (.mat (Arr.zeros t.nBackward nExog)) gc fore (.mat (Arr.eye nExog nExog 0))

/-! ### the four arrays -/

/-- `linalg.solve(A, b)` for a vector or a two-dimensional array `b`. -/
def LinAlg.solveNd (la : LinAlg V) (A : Arr V) : Nd V → Except Err (Nd V)
  | .num _ => .error .valueError
  | .vec n e => do
    let x ← la.solveChecked A ⟨n, 1, fun i _ => e i⟩
    .ok (.vec x.r fun i => x.e i 0)
  | .mat b => do
    let x ← la.solveChecked A b
    .ok (.mat x)

variable [DecidableEq V]

/-- `solve_ghxx`, `/repo/pynare/core/solve/second_order.py:209-237`.  `generalized_sylvester` gives the
result the shape of its last argument.  (Were its result nan, `linalg.solve` would raise `ValueError`
later.) -/
def solveGhxx (la : LinAlg V) (qz : Arr V → Arr V → Except Err (GQZ V)) (nt : Nat) (A C : Arr V) (D zx : Nd V)
    (hess : Arr V) : Except Err (Nd V) := do
  let e ← Nd.kronProduct hess zx zx
  let E := e.map (- ·)
  let r ← generalizedSylvester la qz A (Arr.eye (nt * nt) (nt * nt) 0) C D.to2 E.to2
  match r with
  | none => .error .valueError
  | some X => .ok (match E with
    | .mat _ => .mat X
    | .vec n _ => .vec n fun i => X.e i 0
    | .num _ => .num (X.e 0 0))

/-- `gu_arr`, `/repo/pynare/core/solve/second_order.py:291-295,349-353`: what has one column becomes a
row. -/
def rowOriented (x : Nd V) : Arr V := if x.to2.c = 1 then x.to2.tr else x.to2

/-- `solve_ghxu`, `/repo/pynare/core/solve/second_order.py:241-300`. -/
def solveGhxu (la : LinAlg V) (ps : List Nat) (gy gu : Nd V) (A C : Arr V) (ghxx zx zu : Nd V) (hess : Arr V) :
    Except Err (Nd V) := do
  let e ← Nd.kronProduct hess (.mat zx.to2) (.mat zu.to2)
  let E := (e.map (- ·)).squeeze
  let gs ← gy.loc ps
  let us ← gu.loc ps
  let cross ← Nd.kronProduct ghxx.to2 (.mat gs.to2) (.mat (rowOriented us))
  let p ← Nd.matmulScalar (.mat C) cross.squeeze
  let rhs ← Nd.zip (· - ·) E p
  la.solveNd A rhs

/-- `solve_ghuu`, `/repo/pynare/core/solve/second_order.py:304-358`. -/
def solveGhuu (la : LinAlg V) (ps : List Nat) (gu : Nd V) (A C : Arr V) (ghxx zu : Nd V) (hess : Arr V) :
    Except Err (Nd V) := do
  let e ← Nd.kronProduct hess zu zu
  let E := e.map (- ·)
  let g ← Nd.matmul (.mat C) ghxx
  let us ← gu.loc ps
  let x ← Nd.kronProduct g.to2 (.mat (rowOriented us)) (.mat (rowOriented us))
  let rhs ← Nd.zip (· - ·) E x.squeeze
  la.solveNd A rhs

/-- `solve_del2`, `/repo/pynare/core/solve/second_order.py:362-434`; `half` is one half. -/
def solveDel2 (la : LinAlg V) (half : V) (t : Typer) (nz : Nat) (gy gu ghuu : Nd V) (sigma J H : Arr V) :
    Except Err (Nd V) := do
  let foreSq ← squareCols nz (t.drCols 2)
  let Hf ← H.cols foreSq
  let guf ← gu.rows (t.drMask 2)
  let B1 ← Nd.kronProduct Hf guf guf
  let Jf ← J.cols (t.drCols 2)
  let huf ← ghuu.rows (t.drMask 2)
  let x ← Nd.matmul (.mat Jf) huf
  let s ← Nd.zip (· + ·) x B1
  let v : Nd V := .vec (sigma.c * sigma.r) fun k => sigma.e (k % sigma.r) (k / sigma.r)
  let w ← Nd.matmulScalar s v
  let gyf ← gy.rows (t.drMask 2)
  let nf := (t.drMask 2).length
  let l ← (Arr.zeros nf t.nStatic).hstack gyf.to2
  let d ← l.hstack (Arr.zeros nf (t.timed t.pureForward 2).length)
  let eyef ← Nd.rows (t.drMask 2) (.mat (Arr.eye J.r J.r 0))
  let deriv ← Nd.zip (· + ·) eyef (Nd.mat d).squeeze
  if J.r ≠ t.n then .error .valueError
  else do
    let y ← Nd.matmul (.mat Jf) deriv
    let lhs ← Nd.zip (· + ·) (.mat (currentJac t J)) y
    match lhs with
    | .mat L => do
      let r ← la.solveNd L (w.map (- ·))
      .ok (r.map (half * ·))
    | _ => .error .valueError

/-- The arrays of a second-order solution as stored by numpy. -/
structure SecondNd (V : Type) where
  ghxx : Nd V
  ghxu : Nd V
  ghuu : Nd V
  del2 : Nd V

/-- `SecondOrderSolver.solve`, `/repo/pynare/core/solve/second_order.py:182-205`. -/
def solveSecondOrder (la : LinAlg V) (qz : Arr V → Arr V → Except Err (GQZ V)) (half : V) (t : Typer)
    (nExog : Nat) (J H sigma : Arr V) (gy gu : Nd V) : Except Err (SecondNd V) := do
  let order ← squareCols (t.drAll nExog).length (t.drAll nExog)
  let hess ← H.cols order
  let (A, C, D) ← setupSystem t J gy
  let zx ← hessCoefsDx t nExog gy
  let zu ← hessCoefsDu t nExog gy gu
  let ghxx ← solveGhxx la qz t.nBackward A C D zx hess
  let ghxu ← solveGhxu la t.tloc gy gu A C ghxx zx zu hess
  let ghuu ← solveGhuu la t.tloc gu A C ghxx zu hess
  let del2 ← solveDel2 la half t (t.drAll nExog).length gy gu ghuu sigma J H
  .ok ⟨ghxx, ghxu, ghuu, del2⟩

/-- `SecondOrderSolution.solve`, `/repo/pynare/core/solve/second_order.py:27-34`. -/
def SecondNd.stored (half : V) (s : SecondNd V) : SecondNd V :=
  ⟨s.ghxx.map (half * ·), s.ghxu, s.ghuu.map (half * ·), s.del2⟩

end

end Pynare

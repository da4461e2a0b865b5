import Verif.Model.FirstOrder
/-!
# The generalised Sylvester equation

Mirrors `generalized_sylvester`, `/repo/pynare/utils/numpy.py:396-545`, for two-dimensional arguments.
-/

namespace Pynare

variable {V : Type}

/-- What `scipy.linalg.qz(a, c, output='real')` returns: the triangular factors of `a` and of `c` and the
left and right orthogonal factors. -/
structure GQZ (V : Type) where
  P : Arr V
  S : Arr V
  Q : Arr V
  Z : Arr V

section
variable [Zero V] [Add V] [Mul V] [Sub V]

/-- `r*P + t*S`. -/
def combine (r : V) (P : Arr V) (t : V) (S : Arr V) : Arr V :=
  ⟨P.r, P.c, fun i j => r * P.e i j + t * S.e i j⟩

/-- The contribution of the columns of `Y` after column `k` to equation column `row`,
`/repo/pynare/utils/numpy.py:499-502,527-529`. -/
def knownPart (P S T R : Arr V) (n : Nat) (Y : Nat → Nat → V) (k row i : Nat) : V :=
  sumTo (n - 1 - k) fun j => sumTo P.c fun l =>
    (combine (R.e row (k + 1 + j)) P (T.e row (k + 1 + j)) S).e i l * Y l (k + 1 + j)

variable [DecidableEq V]

/-- The loop at `/repo/pynare/utils/numpy.py:487-535`, on the number of passes left, with `k = k1 - 1` and
the array `Y` as far as it is known.  Returns `Y` and the number of columns not reached.  (There are never
more passes than columns to solve for, so that `k` is negative at the beginning of a pass only if there
is no column at all; then `R[k, k]` raises `IndexError`.) -/
def sylLoop (la : LinAlg V) (P S T R F : Arr V) (n : Nat) :
    Nat → Nat → (Nat → Nat → V) → Except Err (Nat × (Nat → Nat → V))
  | 0, k1, Y => .ok (k1, Y)
  | _ + 1, 0, _ => .error .indexError
  | fuel + 1, k + 1, Y =>
    if T.e k (k - 1) ≠ 0 ∧ k ≠ 0 then do
      let f : Arr V := ⟨P.r + P.r, 1, fun i _ =>
        if i < P.r then F.e i (k - 1) - knownPart P S T R n Y k (k - 1) i
        else F.e (i - P.r) k - knownPart P S T R n Y k k (i - P.r)⟩
      let b ← Arr.block (combine (R.e (k - 1) (k - 1)) P (T.e (k - 1) (k - 1)) S)
        (combine (R.e (k - 1) k) P (T.e (k - 1) k) S)
        ⟨S.r, S.c, fun i j => T.e k (k - 1) * S.e i j⟩
        (combine (R.e k k) P (T.e k k) S)
      let y ← la.solveChecked b f
      sylLoop la P S T R F n fuel (k - 1)
        fun i j => if j = k then y.e (P.r + i) 0 else if j = k - 1 then y.e i 0 else Y i j
    else do
      let y ← la.solveChecked (combine (R.e k k) P (T.e k k) S)
        ⟨P.r, 1, fun i _ => F.e i k - knownPart P S T R n Y k k i⟩
      sylLoop la P S T R F n fuel k fun i j => if j = k then y.e i 0 else Y i j

/-- `(T.diagonal(offset=-1) == 0).sum()`. -/
def zerosBelow (T : Arr V) (n : Nat) : Nat :=
  ((List.range (n - 1)).filter fun i => decide (T.e (i + 1) i = 0)).length

/-- `/repo/pynare/utils/numpy.py:478-545`.  Columns of `Y` the loop does not reach are nan, and then so is
the result: `none`. -/
def sylGeneral (la : LinAlg V) (qz : Arr V → Arr V → Except Err (GQZ V)) (A B C D E : Arr V) :
    Except Err (Option (Arr V)) := do
  let g1 ← qz A C
  let g2 ← qz D B
  let eq2 ← E.dot g2.Q
  let f ← g1.Q.tr.dot eq2
  let (rest, Y) ← sylLoop la g1.P g1.S g2.P g2.S f B.r (zerosBelow g2.P B.r + 1) B.r fun _ _ => 0
  let y : Arr V := ⟨A.r, B.r, Y⟩
  let yz ← y.dot g2.Z.tr
  let x ← g1.Z.dot yz
  .ok (if rest = 0 then some x else none)

/-- `generalized_sylvester`, `/repo/pynare/utils/numpy.py:396-545`. -/
def generalizedSylvester (la : LinAlg V) (qz : Arr V → Arr V → Except Err (GQZ V)) (A B C D E : Arr V) :
    Except Err (Option (Arr V)) :=
  if ¬ (A.r = C.r ∧ A.c = C.c) then .error .valueError
  else if A.r ≠ A.c then .error .valueError
  else if ¬ (B.r = D.r ∧ B.c = D.c) then .error .valueError
  else if B.r ≠ B.c then .error .valueError
  else if A.r ≠ E.r ∨ B.r ≠ E.c then .error .valueError
  else if A.r = 1 then do
    let x ← la.solveChecked (combine (A.e 0 0) B (C.e 0 0) D) E.tr
    .ok (some x.tr)
  else if B.r = 1 then do
    let x ← la.solveChecked (combine (B.e 0 0) A (D.e 0 0) C) E
    .ok (some x)
  else sylGeneral la qz A B C D E

end

end Pynare

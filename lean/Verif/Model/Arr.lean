import Verif.Model.Py
/-!
# Two-dimensional arrays

A shape-checked model of the numpy operations used by the solution code, and the helpers of
`/repo/pynare/utils/numpy.py`.
-/

namespace Pynare

variable {V : Type}

/-- `f(0) + … + f(n-1)`. -/
def sumTo [Zero V] [Add V] : Nat → (Nat → V) → V
  | 0, _ => 0
  | n + 1, f => sumTo n f + f n

/-- A two-dimensional numpy array: its shape, and its entries by row and column (what `e` gives
outside the shape is without meaning). -/
structure Arr (V : Type) where
  r : Nat
  c : Nat
  e : Nat → Nat → V

namespace Arr

/-- `np.zeros((r, c))`. -/
def zeros [Zero V] (r c : Nat) : Arr V := ⟨r, c, fun _ _ => 0⟩

/-- `np.eye(r, c, k)`. -/
def eye [Zero V] [One V] (r c k : Nat) : Arr V := ⟨r, c, fun i j => if j = i + k then 1 else 0⟩

/-- `np.transpose`. -/
def tr (a : Arr V) : Arr V := ⟨a.c, a.r, fun i j => a.e j i⟩

/-- `-a`. -/
def neg [Neg V] (a : Arr V) : Arr V := ⟨a.r, a.c, fun i j => - a.e i j⟩

/-- `a + b`.  Simplified: shapes must agree; numpy also repeats axes of length one. -/
def add [Add V] (a b : Arr V) : Except Err (Arr V) :=
  if a.r = b.r ∧ a.c = b.c then .ok ⟨a.r, a.c, fun i j => a.e i j + b.e i j⟩
  else .error .valueError

/-- `np.dot`, `np.matmul`. -/
def dot [Zero V] [Add V] [Mul V] (a b : Arr V) : Except Err (Arr V) :=
  if a.c = b.r then .ok ⟨a.r, b.c, fun i j => sumTo a.c fun k => a.e i k * b.e k j⟩
  else .error .valueError

/-- `np.hstack((a, b))`. -/
def hstack (a b : Arr V) : Except Err (Arr V) :=
  if a.r = b.r then .ok ⟨a.r, a.c + b.c, fun i j => if j < a.c then a.e i j else b.e i (j - a.c)⟩
  else .error .valueError

/-- `np.vstack((a, b))`. -/
def vstack (a b : Arr V) : Except Err (Arr V) :=
  if a.c = b.c then .ok ⟨a.r + b.r, a.c, fun i j => if i < a.r then a.e i j else b.e (i - a.r) j⟩
  else .error .valueError

/-- `np.block([[a, b], [c, d]])`. -/
def block (a b c d : Arr V) : Except Err (Arr V) := do
  let t ← hstack a b
  let u ← hstack c d
  vstack t u

/-- `a[:, cs]` for an array of column numbers. -/
def cols (a : Arr V) (cs : List Nat) : Except Err (Arr V) :=
  if cs.all fun c => decide (c < a.c) then .ok ⟨a.r, cs.length, fun i j => a.e i (cs[j]?.getD 0)⟩
  else .error .indexError

/-- `a[:n]`. -/
def top (a : Arr V) (n : Nat) : Arr V := ⟨min n a.r, a.c, a.e⟩

/-- `a[-n:]`; for `n = 0` this is `a[0:]`, all rows. -/
def bottom (a : Arr V) (n : Nat) : Arr V :=
  if n = 0 then a else ⟨min n a.r, a.c, fun i j => a.e (i + (a.r - n)) j⟩

/-- `a[r0:r1, c0:c1]` for bounds within the shape. -/
def slice (a : Arr V) (r0 r1 c0 c1 : Nat) : Arr V :=
  ⟨r1 - r0, c1 - c0, fun i j => a.e (i + r0) (j + c0)⟩

/-- `ensure_2darray(a.squeeze())`, `/repo/pynare/utils/numpy.py:67-126`: an array with one row comes
back as a column. -/
def squeezed (a : Arr V) : Arr V := if a.r = 1 then a.tr else a

end Arr

/-- `array_shingle` for two-dimensional arrays, `/repo/pynare/utils/numpy.py:293-359`.  A negative
dimension raises `ValueError` in `np.zeros`; if fewer rows remain than the first array has, the
assignment raises `ValueError`, except that numpy repeats (here: drops) a single row. -/
def arrayShingle (a0 a1 : Arr V) (overlap : Nat) : Except Err (Arr V) :=
  if a0.c ≠ a1.c then .error .valueError
  else if overlap ≤ a1.r then
    .ok ⟨a0.r + a1.r - overlap, a0.c,
      fun i j => if i < a0.r then a0.e i j else a1.e (i - a0.r + overlap) j⟩
  else if a0.r = 1 ∧ overlap = a1.r + 1 then .ok ⟨0, a0.c, a0.e⟩
  else .error .valueError

/-- `np.kron`. -/
def kron [Mul V] (a b : Arr V) : Arr V :=
  ⟨a.r * b.r, a.c * b.c, fun i j => a.e (i / b.r) (j / b.c) * b.e (i % b.r) (j % b.c)⟩

/-- `np.outer`, which flattens its arguments. -/
def outer [Mul V] (a b : Arr V) : Arr V :=
  ⟨a.r * a.c, b.r * b.c, fun i j => a.e (i / a.c) (i % a.c) * b.e (j / b.c) (j % b.c)⟩

/-- `matrix_kronecker_product` for two-dimensional arrays, `/repo/pynare/utils/numpy.py:363-393`. -/
def matrixKronecker [Zero V] [Add V] [Mul V] (a b c : Arr V) : Except Err (Arr V) :=
  let k := kron b c
  if a.c = 1 ∧ k.r = 1 then .ok (outer a k)
  else a.dot k

/-- `np.kron` of vectors. -/
def kronVec [Mul V] (x y : List V) : List V := x.flatMap fun a => y.map fun b => a * b

/-- A one- or two-dimensional result. -/
inductive Arr12 (V : Type) where
  | one (v : List V)
  | two (a : Arr V)

/-- `matrix_kronecker_product` for a two-dimensional array and vectors,
`/repo/pynare/utils/numpy.py:363-393`: `np.outer` gives a two-dimensional array where `np.matmul`
gives a vector. -/
def matrixKroneckerVec [Zero V] [Add V] [Mul V] (a : Arr V) (x y : List V) : Except Err (Arr12 V) :=
  let k := kronVec x y
  if a.c = 1 ∧ k.length = 1 then
    .ok (.two ⟨a.r, 1, fun i _ => a.e i 0 * k[0]?.getD 0⟩)
  else if a.c = k.length then
    .ok (.one ((List.range a.r).map fun i => sumTo a.c fun j => a.e i j * k[j]?.getD 0))
  else .error .valueError

/-- `find_first`, `/repo/pynare/utils/numpy.py:12-17`: the position of the first true entry, -1 if
there is none; `argmax` of nothing raises `ValueError`. -/
def findFirst (bs : List Bool) : Except Err Int :=
  if bs = [] then .error .valueError
  else match bs.findIdx? id with
    | some i => .ok i
    | none => .ok (-1)

end Pynare

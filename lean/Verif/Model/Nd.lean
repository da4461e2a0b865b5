import Verif.Model.Arr
/-!
# Arrays of at most two dimensions

numpy treats numbers, vectors and two-dimensional arrays differently, and `squeeze` turns the latter into
the former.  The functions of `/repo/pynare/utils/numpy.py` and of numpy that the second-order solution
uses, with their shape checks.
-/

namespace Pynare

variable {V : Type}

/-- A numpy array of no, one or two dimensions (what `e` gives beyond the length is without meaning). -/
inductive Nd (V : Type) where
  | num (x : V)
  | vec (n : Nat) (e : Nat → V)
  | mat (a : Arr V)

namespace Nd

/-- `x.squeeze()`. -/
def squeeze : Nd V → Nd V
  | num x => num x
  | vec n e => if n = 1 then num (e 0) else vec n e
  | mat a =>
    if a.r = 1 then if a.c = 1 then num (a.e 0 0) else vec a.c (a.e 0)
    else if a.c = 1 then vec a.r fun i => a.e i 0
    else mat a

/-- `ensure_2darray(x)`, `/repo/pynare/utils/numpy.py:67-126`: vectors become columns. -/
def to2 : Nd V → Arr V
  | num x => ⟨1, 1, fun _ _ => x⟩
  | vec n e => ⟨n, 1, fun i _ => e i⟩
  | mat a => a

/-- What numpy makes of an operand when the other one has two dimensions: vectors become rows. -/
def row2 : Nd V → Arr V
  | num x => ⟨1, 1, fun _ _ => x⟩
  | vec n e => ⟨1, n, fun _ j => e j⟩
  | mat a => a

/-- `x.item()`, which raises `ValueError` (here `none`) unless there is a single entry. -/
def item? : Nd V → Option V
  | num x => some x
  | vec n e => if n = 1 then some (e 0) else none
  | mat a => if a.r = 1 ∧ a.c = 1 then some (a.e 0 0) else none

/-- A function applied to every entry. -/
def map (f : V → V) : Nd V → Nd V
  | num x => num (f x)
  | vec n e => vec n fun i => f (e i)
  | mat a => mat ⟨a.r, a.c, fun i j => f (a.e i j)⟩

/-- `x.flatten()`: length and entries. -/
def flat : Nd V → Nat × (Nat → V)
  | num x => (1, fun _ => x)
  | vec n e => (n, e)
  | mat a => (a.r * a.c, fun k => a.e (k / a.c) (k % a.c))

/-- The common length of an axis: numpy repeats axes of length one. -/
def axis (n m : Nat) : Except Err Nat :=
  if n = m then .ok n else if n = 1 then .ok m else if m = 1 then .ok n else .error .valueError

/-- The entry read along a repeated axis. -/
def along (n i : Nat) : Nat := if n = 1 then 0 else i

/-- Entrywise operation on two-dimensional arrays. -/
def zip2 (f : V → V → V) (a b : Arr V) : Except Err (Nd V) := do
  let r ← axis a.r b.r
  let c ← axis a.c b.c
  .ok (mat ⟨r, c, fun i j => f (a.e (along a.r i) (along a.c j)) (b.e (along b.r i) (along b.c j))⟩)

/-- Entrywise operation on vectors. -/
def zip1 (f : V → V → V) (n : Nat) (e : Nat → V) (m : Nat) (g : Nat → V) : Except Err (Nd V) := do
  let k ← axis n m
  .ok (vec k fun i => f (e (along n i)) (g (along m i)))

/-- Entrywise operation with numpy's broadcasting. -/
def zip (f : V → V → V) : Nd V → Nd V → Except Err (Nd V)
  | num x, num y => .ok (num (f x y))
  | num x, vec m g => zip1 f 1 (fun _ => x) m g
  | vec n e, num y => zip1 f n e 1 fun _ => y
  | vec n e, vec m g => zip1 f n e m g
  | x, y => zip2 f x.row2 y.row2

/-- What `A[:, k] = x` writes into a column of length `n`. -/
def intoVec (n : Nat) : Nd V → Except Err (Nat → V)
  | num x => .ok fun _ => x
  | vec m e => if m = n ∨ m = 1 then .ok fun i => e (along m i) else .error .valueError
  | mat a => if a.r = 1 ∧ (a.c = n ∨ a.c = 1) then .ok fun i => a.e 0 (along a.c i) else .error .valueError

/-- What `A[:, ks] = x` writes into `k` columns of length `n`. -/
def intoMat (n k : Nat) (x : Nd V) : Except Err (Nat → Nat → V) :=
  let a := x.row2
  if (a.r = n ∨ a.r = 1) ∧ (a.c = k ∨ a.c = 1) then .ok fun i j => a.e (along a.r i) (along a.c j)
  else .error .valueError

/-- `x[idx]` for an array of positions along the first axis. -/
def rows (idx : List Nat) : Nd V → Except Err (Nd V)
  | num _ => .error .indexError
  | vec n e => if idx.all fun i => decide (i < n) then .ok (vec idx.length fun i => e (idx[i]?.getD 0))
      else .error .indexError
  | mat a => if idx.all fun i => decide (i < a.r) then
      .ok (mat ⟨idx.length, a.c, fun i j => a.e (idx[i]?.getD 0) j⟩) else .error .indexError

/-- `x[k]` for a number. -/
def row (k : Nat) : Nd V → Except Err (Nd V)
  | num _ => .error .indexError
  | vec n e => if k < n then .ok (num (e k)) else .error .indexError
  | mat a => if k < a.r then .ok (vec a.c (a.e k)) else .error .indexError

section
variable [Mul V]

/-- `np.kron`. -/
def kron : Nd V → Nd V → Nd V
  | num x, y => y.map (x * ·)
  | x, num y => x.map (· * y)
  | vec n e, vec m g => vec (n * m) fun i => e (i / m) * g (i % m)
  | x, y => mat (Pynare.kron x.row2 y.row2)

/-- `np.outer`, which flattens its arguments. -/
def outer (x y : Nd V) : Nd V :=
  mat ⟨x.flat.1, y.flat.1, fun i j => x.flat.2 i * y.flat.2 j⟩

variable [Zero V] [Add V]

/-- `np.matmul`, which does not accept numbers. -/
def matmul : Nd V → Nd V → Except Err (Nd V)
  | mat a, mat b => do let c ← a.dot b; .ok (mat c)
  | mat a, vec n e => if a.c = n then .ok (vec a.r fun i => sumTo a.c fun k => a.e i k * e k)
      else .error .valueError
  | vec n e, mat b => if n = b.r then .ok (vec b.c fun j => sumTo n fun k => e k * b.e k j)
      else .error .valueError
  | vec n e, vec m g => if n = m then .ok (num (sumTo n fun k => e k * g k)) else .error .valueError
  | _, _ => .error .valueError

/-- `matmul_scalar`, `/repo/pynare/utils/numpy.py:29-63`: arrays with a single entry are treated as
numbers. -/
def matmulScalar (x y : Nd V) : Except Err (Nd V) :=
  match x.item?, y.item? with
  | some a, some b => .ok (num (a * b))
  | some a, none => .ok (y.map (a * ·))
  | none, some b => .ok (x.map (· * b))
  | none, none => matmul x y

/-- `K.shape[0]`; `IndexError` for numbers. -/
def length : Nd V → Except Err Nat
  | num _ => .error .indexError
  | vec n _ => .ok n
  | mat a => .ok a.r

/-- `matrix_kronecker_product`, `/repo/pynare/utils/numpy.py:363-393`. -/
def kronProduct (A : Arr V) (b c : Nd V) : Except Err (Nd V) :=
  let k := kron b c
  if A.c = 1 then do
    let n ← k.length
    if n = 1 then .ok (outer (mat A) k) else matmul (mat A) k
  else matmul (mat A) k

end

end Nd

end Pynare

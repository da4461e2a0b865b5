import Verif.Model.Arr
/-!
# Sorted eigenvalues

Mirrors `eigvals_sorted`, `/repo/pynare/utils/numpy.py:163-200`.
-/

namespace Pynare

/-- `xs[:k]` of Python: all for `None`; a negative `k` counts from the end. -/
def pyTake {α : Type} (k : Option Int) (xs : List α) : List α :=
  match k with
  | none => xs
  | some k => if 0 ≤ k then xs.take k.toNat else xs.take (xs.length + k).toNat

/-- `eigvals_sorted`, `/repo/pynare/utils/numpy.py:185-200`; `eig` is `np.linalg.eigvals`, `abs` is `np.absolute` of one
entry and `argsort` is `np.argsort`.  Indexing by positions of the array itself does not raise; positions outside of it
would be passed over here. -/
def eigvalsSorted {V M : Type} (eig : Arr V → Except Err (List V)) (abs : V → M) (argsort : List M → List Nat) (A : Arr V)
    (order : String) (k : Option Int) : Except Err (List V) :=
  if order ≠ "descending" ∧ order ≠ "ascending" then .error .valueError
  else do
    let eigs ← eig A
    let magOrder := argsort (eigs.map abs)
    let idx := if order = "descending" then magOrder.reverse else magOrder
    .ok (pyTake k (idx.filterMap fun i => eigs[i]?))

end Pynare

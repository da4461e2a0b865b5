import Verif.Model.Simul
import Verif.Model.ModelObj
/-!
# Impulse responses by name

Mirrors the choice of shocks in `/repo/pynare/impulse.py` and the method in `/repo/pynare/core/model.py`.
-/

namespace Pynare

variable {V : Type}

/-- The argument `exog` of `impulse_response`, `/repo/pynare/impulse.py:46-51`: nothing, a name, or a sequence of names.
Simplified: variables themselves, which are looked up by their name, are not distinguished from names. -/
inductive ImpulseArg where
  | none
  | one (x : String)
  | many (xs : List String)

/-- `exog_index`, `/repo/pynare/impulse.py:70-73`. -/
def ImpulseArg.index (stoch : List String) : ImpulseArg → Except Err (List Nat)
  | .none => .ok [0]
  | .one x => do
    let i ← getLoc1 stoch x
    .ok [i]
  | .many xs => getLoc stoch xs

section
variable [Zero V] [One V] [Add V] [Mul V] [Neg V] [Sub V]

/-- `shocks[0, exog_index] = size` on an array of zeros, `/repo/pynare/impulse.py:76-78`: numpy writes to all positions
given, and raises `IndexError` if the first row or one of the columns does not exist. -/
def impulseShocksAt (periods n : Nat) (idx : List Nat) (size : V) : Except Err (Arr V) :=
  if periods = 0 ∨ idx.any (n ≤ ·) then .error .indexError
  else .ok ⟨periods, n, fun k j => if k = 0 ∧ j ∈ idx then size else 0⟩

/-- `impulse_response`, `/repo/pynare/impulse.py:46-88`, and `Model.impulse_response`,
`/repo/pynare/core/model.py:242-265`, for a model that has been solved; `stoch` are the names of its shocks. -/
def impulseNamed (chol : Chol V) (half : V) (t : Typer) (sol : LinSol V) (ys : List V) (sigma : Arr V)
    (stoch : List String) (exog : ImpulseArg) (periods : Nat) (size : V) : Except Err (Arr V) := do
  let idx ← exog.index stoch
  let shocks ← impulseShocksAt periods stoch.length idx size
  let paths ← simulate chol half t sol ys sigma shocks .none
  .ok ⟨paths.r, paths.c, fun k c => paths.e k c - ys[c]?.getD 0⟩

end

end Pynare

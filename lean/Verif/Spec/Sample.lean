import Mathlib.Algebra.Order.Field.Basic
import Verif.Spec.Stats
/-!
# Specification vocabulary for sample moments
-/

namespace Pynare

variable {V : Type} [Field V]

/-- The mean of `n` numbers. -/
def avg (n : Nat) (x : Nat → V) : V := (sumTo n x) / n

/-- The mean product of the deviations of `n` pairs of numbers from their means. -/
def covOf (n : Nat) (x y : Nat → V) : V := avg n fun k => (x k - avg n x) * (y k - avg n y)

/-- `rest` are the rows of `paths` from `drop` on. -/
def RowsFrom (paths : Arr V) (drop : Int) (rest : Arr V) : Prop :=
  0 ≤ drop ∧ (rest.r : Int) + drop = paths.r ∧ rest.c = paths.c ∧
    ∀ k < rest.r, ∀ j < rest.c, rest.e k j = paths.e (k + drop.toNat) j

end Pynare

import Verif.Model.Arr
/-!
# Specification vocabulary for moments under different covariances of the shocks
-/

namespace Pynare

variable {V : Type}

/-- The array `z` is `a` times `x` plus `b` times `y`, entry by entry. -/
def Arr.Mix [Add V] [Mul V] (a b : V) (x y z : Arr V) : Prop :=
  y.r = x.r ∧ y.c = x.c ∧ z.r = x.r ∧ z.c = x.c ∧ ∀ i < x.r, ∀ j < x.c, z.e i j = a * x.e i j + b * y.e i j

/-- Two arrays of the same shape with the same entries. -/
def Arr.Same {W : Type} (x y : Arr W) : Prop :=
  y.r = x.r ∧ y.c = x.c ∧ ∀ i < x.r, ∀ j < x.c, y.e i j = x.e i j

end Pynare

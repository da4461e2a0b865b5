import Verif.Spec.RewrittenSecond
/-!
# Specification vocabulary for model files whose equations are combinations of those of others
-/

namespace Pynare

variable {V : Type} [Field V] [LinearOrder V]

/-- Near the values `a` every equation of the file `m'` is a linear combination, with constant coefficients, of the equations
of the file `m`: left minus right is the sum of those of `m`, multiplied by the coefficients `c`. -/
def CombinesNear (ops : Ops V) (m : ModelFile V) (σ : String → Option V) (m' : ModelFile V) (σ' : String → Option V)
    (a : String → V) : Prop :=
  ∀ l' r', (l', r') ∈ equations m'.stmts → ∃ c : Nat → V, ∃ δ > 0, ∀ ym y yp u : String → V,
    (∀ x ∈ m.names "var", |ym x - a x| ≤ δ ∧ |y x - a x| ≤ δ ∧ |yp x - a x| ≤ δ) → (∀ x ∈ m.names "varexo", |u x| ≤ δ) →
    ∀ w : Nat → V, (∀ i l r, (equations m.stmts)[i]? = some (l, r) → GapIs ops m σ (named m ym y yp u) l r (w i)) →
      GapIs ops m' σ' (named m' ym y yp u) l' r' (sumTo (equations m.stmts).length fun i => c i * w i)

end Pynare

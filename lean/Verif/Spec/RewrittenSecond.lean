import Verif.Spec.Rewritten
/-!
# Specification vocabulary for the second-order solution of model files written with other equations
-/

namespace Pynare

variable {V : Type} [Field V] [LinearOrder V]

/-- Deviations of size `s` along a curve that starts in the direction `d` and bends into the direction `e`. -/
def Around.bend (d e : Around V) (s : V) : Around V :=
  ⟨fun c => s * d.before c + s * s * e.before c, fun c => s * d.now c + s * s * e.now c,
    fun c => s * d.after c + s * s * e.after c, fun k => s * d.shock k + s * s * e.shock k⟩

/-- Deviations from the values `ss` along the curve satisfy the equations of the file to second order: the gap between
both sides is small compared with the square of the size of the deviations. -/
def SolvesToSecondOrder (ops : Ops V) (m : ModelFile V) (σ : String → Option V) (ss : List V) (d e : Around V) : Prop :=
  ∀ l r, (l, r) ∈ equations m.stmts → ∀ ε > 0, ∃ δ > 0, ∀ s, |s| ≤ δ →
    ∃ w, GapIs ops m σ (levelsAt ss (d.bend e s)) l r w ∧ |w| ≤ ε * (s * s)

end Pynare

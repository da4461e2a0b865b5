import Verif.Spec.WholeOrder
import Verif.Model.Steady
/-!
# Where the search for the steady state starts (C179)
-/

namespace Pynare

variable {V : Type}

/-- The last value the `initval` block of the file gives to `x` is `v`. -/
def GivenInitial (ops : Ops V) (m : ModelFile V) (ρ : String → Option V) (x : String) (v : V) : Prop :=
  ∃ pre e post, blockVals m.actions.initval = pre ++ (x, e) :: post ∧ (∀ e', (x, e') ∉ post) ∧ Evals ops ρ e v

/-- The `initval` block gives no value to `x`. -/
def NoInitial (m : ModelFile V) (x : String) : Prop := ∀ e, (x, e) ∉ blockVals m.actions.initval

/-- The last value the `endval` block gives to `x` is `v`. -/
def GivenTerminal (ops : Ops V) (m : ModelFile V) (ρ : String → Option V) (x : String) (v : V) : Prop :=
  ∃ pre e post, blockVals m.actions.endval = pre ++ (x, e) :: post ∧ (∀ e', (x, e') ∉ post) ∧ Evals ops ρ e v

/-- No boundary block says anything of `x`. -/
def NoBounds (m : ModelFile V) (x : String) : Prop :=
  NoInitial m x ∧ (∀ e, (x, e) ∉ blockVals m.actions.endval) ∧ m.actions.histval = none

section
variable [Field V] [LinearOrder V]

/-- The number `w` is the sum of the squares of left minus right of all equations, with the variables at rest at `ys`. -/
def SquaredGaps (ops : Ops V) (m : ModelFile V) (σ : String → Option V) (ys : List V) (w : V) : Prop :=
  ∃ gs : List V, List.Forall₂ (fun p g => GapIs ops m σ (levelsAt ys noDev) p.1 p.2 g) (equations m.stmts) gs ∧
    w = (gs.map fun g => g * g).sum

/-- The search by gradients does not leave a point at which a function that is nowhere negative is zero. -/
def StaysAtZero (opt : Minimizer V) : Prop :=
  ∀ f st, f st = .ok 0 → (∀ y w, y.length = st.length → f y = .ok w → 0 ≤ w) → ∃ ok, opt .gradient f st = .ok ⟨st, ok⟩

end
end Pynare

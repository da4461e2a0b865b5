import Verif.Spec.Whole
import Verif.Spec.WholeOrder
import Verif.Spec.Stability
import Verif.Model.Steady
/-!
# Specification vocabulary for the model files that are solved
-/

namespace Pynare

variable {V : Type}

/-- The variable `x` occurs with the offset `p` in some equation of the file. -/
def UsedAt (m : ModelFile V) (x : String) (p : Int) : Prop :=
  ∃ l r, (l, r) ∈ equations m.stmts ∧ ((x, p) ∈ l.pvars ∨ (x, p) ∈ r.pvars)

/-- Some variable of the file occurs with a lead; and either one occurs with a lag but not with a lead, or exactly one
occurs with both. -/
def SupportedFile (m : ModelFile V) : Prop :=
  (∃ x, m.DeclaredAs x "var" ∧ UsedAt m x 1) ∧
  ((∃ x, m.DeclaredAs x "var" ∧ UsedAt m x (-1) ∧ ¬ UsedAt m x 1) ∨
    ∃! x, m.DeclaredAs x "var" ∧ UsedAt m x (-1) ∧ UsedAt m x 1)

open Classical in
/-- The number of variables of the file that occur with the offset `p`. -/
noncomputable def countUsed (m : ModelFile V) (p : Int) : Nat := (m.names "var").countP fun x => decide (UsedAt m x p)

/-- Every shock that is named first in a correlation has a statement about its variance. -/
def CorrelatedHaveVariance (m : ModelFile V) : Prop :=
  ∀ b, m.actions.shocks = some b → ∀ x y e, Shock.corr x y e ∈ b.shocks → ∃ t ∈ b.shocks, t.isVarOf x

section
variable [Field V] [LinearOrder V]

/-- A minimiser that answers if the objective has a smallest value. -/
def FindsIfAny (opt : Minimizer V) : Prop :=
  ∀ a obj x0, (∃ x w, x.length = x0.length ∧ obj x = .ok w ∧ ∀ y v, y.length = x0.length → obj y = .ok v → w ≤ v) →
    ∃ r, opt a obj x0 = .ok r

/-- Deviations made smaller by the factor `s`. -/
def Around.scale (s : V) (d : Around V) : Around V :=
  ⟨fun c => s * d.before c, fun c => s * d.now c, fun c => s * d.after c, fun c => s * d.shock c⟩

/-- Deviations in the direction `d` from the values `ss` satisfy the equations of the file to first order: the gap
between both sides is small compared with the size of the deviations. -/
def SolvesToFirstOrder (ops : Ops V) (m : ModelFile V) (σ : String → Option V) (ss : List V) (d : Around V) : Prop :=
  ∀ l r, (l, r) ∈ equations m.stmts → ∀ ε > 0, ∃ δ > 0, ∀ s, |s| ≤ δ →
    ∃ w, GapIs ops m σ (levelsAt ss (d.scale s)) l r w ∧ |w| ≤ ε * |s|

/-- The path of deviations `y` from the values `ss` satisfies the equations of the file to first order in every period,
without shocks, and stays bounded.  `y 0` are the deviations before the first of these periods. -/
def BoundedFilePath (φ : V →+* ℂ) (ops : Ops V) (m : ModelFile V) (σ : String → Option V) (ss : List V)
    (y : Nat → Nat → V) : Prop :=
  (∀ τ, SolvesToFirstOrder ops m σ ss ⟨y τ, y (τ + 1), y (τ + 2), fun _ => 0⟩) ∧
  ∃ B : ℝ, ∀ τ, ∀ c < (m.names "var").length, ‖φ (y τ c)‖ ≤ B

/-- From every initial deviations there is exactly one bounded path. -/
def OneBoundedFilePath (φ : V →+* ℂ) (ops : Ops V) (m : ModelFile V) (σ : String → Option V) (ss : List V) : Prop :=
  ∀ y0 : Nat → V, ∃ y, y 0 = y0 ∧ BoundedFilePath φ ops m σ ss y ∧
    ∀ y', y' 0 = y0 → BoundedFilePath φ ops m σ ss y' → ∀ τ, ∀ c < (m.names "var").length, y' τ c = y τ c

end

end Pynare

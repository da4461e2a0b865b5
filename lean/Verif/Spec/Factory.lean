import Verif.Spec.Semantics
import Verif.Spec.Calib
/-!
# Specification vocabulary for reading a model file
-/

namespace Pynare

variable {V : Type}

/-- Straight-line execution of assignments from top to bottom: each right side is evaluated with
the values assigned so far. -/
inductive Exec (ops : Ops V) : (String → Option V) → List (String × Expr V) → (String → Option V) → Prop
  | nil {ρ} : Exec ops ρ [] ρ
  | cons {ρ ρ' x e v as} : Evals ops ρ e v →
      Exec ops (fun y => if x = y then some v else ρ y) as ρ' → Exec ops ρ ((x, e) :: as) ρ'

/-- No name has a value yet. -/
def noValues : String → Option V := fun _ => none

/-- `x` occurs in `e` at period `p` (a name without period is at period 0). -/
def OccursAt (x : String) (p : Int) (e : Expr V) : Prop := (p = 0 ∧ x ∈ e.vars) ∨ (x, p) ∈ e.pvars

/-- The dictionary `d` holds for each name the value of its last entry in `vals`, in the state
`ρ`, and nothing else. -/
def HoldsValues (ops : Ops V) (ρ : String → Option V) (vals : List (String × Expr V))
    (d : Dict (Option V)) : Prop :=
  (∀ x, x ∈ d.keys ↔ ∃ e, (x, e) ∈ vals) ∧
  ∀ pre x e post, vals = pre ++ (x, e) :: post → (∀ e', (x, e') ∉ post) →
    ∀ v, Evals ops ρ e v → d.get? x = some (some v)

/-- The equations of a model block in file order, as pairs of left and right side. -/
def equations : List (Stmt V) → List (Expr V × Expr V)
  | [] => []
  | .loc _ _ :: ss => equations ss
  | .eqn l r _ :: ss => (l, r) :: equations ss

/-- The values written in a boundary block; none if there is no block. -/
def blockVals : Option (Bound V) → List (String × Expr V)
  | some b => b.vals
  | none => []

end Pynare

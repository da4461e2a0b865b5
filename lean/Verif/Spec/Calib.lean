import Verif.Spec.Expr
import Verif.Model.Calib
/-! # Specification vocabulary for calibration

Independent of the algorithm: what a set of definitions mentions and what it means for
an assignment of numbers to solve it. -/

namespace Pynare

variable {V : Type}

/-- names a definition mentions -/
def Def.vars : Def V → List String
  | .num _ => []
  | .ast e => e.vars

/-- `k`'s definition mentions `v` -/
def Mentions (defs : Dict (Def V)) (k v : String) : Prop := ∃ d, (k, d) ∈ defs ∧ v ∈ d.vars

/-- value of a definition in an assignment -/
def Def.value (ops : Ops V) (ρ : String → Option V) : Def V → Except Err V
  | .num v => .ok v
  | .ast e => eval ops (fun x => match ρ x with
    | some v => .ok v
    | none => .error .syntaxError) e

/-- the number stored under a name -/
def calibVal (c : Dict (Def V)) (k : String) : Option V :=
  match c.get? k with
  | some (.num v) => some v
  | _ => none

/-- a solution of the definitions -/
structure IsSol (ops : Ops V) (defs : Dict (Def V)) (ρ : String → Option V) : Prop where
  dom : ∀ k, (ρ k).isSome ↔ k ∈ defs.keys
  fix : ∀ k d, defs.get? k = some d → ∃ v, ρ k = some v ∧ d.value ops ρ = .ok v

end Pynare

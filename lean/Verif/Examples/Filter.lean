import Mathlib.Data.Rat.Defs
import Mathlib.Algebra.Order.Field.Rat
import Verif.Props.ModelObj
import Verif.Model.Filter
/-!
# Filters to look at
-/

namespace Pynare

/-- LAPACK for arrays with one entry, with the identity for the logarithm -/
def oneLapack : Lapack ℚ where
  potrf a := if a.r = 1 ∧ 0 < a.e 0 0 then some a else none
  potri c := some ⟨1, 1, fun _ _ => 1 / c.e 0 0⟩
  det a := .ok (a.e 0 0)
  log := id

/-- two states, the first of which reacts to the second and is observed -/
def kfT : Arr ℚ := ⟨2, 2, fun i j => if i = 0 ∧ j = 1 then 1 else if i = 1 ∧ j = 1 then 1 / 2 else 0⟩

def kfEye : Arr ℚ := ⟨2, 2, fun i j => if i = j then 1 else 0⟩

def kfX : Arr ℚ := ⟨2, 1, fun _ _ => 0⟩

def kfData (a b : ℚ) : Arr ℚ := ⟨2, 1, fun i _ => if i = 0 then a else b⟩

/-- reads the observation equation `z = x` -/
def obsEnv : MEnv Int Int Int :=
  { toyEnv2 with parse := fun s => if s = "z = x" then .ok (.bin .sub (.var "z") (.var "x")) else .error .pynareSyntaxError }

/-- `x = k`, where `k` is a local variable -/
def localArgs : MArgs Int :=
  { endog := ["x"], stoch := ["e"], locals := [("k", .num 5)], exprs := ⟨[.bin .sub (.var "x") (.var "k")], [""]⟩ }

end Pynare

import Verif.Examples.RatLa
/-!
# A model with a floor, for the examples

Two states, the second with a lead: `b = b(-1)/2 + e1` and `m(+1) - 11/4 m + 3/2 m(-1) + e2 = 0`; in the
alternative regime the second equation is `m = -1`.
-/

namespace Pynare

/-- the decomposition of the state space -/
def obQ : QZ ℚ :=
  { S := listArr [[1/2, 0, 0], [0, 3/4, 5/2], [0, 0, 2]] 3
    T := Arr.eye 3 3 0
    eigs := [stab, stab, expl]
    Q := listArr [[1, 0, 0], [0, 3/5, 4/5], [0, 4/5, -3/5]] 3
    Zt := listArr [[1, 0, 0], [0, 4/5, -3/5], [0, 3/5, 4/5]] 3 }

/-- linear algebra -/
def obLa : LinAlg ℚ := ratLa 0 obQ

/-- `b` declared before `m` -/
def obT : Llx := match buildLlx [[-1, 0], [-1, 0, 1]] with
  | .ok t => t
  | .error _ => ⟨⟨0, fun _ _ => none⟩, 0⟩

/-- the jacobian: lags of `b`, `m`, current `b`, `m`, lead of `m`, shocks -/
def obJ : Arr ℚ := listArr [[-1/2, 0, 1, 0, 0, -1, 0], [0, 3/2, 0, -11/4, 1, 0, 1]] 7

/-- `m` declared before `b` -/
def boT : Llx := match buildLlx [[-1, 0, 1], [-1, 0]] with
  | .ok t => t
  | .error _ => ⟨⟨0, fun _ _ => none⟩, 0⟩

/-- the jacobian in this order -/
def boJ : Arr ℚ := listArr [[0, -1/2, 0, 1, 0, -1, 0], [3/2, 0, -11/4, 0, 1, 0, 1]] 7

/-- the decision rules in order of declaration -/
def obGy : Arr ℚ := listArr [[1/2, 0], [0, 3/4]] 2
/-- responses to shocks -/
def obGu : Arr ℚ := listArr [[1, 0], [0, 1/2]] 2

/-- the reference regime -/
def obRef : Regime ℚ := Regime.ofJacobian obT 2 obJ fun _ => 0

/-- the alternative regime -/
def obAlt : Regime ℚ :=
  { A := Arr.zeros 2 2
    B := Arr.eye 2 2 0
    C := listArr [[-1/2, 0], [0, 0]] 2
    E := listArr [[-1, 0], [0, 0]] 2
    D := fun i => if i = 1 then 1 else 0 }

/-- `m < -1` -/
def obBinds (y : Nat → ℚ) : Bool := decide (y 1 < -1)

/-- vector from a list -/
def vecOf (l : List ℚ) : Nat → ℚ := fun i => l[i]?.getD 0

end Pynare

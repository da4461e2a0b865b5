import Verif.Examples.FirstOrder
import Verif.Spec.Simul
/-!
# Small solutions for the examples of simulations
-/

namespace Pynare

/-- the table of a model with two backward-looking variables, the second one with a lead too -/
def smT : Typer := match buildLlx [[-1, 0, 1], [-1, 0]] with
  | .ok t => t.toTyper
  | .error _ => ⟨0, fun _ _ => none⟩

/-- responses to the states -/
def smGy : Arr ℚ := listArr [[1/2, 1], [0, 1/4]] 2
/-- responses to the shocks -/
def smGu : Arr ℚ := listArr [[1, 0], [2, 1]] 2
/-- second derivatives and constant -/
def smS : Second ℚ := ⟨listArr [[1, 0, 0, 1], [0, 2, 2, 0]] 4, listArr [[0, 1, 0, 0], [1, 0, 0, 0]] 4,
  listArr [[4, 0, 0, 0], [0, 0, 0, 8]] 4, listArr [[1], [3]] 1⟩
/-- the steady state -/
def smYs : List ℚ := [1, 2]
/-- where the simulation begins -/
def smInit : List ℚ := [2, 2]
/-- three periods of shocks -/
def smShocks : Arr ℚ := listArr [[1, 0], [0, -1], [5, 5]] 2
/-- covariance matrix, not diagonal -/
def smSigma : Arr ℚ := listArr [[4, 2], [2, 10]] 2
/-- its upper factor -/
def smU : Arr ℚ := listArr [[2, 1], [0, 3]] 2
/-- the factorisation of this matrix -/
def smChol : Chol ℚ := fun s => if sameArr s smSigma then .ok smU else .error .valueError

theorem smChol_exact : CholExact smChol := by
  intro s u h
  unfold smChol at h
  by_cases hs : sameArr s smSigma = true
  · rw [if_pos hs] at h
    have := Except.ok.inj h
    subst this
    obtain ⟨h1, h2, h3⟩ := sameArr_spec hs
    have h1 : s.r = 2 := h1
    have h2 : s.c = 2 := h2
    refine ⟨h1.symm, h1.symm, by omega, rfl, h1, h2, ?_⟩
    intro i hi j hj
    have hi : i < 2 := hi
    have hj : j < 2 := hj
    rw [h3 i (by omega) j (by omega)]
    interval_cases i <;> interval_cases j <;> decide +kernel
  · rw [if_neg hs] at h; cases h

/-- a table of one variable -/
def oneT : Typer := match buildLlx [[-1, 0]] with
  | .ok t => t.toTyper
  | .error _ => ⟨0, fun _ _ => none⟩

/-- returns an error -/
def errIs {α : Type} (x : Except Err α) (e : Err) : Bool := match x with
  | .ok _ => false
  | .error e' => decide (e' = e)

end Pynare

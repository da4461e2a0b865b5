import Verif.Examples.RatLa
import Verif.Lemmas.Decomp
/-!
# A small solved model for the examples of moments
-/

namespace Pynare

/-- three variables: the first has a lag and a lead, the second is static, the third has a lag -/
def stT : Typer := match buildLlx [[-1, 0, 1], [0], [-1, 0]] with
  | .ok t => t.toTyper
  | .error _ => ⟨0, fun _ _ => none⟩

/-- responses to the states, in decision-rule order -/
def stGy : Arr ℚ := listArr [[0, 1], [3/5, 0], [0, 4/5]] 2
/-- responses to the shocks -/
def stGu : Arr ℚ := listArr [[0, 0], [1, 0], [0, 1]] 2
/-- covariance of the shocks -/
def stSigma : Arr ℚ := listArr [[16, 13/5], [13/5, 9]] 2
/-- covariance of the states -/
def stX : Arr ℚ := listArr [[25, 5], [5, 25]] 2
/-- covariance of the variables as declared -/
def stC : Arr ℚ := listArr [[25, 20, 5], [20, 25, 3], [5, 3, 25]] 3

/-- a state space with one explosive root -/
def stSpace : Space ℚ := ⟨Arr.zeros 0 0, Arr.zeros 0 0, Arr.zeros 0 0,
  ⟨[stab, stab, expl], Arr.zeros 0 0, Arr.zeros 0 0, Arr.zeros 0 0, Arr.eye 1 1 0, Arr.zeros 0 0, Arr.zeros 0 0⟩⟩

/-- linear algebra of which only the rank is used -/
def stLa : LinAlg ℚ := ratLa 1 ⟨Arr.zeros 0 0, Arr.zeros 0 0, [], Arr.zeros 0 0, Arr.zeros 0 0⟩

/-- check of a solution of the Lyapunov equation -/
def lyapB (A Q X : Arr ℚ) : Bool :=
  decide (X.r = A.r) && decide (X.c = A.r) && (List.range A.r).all fun i => (List.range A.r).all fun j =>
    decide (X.e i j = (sumTo A.r fun k => sumTo A.r fun l => A.e i k * X.e k l * A.e j l) + Q.e i j)

/-- a solver that knows some solutions -/
def ratLyap (cands : List (Arr ℚ)) : Lyap ℚ := fun A Q => match cands.find? (lyapB A Q) with
  | some X => .ok X
  | none => .error .valueError

theorem ratLyap_exact (cands : List (Arr ℚ)) : LyapExact (ratLyap cands) := by
  intro A Q X _ _ _ h
  unfold ratLyap at h
  split at h
  · rename_i X' hf
    rw [← Except.ok.inj h]
    have := List.find?_some hf
    unfold lyapB at this
    simp only [Bool.and_eq_true, decide_eq_true_eq, List.all_eq_true, List.mem_range] at this
    exact ⟨this.1.1, this.1.2, this.2⟩
  · cases h

/-- square roots of some numbers -/
def ratSqrt (x : ℚ) : Option ℚ := if x = 25 then some 5 else if x = 0 then some 0 else none

/-- the variables come back to the steady state -/
theorem stStable : Stable (stateRows stT stGy) := by
  refine stable_of_weights (fun _ => 1) (ρ := 4/5) (fun _ _ => by norm_num) (by norm_num) (by norm_num) ?_
  intro i hi
  have hi : i < 2 := hi
  interval_cases i <;> decide +kernel

theorem stPerm : stT.drOrder.Perm (List.range stT.n) := by decide +kernel

/-- covariance for the decomposition: with one added to the variances it has the factor `stL` -/
def stSigma' : Arr ℚ := listArr [[15, 4], [4, 9]] 2
/-- its factor -/
def stL : Arr ℚ := listArr [[4, 0], [1, 3]] 2
/-- the factorisation of this matrix -/
def stChol : Chol ℚ := fun s => if sameArr s (perturbed 1 stSigma') then .ok stL else .error .valueError

theorem stChol_exact : CholLower stChol := by
  intro s L h
  unfold stChol at h
  by_cases hs : sameArr s (perturbed 1 stSigma') = true
  · rw [if_pos hs] at h
    have := Except.ok.inj h
    subst this
    obtain ⟨h1, h2, h3⟩ := sameArr_spec hs
    have h1 : s.r = 2 := h1
    have h2 : s.c = 2 := h2
    refine ⟨h1.symm, h1.symm, by omega, ?_, ?_, ?_⟩
    · intro i hi j hj
      rw [h1] at hi hj ⊢
      rw [h3 i (by omega) j (by omega)]
      interval_cases i <;> interval_cases j <;> decide +kernel
    · intro i hi j hj hij
      rw [h1] at hi hj
      interval_cases i <;> interval_cases j <;> first | omega | decide +kernel
    · intro i hi
      rw [h1] at hi
      interval_cases i <;> decide +kernel
  · rw [if_neg hs] at h; cases h

end Pynare

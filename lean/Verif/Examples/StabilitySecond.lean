import Verif.Examples.Linear
import Verif.Examples.Stability
/-!
# A stable model whose second-order simulations explode

`x = x(-1)/2 + x(-1)^2 + e1`, `z = z(-1)/4 + e2`, `w(+1) = 2*w`.
-/

namespace Pynare

/-- a diagonal array -/
def diagArr (ls : List ℚ) : Arr ℚ := ⟨ls.length, ls.length, fun i j => if i = j then ls[i]?.getD 0 else 0⟩

/-- the decomposition of a state space that is diagonal already -/
def diagQz (ls : List ℚ) : QZ ℚ :=
  ⟨diagArr ls, Arr.eye ls.length ls.length 0, ls.map eigOf, Arr.eye ls.length ls.length 0,
    Arr.eye ls.length ls.length 0⟩

/-- its eigenvalues -/
def diagEv (ls : List ℚ) : Nat → Option ℂ := fun i => some ((ls[i]?.getD 0 : ℚ) : ℂ)

theorem inside_rat (l : ℚ) : Inside (some (l : ℂ)) ↔ |l| < 1 := by
  constructor
  · rintro ⟨z, hz, h⟩
    rw [← Option.some.inj hz, Complex.norm_ratCast] at h
    exact_mod_cast h
  · intro h
    exact ⟨_, rfl, by rw [Complex.norm_ratCast]; exact_mod_cast h⟩

theorem diag_eigen (ls : List ℚ)
    (h : ∀ i j : Nat, i ≤ j → j < ls.length → |ls[j]?.getD 0| < 1 → |ls[i]?.getD 0| < 1) :
    (diagQz ls).Eigen (Rat.castHom ℂ) (diagEv ls) := by
  have hl : (diagQz ls).eigs.length = ls.length := by simp [diagQz]
  have he : ∀ (i : Nat) (e : Eig), (diagQz ls).eigs[i]? = some e → e = eigOf (ls[i]?.getD 0) := by
    intro i e hi
    have : (ls.map eigOf)[i]? = some e := hi
    rw [List.getElem?_map] at this
    obtain ⟨l, h1, h2⟩ := Option.map_eq_some_iff.mp this
    rw [h1, ← h2]; rfl
  refine ⟨?_, ?_, ?_, ?_, ?_⟩
  · intro i e hi
    rw [he i e hi]; simp [eigOf, diagEv]
  · intro i e z hi hz
    rw [he i e hi, ← Option.some.inj hz, Complex.norm_ratCast]
    simp only [eigOf, decide_eq_true_eq]
    exact_mod_cast Iff.rfl
  · intro i e z hi hz
    rw [he i e hi, ← Option.some.inj hz]
    simp only [eigOf, decide_eq_true_eq, Complex.ratCast_re, Complex.ratCast_im, lt_irrefl, and_false, or_false]
    exact_mod_cast Iff.rfl
  · intro i j hij hj h2
    rw [hl] at hj
    exact (inside_rat _).mpr (h i j hij hj ((inside_rat _).mp h2))
  · intro k l hkl hl2 _ _ w hw
    obtain ⟨v, ⟨j, hkj, hjl, hv⟩, heq⟩ := hw
    have hjm : j ∈ Finset.Ico k l := Finset.mem_Ico.mpr ⟨hkj, hjl⟩
    have sS : ∑ m ∈ Finset.Ico k l, (Rat.castHom ℂ) ((diagQz ls).S.e j m) * v m =
        ((ls[j]?.getD 0 : ℚ) : ℂ) * v j := by
      rw [Finset.sum_eq_single j]
      · simp [diagQz, diagArr]
      · intro m _ hm; simp [diagQz, diagArr, Ne.symm hm]
      · intro h; exact absurd hjm h
    have sT : ∑ m ∈ Finset.Ico k l, (Rat.castHom ℂ) ((diagQz ls).T.e j m) * v m = v j := by
      rw [Finset.sum_eq_single j]
      · simp [diagQz, Arr.eye]
      · intro m _ hm; simp [diagQz, Arr.eye, hm, Ne.symm hm]
      · intro h; exact absurd hjm h
    have := heq j hkj hjl
    cases w with
    | none => rw [sT] at this; exact absurd this hv
    | some z =>
      simp only [sS, sT] at this
      have hz := mul_right_cancel₀ hv this
      exact ⟨j, hkj, hjl, by rw [← hz]; rfl⟩

theorem diag_noUnit {ls : List ℚ} (h : ∀ l ∈ ls, |l| < 1 ∨ 1 < |l|) : NoUnitRoot ls.length (diagEv ls) := by
  intro i hi
  have e : ls[i]?.getD 0 = ls[i] := by simp [List.getElem?_eq_getElem hi]
  unfold diagEv
  rw [e]
  rcases h _ (List.getElem_mem hi) with h | h
  · exact .inl ((inside_rat _).mpr h)
  · refine .inr fun z hz => ?_
    rw [← Option.some.inj hz, Complex.norm_ratCast]
    exact_mod_cast h

/-- the jacobian at zero; columns: lags of the states, current values, lead of the last, shocks -/
def xpJ : Arr ℚ := listArr [[-1/2, 0, 1, 0, 0, 0, -1, 0], [0, -1/4, 0, 1, 0, 0, 0, -1],
  [0, 0, 0, 0, -2, 1, 0, 0]] 8

/-- the second derivatives at zero -/
def xpH : Arr ℚ := sparse 3 64 [(0, 0, -2)]

/-- the routines of linear algebra -/
def xpLa : LinAlg ℚ := { chLa with
  rank := fun _ => 1
  ordqz := fun b a => if qzB (diagQz [1/2, 1/4, 2]) b a then .ok (diagQz [1/2, 1/4, 2]) else .error .valueError }

theorem xpLa_exact : xpLa.Exact where
  qr := chLa_exact.qr
  solve := chLa_exact.solve
  inv := chLa_exact.inv
  ordqz b a q _ _ _ h := by
    simp only [xpLa] at h
    split at h
    · rename_i hi
      rw [← Except.ok.inj h]; exact qzB_spec hi
    · cases h

/-- all arguments are available in every step -/
def xpAll : Except Err (Space ℚ × Arr ℚ × Arr ℚ × SecondNd ℚ) := do
  let s ← Space.create xpLa so2T.toTyper xpJ
  let (gy, gu) ← solveFirstOrder xpLa so2T 2 s
  let so ← solveSecondOrder xpLa triQz (1/2) so2T.toTyper 2 xpJ xpH so2Sigma (Nd.mat gy).squeeze (Nd.mat gu).squeeze
  .ok (s, gy, gu, so)

end Pynare

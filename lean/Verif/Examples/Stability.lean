import Verif.Examples.RatLa
import Verif.Spec.Stability
import Mathlib.Algebra.Algebra.Rat
import Mathlib.Tactic.NormNum
import Mathlib.Tactic.IntervalCases
/-!
# Small models for stability

A state `x = l1 x(-1) + e`, a forward-looking variable `z(+1) = l2 z`, and their sum.
-/

namespace Pynare

/-- the comparisons of the code with a number that is real and finite -/
def eigOf (l : ℚ) : Eig := ⟨decide (1 < l), false, decide (1 < |l|)⟩

/-- the decomposition of the state space -/
def sbQz (l1 l2 : ℚ) : QZ ℚ :=
  { S := listArr [[l1, 0], [0, l2]] 2
    T := listArr [[1, 0], [0, 1]] 2
    eigs := [eigOf l1, eigOf l2]
    Q := listArr [[1, 0], [0, 1]] 2
    Zt := listArr [[1, 0], [0, 1]] 2 }

/-- the jacobian; columns: lag of the state, current forward-looking, state and static variable, lead,
shock -/
def sbJ (l1 l2 : ℚ) : Arr ℚ := listArr [[0, -1, -1, 1, 0, 0], [-l1, 0, 1, 0, 0, -1],
  [0, -l2, 0, 0, 1, 0]] 6

/-- the routines of linear algebra -/
def sbLa (l1 l2 : ℚ) : LinAlg ℚ := ratLa 1 (sbQz l1 l2)

/-- the eigenvalues -/
def sbEv (l1 l2 : ℚ) : Nat → Option ℂ := fun i => if i = 0 then some (l1 : ℂ) else some (l2 : ℂ)

theorem sb_eigen (l1 l2 : ℚ) (h : |l2| < 1 → |l1| < 1) :
    (sbQz l1 l2).Eigen (Rat.castHom ℂ) (sbEv l1 l2) := by
  have hin : ∀ l : ℚ, Inside (some (l : ℂ)) ↔ |l| < 1 := by
    intro l
    constructor
    · rintro ⟨z, hz, h⟩
      rw [← Option.some.inj hz, Complex.norm_ratCast] at h
      exact_mod_cast h
    · intro h
      exact ⟨_, rfl, by rw [Complex.norm_ratCast]; exact_mod_cast h⟩
  have hl : (sbQz l1 l2).eigs.length = 2 := rfl
  have cases2 : ∀ (i : Nat) (e : Eig) (P : Nat → Eig → Prop), (sbQz l1 l2).eigs[i]? = some e →
      P 0 (eigOf l1) → P 1 (eigOf l2) → P i e := by
    intro i e P hi h0 h1
    have : i < 2 := by
      have := (List.getElem?_eq_some_iff.mp hi).1; exact this
    interval_cases i
    · rw [← Option.some.inj hi]; exact h0
    · rw [← Option.some.inj hi]; exact h1
  have hbig : ∀ (l : ℚ) (z : ℂ), some (l : ℂ) = some z → ((eigOf l).big = true ↔ 1 < ‖z‖) := by
    intro l z hz
    rw [← Option.some.inj hz, Complex.norm_ratCast]
    simp only [eigOf, decide_eq_true_eq]
    exact_mod_cast Iff.rfl
  have hgt : ∀ (l : ℚ) (z : ℂ), some (l : ℂ) = some z →
      ((eigOf l).gt1 = true ↔ 1 < z.re ∨ z.re = 1 ∧ 0 < z.im) := by
    intro l z hz
    rw [← Option.some.inj hz]
    simp only [eigOf, decide_eq_true_eq, Complex.ratCast_re, Complex.ratCast_im, lt_irrefl, and_false, or_false]
    exact_mod_cast Iff.rfl
  refine ⟨?_, ?_, ?_, ?_, ?_⟩
  · intro i e hi
    refine cases2 i e (fun i e => e.inf = true ↔ sbEv l1 l2 i = none) hi ?_ ?_ <;> simp [eigOf, sbEv]
  · intro i e z hi
    exact cases2 i e (fun i e => sbEv l1 l2 i = some z → (e.big = true ↔ 1 < ‖z‖)) hi (hbig l1 z) (hbig l2 z)
  · intro i e z hi
    exact cases2 i e (fun i e => sbEv l1 l2 i = some z → (e.gt1 = true ↔ 1 < z.re ∨ z.re = 1 ∧ 0 < z.im)) hi
      (hgt l1 z) (hgt l2 z)
  · intro i j hij hj
    rw [hl] at hj
    have hi : i < 2 := by omega
    interval_cases j <;> interval_cases i
    · exact id
    · intro h2
      exact (hin l1).mpr (h ((hin l2).mp h2))
    · exact id
  · intro k l hkl hl2 _ _ w hw
    rw [hl] at hl2
    obtain ⟨v, ⟨j, hkj, hjl, hv⟩, heq⟩ := hw
    have hj : j < 2 := by omega
    have hS : ∀ m, k ≤ m → m < l → (Rat.castHom ℂ) ((sbQz l1 l2).S.e j m) * v m =
        if m = j then ((if j = 0 then l1 else l2 : ℚ) : ℂ) * v j else 0 := by
      intro m hm1 hm2
      have : m < 2 := by omega
      interval_cases j <;> interval_cases m <;> simp [sbQz, listArr]
    have hT : ∀ m, k ≤ m → m < l → (Rat.castHom ℂ) ((sbQz l1 l2).T.e j m) * v m = if m = j then v j else 0 := by
      intro m hm1 hm2
      have : m < 2 := by omega
      interval_cases j <;> interval_cases m <;> simp [sbQz, listArr]
    have hjm : j ∈ Finset.Ico k l := Finset.mem_Ico.mpr ⟨hkj, hjl⟩
    have sS : ∑ m ∈ Finset.Ico k l, (Rat.castHom ℂ) ((sbQz l1 l2).S.e j m) * v m =
        ((if j = 0 then l1 else l2 : ℚ) : ℂ) * v j := by
      rw [Finset.sum_congr rfl fun m hm => hS m (Finset.mem_Ico.mp hm).1 (Finset.mem_Ico.mp hm).2]
      simp [Finset.sum_ite_eq', hkj, hjl]
    have sT : ∑ m ∈ Finset.Ico k l, (Rat.castHom ℂ) ((sbQz l1 l2).T.e j m) * v m = v j := by
      rw [Finset.sum_congr rfl fun m hm => hT m (Finset.mem_Ico.mp hm).1 (Finset.mem_Ico.mp hm).2]
      simp [Finset.sum_ite_eq', hkj, hjl]
    have := heq j hkj hjl
    cases w with
    | none => rw [sT] at this; exact absurd this hv
    | some z =>
      simp only [sS, sT] at this
      have hz := mul_right_cancel₀ hv this
      refine ⟨j, hkj, hjl, ?_⟩
      rw [← hz]
      interval_cases j <;> simp [sbEv]

theorem sb_noUnit {l1 l2 : ℚ} (h1 : |l1| < 1) (h2 : 1 < |l2|) : NoUnitRoot 2 (sbEv l1 l2) := by
  intro i hi
  interval_cases i
  · exact .inl ⟨_, rfl, by rw [Complex.norm_ratCast]; exact_mod_cast h1⟩
  · refine .inr fun z hz => ?_
    rw [← Option.some.inj hz, Complex.norm_ratCast]
    exact_mod_cast h2

end Pynare

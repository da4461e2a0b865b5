import Mathlib.Analysis.Normed.Algebra.GelfandFormula
import Mathlib.Analysis.Matrix.Normed
import Mathlib.LinearAlgebra.Eigenspace.Matrix
import Mathlib.LinearAlgebra.Eigenspace.Minpoly
import Mathlib.Analysis.SpecificLimits.Basic
/-!
# Powers of a matrix whose eigenvalues are all inside the unit circle
-/

namespace Pynare

open Matrix Filter Topology

variable {n : Type} [Fintype n] [DecidableEq n]

section
open scoped Matrix.Norms.Operator NNReal ENNReal

theorem norm_pow_geom (M : Matrix n n ℂ)
    (h : ∀ (z : ℂ) (v : n → ℂ), v ≠ 0 → M *ᵥ v = z • v → ‖z‖ < 1) :
    ∃ C r : ℝ, 0 ≤ C ∧ 0 < r ∧ r < 1 ∧ ∀ k, ‖M ^ k‖ ≤ C * r ^ k := by
  rcases isEmpty_or_nonempty n with he | hne
  · refine ⟨0, 1 / 2, le_rfl, by norm_num, by norm_num, fun k => ?_⟩
    rw [show M ^ k = 0 from Subsingleton.elim _ _, norm_zero, zero_mul]
  have hspec : ∀ z ∈ spectrum ℂ M, ‖z‖₊ < (1 : ℝ≥0) := by
    intro z hz
    rw [← Matrix.spectrum_toLin', ← Module.End.hasEigenvalue_iff_mem_spectrum] at hz
    obtain ⟨v, hv⟩ := hz.exists_hasEigenvector
    have := h z v hv.2 (by simpa [Matrix.toLin'_apply] using hv.apply_eq_smul)
    exact_mod_cast this
  have hlt := spectrum.spectralRadius_lt_of_forall_lt M hspec
  obtain ⟨r, hr1, hr2⟩ := ENNReal.lt_iff_exists_nnreal_btwn.mp hlt
  have hr2' : r < 1 := by exact_mod_cast hr2
  have hr0 : 0 < r := by
    have : (0 : ℝ≥0∞) < r := lt_of_le_of_lt zero_le hr1
    exact_mod_cast this
  have hev := (spectrum.pow_nnnorm_pow_one_div_tendsto_nhds_spectralRadius M).eventually_lt_const hr1
  obtain ⟨N, hN⟩ := Filter.eventually_atTop.mp hev
  have big : ∀ k, N ≤ k → 1 ≤ k → ‖M ^ k‖ ≤ (r : ℝ) ^ k := by
    intro k hk hk1
    have h1 := le_of_lt (hN k hk)
    have hk0 : (0 : ℝ) < k := by exact_mod_cast hk1
    have h2 := ENNReal.rpow_le_rpow h1 hk0.le
    rw [← ENNReal.rpow_mul, one_div, inv_mul_cancel₀ hk0.ne', ENNReal.rpow_one,
      ENNReal.rpow_natCast] at h2
    have h3 : ‖M ^ k‖₊ ≤ r ^ k := by exact_mod_cast h2
    exact_mod_cast h3
  have hr0' : (0 : ℝ) < r := by exact_mod_cast hr0
  have hnn : ∀ k, 0 ≤ ‖M ^ k‖ / (r : ℝ) ^ k := fun k => by positivity
  refine ⟨1 + ∑ k ∈ Finset.range (N + 1), ‖M ^ k‖ / (r : ℝ) ^ k, r, ?_, hr0', by exact_mod_cast hr2', ?_⟩
  · have := Finset.sum_nonneg fun k (_ : k ∈ Finset.range (N + 1)) => hnn k
    linarith
  intro k
  have hrk : 0 < (r : ℝ) ^ k := by positivity
  rw [← div_le_iff₀ hrk]
  have hs := Finset.sum_nonneg fun k (_ : k ∈ Finset.range (N + 1)) => hnn k
  by_cases hk : k ≤ N
  · have := Finset.single_le_sum (fun k _ => hnn k) (Finset.mem_range.mpr (Nat.lt_succ_of_le hk))
    linarith
  · have : ‖M ^ k‖ / (r : ℝ) ^ k ≤ 1 := by
      rw [div_le_one hrk]; exact big k (by omega) (by omega)
    linarith

theorem entry_le_norm (M : Matrix n n ℂ) (i j : n) : ‖M i j‖ ≤ ‖M‖ := by
  rw [← coe_nnnorm, ← coe_nnnorm, NNReal.coe_le_coe, Matrix.linfty_opNNNorm_def]
  exact (Finset.single_le_sum (f := fun j => ‖M i j‖₊) (fun _ _ => zero_le) (Finset.mem_univ j)).trans
    (Finset.le_sup (f := fun i => ∑ j, ‖M i j‖₊) (Finset.mem_univ i))

end

/-- If all eigenvalues are inside the unit circle, the entries of the powers decline geometrically. -/
theorem pow_geom (M : Matrix n n ℂ)
    (h : ∀ (z : ℂ) (v : n → ℂ), v ≠ 0 → M *ᵥ v = z • v → ‖z‖ < 1) :
    ∃ C r : ℝ, 0 ≤ C ∧ 0 < r ∧ r < 1 ∧ ∀ k i j, ‖(M ^ k) i j‖ ≤ C * r ^ k := by
  obtain ⟨C, r, h1, h2, h3, h4⟩ := norm_pow_geom M h
  exact ⟨C, r, h1, h2, h3, fun k i j => (entry_le_norm _ i j).trans (h4 k)⟩

theorem apply_geom {M : Matrix n n ℂ} {C r : ℝ} (h : ∀ k i j, ‖(M ^ k) i j‖ ≤ C * r ^ k) (k : Nat)
    (v : n → ℂ) (i : n) : ‖(M ^ k *ᵥ v) i‖ ≤ C * r ^ k * ∑ j, ‖v j‖ := by
  rw [mulVec, dotProduct, Finset.mul_sum]
  refine (norm_sum_le _ _).trans (Finset.sum_le_sum fun j _ => ?_)
  rw [norm_mul]
  exact mul_le_mul_of_nonneg_right (h k i j) (norm_nonneg _)

/-- a linear recursion in closed form -/
theorem recursion_closed {M : Matrix n n ℂ} {x b : Nat → n → ℂ} (τ : Nat)
    (h : ∀ m < τ, x (m + 1) = M *ᵥ x m + b m) :
    x τ = M ^ τ *ᵥ x 0 + ∑ m ∈ Finset.range τ, M ^ (τ - 1 - m) *ᵥ b m := by
  induction τ with
  | zero => simp
  | succ τ ih =>
    have ih := ih fun m hm => h m (by omega)
    rw [h τ (by omega), Finset.sum_range_succ]
    rw [show τ + 1 - 1 - τ = 0 by omega, pow_zero, one_mulVec, ← add_assoc]
    congr 1
    conv_lhs => rw [ih]
    rw [mulVec_add, mulVec_mulVec, ← pow_succ', mulVec_sum]
    congr 1
    refine Finset.sum_congr rfl fun m hm => ?_
    rw [mulVec_mulVec, ← pow_succ']
    have := Finset.mem_range.mp hm
    rw [show τ - 1 - m + 1 = τ + 1 - 1 - m by omega]

/-- a stable recursion: what remains of the initial value declines geometrically, and bounded terms add
a bounded amount -/
theorem recursion_bound {M : Matrix n n ℂ} {C r : ℝ} (hC : 0 ≤ C) (hr : 0 ≤ r) (hr1 : r < 1)
    (hM : ∀ k i j, ‖(M ^ k) i j‖ ≤ C * r ^ k) {x b : Nat → n → ℂ} (τ : Nat)
    (h : ∀ m < τ, x (m + 1) = M *ᵥ x m + b m) {B : ℝ} (hB0 : 0 ≤ B) (hB : ∀ m < τ, ∑ j, ‖b m j‖ ≤ B) (i : n) :
    ‖x τ i‖ ≤ C * r ^ τ * (∑ j, ‖x 0 j‖) + C * B / (1 - r) := by
  rw [recursion_closed τ h, Pi.add_apply, Finset.sum_apply]
  refine (norm_add_le _ _).trans (add_le_add (apply_geom hM _ _ _) ?_)
  refine (norm_sum_le _ _).trans ?_
  have h1 : ∀ m ∈ Finset.range τ, ‖(M ^ (τ - 1 - m) *ᵥ b m) i‖ ≤ C * B * r ^ (τ - 1 - m) := by
    intro m hm
    refine (apply_geom hM _ _ _).trans ?_
    have := mul_le_mul_of_nonneg_left (hB m (Finset.mem_range.mp hm)) (show 0 ≤ C * r ^ (τ - 1 - m) by positivity)
    linarith
  refine (Finset.sum_le_sum h1).trans ?_
  rw [← Finset.mul_sum, Finset.sum_range_reflect (fun m => r ^ m) τ, div_eq_mul_inv]
  refine mul_le_mul_of_nonneg_left ?_ (by positivity)
  rw [← tsum_geometric_of_lt_one hr hr1]
  exact (summable_geometric_of_lt_one hr hr1).sum_le_tsum _ (fun m _ => by positivity)

/-- the effects of the past, one by one -/
theorem recursion_sum {M : Matrix n n ℂ} {C r : ℝ} (hM : ∀ k i j, ‖(M ^ k) i j‖ ≤ C * r ^ k)
    {x b : Nat → n → ℂ} (τ : Nat) (h : ∀ m < τ, x (m + 1) = M *ᵥ x m + b m) (i : n) :
    ‖x τ i‖ ≤ C * r ^ τ * (∑ j, ‖x 0 j‖) + ∑ m ∈ Finset.range τ, C * r ^ (τ - 1 - m) * ∑ j, ‖b m j‖ := by
  rw [recursion_closed τ h, Pi.add_apply, Finset.sum_apply]
  refine (norm_add_le _ _).trans (add_le_add (apply_geom hM _ _ _) ?_)
  exact (norm_sum_le _ _).trans (Finset.sum_le_sum fun m _ => apply_geom hM _ _ _)

/-- A sequence that is driven by small terms and by its own squares stays small. -/
theorem small_bound {C r ρ L : ℝ} (hC : 0 ≤ C) (hr : 0 < r) (hρ : r < ρ) (hρ1 : ρ < 1) (hL : 0 ≤ L) :
    ∃ K δ : ℝ, 0 ≤ K ∧ 0 < δ ∧ δ ≤ 1 ∧ ∀ (N : Nat) (a : Nat → ℝ) (X B E : ℝ), 0 ≤ X → X ≤ δ → 0 ≤ B → B ≤ δ →
      0 ≤ E → E ≤ δ →
      (∀ k ≤ N, 0 ≤ a k ∧
        a k ≤ C * r ^ k * X + ∑ m ∈ Finset.range k, C * r ^ (k - 1 - m) * (L * (a m ^ 2 + a m * B + E))) →
      ∀ k ≤ N, a k ≤ K * (ρ ^ k * X + E) := by
  have hd : 0 < ρ - r := by linarith
  have hρ0 : 0 < ρ := by linarith
  set K := C + 2 * (C * L / (ρ - r)) with hK
  have hCL : 0 ≤ C * L / (ρ - r) := by positivity
  have hK0 : 0 ≤ K := by positivity
  have hden : 0 < 2 * K ^ 2 + K + 1 := by positivity
  refine ⟨K, 1 / (2 * K ^ 2 + K + 1), hK0, by positivity, ?_, ?_⟩
  · rw [div_le_one hden]; nlinarith [sq_nonneg K]
  intro N a X B E hX hXδ hB hBδ hE hEδ ha k
  set δ := 1 / (2 * K ^ 2 + K + 1) with hδ
  have hδ0 : 0 < δ := by positivity
  have hη : δ * (2 * K ^ 2 + K) ≤ 1 := by
    rw [hδ, one_div, inv_mul_le_iff₀ hden]; linarith
  induction k using Nat.strong_induction_on with
  | _ k ih =>
    intro hk
    obtain ⟨-, h⟩ := ha k hk
    refine h.trans ?_
    have step : ∀ m ∈ Finset.range k, C * r ^ (k - 1 - m) * (L * (a m ^ 2 + a m * B + E)) ≤
        C * L * X * (ρ ^ m * r ^ (k - 1 - m)) + 2 * (C * L * E) * (1 ^ m * r ^ (k - 1 - m)) := by
      intro m hm
      have hm := Finset.mem_range.mp hm
      have h1 := ih m hm (by omega)
      have h0 := (ha m (by omega)).1
      have hp : ρ ^ m ≤ 1 := pow_le_one₀ hρ0.le hρ1.le
      have hp0 : 0 < ρ ^ m := pow_pos hρ0 m
      set Y := ρ ^ m * X + E with hY
      have hY0 : 0 ≤ Y := by positivity
      have hYδ : Y ≤ 2 * δ := by
        have : ρ ^ m * X ≤ 1 * X := mul_le_mul_of_nonneg_right hp hX
        linarith
      have e1 : a m ^ 2 ≤ (K * Y) * (K * (2 * δ)) := by
        rw [sq]
        exact mul_le_mul h1 (h1.trans (mul_le_mul_of_nonneg_left hYδ hK0)) h0 (by positivity)
      have e2 : a m * B ≤ (K * Y) * δ := mul_le_mul h1 hBδ hB (by positivity)
      have e3 : a m ^ 2 + a m * B + E ≤ ρ ^ m * X + 2 * E := by
        have : (K * Y) * (K * (2 * δ)) + (K * Y) * δ = δ * (2 * K ^ 2 + K) * Y := by ring
        have : δ * (2 * K ^ 2 + K) * Y ≤ 1 * Y := mul_le_mul_of_nonneg_right hη hY0
        linarith
      have hc0 : 0 ≤ C * r ^ (k - 1 - m) * L := by positivity
      calc C * r ^ (k - 1 - m) * (L * (a m ^ 2 + a m * B + E))
          = C * r ^ (k - 1 - m) * L * (a m ^ 2 + a m * B + E) := by ring
        _ ≤ C * r ^ (k - 1 - m) * L * (ρ ^ m * X + 2 * E) := mul_le_mul_of_nonneg_left e3 hc0
        _ = _ := by rw [one_pow]; ring
    have hsum := Finset.sum_le_sum step
    rw [Finset.sum_add_distrib, ← Finset.mul_sum, ← Finset.mul_sum] at hsum
    have g1 : ∑ m ∈ Finset.range k, ρ ^ m * r ^ (k - 1 - m) ≤ ρ ^ k / (ρ - r) := by
      rw [le_div_iff₀ hd, (Commute.all ρ r).geom_sum₂_mul]
      linarith [pow_pos hr k]
    have g2 : ∑ m ∈ Finset.range k, (1 : ℝ) ^ m * r ^ (k - 1 - m) ≤ 1 / (ρ - r) := by
      have : ∑ m ∈ Finset.range k, (1 : ℝ) ^ m * r ^ (k - 1 - m) ≤ 1 / (1 - r) := by
        rw [le_div_iff₀ (by linarith), (Commute.all 1 r).geom_sum₂_mul, one_pow]
        linarith [pow_pos hr k]
      exact this.trans (one_div_le_one_div_of_le hd (by linarith))
    have f1 := mul_le_mul_of_nonneg_left g1 (show 0 ≤ C * L * X by positivity)
    have f2 := mul_le_mul_of_nonneg_left g2 (show 0 ≤ 2 * (C * L * E) by positivity)
    have f3 : r ^ k ≤ ρ ^ k := pow_le_pow_left₀ hr.le hρ.le k
    have f4 := mul_le_mul_of_nonneg_left f3 (show 0 ≤ C * X by positivity)
    have f5 : C * L * X * (ρ ^ k / (ρ - r)) = C * L / (ρ - r) * (ρ ^ k * X) := by ring
    have f6 : 2 * (C * L * E) * (1 / (ρ - r)) = 2 * (C * L / (ρ - r)) * E := by ring
    have p1 : 0 ≤ ρ ^ k * X := by positivity
    have p2 := mul_nonneg hCL p1
    have p3 := mul_nonneg hC hE
    rw [hK]
    nlinarith

/-- a bounded sequence that is carried forward by a stable matrix from later to earlier dates is zero -/
theorem backward_zero {M : Matrix n n ℂ} {C r : ℝ} (hC : 0 ≤ C) (hr : 0 ≤ r) (hr1 : r < 1)
    (hM : ∀ k i j, ‖(M ^ k) i j‖ ≤ C * r ^ k) {w : Nat → n → ℂ} (h : ∀ τ, w τ = M *ᵥ w (τ + 1))
    {B : ℝ} (hB : ∀ τ, ∑ j, ‖w τ j‖ ≤ B) (τ : Nat) : w τ = 0 := by
  have hm : ∀ m, w τ = M ^ m *ᵥ w (τ + m) := by
    intro m
    induction m with
    | zero => simp
    | succ m ih => rw [ih, h (τ + m), mulVec_mulVec, ← pow_succ]; rfl
  have hle : ∀ i m, ‖w τ i‖ ≤ C * B * r ^ m := by
    intro i m
    rw [hm m]
    refine (apply_geom hM _ _ _).trans ?_
    have := mul_le_mul_of_nonneg_left (hB (τ + m)) (show 0 ≤ C * r ^ m by positivity)
    linarith
  funext i
  have ht : Tendsto (fun m : Nat => C * B * r ^ m) atTop (𝓝 (C * B * 0)) :=
    (tendsto_pow_atTop_nhds_zero_of_lt_one hr hr1).const_mul _
  rw [mul_zero] at ht
  have := ge_of_tendsto' ht (hle i)
  exact norm_le_zero_iff.mp this

end Pynare

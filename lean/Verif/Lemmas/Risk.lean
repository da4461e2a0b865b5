import Verif.Spec.Risk
import Verif.Lemmas.Linear
import Mathlib.LinearAlgebra.BilinearMap
/-!
# Lemmas about expectations over next period's shocks
-/

namespace Pynare

variable {V : Type}

set_option linter.unusedSectionVars false

section expectation
variable [Field V] [LinearOrder V] [IsStrictOrderedRing V]

theorem expect_add (N : Nat) (w f g : Nat → V) : expect N w (fun ω => f ω + g ω) = expect N w f + expect N w g := by
  simp only [expect, sumTo_eq, ← Finset.sum_add_distrib]
  exact Finset.sum_congr rfl fun ω _ => by ring

theorem expect_mul (N : Nat) (w f : Nat → V) (a : V) : expect N w (fun ω => a * f ω) = a * expect N w f := by
  simp only [expect, sumTo_eq, Finset.mul_sum]
  exact Finset.sum_congr rfl fun ω _ => by ring

theorem expect_congr {N : Nat} {w f g : Nat → V} (h : ∀ ω < N, f ω = g ω) : expect N w f = expect N w g := by
  simp only [expect, sumTo_eq]
  exact Finset.sum_congr rfl fun ω hω => by rw [h ω (Finset.mem_range.mp hω)]

theorem expect_sum (N n : Nat) (w : Nat → V) (f : Nat → Nat → V) :
    expect N w (fun ω => sumTo n fun j => f ω j) = sumTo n fun j => expect N w fun ω => f ω j := by
  simp only [expect, sumTo_eq, Finset.mul_sum]
  exact Finset.sum_comm

theorem expect_const {N m : Nat} {w : Nat → V} {z : Nat → Nat → V} {sigma : Arr V} (h : ShockDist N w z m sigma) (a : V) :
    expect N w (fun _ => a) = a := by
  have := expect_mul N w (fun _ => 1) a
  simp only [mul_one] at this
  rw [this, h.total, mul_one]

theorem expect_le {N m : Nat} {w : Nat → V} {z : Nat → Nat → V} {sigma : Arr V} (h : ShockDist N w z m sigma) {f : Nat → V}
    {B : V} (hf : ∀ ω < N, |f ω| ≤ B) : |expect N w f| ≤ B := by
  rw [← expect_const h B]
  simp only [expect, sumTo_eq]
  refine (Finset.abs_sum_le_sum_abs _ _).trans (Finset.sum_le_sum fun ω hω => ?_)
  have hω := Finset.mem_range.mp hω
  rw [abs_mul, abs_of_nonneg (h.nonneg ω hω)]
  exact mul_le_mul_of_nonneg_left (hf ω hω) (h.nonneg ω hω)

/-- the expectation of a quadratic function of the shocks -/
theorem expect_quad {N m : Nat} {w : Nat → V} {z : Nat → Nat → V} {sigma : Arr V} (h : ShockDist N w z m sigma) (A : V)
    (B : Nat → V) (C : Nat → Nat → V) :
    expect N w (fun ω => A + (sumTo m fun j => z ω j * B j) + sumTo m fun j => sumTo m fun k => z ω k * z ω j * C j k) =
      A + overShocks m sigma C := by
  rw [expect_add, expect_add, expect_const h, expect_sum, expect_sum]
  have h1 : (sumTo m fun j => expect N w fun ω => z ω j * B j) = 0 := by
    rw [sumTo_eq]
    refine Finset.sum_eq_zero fun j hj => ?_
    have : (fun ω => z ω j * B j) = fun ω => B j * z ω j := by funext ω; ring
    rw [this, expect_mul, h.mean j (Finset.mem_range.mp hj), mul_zero]
  have h2 : (sumTo m fun j => expect N w fun ω => sumTo m fun k => z ω k * z ω j * C j k) = overShocks m sigma C := by
    unfold overShocks
    rw [sumTo_eq, sumTo_eq]
    refine Finset.sum_congr rfl fun j hj => ?_
    rw [expect_sum, sumTo_eq, sumTo_eq]
    refine Finset.sum_congr rfl fun k hk => ?_
    have : (fun ω => z ω k * z ω j * C j k) = fun ω => C j k * (z ω k * z ω j) := by funext ω; ring
    rw [this, expect_mul, h.cov k (Finset.mem_range.mp hk) j (Finset.mem_range.mp hj), mul_comm]
  rw [h1, h2, add_zero]

/-- the expected second-order approximation -/
theorem expect_zero {F : Type} [AddCommGroup F] [Module V F] (L : F →ₗ[V] V) (Q : F →ₗ[V] F →ₗ[V] V) {N m : Nat}
    {w : Nat → V} {z : Nat → Nat → V} {sigma : Arr V} (h : ShockDist N w z m sigma) (s : V) (P Q0 C0 : F) (Λ Ν : Nat → F)
    (G : Nat → Nat → F) (hP : L P = 0) (hQ : 1 / 2 * Q P P + L Q0 = 0)
    (hR : 1 / 2 * (overShocks m sigma fun j k => Q (Λ j) (Λ k)) + (L C0 + overShocks m sigma fun j k => L (G j k)) = 0)
    (D1 D2 : Nat → F) (h1 : ∀ ω, D1 ω = P + ∑ j ∈ Finset.range m, (s * z ω j) • Λ j)
    (h2 : ∀ ω, D2 ω = Q0 + (∑ j ∈ Finset.range m, (s * z ω j) • Ν j) +
      (s * s) • (C0 + ∑ j ∈ Finset.range m, ∑ k ∈ Finset.range m, (z ω k * z ω j) • G j k)) :
    expect N w (fun ω => L (D1 ω) + (1 / 2 * Q (D1 ω) (D1 ω) + L (D2 ω))) = 0 := by
  have e : ∀ ω, L (D1 ω) + (1 / 2 * Q (D1 ω) (D1 ω) + L (D2 ω)) = (s * s * L C0) +
      (sumTo m fun j => z ω j * (s * (L (Λ j) + 1 / 2 * (Q P (Λ j) + Q (Λ j) P) + L (Ν j)))) +
      sumTo m fun j => sumTo m fun k => z ω k * z ω j * (s * s * (1 / 2 * Q (Λ j) (Λ k) + L (G j k))) := by
    intro ω
    rw [h1, h2]
    have q1 : Q (P + ∑ j ∈ Finset.range m, (s * z ω j) • Λ j) (P + ∑ j ∈ Finset.range m, (s * z ω j) • Λ j) =
        Q P P + (∑ j ∈ Finset.range m, s * z ω j * (Q P (Λ j) + Q (Λ j) P)) +
        ∑ j ∈ Finset.range m, ∑ k ∈ Finset.range m, z ω k * z ω j * (s * s * Q (Λ j) (Λ k)) := by
      have a1 : ∀ x, Q x (P + ∑ j ∈ Finset.range m, (s * z ω j) • Λ j) =
          Q x P + ∑ j ∈ Finset.range m, s * z ω j * Q x (Λ j) := by
        intro x
        simp only [map_add, map_sum, map_smul, smul_eq_mul]
      rw [a1, map_add, LinearMap.add_apply, map_sum, LinearMap.sum_apply]
      simp only [map_smul, LinearMap.smul_apply, smul_eq_mul, LinearMap.add_apply, LinearMap.sum_apply, mul_add,
        Finset.sum_add_distrib]
      have a2 : (∑ x ∈ Finset.range m, s * z ω x * ∑ c ∈ Finset.range m, s * z ω c * (Q (Λ c)) (Λ x)) =
          ∑ j ∈ Finset.range m, ∑ k ∈ Finset.range m, z ω k * z ω j * (s * s * Q (Λ j) (Λ k)) := by
        simp only [Finset.mul_sum]
        rw [Finset.sum_comm]
        exact Finset.sum_congr rfl fun j _ => Finset.sum_congr rfl fun k _ => by ring
      rw [a2]
      ring
    have l1 : L (P + ∑ j ∈ Finset.range m, (s * z ω j) • Λ j) = ∑ j ∈ Finset.range m, s * z ω j * L (Λ j) := by
      simp only [map_add, map_sum, map_smul, smul_eq_mul, hP, zero_add]
    have l2 : L (Q0 + (∑ j ∈ Finset.range m, (s * z ω j) • Ν j) +
      (s * s) • (C0 + ∑ j ∈ Finset.range m, ∑ k ∈ Finset.range m, (z ω k * z ω j) • G j k)) =
        L Q0 + (∑ j ∈ Finset.range m, s * z ω j * L (Ν j)) + s * s * L C0 +
          ∑ j ∈ Finset.range m, ∑ k ∈ Finset.range m, z ω k * z ω j * (s * s * L (G j k)) := by
      simp only [map_add, map_sum, map_smul, smul_eq_mul, mul_add, Finset.mul_sum]
      have : (∑ i ∈ Finset.range m, ∑ j ∈ Finset.range m, s * s * (z ω j * z ω i * L (G i j))) =
          ∑ j ∈ Finset.range m, ∑ k ∈ Finset.range m, z ω k * z ω j * (s * s * L (G j k)) :=
        Finset.sum_congr rfl fun j _ => Finset.sum_congr rfl fun k _ => by ring
      rw [this]
      ring
    rw [q1, l1, l2]
    simp only [sumTo_eq]
    have s1 : (∑ j ∈ Finset.range m, z ω j * (s * (L (Λ j) + 1 / 2 * (Q P (Λ j) + Q (Λ j) P) + L (Ν j)))) =
        (∑ j ∈ Finset.range m, s * z ω j * L (Λ j)) +
        1 / 2 * (∑ j ∈ Finset.range m, s * z ω j * (Q P (Λ j) + Q (Λ j) P)) +
        ∑ j ∈ Finset.range m, s * z ω j * L (Ν j) := by
      rw [Finset.mul_sum, ← Finset.sum_add_distrib, ← Finset.sum_add_distrib]
      exact Finset.sum_congr rfl fun j _ => by ring
    have s2 : (∑ j ∈ Finset.range m, ∑ k ∈ Finset.range m, z ω k * z ω j * (s * s * (1 / 2 * Q (Λ j) (Λ k) + L (G j k)))) =
        1 / 2 * (∑ j ∈ Finset.range m, ∑ k ∈ Finset.range m, z ω k * z ω j * (s * s * Q (Λ j) (Λ k))) +
        ∑ j ∈ Finset.range m, ∑ k ∈ Finset.range m, z ω k * z ω j * (s * s * L (G j k)) := by
      rw [Finset.mul_sum, ← Finset.sum_add_distrib]
      refine Finset.sum_congr rfl fun j _ => ?_
      rw [Finset.mul_sum, ← Finset.sum_add_distrib]
      exact Finset.sum_congr rfl fun k _ => by ring
    rw [s1, s2]
    linear_combination hQ
  rw [expect_congr fun ω _ => e ω, expect_quad h]
  have : overShocks m sigma (fun j k => s * s * (1 / 2 * Q (Λ j) (Λ k) + L (G j k))) =
      s * s * (1 / 2 * (overShocks m sigma fun j k => Q (Λ j) (Λ k)) + overShocks m sigma fun j k => L (G j k)) := by
    unfold overShocks
    simp only [sumTo_eq, mul_add, Finset.mul_sum, ← Finset.sum_add_distrib]
    exact Finset.sum_congr rfl fun j _ => Finset.sum_congr rfl fun k _ => by ring
  rw [this]
  linear_combination s * s * hR

end expectation

/-! ### paths -/

section paths
variable [Field V] [LinearOrder V] [IsStrictOrderedRing V]

/-- what the second order adds next period, the constants of both periods being `k` -/
def RiskTerms (t : Typer) (nExog : Nat) (s : SecondNd V) (gy : Arr V) (k y p u q' : Nat → V) : Prop :=
  ∀ (i c : Nat), t.drOrder[i]? = some c →
    q' c = (sumTo t.nBackward fun b => gy.e i b * stateVals t p b) +
      quadForm s.ghxx.to2 i t.nBackward (stateVals t y) t.nBackward (stateVals t y) +
      quadForm s.ghxu.to2 i t.nBackward (stateVals t y) nExog u +
      quadForm s.ghuu.to2 i nExog u nExog u + k c

theorem quadForm_add_left {X : Arr V} {i r r' : Nat} {v v' w : Nat → V} :
    quadForm X i r (fun a => v a + v' a) r' w = quadForm X i r v r' w + quadForm X i r v' r' w := by
  unfold quadForm
  simp only [sumTo_eq, ← Finset.sum_add_distrib]
  exact Finset.sum_congr rfl fun a _ => Finset.sum_congr rfl fun b _ => by ring

/-- a path of the second-order solution with constants, split by order of magnitude -/
theorem risk_split {t : Typer} (hp : t.drOrder.Perm (List.range t.n)) (nExog : Nat) (s : SecondNd V)
    (gy gu : Arr V) {B : V} (hB : 0 ≤ B) : ∃ K ≥ 1, ∀ (r : V) (ym u y1 q k : Nat → V), 0 ≤ r → r ≤ 1 →
      (∀ c < t.n, |ym c| ≤ r) → (∀ k < nExog, |u k| ≤ r) → (∀ c < t.n, |k c| ≤ B * (r * r)) →
      FollowsPolicy t nExog gy gu ym u y1 → SecondTerms t nExog s ym u q →
      (∀ c < t.n, |y1 c| ≤ K * r) ∧ (∀ c < t.n, |q c + k c| ≤ K * (r * r)) ∧
      ∀ u' : Nat → V, (∀ k < nExog, |u' k| ≤ B * r) → ∃ yp q' ρ : Nat → V, FollowsPolicy t nExog gy gu y1 u' yp ∧
        RiskTerms t nExog s gy k y1 (fun c => q c + k c) u' q' ∧
        (∀ (i c : Nat), t.drOrder[i]? = some c → yp c + q' c + ρ c =
          (sumTo t.nBackward fun b => gy.e i b * stateVals t (fun c => y1 c + (q c + k c)) b) +
          (sumTo nExog fun k => gu.e i k * u' k) +
          quadForm s.ghxx.to2 i t.nBackward (stateVals t fun c => y1 c + (q c + k c)) t.nBackward
            (stateVals t fun c => y1 c + (q c + k c)) +
          quadForm s.ghxu.to2 i t.nBackward (stateVals t fun c => y1 c + (q c + k c)) nExog u' +
          quadForm s.ghuu.to2 i nExog u' nExog u' + k c) ∧
        (∀ c < t.n, |yp c| ≤ K * r) ∧ (∀ c < t.n, |q' c| ≤ K * (r * r)) ∧ ∀ c < t.n, |ρ c| ≤ K * (r * r * r) := by
  have hdr : ∀ c < t.n, ∃ i : Nat, t.drOrder[i]? = some c := by
    intro c hc
    have := hp.mem_iff.mpr (List.mem_range.mpr hc)
    obtain ⟨i, hi, e⟩ := List.getElem_of_mem this
    exact ⟨i, by rw [List.getElem?_eq_getElem hi, e]⟩
  obtain ⟨M, hM, hb⟩ := policy_bound t nExog gy gu
  obtain ⟨X, hX0, hX⟩ := rowSums t.drOrder.length
    (fun i => sumTo t.nBackward fun a => sumTo t.nBackward fun b => |s.ghxx.to2.e i (a * t.nBackward + b)|)
    (fun i => quadSum_nonneg _ _ _ _)
  obtain ⟨Y, hY0, hY⟩ := rowSums t.drOrder.length
    (fun i => sumTo t.nBackward fun a => sumTo nExog fun b => |s.ghxu.to2.e i (a * nExog + b)|)
    (fun i => quadSum_nonneg _ _ _ _)
  obtain ⟨W, hW0, hW⟩ := rowSums t.drOrder.length
    (fun i => sumTo nExog fun a => sumTo nExog fun b => |s.ghuu.to2.e i (a * nExog + b)|)
    (fun i => quadSum_nonneg _ _ _ _)
  obtain ⟨P, hP, hP0⟩ : ∃ P, P = X + Y + W + B ∧ 0 ≤ P := ⟨_, rfl, by positivity⟩
  obtain ⟨S, hS, hS0⟩ : ∃ S, S = M * P + X * (M * M) + Y * (M * B) + W * (B * B) + B ∧ 0 ≤ S := ⟨_, rfl, by positivity⟩
  obtain ⟨R, hR, hR0⟩ : ∃ R, R = X * (2 * (M * P) + P * P) + Y * (P * B) ∧ 0 ≤ R := ⟨_, rfl, by positivity⟩
  have hMB : 0 ≤ M * (M + B) := by positivity
  refine ⟨1 + M + M * (M + B) + P + S + R, by linarith, ?_⟩
  intro r ym u y1 q k hr0 hr1 hym hu hk f1 f3
  have hMr : 0 ≤ M * r := mul_nonneg hM hr0
  have hBr : 0 ≤ B * r := mul_nonneg hB hr0
  have hrr : 0 ≤ r * r := mul_nonneg hr0 hr0
  have hrrr : 0 ≤ r * r * r := mul_nonneg hrr hr0
  have hPr : 0 ≤ P * (r * r) := mul_nonneg hP0 hrr
  have b1 : ∀ c < t.n, |y1 c| ≤ M * r := fun c hc => by
    obtain ⟨i, hi⟩ := hdr c hc
    exact hb r ym u y1 hym hu f1 i c hi
  have b3 : ∀ c < t.n, |q c + k c| ≤ P * (r * r) := fun c hc => by
    obtain ⟨i, hi⟩ := hdr c hc
    have hl := (List.getElem?_eq_some_iff.mp hi).1
    have h1 := quadForm_le (X := s.ghxx.to2) (i := i) (r := t.nBackward) (r' := t.nBackward)
      (fun a _ => stateVals_le hi hym a) (fun a _ => stateVals_le hi hym a) hr0
    have h2 := quadForm_le (X := s.ghxu.to2) (i := i) (r := t.nBackward) (r' := nExog)
      (fun a _ => stateVals_le hi hym a) hu hr0
    have h3 := quadForm_le (X := s.ghuu.to2) (i := i) (r := nExog) (r' := nExog) hu hu hr0
    have h1' := mul_le_mul_of_nonneg_right (hX i hl) hrr
    have h2' := mul_le_mul_of_nonneg_right (hY i hl) hrr
    have h3' := mul_le_mul_of_nonneg_right (hW i hl) hrr
    rw [f3 i c hi]
    refine (abs_add_le _ _).trans ((add_le_add ((abs_add_le _ _).trans (add_le_add ((abs_add_le _ _).trans
      (add_le_add (h1.trans h1') (h2.trans h2'))) (h3.trans h3'))) (hk c hc)).trans (le_of_eq ?_))
    rw [hP]
    ring
  refine ⟨fun c hc => (b1 c hc).trans (mul_le_mul_of_nonneg_right (by linarith) hr0),
    fun c hc => (b3 c hc).trans (mul_le_mul_of_nonneg_right (by linarith) hrr), ?_⟩
  intro u' hu'
  let sv : (Nat → V) → Nat → V := stateVals t
  let p : Nat → V := fun c => q c + k c
  let yp := byRow t fun i => (sumTo t.nBackward fun j => gy.e i j * sv y1 j) + sumTo nExog fun k => gu.e i k * u' k
  let q' := byRow t fun i => (sumTo t.nBackward fun b => gy.e i b * sv p b) +
      quadForm s.ghxx.to2 i t.nBackward (sv y1) t.nBackward (sv y1) + quadForm s.ghxu.to2 i t.nBackward (sv y1) nExog u' +
      quadForm s.ghuu.to2 i nExog u' nExog u' + k (t.drOrder[i]?.getD 0)
  let ρ := byRow t fun i => quadForm s.ghxx.to2 i t.nBackward (sv y1) t.nBackward (sv p) +
      quadForm s.ghxx.to2 i t.nBackward (sv p) t.nBackward (sv y1) +
      quadForm s.ghxx.to2 i t.nBackward (sv p) t.nBackward (sv p) + quadForm s.ghxu.to2 i t.nBackward (sv p) nExog u'
  have f2 : FollowsPolicy t nExog gy gu y1 u' yp := fun i c hi => byRow_eq hp _ hi
  have f4 : RiskTerms t nExog s gy k y1 p u' q' := fun i c hi => by
    rw [show q' c = _ from byRow_eq hp _ hi, hi]
    rfl
  have b2 : ∀ c < t.n, |yp c| ≤ M * (M + B) * r := fun c hc => by
    obtain ⟨i, hi⟩ := hdr c hc
    refine (hb ((M + B) * r) y1 u' yp (fun c hc => (b1 c hc).trans ?_) (fun k hk => (hu' k hk).trans ?_) f2 i c hi).trans
      (le_of_eq (by ring))
    · rw [add_mul]; linarith
    · rw [add_mul]; linarith
  have b4 : ∀ c < t.n, |q' c| ≤ S * (r * r) := fun c hc => by
    obtain ⟨i, hi⟩ := hdr c hc
    have hl := (List.getElem?_eq_some_iff.mp hi).1
    rw [f4 i c hi]
    let x := byRow t fun i => (sumTo t.nBackward fun j => gy.e i j * sv p j) + sumTo nExog fun k => gu.e i k * (0 : V)
    have f7 : FollowsPolicy t nExog gy gu p (fun _ => 0) x := fun i c hi => byRow_eq hp _ hi
    have h1 := hb _ p (fun _ => 0) x b3 (fun k _ => by rw [abs_zero]; exact hPr) f7 i c hi
    rw [show x c = _ from byRow_eq hp _ hi] at h1
    have h0 : (sumTo nExog fun k => gu.e i k * (0 : V)) = 0 := by
      rw [sumTo_eq]; exact Finset.sum_eq_zero fun k _ => mul_zero _
    simp only [h0, add_zero] at h1
    have h2 := (quadForm_le (X := s.ghxx.to2) (i := i) (r := t.nBackward) (r' := t.nBackward)
      (fun a _ => stateVals_le hi b1 a) (fun a _ => stateVals_le hi b1 a) hMr).trans
      (mul_le_mul_of_nonneg_right (hX i hl) (mul_nonneg hMr hMr))
    have h3 := (quadForm_le (X := s.ghxu.to2) (i := i) (r := t.nBackward) (r' := nExog)
      (fun a _ => stateVals_le hi b1 a) hu' hMr).trans (mul_le_mul_of_nonneg_right (hY i hl) (mul_nonneg hMr hBr))
    have h4 := (quadForm_le (X := s.ghuu.to2) (i := i) (r := nExog) (r' := nExog) hu' hu' hBr).trans
      (mul_le_mul_of_nonneg_right (hW i hl) (mul_nonneg hBr hBr))
    refine (abs_add_le _ _).trans ((add_le_add ((abs_add_le _ _).trans (add_le_add ((abs_add_le _ _).trans
      (add_le_add ((abs_add_le _ _).trans (add_le_add h1 h2)) h3)) h4)) (hk c hc)).trans (le_of_eq ?_))
    rw [hS]
    ring
  have b5 : ∀ c < t.n, |ρ c| ≤ R * (r * r * r) := fun c hc => by
    obtain ⟨i, hi⟩ := hdr c hc
    have hl := (List.getElem?_eq_some_iff.mp hi).1
    rw [show ρ c = _ from byRow_eq hp _ hi]
    have h1 := (quadForm_le (X := s.ghxx.to2) (i := i) (r := t.nBackward) (r' := t.nBackward)
      (fun a _ => stateVals_le hi b1 a) (fun a _ => stateVals_le hi b3 a) hMr).trans
      (mul_le_mul_of_nonneg_right (hX i hl) (mul_nonneg hMr hPr))
    have h2 := (quadForm_le (X := s.ghxx.to2) (i := i) (r := t.nBackward) (r' := t.nBackward)
      (fun a _ => stateVals_le hi b3 a) (fun a _ => stateVals_le hi b1 a) hPr).trans
      (mul_le_mul_of_nonneg_right (hX i hl) (mul_nonneg hPr hMr))
    have h3 := (quadForm_le (X := s.ghxx.to2) (i := i) (r := t.nBackward) (r' := t.nBackward)
      (fun a _ => stateVals_le hi b3 a) (fun a _ => stateVals_le hi b3 a) hPr).trans
      (mul_le_mul_of_nonneg_right (hX i hl) (mul_nonneg hPr hPr))
    have h4 := (quadForm_le (X := s.ghxu.to2) (i := i) (r := t.nBackward) (r' := nExog)
      (fun a _ => stateVals_le hi b3 a) hu' hPr).trans (mul_le_mul_of_nonneg_right (hY i hl) (mul_nonneg hPr hBr))
    refine (abs_add_le _ _).trans ((add_le_add ((abs_add_le _ _).trans (add_le_add ((abs_add_le _ _).trans
      (add_le_add h1 h2)) h3)) h4).trans ?_)
    have h5 : X * (P * (r * r) * (P * (r * r))) ≤ X * (P * P) * (r * r * r) := by
      have : r * r * r * r ≤ r * r * r * 1 := mul_le_mul_of_nonneg_left hr1 (by positivity)
      have h5 := mul_le_mul_of_nonneg_left this (show 0 ≤ X * (P * P) by positivity)
      linarith
    rw [hR]
    linarith
  refine ⟨yp, q', ρ, f2, f4, ?_, fun c hc => (b2 c hc).trans (mul_le_mul_of_nonneg_right (by linarith) hr0),
    fun c hc => (b4 c hc).trans (mul_le_mul_of_nonneg_right (by linarith) hrr),
    fun c hc => (b5 c hc).trans (mul_le_mul_of_nonneg_right (by linarith) hrrr)⟩
  intro i c hi
  rw [show yp c = _ from byRow_eq hp _ hi, f4 i c hi, show ρ c = _ from byRow_eq hp _ hi]
  have hsv : (stateVals t fun c => y1 c + (q c + k c)) = fun a => sv y1 a + sv p a := rfl
  rw [hsv, quadForm_split, quadForm_add_left]
  have e2 : (sumTo t.nBackward fun b => gy.e i b * (sv y1 b + sv p b)) =
      (sumTo t.nBackward fun b => gy.e i b * sv y1 b) + sumTo t.nBackward fun b => gy.e i b * sv p b := by
    simp only [sumTo_eq, ← Finset.sum_add_distrib]
    exact Finset.sum_congr rfl fun b _ => by ring
  rw [e2]
  simp only [sv]
  ring

/-- the quadratic approximation and what is left out of it -/
theorem quad_remainder' {n : Nat} {J H : Arr V} {i : Nat} {K r : V} {D D1 D2 D3 : Nat → V} (hK : 0 ≤ K)
    (hr0 : 0 ≤ r) (hr1 : r ≤ 1) (hD : ∀ k < n, D k = D1 k + D2 k + D3 k) (h1 : ∀ k < n, |D1 k| ≤ K * r)
    (h2 : ∀ k < n, |D2 k| ≤ K * (r * r)) (h3 : ∀ k < n, |D3 k| ≤ K * (r * r * r)) :
    |(sumTo n fun k => J.e i k * D k) + 1 / 2 * quadForm H i n D n D -
      ((sumTo n fun k => J.e i k * D1 k) + (1 / 2 * quadForm H i n D1 n D1 + sumTo n fun k => J.e i k * D2 k))| ≤
      ((sumTo n fun k => |J.e i k|) * K +
        (sumTo n fun a => sumTo n fun b => |H.e i (a * n + b)|) * (4 * (K * K))) * (r * r * r) := by
  let E : Nat → V := fun k => D2 k + D3 k
  have hrr : 0 ≤ r * r := mul_nonneg hr0 hr0
  have hrrr : r * r * r ≤ r * r := by
    have := mul_le_mul_of_nonneg_left hr1 hrr
    linarith
  have hE : ∀ k < n, |E k| ≤ 2 * K * (r * r) := by
    intro k hk
    refine (abs_add_le _ _).trans ((add_le_add (h2 k hk) (h3 k hk)).trans ?_)
    have := mul_le_mul_of_nonneg_left hrrr hK
    linarith
  have e1 : (sumTo n fun k => J.e i k * D k) = (sumTo n fun k => J.e i k * D1 k) +
      (sumTo n fun k => J.e i k * D2 k) + sumTo n fun k => J.e i k * D3 k := by
    simp only [sumTo_eq, ← Finset.sum_add_distrib]
    refine Finset.sum_congr rfl fun k hk => ?_
    rw [hD k (Finset.mem_range.mp hk)]
    ring
  have e2 : quadForm H i n D n D = quadForm H i n D1 n D1 +
      (quadForm H i n D1 n E + quadForm H i n E n D1 + quadForm H i n E n E) := by
    rw [← quadForm_split]
    have : ∀ k < n, D k = D1 k + E k := fun k hk => by rw [hD k hk, add_assoc]
    exact quadForm_congr (fun _ _ _ _ => rfl) this this
  have e3 : (sumTo n fun k => J.e i k * D k) + 1 / 2 * quadForm H i n D n D -
      ((sumTo n fun k => J.e i k * D1 k) + (1 / 2 * quadForm H i n D1 n D1 + sumTo n fun k => J.e i k * D2 k)) =
      (sumTo n fun k => J.e i k * D3 k) +
        1 / 2 * (quadForm H i n D1 n E + quadForm H i n E n D1 + quadForm H i n E n E) := by
    rw [e1, e2]
    ring
  rw [e3]
  have hKr : 0 ≤ K * r := mul_nonneg hK hr0
  have hE0 : 0 ≤ 2 * K * (r * r) := by positivity
  have b0 := sumTo_abs_le (n := n) (a := fun k => J.e i k) h3
  have b1 := quadForm_le (X := H) (i := i) h1 hE hKr
  have b2 := quadForm_le (X := H) (i := i) hE h1 hE0
  have b3 := quadForm_le (X := H) (i := i) hE hE hE0
  have hS := quadSum_nonneg H i n n
  generalize (sumTo n fun a => sumTo n fun b => |H.e i (a * n + b)|) = S at *
  have b3' : S * (2 * K * (r * r) * (2 * K * (r * r))) ≤ S * (4 * (K * K)) * (r * r * r) := by
    have h5 : r * r * r * r ≤ r * r * r * 1 := mul_le_mul_of_nonneg_left hr1 (by positivity)
    have h6 := mul_le_mul_of_nonneg_left h5 (show 0 ≤ S * (4 * (K * K)) by positivity)
    linarith
  have b4 : |1 / 2 * (quadForm H i n D1 n E + quadForm H i n E n D1 + quadForm H i n E n E)| ≤
      S * (4 * (K * K)) * (r * r * r) := by
    rw [abs_mul, abs_of_pos (by norm_num : (0 : V) < 1 / 2)]
    have b5 := (abs_add_le (quadForm H i n D1 n E + quadForm H i n E n D1) (quadForm H i n E n E)).trans
      (add_le_add ((abs_add_le _ _).trans (add_le_add b1 b2)) (b3.trans b3'))
    have := mul_le_mul_of_nonneg_left b5 (show (0 : V) ≤ 1 / 2 by norm_num)
    refine this.trans (le_of_eq ?_)
    ring
  refine (abs_add_le _ _).trans ((add_le_add b0 b4).trans (le_of_eq ?_))
  ring

end paths

/-! ### sums of flat vectors -/

section sums
variable [CommRing V]

theorem flat_smul {t : Llx} {nExog : Nat} {d : Around V} {D : Nat → V} (a : V) (hD : Flat t nExog d D) :
    Flat t nExog ⟨fun c => a * d.before c, fun c => a * d.now c, fun c => a * d.after c, fun k => a * d.shock k⟩ (a • D) where
  before c k hk := by simp [hD.before c k hk]
  now c k hk := by simp [hD.now c k hk]
  after c k hk := by simp [hD.after c k hk]
  shock j hj := by simp [hD.shock j hj]

theorem flat_sum {t : Llx} {nExog : Nat} {d : Nat → Around V} {D : Nat → Nat → V} {m : Nat}
    (hD : ∀ j < m, Flat t nExog (d j) (D j)) :
    Flat t nExog ⟨fun c => ∑ j ∈ Finset.range m, (d j).before c, fun c => ∑ j ∈ Finset.range m, (d j).now c,
      fun c => ∑ j ∈ Finset.range m, (d j).after c, fun k => ∑ j ∈ Finset.range m, (d j).shock k⟩
      (∑ j ∈ Finset.range m, D j) where
  before c k hk := by
    rw [Finset.sum_apply]; exact Finset.sum_congr rfl fun j hj => (hD j (Finset.mem_range.mp hj)).before c k hk
  now c k hk := by
    rw [Finset.sum_apply]; exact Finset.sum_congr rfl fun j hj => (hD j (Finset.mem_range.mp hj)).now c k hk
  after c k hk := by
    rw [Finset.sum_apply]; exact Finset.sum_congr rfl fun j hj => (hD j (Finset.mem_range.mp hj)).after c k hk
  shock l hl := by
    rw [Finset.sum_apply]; exact Finset.sum_congr rfl fun j hj => (hD j (Finset.mem_range.mp hj)).shock l hl

/-- a row of derivatives, applied to directions -/
def rowMap (J : Arr V) (i n : Nat) : (Nat → V) →ₗ[V] V where
  toFun D := sumTo n fun k => J.e i k * D k
  map_add' D D' := by
    simp only [sumTo_eq, ← Finset.sum_add_distrib]
    exact Finset.sum_congr rfl fun k _ => by simp only [Pi.add_apply]; ring
  map_smul' a D := by
    simp only [sumTo_eq, RingHom.id_apply, smul_eq_mul, Finset.mul_sum]
    exact Finset.sum_congr rfl fun k _ => by simp only [Pi.smul_apply, smul_eq_mul]; ring

/-- a row of second derivatives, applied to pairs of directions -/
def rowQuad (H : Arr V) (i n : Nat) : (Nat → V) →ₗ[V] (Nat → V) →ₗ[V] V :=
  LinearMap.mk₂ V (fun D D' => quadForm H i n D n D')
    (fun D D' E => by
      unfold quadForm
      simp only [sumTo_eq, ← Finset.sum_add_distrib]
      exact Finset.sum_congr rfl fun k _ => Finset.sum_congr rfl fun l _ => by simp only [Pi.add_apply]; ring)
    (fun a D E => by
      unfold quadForm
      simp only [sumTo_eq, smul_eq_mul, Finset.mul_sum]
      exact Finset.sum_congr rfl fun k _ => Finset.sum_congr rfl fun l _ => by
        simp only [Pi.smul_apply, smul_eq_mul]; ring)
    (fun D D' E => by
      unfold quadForm
      simp only [sumTo_eq, ← Finset.sum_add_distrib]
      exact Finset.sum_congr rfl fun k _ => Finset.sum_congr rfl fun l _ => by simp only [Pi.add_apply]; ring)
    (fun a D E => by
      unfold quadForm
      simp only [sumTo_eq, smul_eq_mul, Finset.mul_sum]
      exact Finset.sum_congr rfl fun k _ => Finset.sum_congr rfl fun l _ => by
        simp only [Pi.smul_apply, smul_eq_mul]; ring)

theorem rowMap_apply (J : Arr V) (i n : Nat) (D : Nat → V) : rowMap J i n D = sumTo n fun k => J.e i k * D k := rfl

theorem rowQuad_apply (H : Arr V) (i n : Nat) (D D' : Nat → V) : rowQuad H i n D D' = quadForm H i n D n D' := rfl

end sums

end Pynare

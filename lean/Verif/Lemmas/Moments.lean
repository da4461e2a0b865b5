import Mathlib.Data.Matrix.Mul
import Mathlib.Algebra.BigOperators.Fin
import Mathlib.Algebra.Order.BigOperators.Group.Finset
import Mathlib.Algebra.Order.BigOperators.Ring.Finset
import Mathlib.Algebra.Module.BigOperators
import Mathlib.Algebra.Module.LinearMap.Basic
import Mathlib.LinearAlgebra.Matrix.Notation
import Mathlib.Tactic.Ring
import Mathlib.Tactic.Linarith
import Mathlib.Tactic.NoncommRing
/-!
# Second moments of linear processes, as matrices
-/

namespace Pynare

open Matrix

set_option linter.unusedSectionVars false

section cov
variable {V M : Type} [CommRing V] [AddCommGroup M] [Module V M] (cov : M →ₗ[V] M →ₗ[V] V)
variable {α β γ : Type}

/-- covariances of two families -/
def covM (x : α → M) (z : β → M) : Matrix α β V := Matrix.of fun i j => cov (x i) (z j)

/-- a matrix applied to a family -/
def act [Fintype β] (A : Matrix α β V) (x : β → M) : α → M := fun i => ∑ j, A i j • x j

theorem covM_act_left [Fintype β] (A : Matrix α β V) (x : β → M) (z : γ → M) :
    covM cov (act A x) z = A * covM cov x z := by
  ext i j
  simp [covM, act, Matrix.mul_apply, map_sum, LinearMap.sum_apply]

theorem covM_act_right [Fintype β] (A : Matrix α β V) (x : β → M) (z : γ → M) :
    covM cov z (act A x) = covM cov z x * Aᵀ := by
  ext i j
  simp [covM, act, Matrix.mul_apply, map_sum, mul_comm]

theorem covM_add_left (x x' : α → M) (z : β → M) :
    covM cov (fun i => x i + x' i) z = covM cov x z + covM cov x' z := by
  ext i j; simp [covM]

theorem covM_add_right (x : α → M) (z z' : β → M) :
    covM cov x (fun i => z i + z' i) = covM cov x z + covM cov x z' := by
  ext i j; simp [covM]

theorem covM_symm (h : ∀ a b, cov a b = cov b a) (x : α → M) (z : β → M) :
    covM cov z x = (covM cov x z)ᵀ := by
  ext i j; exact h _ _

end cov

section process
variable {V M : Type} [CommRing V] [AddCommGroup M] [Module V M] {cov : M →ₗ[V] M →ₗ[V] V}
variable {s e n : Type} [Fintype s] [Fintype e] [DecidableEq s]
variable {A : Matrix s s V} {B : Matrix s e V} {S : Matrix e e V}
variable {x : ℕ → s → M} {u : ℕ → e → M}

/-- a first-order process of states -/
structure StateProcess (cov : M →ₗ[V] M →ₗ[V] V) (A : Matrix s s V) (B : Matrix s e V) (S : Matrix e e V)
    (x : ℕ → s → M) (u : ℕ → e → M) : Prop where
  step : ∀ k, x (k + 1) = fun i => act A (x k) i + act B (u (k + 1)) i
  symm : ∀ a b, cov a b = cov b a
  within : ∀ k, covM cov (u k) (u k) = S
  across : ∀ k k', k ≠ k' → covM cov (u k) (u k') = 0
  start : ∀ k, covM cov (x 0) (u (k + 1)) = 0

theorem StateProcess.past (p : StateProcess cov A B S x u) : ∀ k l, k ≤ l → covM cov (x k) (u (l + 1)) = 0 := by
  intro k
  induction k with
  | zero => intro l _; exact p.start l
  | succ k ih =>
    intro l hl
    rw [p.step, covM_add_left, covM_act_left, covM_act_left, ih l (by omega), p.across _ _ (by omega)]
    simp

/-- covariance of linear functions of states and shocks -/
theorem StateProcess.obs (p : StateProcess cov A B S x u) {n m : Type} (G : Matrix n s V) (H : Matrix n e V)
    (G' : Matrix m s V) (H' : Matrix m e V) (k : ℕ) :
    covM cov (fun i => act G (x k) i + act H (u (k + 1)) i) (fun i => act G' (x k) i + act H' (u (k + 1)) i) =
      G * covM cov (x k) (x k) * G'ᵀ + H * S * H'ᵀ := by
  have h1 := p.past k k (le_refl _)
  have h2 : covM cov (u (k + 1)) (x k) = 0 := by rw [covM_symm cov p.symm, h1]; rfl
  rw [covM_add_left, covM_add_right, covM_add_right]
  simp only [covM_act_left, covM_act_right, h1, h2, p.within]
  simp [Matrix.mul_assoc]

theorem StateProcess.var_step (p : StateProcess cov A B S x u) (k : ℕ) :
    covM cov (x (k + 1)) (x (k + 1)) = A * covM cov (x k) (x k) * Aᵀ + B * S * Bᵀ := by
  rw [p.step]; exact p.obs A B A B k

theorem StateProcess.stationary (p : StateProcess cov A B S x u) {X : Matrix s s V}
    (hX : X = A * X * Aᵀ + B * S * Bᵀ) (h0 : covM cov (x 0) (x 0) = X) : ∀ k, covM cov (x k) (x k) = X := by
  intro k
  induction k with
  | zero => exact h0
  | succ k ih => rw [p.var_step, ih, ← hX]

/-- distance of the variance from the stationary one -/
theorem StateProcess.var_diff (p : StateProcess cov A B S x u) {X : Matrix s s V}
    (hX : X = A * X * Aᵀ + B * S * Bᵀ) (k : ℕ) :
    covM cov (x k) (x k) - X = A ^ k * (covM cov (x 0) (x 0) - X) * (A ^ k)ᵀ := by
  induction k with
  | zero => simp
  | succ k ih =>
    have h1 : A ^ (k + 1) * (covM cov (x 0) (x 0) - X) * (A ^ (k + 1))ᵀ =
        A * (A ^ k * (covM cov (x 0) (x 0) - X) * (A ^ k)ᵀ) * Aᵀ := by
      rw [pow_succ' A k, Matrix.transpose_mul]
      simp only [Matrix.mul_assoc]
    have h2 : B * S * Bᵀ = X - A * X * Aᵀ := by
      rw [eq_sub_iff_add_eq, add_comm]; exact hX.symm
    rw [h1, ← ih, p.var_step, Matrix.mul_sub, Matrix.sub_mul, h2]
    abel

/-- the state `k` periods ahead and the present -/
theorem StateProcess.lead (p : StateProcess cov A B S x u) {n : Type} (G : Matrix n s V) (H : Matrix n e V)
    (l k : ℕ) :
    covM cov (x (l + 1 + k)) (fun i => act G (x l) i + act H (u (l + 1)) i) =
      A ^ k * (A * covM cov (x l) (x l) * Gᵀ + B * S * Hᵀ) := by
  induction k with
  | zero =>
    rw [Nat.add_zero, p.step l, p.obs A B G H l]
    simp
  | succ k ih =>
    rw [show l + 1 + (k + 1) = (l + 1 + k) + 1 by omega, p.step (l + 1 + k), covM_add_left, covM_act_left, ih,
      covM_act_left, covM_add_right, covM_act_right, covM_act_right, p.across _ _ (by omega : l + 1 + k + 1 ≠ l + 1),
      covM_symm cov p.symm (x l) (u (l + 1 + k + 1)), p.past l (l + 1 + k) (by omega)]
    simp [pow_succ', Matrix.mul_assoc]

end process

section stable
variable {V : Type} [Field V] [LinearOrder V] [IsStrictOrderedRing V]
variable {s n m : Type} [Fintype s] [DecidableEq s]

/-- powers of a matrix become small -/
def PowersVanish (A : Matrix s s V) : Prop := ∀ ε : V, 0 < ε → ∃ k0, ∀ k ≥ k0, ∀ i j, |(A ^ k) i j| < ε

omit [DecidableEq s] in
theorem abs_mul_entry_le (G : Matrix n s V) (P : Matrix s m V) {δ : V} (hP : ∀ i j, |P i j| ≤ δ) (i : n) (j : m) :
    |(G * P) i j| ≤ (∑ a, |G i a|) * δ := by
  rw [Matrix.mul_apply, Finset.sum_mul]
  refine (Finset.abs_sum_le_sum_abs _ _).trans (Finset.sum_le_sum fun a _ => ?_)
  rw [abs_mul]
  exact mul_le_mul_of_nonneg_left (hP a j) (abs_nonneg _)

/-- what is left of a matrix after many periods -/
theorem sandwich_vanishes {A : Matrix s s V} (hA : PowersVanish A) (G : Matrix n s V) (D : Matrix s s V)
    (G' : Matrix m s V) (i : n) (j : m) {ε : V} (hε : 0 < ε) :
    ∃ k0, ∀ k ≥ k0, |(G * (A ^ k * D * (A ^ k)ᵀ) * G'ᵀ : Matrix n m V) i j| < ε := by
  let g := ∑ a, |G i a|
  let g' := ∑ a, |G' j a|
  let d := ∑ a, ∑ b, |D a b|
  have hg : 0 ≤ g := Finset.sum_nonneg fun _ _ => abs_nonneg _
  have hg' : 0 ≤ g' := Finset.sum_nonneg fun _ _ => abs_nonneg _
  have hd : 0 ≤ d := Finset.sum_nonneg fun _ _ => Finset.sum_nonneg fun _ _ => abs_nonneg _
  have hK : 0 < g * d * g' + 1 := by positivity
  obtain ⟨k0, hk0⟩ := hA (min 1 (ε / (g * d * g' + 1))) (lt_min one_pos (div_pos hε hK))
  refine ⟨k0, fun k hk => ?_⟩
  let δ := min 1 (ε / (g * d * g' + 1))
  have hδ0 : 0 < δ := lt_min one_pos (div_pos hε hK)
  have hδ1 : δ ≤ 1 := min_le_left _ _
  have hδ2 : δ ≤ ε / (g * d * g' + 1) := min_le_right _ _
  have hP : ∀ i j, |(A ^ k) i j| ≤ δ := fun i j => (hk0 k hk i j).le
  have e1 : G * (A ^ k * D * (A ^ k)ᵀ) * G'ᵀ = (G * A ^ k) * D * (G' * A ^ k)ᵀ := by
    rw [Matrix.transpose_mul]; simp only [Matrix.mul_assoc]
  have h1 := abs_mul_entry_le G (A ^ k) hP
  have h2 := abs_mul_entry_le G' (A ^ k) hP
  have e2 : ((G * A ^ k) * D * (G' * A ^ k)ᵀ) i j = ∑ b, ∑ a, (G * A ^ k) i a * D a b * (G' * A ^ k) j b := by
    rw [Matrix.mul_apply]
    refine Finset.sum_congr rfl fun b _ => ?_
    rw [Matrix.mul_apply, Finset.sum_mul]
    rfl
  rw [e1, e2]
  have h3 : |∑ b, ∑ a, (G * A ^ k) i a * D a b * (G' * A ^ k) j b| ≤ ∑ b, ∑ a, (g * δ) * |D a b| * (g' * δ) := by
    refine (Finset.abs_sum_le_sum_abs _ _).trans (Finset.sum_le_sum fun b _ => ?_)
    refine (Finset.abs_sum_le_sum_abs _ _).trans (Finset.sum_le_sum fun a _ => ?_)
    rw [abs_mul, abs_mul]
    have hga : |(G * A ^ k) i a| ≤ g * δ := h1 i a
    have hgb : |(G' * A ^ k) j b| ≤ g' * δ := h2 j b
    have hgd : 0 ≤ g * δ := mul_nonneg hg hδ0.le
    exact mul_le_mul (mul_le_mul_of_nonneg_right hga (abs_nonneg _)) hgb (abs_nonneg _)
      (mul_nonneg hgd (abs_nonneg _))
  have h4 : (∑ b, ∑ a, (g * δ) * |D a b| * (g' * δ)) = g * d * g' * (δ * δ) := by
    have : (∑ b, ∑ a, (g * δ) * |D a b| * (g' * δ)) = ∑ b, ∑ a, (g * g' * (δ * δ)) * |D a b| :=
      Finset.sum_congr rfl fun b _ => Finset.sum_congr rfl fun a _ => by ring
    rw [this]
    simp only [← Finset.mul_sum]
    rw [Finset.sum_comm]
    ring
  have h5 : g * d * g' * (δ * δ) ≤ g * d * g' * δ := by
    refine mul_le_mul_of_nonneg_left ?_ (mul_nonneg (mul_nonneg hg hd) hg')
    have := mul_le_mul_of_nonneg_left hδ1 hδ0.le
    linarith
  have h6 : (g * d * g' + 1) * δ ≤ ε := by
    have := mul_le_mul_of_nonneg_left hδ2 hK.le
    rwa [mul_div_cancel₀ _ hK.ne'] at this
  linarith

theorem zero_of_small {a : V} (h : ∀ ε : V, 0 < ε → |a| < ε) : a = 0 := by
  by_contra hn
  exact lt_irrefl _ (h _ (abs_pos.mpr hn))

/-- a matrix that the transition leaves as it is vanishes -/
theorem fixed_zero {A D : Matrix s s V} (hA : PowersVanish A) (hD : D = A * D * Aᵀ) : D = 0 := by
  have hk : ∀ k : ℕ, D = A ^ k * D * (A ^ k)ᵀ := by
    intro k
    induction k with
    | zero => simp
    | succ k ih =>
      nth_rewrite 1 [hD, ih]
      rw [pow_succ' A k, Matrix.transpose_mul]
      simp only [Matrix.mul_assoc]
  ext i j
  refine zero_of_small fun ε hε => ?_
  obtain ⟨k0, h⟩ := sandwich_vanishes hA (1 : Matrix s s V) D 1 i j hε
  have := h k0 (le_refl _)
  rw [← hk k0] at this
  simpa using this

/-- the stationary variance is unique -/
theorem lyapunov_unique {A X X' Q : Matrix s s V} (hA : PowersVanish A) (h : X = A * X * Aᵀ + Q)
    (h' : X' = A * X' * Aᵀ + Q) : X = X' := by
  have : X - X' = 0 := by
    refine fixed_zero hA ?_
    rw [Matrix.mul_sub, Matrix.sub_mul]
    nth_rewrite 1 [h, h']
    abel
  exact sub_eq_zero.mp this

theorem lyapunov_symm {A X Q : Matrix s s V} (hA : PowersVanish A) (h : X = A * X * Aᵀ + Q) (hQ : Qᵀ = Q) :
    Xᵀ = X := by
  refine lyapunov_unique (Q := Q) hA ?_ h
  nth_rewrite 1 [h]
  rw [Matrix.transpose_add, hQ, Matrix.transpose_mul, Matrix.transpose_mul, Matrix.transpose_transpose]
  simp only [Matrix.mul_assoc]

/-- a nonnegative quadratic form -/
def PosM (X : Matrix s s V) : Prop := ∀ w : s → V, 0 ≤ w ⬝ᵥ (X *ᵥ w)

omit [DecidableEq s] in
theorem posM_congr {t : Type} [Fintype t] {X : Matrix s s V} (h : PosM X) (G : Matrix t s V) : PosM (G * X * Gᵀ) := by
  intro w
  have := h (Gᵀ *ᵥ w)
  rw [Matrix.mulVec_mulVec] at this
  rw [← Matrix.mulVec_mulVec, ← Matrix.mulVec_mulVec, Matrix.dotProduct_mulVec, ← Matrix.mulVec_transpose,
    Matrix.mulVec_mulVec]
  exact this

omit [DecidableEq s] in
theorem posM_add {X Y : Matrix s s V} (h : PosM X) (g : PosM Y) : PosM (X + Y) := by
  intro w
  rw [Matrix.add_mulVec, dotProduct_add]
  exact add_nonneg (h w) (g w)

/-- the variance of the states is at least what is left of it after some periods -/
theorem lyapunov_rest {A X Q : Matrix s s V} (h : X = A * X * Aᵀ + Q) (hQ : PosM Q) (k : ℕ) :
    PosM (X - A ^ k * X * (A ^ k)ᵀ) := by
  induction k with
  | zero => intro w; simp
  | succ k ih =>
    have e : X - A ^ (k + 1) * X * (A ^ (k + 1))ᵀ = (X - A ^ k * X * (A ^ k)ᵀ) + A ^ k * Q * (A ^ k)ᵀ := by
      have : A ^ (k + 1) * X * (A ^ (k + 1))ᵀ = A ^ k * (A * X * Aᵀ) * (A ^ k)ᵀ := by
        rw [pow_succ A k, Matrix.transpose_mul]; simp only [Matrix.mul_assoc]
      have h2 : A ^ k * X * (A ^ k)ᵀ = A ^ k * (A * X * Aᵀ) * (A ^ k)ᵀ + A ^ k * Q * (A ^ k)ᵀ := by
        nth_rewrite 1 [h]
        rw [Matrix.mul_add, Matrix.add_mul]
      rw [this, h2]; abel
    rw [e]
    exact posM_add ih (posM_congr hQ _)

theorem lyapunov_pos {A X Q : Matrix s s V} (hA : PowersVanish A) (h : X = A * X * Aᵀ + Q) (hQ : PosM Q) :
    PosM X := by
  have hk := lyapunov_rest h hQ
  intro w
  by_contra hn
  have hn : w ⬝ᵥ (X *ᵥ w) < 0 := not_le.mp hn
  obtain ⟨k0, h0⟩ := sandwich_vanishes hA (Matrix.of fun (_ : Unit) j => w j) X (Matrix.of fun (_ : Unit) j => w j)
    () () (neg_pos.mpr hn)
  have h1 := h0 k0 (le_refl _)
  have h2 := hk k0 w
  have e : ((Matrix.of fun (_ : Unit) j => w j) * (A ^ k0 * X * (A ^ k0)ᵀ) * (Matrix.of fun (_ : Unit) j => w j)ᵀ) () ()
      = w ⬝ᵥ ((A ^ k0 * X * (A ^ k0)ᵀ) *ᵥ w) := by
    rw [Matrix.mul_assoc]
    rfl
  rw [e] at h1
  rw [Matrix.sub_mulVec, dotProduct_sub] at h2
  have := (abs_lt.mp h1).1
  linarith

omit [Fintype s] [DecidableEq s] in
/-- a nonnegative form in two variables -/
theorem form_bound {p g q : V} (hq : ∀ a b : V, 0 ≤ a * a * p + 2 * (a * b) * g + b * b * q) : g * g ≤ p * q := by
  have h1 : 0 ≤ p := by have := hq 1 0; linarith
  have h2 : 0 ≤ q := by have := hq 0 1; linarith
  rcases h2.lt_or_eq with hp | hz
  · have := hq q (-g)
    have e : q * q * p + 2 * (q * -g) * g + -g * -g * q = q * (p * q - g * g) := by ring
    rw [e] at this
    have := (mul_nonneg_iff_of_pos_left hp).mp this
    linarith
  · rw [← hz] at hq ⊢
    by_contra hc
    have hc : 0 < g * g := by rw [mul_zero] at hc; exact not_le.mp hc
    have hr := hq 1 (-(p + 1) / (g * g) * g)
    have e2 : (1 : V) * 1 * p + 2 * (1 * (-(p + 1) / (g * g) * g)) * g +
        -(p + 1) / (g * g) * g * (-(p + 1) / (g * g) * g) * 0 = p - 2 * (p + 1) * ((g * g) / (g * g)) := by ring
    rw [e2, div_self hc.ne'] at hr
    linarith

/-- a covariance is at most the product of the standard deviations -/
theorem cauchy_schwarz {X : Matrix s s V} (h : PosM X) (hs : Xᵀ = X) (i j : s) :
    X i j * X i j ≤ X i i * X j j := by
  refine form_bound fun a b => ?_
  have := h (Pi.single i a + Pi.single j b)
  have hs' : X j i = X i j := congrFun (congrFun hs i) j
  simp only [Matrix.mulVec_add, dotProduct_add, add_dotProduct, single_dotProduct, Matrix.mulVec_single,
    Matrix.col, Pi.smul_apply, MulOpposite.smul_eq_mul_unop, MulOpposite.unop_op, Matrix.transpose_apply, hs'] at this
  linarith

omit [DecidableEq s] in
theorem sand_apply (P : Matrix n s V) (Y : Matrix s s V) (Q : Matrix m s V) (c : n) (d : m) :
    (P * Y * Qᵀ) c d = P c ⬝ᵥ (Y *ᵥ Q d) := by
  rw [Matrix.mul_assoc]; rfl

omit [DecidableEq s] in
theorem form_combine {Y : Matrix s s V} (hs : Yᵀ = Y) (p q : s → V) (a b : V) :
    (a • p + b • q) ⬝ᵥ (Y *ᵥ (a • p + b • q)) =
      a * a * (p ⬝ᵥ (Y *ᵥ p)) + 2 * (a * b) * (p ⬝ᵥ (Y *ᵥ q)) + b * b * (q ⬝ᵥ (Y *ᵥ q)) := by
  have h : q ⬝ᵥ (Y *ᵥ p) = p ⬝ᵥ (Y *ᵥ q) := by
    rw [Matrix.dotProduct_mulVec, ← Matrix.mulVec_transpose, hs, dotProduct_comm]
  simp only [Matrix.mulVec_add, Matrix.mulVec_smul, dotProduct_add, add_dotProduct, smul_dotProduct, dotProduct_smul,
    smul_eq_mul, h]
  ring

/-- an autocovariance is at most the product of the standard deviations -/
theorem lag_bound {e : Type} [Fintype e] {A X : Matrix s s V} {B : Matrix s e V} {S : Matrix e e V}
    {G : Matrix n s V} {H : Matrix n e V} (h : X = A * X * Aᵀ + B * S * Bᵀ) (hXs : Xᵀ = X) (hX : PosM X)
    (hSs : Sᵀ = S) (hS : PosM S) (k : ℕ) (c d : n) :
    let Γ := G * (A ^ k * (A * X * Gᵀ + B * S * Hᵀ))
    let C := G * X * Gᵀ + H * S * Hᵀ
    Γ c d * Γ c d ≤ C c c * C d d := by
  intro Γ C
  let P := G * A ^ (k + 1)
  let R := G * A ^ k * B
  have hΓ : Γ c d = P c ⬝ᵥ (X *ᵥ G d) + R c ⬝ᵥ (S *ᵥ H d) := by
    rw [← sand_apply P X G, ← sand_apply R S H, ← Matrix.add_apply]
    refine congrFun (congrFun ?_ c) d
    show G * (A ^ k * (A * X * Gᵀ + B * S * Hᵀ)) = G * A ^ (k + 1) * X * Gᵀ + G * A ^ k * B * S * Hᵀ
    rw [Matrix.mul_add, Matrix.mul_add, pow_succ]
    simp only [Matrix.mul_assoc]
  have hC : ∀ d, C d d = G d ⬝ᵥ (X *ᵥ G d) + H d ⬝ᵥ (S *ᵥ H d) := by
    intro d
    rw [← sand_apply G X G, ← sand_apply H S H]
    rfl
  have hrest : P c ⬝ᵥ (X *ᵥ P c) + R c ⬝ᵥ (S *ᵥ R c) ≤ C c c := by
    have h1 := lyapunov_rest h (posM_congr hS B) k (G c)
    have e1 : P c ⬝ᵥ (X *ᵥ P c) + R c ⬝ᵥ (S *ᵥ R c) = G c ⬝ᵥ ((A ^ k * X * (A ^ k)ᵀ) *ᵥ G c) := by
      rw [← sand_apply P X P, ← sand_apply R S R, ← sand_apply G _ G, ← Matrix.add_apply]
      refine congrFun (congrFun ?_ c) c
      show G * A ^ (k + 1) * X * (G * A ^ (k + 1))ᵀ + G * A ^ k * B * S * (G * A ^ k * B)ᵀ =
        G * (A ^ k * X * (A ^ k)ᵀ) * Gᵀ
      nth_rewrite 2 [h]
      simp only [pow_succ, Matrix.transpose_mul, Matrix.mul_add, Matrix.add_mul, Matrix.mul_assoc]
    rw [Matrix.sub_mulVec, dotProduct_sub] at h1
    have h2 := hS (H c)
    rw [e1, hC]
    linarith
  refine form_bound fun a b => ?_
  have f1 := hX (a • P c + b • G d)
  have f2 := hS (a • R c + b • H d)
  rw [form_combine hXs] at f1
  rw [form_combine hSs] at f2
  have f3 := mul_le_mul_of_nonneg_left hrest (mul_self_nonneg a)
  rw [hΓ, hC d]
  linarith

end stable

end Pynare

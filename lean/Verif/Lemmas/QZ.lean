import Mathlib.Data.Matrix.Mul
import Mathlib.Data.Matrix.Block
import Mathlib.Data.Matrix.ColumnRowPartitioned
/-!
# The algebra of the ordered QZ decomposition
-/

namespace Pynare

open Matrix

variable {V p q r : Type} [CommRing V] [Fintype p] [Fintype q] [DecidableEq p]
  [DecidableEq q]

/-- the first block column of `Z`'s inverse acting on the stable subspace -/
theorem stable_part {Z11 : Matrix p p V} {Z12 : Matrix p q V} {Z21 : Matrix q p V}
    {Z22 : Matrix q q V} (hZ : fromBlocks Z11 Z12 Z21 Z22 * (fromBlocks Z11 Z12 Z21 Z22)ᵀ = 1)
    {x : Matrix q p V} (hx : Z22 * x = Z21) {Zi : Matrix q q V} (hi : Zi * Z22 = 1)
    {W : Matrix p p V} (hW : Z11ᵀ * W = 1) : Z11 + Z12 * -x = W := by
  rw [fromBlocks_transpose, fromBlocks_multiply, ← fromBlocks_one, fromBlocks_inj] at hZ
  obtain ⟨h1, _, h3, _⟩ := hZ
  have h4 : x * Z11ᵀ = - Z12ᵀ := by
    have : Z22 * (x * Z11ᵀ) = Z22 * (- Z12ᵀ) := by
      rw [← Matrix.mul_assoc, hx, Matrix.mul_neg]
      exact eq_neg_of_add_eq_zero_left h3
    have := congrArg (Zi * ·) this
    simpa only [← Matrix.mul_assoc, hi, Matrix.one_mul] using this
  have h5 : (Z11 + Z12 * -x) * Z11ᵀ = 1 := by
    rw [Matrix.add_mul, Matrix.mul_assoc, Matrix.neg_mul, h4, neg_neg, h1]
  calc Z11 + Z12 * -x = (Z11 + Z12 * -x) * (Z11ᵀ * W) := by rw [hW, Matrix.mul_one]
    _ = W := by rw [← Matrix.mul_assoc, h5, Matrix.one_mul]

/-- the responses read off the decomposition solve the pencil -/
theorem qz_core {Z11 : Matrix p p V} {Z12 : Matrix p q V} {Z21 : Matrix q p V}
    {Z22 : Matrix q q V} (hZ : fromBlocks Z11 Z12 Z21 Z22 * (fromBlocks Z11 Z12 Z21 Z22)ᵀ = 1)
    {T11 S11 : Matrix p p V} {T12 S12 : Matrix p q V} {T22 S22 : Matrix q q V}
    {Q : Matrix r (p ⊕ q) V} {D1 E1 : Matrix r p V} {D2 E2 : Matrix r q V}
    (hD : fromCols D1 D2 = Q * fromBlocks T11 T12 0 T22 * fromBlocks Z11 Z12 Z21 Z22)
    (hE : fromCols E1 E2 = Q * fromBlocks S11 S12 0 S22 * fromBlocks Z11 Z12 Z21 Z22)
    {x : Matrix q p V} (hx : Z22 * x = Z21) {Zi : Matrix q q V} (hi : Zi * Z22 = 1)
    {W : Matrix p p V} (hW : Z11ᵀ * W = 1) (hW' : W * Z11ᵀ = 1) {T11i : Matrix p p V} (hT : T11 * T11i = 1)
    {gym : Matrix p p V} (hg : gym = (Z11ᵀ * T11i) * (S11 * W)) :
    (D1 + D2 * -x) * gym = E1 + E2 * -x := by
  have hs := stable_part hZ hx hi hW
  have h1 : fromBlocks Z11 Z12 Z21 Z22 * fromRows (1 : Matrix p p V) (-x) = fromRows W 0 := by
    rw [fromBlocks_mul_fromRows, Matrix.mul_one, Matrix.mul_one, hs, Matrix.mul_neg, hx, add_neg_cancel]
  have h2 : ∀ (X11 : Matrix p p V) (X12 : Matrix p q V) (X22 : Matrix q q V),
      fromBlocks X11 X12 0 X22 * fromRows W 0 = fromRows (X11 * W) (0 : Matrix q p V) := by
    intro X11 X12 X22
    rw [fromBlocks_mul_fromRows, Matrix.mul_zero, Matrix.mul_zero, Matrix.zero_mul, add_zero, add_zero]
  have h3 : ∀ (X1 : Matrix r p V) (X2 : Matrix r q V),
      X1 + X2 * -x = fromCols X1 X2 * fromRows (1 : Matrix p p V) (-x) := by
    intro X1 X2; rw [fromCols_mul_fromRows, Matrix.mul_one]
  rw [h3, h3, hD, hE, Matrix.mul_assoc _ _ (fromRows (1 : Matrix p p V) (-x)),
    Matrix.mul_assoc _ _ (fromRows (1 : Matrix p p V) (-x)), h1,
    Matrix.mul_assoc Q, h2, Matrix.mul_assoc Q, fromRows_mul, Matrix.zero_mul,
    Matrix.mul_assoc Q, h2]
  congr 2
  rw [hg]
  calc T11 * W * (Z11ᵀ * T11i * (S11 * W)) = T11 * (W * Z11ᵀ) * T11i * (S11 * W) := by
        simp only [Matrix.mul_assoc]
    _ = S11 * W := by rw [hW', Matrix.mul_one, hT, Matrix.one_mul]

end Pynare

import Mathlib.Algebra.Ring.Rat
import Verif.Lemmas.Arr
/-!
# C48 and C68: helpers for arrays
-/

namespace Pynare

variable {V : Type}

/-! ### C48: shingling -/

/-- **C48.** If the overlap does not exceed the second array, merging keeps all rows of the first
array and drops the first `k` rows of the second: row `i` of the result is row `i` of the first array,
and row `r0 + i` is row `k + i` of the second, where `r0` is the height of the first. -/
theorem C48_shingle (a0 a1 : Arr V) (k : Nat) (hc : a0.c = a1.c) (hk : k ≤ a1.r) :
    ∃ x, arrayShingle a0 a1 k = .ok x ∧ x.r = a0.r + (a1.r - k) ∧ x.c = a0.c ∧
      (∀ i < a0.r, ∀ j < a0.c, x.e i j = a0.e i j) ∧
      (∀ i < a1.r - k, ∀ j < a0.c, x.e (a0.r + i) j = a1.e (k + i) j) := by
  refine ⟨⟨a0.r + a1.r - k, a0.c, fun i j => if i < a0.r then a0.e i j else a1.e (i - a0.r + k) j⟩,
    ?_, ?_, rfl, ?_, ?_⟩
  · unfold arrayShingle
    rw [if_neg (by simpa using hc), if_pos hk]
  · show a0.r + a1.r - k = _
    omega
  · intro i hi j _
    simp [hi]
  · intro i _ j _
    have : ¬ a0.r + i < a0.r := by omega
    simp [Nat.add_comm]

/-- **C48, overlap.** If the last `k` rows of the first array are the first `k` rows of the second, the
result contains both arrays as consecutive rows. -/
theorem C48_overlap (a0 a1 : Arr V) (k : Nat) (hc : a0.c = a1.c) (hk : k ≤ a1.r) (hk0 : k ≤ a0.r)
    (hag : ∀ i < k, ∀ j < a0.c, a0.e (a0.r - k + i) j = a1.e i j) :
    ∃ x, arrayShingle a0 a1 k = .ok x ∧ x.r = a0.r - k + a1.r ∧
      (∀ i < a0.r, ∀ j < a0.c, x.e i j = a0.e i j) ∧
      (∀ i < a1.r, ∀ j < a0.c, x.e (a0.r - k + i) j = a1.e i j) := by
  obtain ⟨x, hx, h1, _, h3, h4⟩ := C48_shingle a0 a1 k hc hk
  refine ⟨x, hx, by omega, h3, ?_⟩
  intro i hi j hj
  by_cases hik : i < k
  · rw [h3 _ (by omega) j hj, hag i hik j hj]
  · have := h4 (i - k) (by omega) j hj
    rw [show a0.r - k + i = a0.r + (i - k) by omega, this]
    congr 1
    omega

/-- **C48, refusals.** Arrays of different width are refused. -/
theorem C48_width (a0 a1 : Arr V) (k : Nat) (hc : a0.c ≠ a1.c) :
    arrayShingle a0 a1 k = .error .valueError := by
  unfold arrayShingle
  rw [if_pos hc]

/-- non-trivial case: two arrays of two rows that share one -/
example : ∃ x : Arr Nat, arrayShingle ⟨2, 1, fun i _ => i⟩ ⟨2, 1, fun i _ => i + 1⟩ 1 = .ok x ∧
    x.r = 3 ∧ (List.range 3).map (fun i => x.e i 0) = [0, 1, 2] := ⟨_, rfl, rfl, rfl⟩

/-! ### C68: Kronecker products -/

theorem kronVec_length [Mul V] (x y : List V) : (kronVec x y).length = x.length * y.length := by
  unfold kronVec
  induction x with
  | nil => simp
  | cons a x ih => simp [List.flatMap_cons, ih, Nat.succ_mul, Nat.add_comm]

theorem kronVec_get [Mul V] [Zero V] (x y : List V) : ∀ {i j : Nat}, i < x.length → j < y.length →
    (kronVec x y)[i * y.length + j]?.getD 0 = x[i]?.getD 0 * y[j]?.getD 0 := by
  unfold kronVec
  induction x with
  | nil => intro i j hi; simp at hi
  | cons a x ih =>
    intro i j hi hj
    rw [List.flatMap_cons]
    cases i with
    | zero =>
      rw [Nat.zero_mul, Nat.zero_add, List.getElem?_append_left (by simpa using hj)]
      simp [List.getElem?_eq_getElem hj]
    | succ i =>
      have hlen : (y.map fun b => a * b).length = y.length := by simp
      rw [List.getElem?_append_right (by rw [hlen, Nat.succ_mul]; omega), hlen,
        show (i + 1) * y.length + j - y.length = i * y.length + j by rw [Nat.succ_mul]; omega,
        ih (by simpa using hi) hj]
      simp

theorem sumTo_mul [AddCommMonoid V] (n m : Nat) (f : Nat → V) :
    sumTo (n * m) f = sumTo n fun i => sumTo m fun j => f (i * m + j) := by
  induction n with
  | zero => simp [sumTo]
  | succ n ih =>
    rw [sumTo, ← ih, Nat.succ_mul]
    generalize n * m = k
    have : ∀ m, sumTo (k + m) f = sumTo k f + sumTo m fun j => f (k + j) := by
      intro m
      induction m with
      | zero => simp [sumTo]
      | succ m ih2 => rw [← Nat.add_assoc, sumTo, ih2, sumTo, add_assoc]
    exact this m

/-- **C68, fewer dimensions than expected.** With one column and vectors of length one the result is a
two-dimensional array with one column, not a vector. -/
theorem C68_single_is_column [CommRing V] (a : Arr V) (x y : V) (hc : a.c = 1) :
    ∃ z, matrixKroneckerVec a [x] [y] = .ok (.two z) ∧ z.r = a.r ∧ z.c = 1 ∧
      ∀ i < a.r, z.e i 0 = a.e i 0 * (x * y) := by
  refine ⟨⟨a.r, 1, fun i _ => a.e i 0 * (kronVec [x] [y])[0]?.getD 0⟩, ?_, rfl, rfl, ?_⟩
  · unfold matrixKroneckerVec
    simp only
    rw [if_pos ⟨hc, by simp [kronVec]⟩]
  · intro i _
    simp [kronVec]

/-- **C68** (partial: not for vectors of length one, see `C68_single_is_column`).  The product with the
Kronecker product of two vectors is the bilinear form: entry `i` of the result is the sum over `p` and
`q` of the coefficient in row `i` and column `p·|y| + q` times `x_p y_q`. -/
theorem C68_bilinear_partial [CommRing V] (a : Arr V) (x y : List V) (hc : a.c = x.length * y.length)
    (h1 : a.c ≠ 1) :
    ∃ v, matrixKroneckerVec a x y = .ok (.one v) ∧ v.length = a.r ∧
      ∀ i < a.r, v[i]? = some (sumTo x.length fun p => sumTo y.length fun q =>
        a.e i (p * y.length + q) * (x[p]?.getD 0 * y[q]?.getD 0)) := by
  refine ⟨(List.range a.r).map fun i => sumTo a.c fun j => a.e i j * (kronVec x y)[j]?.getD 0, ?_, ?_, ?_⟩
  · unfold matrixKroneckerVec
    simp only
    rw [if_neg (fun h => h1 h.1), if_pos (by rw [kronVec_length, hc])]
  · simp
  · intro i hi
    rw [List.getElem?_map, List.getElem?_range hi, Option.map_some, hc, sumTo_mul]
    congr 1
    simp only [sumTo_eq]
    refine Finset.sum_congr rfl fun p hp => Finset.sum_congr rfl fun q hq => ?_
    rw [kronVec_get x y (Finset.mem_range.mp hp) (Finset.mem_range.mp hq)]

/-- **C68, two-dimensional arguments.** For a coefficient array `a` and arrays `b`, `c` whose shapes
fit, the result is `a` times the Kronecker product, whichever of the two branches computes it. -/
theorem C68_matrix [CommRing V] (a b c : Arr V) (hc : a.c = b.r * c.r) :
    ∃ z, matrixKronecker a b c = .ok z ∧ z.r = a.r ∧ z.c = b.c * c.c ∧
      ∀ i < a.r, ∀ p < b.c, ∀ q < c.c, z.e i (p * c.c + q) =
        sumTo b.r fun k => sumTo c.r fun l => a.e i (k * c.r + l) * (b.e k p * c.e l q) := by
  have hk : ∀ k l p q, l < c.r → q < c.c →
      (kron b c).e (k * c.r + l) (p * c.c + q) = b.e k p * c.e l q := by
    intro k l p q hl hq
    have e1 : (k * c.r + l) / c.r = k := by
      rw [Nat.mul_comm, Nat.mul_add_div (by omega), Nat.div_eq_of_lt hl, Nat.add_zero]
    have e2 : (k * c.r + l) % c.r = l := by
      rw [Nat.mul_comm, Nat.mul_add_mod, Nat.mod_eq_of_lt hl]
    have e3 : (p * c.c + q) / c.c = p := by
      rw [Nat.mul_comm, Nat.mul_add_div (by omega), Nat.div_eq_of_lt hq, Nat.add_zero]
    have e4 : (p * c.c + q) % c.c = q := by
      rw [Nat.mul_comm, Nat.mul_add_mod, Nat.mod_eq_of_lt hq]
    simp only [kron, e1, e2, e3, e4]
  unfold matrixKronecker
  simp only
  by_cases h1 : a.c = 1 ∧ (kron b c).r = 1
  · rw [if_pos h1]
    have hbr : b.r = 1 ∧ c.r = 1 := by
      have : b.r * c.r = 1 := by rw [← hc]; exact h1.1
      exact ⟨Nat.eq_one_of_mul_eq_one_right this, Nat.eq_one_of_mul_eq_one_left this⟩
    refine ⟨_, rfl, by simp [outer, h1.1], by simp [outer, kron, hbr], ?_⟩
    intro i hi p hp q hq
    have hlt : p * c.c + q < b.c * c.c := by
      calc p * c.c + q < p * c.c + c.c := by omega
        _ = (p + 1) * c.c := by rw [Nat.succ_mul]
        _ ≤ b.c * c.c := Nat.mul_le_mul_right _ hp
    have hm := hk 0 0 p q (by omega) hq
    simp only [outer, h1.1, Nat.div_one, Nat.mod_one]
    rw [show (kron b c).c = b.c * c.c from rfl, Nat.div_eq_of_lt hlt, Nat.mod_eq_of_lt hlt]
    simp only [hbr.1, hbr.2, sumTo, Nat.mul_one, Nat.zero_add, zero_add]
    rw [Nat.zero_mul, Nat.zero_add] at hm
    rw [hm]
  · rw [if_neg h1]
    unfold Arr.dot
    rw [if_pos (by rw [hc]; rfl)]
    refine ⟨_, rfl, rfl, rfl, ?_⟩
    intro i hi p hp q hq
    simp only [hc]
    rw [sumTo_mul]
    simp only [sumTo_eq]
    refine Finset.sum_congr rfl fun k hk' => Finset.sum_congr rfl fun l hl => ?_
    rw [hk k l p q (Finset.mem_range.mp hl) hq]

/-- non-trivial case: two vectors of length two, four coefficients -/
example : ∃ v, matrixKroneckerVec (⟨1, 4, fun _ j => (j : ℤ) + 1⟩ : Arr ℤ) [1, 2] [3, 5] = .ok (.one v) ∧
    v = [1 * 3 + 2 * 5 + 3 * 6 + 4 * 10] := ⟨_, rfl, rfl⟩

#print axioms C48_shingle
#print axioms C48_overlap
#print axioms C48_width
#print axioms C68_single_is_column
#print axioms C68_bilinear_partial
#print axioms C68_matrix

end Pynare

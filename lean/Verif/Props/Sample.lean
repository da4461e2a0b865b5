import Verif.Model.Sample
import Verif.Spec.Sample
import Verif.Props.Stats
import Mathlib.Algebra.Order.BigOperators.Ring.Finset
import Mathlib.Analysis.Real.Sqrt
/-!
# C91-C93: sample moments of simulations
-/

namespace Pynare

section
variable {V : Type} [Field V] [LinearOrder V] [IsStrictOrderedRing V]

theorem dropPaths_rows {paths x : Arr V} {drop : Int} (h : dropPaths paths drop = .ok x) : RowsFrom paths drop x := by
  unfold dropPaths at h
  split at h
  · cases h
  · split at h
    · cases h
    · rw [← Except.ok.inj h]
      refine ⟨by omega, ?_, rfl, fun _ _ _ _ => rfl⟩
      show ((paths.r - drop.toNat : Nat) : Int) + drop = _
      omega

theorem dropPaths_some {paths x : Arr V} {drop : Int} (h : RowsFrom paths drop x) :
    ∃ x', dropPaths paths drop = .ok x' ∧ x'.r = x.r ∧ x'.c = x.c ∧ ∀ k < x.r, ∀ j < x.c, x'.e k j = x.e k j := by
  obtain ⟨h1, h2, h3, h4⟩ := h
  unfold dropPaths
  rw [if_neg (by omega), if_neg (by omega)]
  exact ⟨_, rfl, by show paths.r - drop.toNat = _; omega, h3.symm, fun k hk j hj => (h4 k hk j hj).symm⟩

theorem quot_some {a b : V} (h : b ≠ 0) : quot a b = some (a / b) := by
  unfold quot; rw [if_neg h]

theorem cast_ne {n : Nat} (h : n ≠ 0) : (n : V) ≠ 0 := by exact_mod_cast h

theorem colMean_some {x : Arr V} (h : x.r ≠ 0) (j : Nat) : colMean x j = some (avg x.r fun k => x.e k j) :=
  quot_some (cast_ne h)

theorem sampleCov_some {x : Arr V} (h : x.r ≠ 0) (i j : Nat) :
    sampleCov x i j = some (covOf x.r (fun k => x.e k i) fun k => x.e k j) := by
  unfold sampleCov
  rw [colMean_some h, colMean_some h]
  exact quot_some (cast_ne h)

theorem avg_eq (n : Nat) (x : Nat → V) : avg n x = (∑ k ∈ Finset.range n, x k) / n := by
  unfold avg; rw [sumTo_eq]

theorem covOf_comm (n : Nat) (x y : Nat → V) : covOf n x y = covOf n y x := by
  unfold covOf avg
  congr 1
  exact sumTo_congr fun k _ => mul_comm _ _

theorem covOf_nonneg (n : Nat) (x : Nat → V) : 0 ≤ covOf n x x := by
  unfold covOf
  rw [avg_eq]
  exact div_nonneg (Finset.sum_nonneg fun k _ => mul_self_nonneg _) (Nat.cast_nonneg n)

theorem covOf_bound (n : Nat) (x y : Nat → V) : covOf n x y * covOf n x y ≤ covOf n x x * covOf n y y := by
  unfold covOf
  generalize avg n x = a
  generalize avg n y = b
  rw [avg_eq, avg_eq, avg_eq, div_mul_div_comm, div_mul_div_comm]
  refine div_le_div_of_nonneg_right ?_ (mul_self_nonneg _)
  have := Finset.sum_mul_sq_le_sq_mul_sq (Finset.range n) (fun k => x k - a) (fun k => y k - b)
  simpa [pow_two] using this

theorem avg_congr {n : Nat} {x y : Nat → V} (h : ∀ k < n, x k = y k) : avg n x = avg n y := by
  unfold avg
  rw [sumTo_congr h]

theorem covOf_congr {n : Nat} {x x' y y' : Nat → V} (h : ∀ k < n, x k = x' k) (g : ∀ k < n, y k = y' k) :
    covOf n x y = covOf n x' y' := by
  unfold covOf
  rw [avg_congr h, avg_congr g]
  exact avg_congr fun k hk => by rw [h k hk, g k hk]

variable {sq : V → Option V} {paths x : Arr V} {drop : Int} {R : Arr (Option V)}

theorem sampleCorr_ok (h : sampleCorr sq paths drop = .ok R) (hx : RowsFrom paths drop x) (h0 : x.r ≠ 0) :
    R.r = x.c ∧ R.c = x.c ∧ ∀ i < x.c, ∀ j < x.c, R.e i j = scaled (covOf x.r (fun k => x.e k i) fun k => x.e k j)
      (sq (covOf x.r (fun k => x.e k i) fun k => x.e k i)) (sq (covOf x.r (fun k => x.e k j) fun k => x.e k j)) := by
  obtain ⟨x', e1, e2, e3, e4⟩ := dropPaths_some hx
  unfold sampleCorr at h
  rw [e1] at h
  rw [← Except.ok.inj h]
  refine ⟨e3, e3, fun i hi j hj => ?_⟩
  have hc : ∀ i < x.c, ∀ j < x.c, sampleCov x' i j = some (covOf x.r (fun k => x.e k i) fun k => x.e k j) := by
    intro i hi j hj
    rw [sampleCov_some (by omega), e2]
    congr 1
    exact covOf_congr (fun k hk => e4 k hk i hi) fun k hk => e4 k hk j hj
  simp only [hc i hi j hj, sampleStd, hc i hi i hi, hc j hj j hj]

/-- **C91.** The sample correlation of a variable with itself is one, unless the variable does not move. -/
theorem C91_unit (h : sampleCorr sq paths drop = .ok R) (hx : RowsFrom paths drop x) (h0 : x.r ≠ 0) {i : Nat}
    (hi : i < x.c) (hr : RootOf sq (covOf x.r (fun k => x.e k i) fun k => x.e k i))
    (hv : covOf x.r (fun k => x.e k i) (fun k => x.e k i) ≠ 0) : R.e i i = some 1 := by
  obtain ⟨-, -, h2⟩ := sampleCorr_ok h hx h0
  obtain ⟨r, e1, e2, e3⟩ := hr
  rw [h2 i hi i hi, e1]
  simp only [scaled, e3]
  rw [if_neg hv, div_self hv]

/-- **C91.** Sample correlations are symmetric. -/
theorem C91_symm (h : sampleCorr sq paths drop = .ok R) (hx : RowsFrom paths drop x) (h0 : x.r ≠ 0) {i j : Nat}
    (hi : i < x.c) (hj : j < x.c) : R.e i j = R.e j i := by
  obtain ⟨-, -, h2⟩ := sampleCorr_ok h hx h0
  rw [h2 i hi j hj, h2 j hj i hi, covOf_comm x.r (fun k => x.e k j) fun k => x.e k i]
  generalize sq (covOf x.r (fun k => x.e k i) fun k => x.e k i) = a
  generalize sq (covOf x.r (fun k => x.e k j) fun k => x.e k j) = b
  rcases a with _ | a <;> rcases b with _ | b <;> simp only [scaled]
  rw [mul_comm b a]

/-- **C91.** Sample correlations lie between minus one and one. -/
theorem C91_bounded (h : sampleCorr sq paths drop = .ok R) (hx : RowsFrom paths drop x) (h0 : x.r ≠ 0) {i j : Nat}
    (hi : i < x.c) (hj : j < x.c) (hri : RootOf sq (covOf x.r (fun k => x.e k i) fun k => x.e k i))
    (hrj : RootOf sq (covOf x.r (fun k => x.e k j) fun k => x.e k j)) {r : V} (hr : R.e i j = some r) :
    -1 ≤ r ∧ r ≤ 1 := by
  obtain ⟨-, -, h2⟩ := sampleCorr_ok h hx h0
  rw [h2 i hi j hj] at hr
  exact scaled_bound hri hrj (covOf_bound _ _ _) hr

/-- **C91.** They are the mean products of deviations over the standard deviations of the remaining rows. -/
theorem C91_value (h : sampleCorr sq paths drop = .ok R) (hx : RowsFrom paths drop x) (h0 : x.r ≠ 0) {i j : Nat}
    (hi : i < x.c) (hj : j < x.c) {a b : V} (ha : sq (covOf x.r (fun k => x.e k i) fun k => x.e k i) = some a)
    (hb : sq (covOf x.r (fun k => x.e k j) fun k => x.e k j) = some b) (hab : a * b ≠ 0) :
    R.e i j = some (covOf x.r (fun k => x.e k i) (fun k => x.e k j) / (a * b)) := by
  obtain ⟨-, -, h2⟩ := sampleCorr_ok h hx h0
  rw [h2 i hi j hj, ha, hb]
  simp only [scaled]
  rw [if_neg hab]

/-! ### autocorrelations -/

theorem lagCorr_some {x : Arr V} {k j : Nat} (hk : k < x.r)
    (hv : covOf x.r (fun i => x.e i j) (fun i => x.e i j) ≠ 0) :
    lagCorr x k j = some ((sumTo (x.r - k) fun i => (x.e (i + k) j - avg x.r fun i => x.e i j) *
      (x.e i j - avg x.r fun i => x.e i j)) / ((x.r : V) - k) / covOf x.r (fun i => x.e i j) fun i => x.e i j) := by
  have h0 : x.r ≠ 0 := by omega
  unfold lagCorr
  rw [colMean_some h0, sampleCov_some h0]
  have : (x.r : V) - (k : V) ≠ 0 := by
    have : (k : V) < x.r := by exact_mod_cast hk
    exact (sub_pos.mpr this).ne'
  simp only [quot_some this, quot_some hv]
  rfl

theorem sampleAutocorr_ok {p : Int} (h : sampleAutocorr paths p drop = .ok R) (hx : RowsFrom paths drop x) :
    p ≤ x.r ∧ 0 ≤ p ∧ R.r = x.c ∧ R.c = p.toNat ∧ ∃ x' : Arr V, x'.r = x.r ∧ x'.c = x.c ∧
      (∀ k < x.r, ∀ j < x.c, x'.e k j = x.e k j) ∧ ∀ j k, R.e j k = lagCorr x' (k + 1) j := by
  obtain ⟨x', e1, e2, e3, e4⟩ := dropPaths_some hx
  unfold sampleAutocorr at h
  rw [e1] at h
  simp only [bind, Except.bind] at h
  split at h
  · cases h
  · split at h
    · cases h
    · rw [← Except.ok.inj h]
      exact ⟨by omega, by omega, e3, rfl, x', e2, e3, e4, fun _ _ => rfl⟩

/-- **C92.** The sample autocorrelation of a variable at a lag is the mean product of the deviations of pairs of
periods that far apart, over its variance. -/
theorem C92_value {p : Int} (h : sampleAutocorr paths p drop = .ok R) (hx : RowsFrom paths drop x) {j k : Nat}
    (hj : j < x.c) (hk : k + 1 < x.r) (hv : covOf x.r (fun i => x.e i j) (fun i => x.e i j) ≠ 0) :
    R.e j k = some ((sumTo (x.r - (k + 1)) fun i => (x.e (i + (k + 1)) j - avg x.r fun i => x.e i j) *
      (x.e i j - avg x.r fun i => x.e i j)) / ((x.r : V) - (k + 1 : Nat)) /
        covOf x.r (fun i => x.e i j) fun i => x.e i j) := by
  obtain ⟨-, -, -, -, x', e2, e3, e4, e5⟩ := sampleAutocorr_ok h hx
  have a : avg x'.r (fun i => x'.e i j) = avg x.r fun i => x.e i j := by
    rw [e2]
    unfold avg
    congr 1
    exact sumTo_congr fun k hk => e4 k hk j hj
  have c : covOf x'.r (fun i => x'.e i j) (fun i => x'.e i j) = covOf x.r (fun i => x.e i j) fun i => x.e i j := by
    rw [e2]
    exact covOf_congr (fun k hk => e4 k hk j hj) fun k hk => e4 k hk j hj
  rw [e5, lagCorr_some (by omega) (by rw [c]; exact hv), a, c, e2]
  congr 3
  exact sumTo_congr fun i hi => by rw [e4 i (by omega) j hj, e4 (i + (k + 1)) (by omega) j hj]

/-- **C92**, partial.  The property says that sample autocorrelations lie between minus one and one.  In
fact the sum of `T - k` products is divided by `T - k` and the variance is computed from `T` periods, so that
they may exceed one by the factor `T / (T - k)`, and no more. -/
theorem C92_bound_partial {p : Int} (h : sampleAutocorr paths p drop = .ok R) (hx : RowsFrom paths drop x) {j k : Nat}
    (hj : j < x.c) (hk : k + 1 < x.r) (hv : covOf x.r (fun i => x.e i j) (fun i => x.e i j) ≠ 0) :
    ∃ r, R.e j k = some r ∧ |r| * ((x.r : V) - (k + 1 : Nat)) ≤ x.r := by
  refine ⟨_, C92_value h hx hj hk hv, ?_⟩
  have h0 : (x.r : V) ≠ 0 := cast_ne (by omega)
  have hT : (0 : V) < x.r := lt_of_le_of_ne (Nat.cast_nonneg _) h0.symm
  have hd : (0 : V) < (x.r : V) - (k + 1 : Nat) := by
    have : ((k + 1 : Nat) : V) < x.r := by exact_mod_cast hk
    exact sub_pos.mpr this
  have hv' : 0 < covOf x.r (fun i => x.e i j) fun i => x.e i j := lt_of_le_of_ne (covOf_nonneg _ _) hv.symm
  -- the sum of lagged products is at most the sum of squares
  let f : Nat → V := fun i => x.e i j - avg x.r fun i => x.e i j
  have hsum : |sumTo (x.r - (k + 1)) fun i => f (i + (k + 1)) * f i| ≤ ∑ i ∈ Finset.range x.r, f i * f i := by
    rw [sumTo_eq]
    have h1 : ∑ i ∈ Finset.range (x.r - (k + 1)), f i * f i ≤ ∑ i ∈ Finset.range x.r, f i * f i :=
      Finset.sum_le_sum_of_subset_of_nonneg (Finset.range_subset_range.mpr (by omega)) fun i _ _ => mul_self_nonneg _
    have h2 : ∑ i ∈ Finset.range (x.r - (k + 1)), f (i + (k + 1)) * f (i + (k + 1)) ≤ ∑ i ∈ Finset.range x.r, f i * f i := by
      have e : x.r = (k + 1) + (x.r - (k + 1)) := by omega
      nth_rewrite 2 [e]
      rw [Finset.sum_range_add]
      have : 0 ≤ ∑ i ∈ Finset.range (k + 1), f i * f i := Finset.sum_nonneg fun i _ => mul_self_nonneg _
      have e' : ∑ i ∈ Finset.range (x.r - (k + 1)), f (i + (k + 1)) * f (i + (k + 1)) =
          ∑ i ∈ Finset.range (x.r - (k + 1)), f (k + 1 + i) * f (k + 1 + i) :=
        Finset.sum_congr rfl fun i _ => by rw [Nat.add_comm]
      linarith
    have h3 : ∀ i, |f (i + (k + 1)) * f i| * 2 ≤ f (i + (k + 1)) * f (i + (k + 1)) + f i * f i := by
      intro i
      rw [abs_mul, ← abs_mul_abs_self (f (i + (k + 1))), ← abs_mul_abs_self (f i)]
      nlinarith [mul_self_nonneg (|f (i + (k + 1))| - |f i|)]
    have h4 := Finset.abs_sum_le_sum_abs (fun i => f (i + (k + 1)) * f i) (Finset.range (x.r - (k + 1)))
    have h5 : (∑ i ∈ Finset.range (x.r - (k + 1)), |f (i + (k + 1)) * f i|) * 2 ≤
        ∑ i ∈ Finset.range (x.r - (k + 1)), (f (i + (k + 1)) * f (i + (k + 1)) + f i * f i) := by
      rw [Finset.sum_mul]
      exact Finset.sum_le_sum fun i _ => h3 i
    rw [Finset.sum_add_distrib] at h5
    linarith
  have hc : covOf x.r (fun i => x.e i j) (fun i => x.e i j) = (∑ i ∈ Finset.range x.r, f i * f i) / x.r := by
    unfold covOf
    rw [avg_eq]
  rw [abs_div, abs_div, abs_of_pos hd, abs_of_pos hv', div_right_comm, div_mul_cancel₀ _ hd.ne', div_le_iff₀ hv', hc,
    mul_div_cancel₀ _ h0]
  exact hsum

/-- **C92**, partial: the check of the number of lags is too weak by one.  With as many lags as periods there is
no pair of periods left for the last one, and its autocorrelations are not numbers. -/
theorem C92_last_lag_partial {p : Int} (h : sampleAutocorr paths p drop = .ok R) (hx : RowsFrom paths drop x) {k : Nat}
    (hk : k + 1 = x.r) (j : Nat) : R.e j k = none := by
  obtain ⟨-, -, -, -, x', e2, e3, e4, e5⟩ := sampleAutocorr_ok h hx
  rw [e5]
  unfold lagCorr
  rw [e2, hk]
  simp only [sub_self]
  split
  · simp [quot]
  · rfl

/-- **C92.** Autocorrelations are computed exactly for the numbers of lags from zero to the number of periods. -/
theorem C92_accepted (hx : RowsFrom paths drop x) (p : Int) :
    (∃ R, sampleAutocorr paths p drop = .ok R) ↔ 0 ≤ p ∧ p ≤ x.r := by
  constructor
  · rintro ⟨R, h⟩
    obtain ⟨h1, h2, -⟩ := sampleAutocorr_ok h hx
    exact ⟨h2, h1⟩
  · rintro ⟨h1, h2⟩
    obtain ⟨x', e1, e2, e3, e4⟩ := dropPaths_some hx
    unfold sampleAutocorr
    rw [e1]
    simp only [bind, Except.bind]
    rw [if_neg (by omega), if_neg (by omega)]
    exact ⟨_, rfl⟩

/-! ### units -/

theorem avg_affine {n : Nat} (hn : n ≠ 0) (x : Nat → V) (a b : V) : avg n (fun k => a * x k + b) = a * avg n x + b := by
  rw [avg_eq, avg_eq, Finset.sum_add_distrib, ← Finset.mul_sum, Finset.sum_const, Finset.card_range, nsmul_eq_mul]
  have := cast_ne (V := V) hn
  field_simp

theorem covOf_affine {n : Nat} (hn : n ≠ 0) (x y : Nat → V) (a b c d : V) :
    covOf n (fun k => a * x k + b) (fun k => c * y k + d) = a * c * covOf n x y := by
  unfold covOf
  rw [avg_affine hn, avg_affine hn]
  generalize avg n x = m
  generalize avg n y = l
  rw [avg_eq, avg_eq, ← mul_div_assoc]
  congr 1
  rw [Finset.mul_sum]
  exact Finset.sum_congr rfl fun k _ => by ring

/-- **C93.** Sample autocorrelations do not depend on the units in which variables are measured: they stay the
same when a variable is multiplied by a number other than zero and shifted. -/
theorem C93_autocorr {p : Int} {paths' : Arr V} {R' : Arr (Option V)} (h : sampleAutocorr paths p drop = .ok R)
    (h' : sampleAutocorr paths' p drop = .ok R') (hr : paths'.r = paths.r) (hc : paths'.c = paths.c) (a b : Nat → V)
    (ha : ∀ j < paths.c, a j ≠ 0)
    (he : ∀ k < paths.r, ∀ j < paths.c, paths'.e k j = a j * paths.e k j + b j) :
    R'.r = R.r ∧ R'.c = R.c ∧ ∀ j < R.r, ∀ k < R.c, R'.e j k = R.e j k := by
  have hx : ∃ x, dropPaths paths drop = .ok x := by
    unfold sampleAutocorr at h
    obtain ⟨x, h1, -⟩ := Except.bind_eq_ok h
    exact ⟨x, h1⟩
  obtain ⟨x, hx⟩ := hx
  have rows := dropPaths_rows hx
  have ⟨r1, r2, r3, r4⟩ := rows
  let x' : Arr V := ⟨x.r, x.c, fun k j => a j * x.e k j + b j⟩
  have rows' : RowsFrom paths' drop x' := by
    refine ⟨r1, by show (x.r : Int) + drop = _; omega, by rw [hc]; exact r3, fun k hk j hj => ?_⟩
    have hk : k < x.r := hk
    have hj : j < x.c := hj
    show a j * x.e k j + b j = _
    rw [he (k + drop.toNat) (by omega) j (by omega), r4 k hk j hj]
  obtain ⟨p1, p2, c1, c2, -⟩ := sampleAutocorr_ok h rows
  obtain ⟨-, -, c1', c2', -⟩ := sampleAutocorr_ok h' rows'
  have c1' : R'.r = x.c := c1'
  refine ⟨by omega, by omega, fun j hj k hk => ?_⟩
  have hj : j < x.c := by omega
  have haj := ha j (by omega)
  have hxr : x.r ≠ 0 := by omega
  by_cases hlast : k + 1 = x.r
  · rw [C92_last_lag_partial h rows hlast j, C92_last_lag_partial h' rows' hlast j]
  have hk' : k + 1 < x.r := by omega
  have hcov : covOf x'.r (fun i => x'.e i j) (fun i => x'.e i j) =
      a j * a j * covOf x.r (fun i => x.e i j) fun i => x.e i j := covOf_affine hxr _ _ _ _ _ _
  by_cases hv : covOf x.r (fun i => x.e i j) (fun i => x.e i j) = 0
  · have none_of : ∀ {paths x : Arr V} {R : Arr (Option V)}, sampleAutocorr paths p drop = .ok R → RowsFrom paths drop x →
        j < x.c → x.r ≠ 0 → covOf x.r (fun i => x.e i j) (fun i => x.e i j) = 0 → R.e j k = none := by
      intro paths x R h hx hj h0 hv
      obtain ⟨-, -, -, -, x', e2, e3, e4, e5⟩ := sampleAutocorr_ok h hx
      have c : covOf x'.r (fun i => x'.e i j) (fun i => x'.e i j) = 0 := by
        rw [← hv, e2]
        exact covOf_congr (fun k hk => e4 k hk j hj) fun k hk => e4 k hk j hj
      rw [e5]
      unfold lagCorr
      rw [colMean_some (by omega), sampleCov_some (by omega), c]
      simp only [quot]
      split <;> simp_all
    rw [none_of h rows hj hxr hv, none_of h' rows' hj hxr (by rw [hcov, hv, mul_zero])]
  · have hv' : covOf x'.r (fun i => x'.e i j) (fun i => x'.e i j) ≠ 0 := by
      rw [hcov]; exact mul_ne_zero (mul_ne_zero haj haj) hv
    rw [C92_value h rows hj hk' hv, C92_value h' rows' hj hk' hv', hcov]
    congr 1
    have e1 : (sumTo (x'.r - (k + 1)) fun i => (x'.e (i + (k + 1)) j - avg x'.r fun i => x'.e i j) *
        (x'.e i j - avg x'.r fun i => x'.e i j)) = a j * a j * sumTo (x.r - (k + 1)) fun i =>
          (x.e (i + (k + 1)) j - avg x.r fun i => x.e i j) * (x.e i j - avg x.r fun i => x.e i j) := by
      show (sumTo (x.r - (k + 1)) fun i => (a j * x.e (i + (k + 1)) j + b j - avg x.r fun i => a j * x.e i j + b j) *
        (a j * x.e i j + b j - avg x.r fun i => a j * x.e i j + b j)) = _
      rw [avg_affine hxr]
      generalize (avg x.r fun i => x.e i j) = m
      rw [sumTo_eq, sumTo_eq, Finset.mul_sum]
      exact Finset.sum_congr rfl fun i _ => by ring
    rw [e1]
    show _ / ((x.r : V) - _) / _ = _
    rw [mul_div_assoc, mul_div_mul_left _ _ (mul_ne_zero haj haj)]

theorem root_unique {v r s : V} (hr : 0 ≤ r) (hs : 0 ≤ s) (h1 : r * r = v) (h2 : s * s = v) : r = s :=
  (mul_self_inj hr hs).mp (h1.trans h2.symm)

/-- **C93.** Nor do sample correlations, when the numbers variables are multiplied by are positive. -/
theorem C93_corr {paths' : Arr V} {R' : Arr (Option V)} (h : sampleCorr sq paths drop = .ok R)
    (h' : sampleCorr sq paths' drop = .ok R') (hr : paths'.r = paths.r) (hc : paths'.c = paths.c) (a b : Nat → V)
    (ha : ∀ j < paths.c, 0 < a j)
    (he : ∀ k < paths.r, ∀ j < paths.c, paths'.e k j = a j * paths.e k j + b j)
    (hsq : ∀ v, 0 ≤ v → RootOf sq v) (hdrop : drop < paths.r) :
    R'.r = R.r ∧ R'.c = R.c ∧ ∀ i < R.r, ∀ j < R.c, R'.e i j = R.e i j := by
  have hx : ∃ x, dropPaths paths drop = .ok x := by
    unfold sampleCorr at h
    obtain ⟨x, h1, -⟩ := Except.bind_eq_ok h
    exact ⟨x, h1⟩
  obtain ⟨x, hx⟩ := hx
  have rows := dropPaths_rows hx
  have ⟨r1, r2, r3, r4⟩ := rows
  let x' : Arr V := ⟨x.r, x.c, fun k j => a j * x.e k j + b j⟩
  have rows' : RowsFrom paths' drop x' := by
    refine ⟨r1, by show (x.r : Int) + drop = _; omega, by rw [hc]; exact r3, fun k hk j hj => ?_⟩
    have hk : k < x.r := hk
    have hj : j < x.c := hj
    show a j * x.e k j + b j = _
    rw [he (k + drop.toNat) (by omega) j (by omega), r4 k hk j hj]
  have hxr : x.r ≠ 0 := by omega
  obtain ⟨c1, c2, c3⟩ := sampleCorr_ok h rows hxr
  obtain ⟨c1', c2', c3'⟩ := sampleCorr_ok h' rows' hxr
  have c1' : R'.r = x.c := c1'
  have c2' : R'.c = x.c := c2'
  refine ⟨by omega, by omega, fun i hi j hj => ?_⟩
  have hi : i < x.c := by omega
  have hj : j < x.c := by omega
  have hai := ha i (by omega)
  have haj := ha j (by omega)
  have hcov : ∀ i j, covOf x'.r (fun k => x'.e k i) (fun k => x'.e k j) =
      a i * a j * covOf x.r (fun k => x.e k i) fun k => x.e k j := fun i j => covOf_affine hxr _ _ _ _ _ _
  have hroot : ∀ j, 0 < a j → ∃ s, sq (covOf x.r (fun k => x.e k j) fun k => x.e k j) = some s ∧
      sq (covOf x'.r (fun k => x'.e k j) fun k => x'.e k j) = some (a j * s) := by
    intro j haj
    obtain ⟨s, e1, e2, e3⟩ := hsq _ (covOf_nonneg x.r fun k => x.e k j)
    obtain ⟨s', e1', e2', e3'⟩ := hsq _ (covOf_nonneg x'.r fun k => x'.e k j)
    refine ⟨s, e1, ?_⟩
    rw [e1']
    refine congrArg _ (root_unique e2' (mul_nonneg haj.le e2) e3' ?_)
    rw [hcov, ← e3]
    ring
  obtain ⟨s, e1, e2⟩ := hroot i hai
  obtain ⟨t, f1, f2⟩ := hroot j haj
  rw [c3' i hi j hj, c3 i hi j hj, e1, e2, f1, f2, hcov]
  have hne : a i * a j ≠ 0 := mul_ne_zero hai.ne' haj.ne'
  have e : a i * s * (a j * t) = a i * a j * (s * t) := by ring
  simp only [scaled, e]
  by_cases hz : s * t = 0
  · rw [hz, mul_zero, if_pos rfl, if_pos rfl]
  · rw [if_neg hz, if_neg (mul_ne_zero hne hz), mul_div_mul_left _ _ hne]

end

/-! ### examples -/

/-- three periods of two variables -/
def smPaths : Arr ℚ := listArr [[1, 2], [0, 0], [-1, 1]] 2

/-- their autocorrelations -/
def smAuto : Arr (Option ℚ) := ⟨2, 2, fun j k => lagCorr smPaths (k + 1) j⟩

theorem smAuto_ok : sampleAutocorr smPaths 2 0 = .ok smAuto := rfl

example : RowsFrom smPaths 0 smPaths := ⟨le_refl _, rfl, rfl, fun _ _ _ _ => rfl⟩

example : covOf 3 (fun i => smPaths.e i 0) (fun i => smPaths.e i 0) ≠ 0 := by decide +kernel

/-- **C92 is false**: the series 1, 0, -1 has a sample autocorrelation of minus one and a half at the second lag. -/
theorem C92_false : ∃ (paths : Arr ℚ) (R : Arr (Option ℚ)), sampleAutocorr paths 2 0 = .ok R ∧
    R.e 0 1 = some (-3 / 2) := ⟨smPaths, smAuto, smAuto_ok, by decide +kernel⟩

/-- a square root for the squares of numbers of the form `n / 2`, enough for the example -/
def smSq (v : ℚ) : Option ℚ := if v = 1 then some 1 else if v = 4 then some 2 else none

/-- two periods of two variables that move against each other -/
def smTwo : Arr ℚ := listArr [[1, 5], [-1, 9]] 2

example : ∃ R, sampleCorr smSq smTwo 0 = .ok R ∧ R.e 0 0 = some 1 ∧ R.e 0 1 = some (-1) ∧
    RootOf smSq (covOf 2 (fun k => smTwo.e k 0) fun k => smTwo.e k 0) ∧
    RootOf smSq (covOf 2 (fun k => smTwo.e k 1) fun k => smTwo.e k 1) := by
  refine ⟨_, rfl, by decide +kernel, by decide +kernel, ⟨1, by decide +kernel, by decide +kernel, by decide +kernel⟩,
    ⟨2, by decide +kernel, by decide +kernel, by decide +kernel⟩⟩

/-- `C93_autocorr` applies: the second series doubled and shifted -/
example : ∃ R, sampleAutocorr (⟨3, 2, fun k j => 2 * smPaths.e k j + 7⟩ : Arr ℚ) 2 0 = .ok R ∧ R.e 0 1 = some (-3 / 2) :=
  ⟨_, rfl, by
    have h := C93_autocorr smAuto_ok (paths' := ⟨3, 2, fun k j => 2 * smPaths.e k j + 7⟩) rfl rfl rfl
      (fun _ => 2) (fun _ => 7) (fun _ _ => by norm_num) fun _ _ _ _ => rfl
    have e := h.2.2 0 (by decide) 1 (by decide)
    exact e.trans (by decide +kernel)⟩

/-- `C93_corr` applies: roots of real numbers, and any two periods measured in other units -/
example (y : Arr ℝ) (hy : y.r = 2) : ∃ R R', sampleCorr (fun v => some (Real.sqrt v)) y 1 = .ok R ∧
    sampleCorr (fun v => some (Real.sqrt v)) ⟨y.r, y.c, fun k j => (j + 1 : ℝ) * y.e k j - 4⟩ 1 = .ok R' ∧
    ∀ i < R.r, ∀ j < R.c, R'.e i j = R.e i j := by
  have hd : ∀ y : Arr ℝ, y.r = 2 → ∃ R, sampleCorr (fun v => some (Real.sqrt v)) y 1 = .ok R := by
    intro y hy
    unfold sampleCorr dropPaths
    rw [if_neg (by omega), if_neg (by omega)]
    exact ⟨_, rfl⟩
  obtain ⟨R, h⟩ := hd y hy
  obtain ⟨R', h'⟩ := hd ⟨y.r, y.c, fun k j => (j + 1 : ℝ) * y.e k j - 4⟩ hy
  refine ⟨R, R', h, h', (C93_corr h h' rfl rfl (fun j => (j + 1 : ℝ)) (fun _ => -4) (fun j _ => by positivity)
    (fun _ _ _ _ => sub_eq_add_neg _ _) (fun v hv => ⟨_, rfl, Real.sqrt_nonneg v, Real.mul_self_sqrt hv⟩) (by omega)).2.2⟩

#print axioms C91_unit
#print axioms C91_symm
#print axioms C91_bounded
#print axioms C91_value
#print axioms C92_bound_partial
#print axioms C92_last_lag_partial
#print axioms C92_false
#print axioms C92_value
#print axioms C92_accepted
#print axioms C93_autocorr
#print axioms C93_corr

end Pynare

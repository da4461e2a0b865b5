import Verif.Props.Stats
import Verif.Lemmas.Build
/-!
# C183: autocovariances at further lags
-/

namespace Pynare

set_option linter.unusedSectionVars false

variable {V : Type} [Field V] [LinearOrder V] [IsStrictOrderedRing V] {la : LinAlg V} {lyap : Lyap V} {t : Typer}
  {s : Space V} {gy gu sigma C : Arr V} {sq : V → Option V}

theorem autocovLoop_take {gyd A : Arr V} {p : Nat} : ∀ {o : Arr V} {L : List (Arr V)} {q : Nat}, q ≤ p →
    autocovLoop gyd A p o = .ok L → autocovLoop gyd A q o = .ok (L.take q) := by
  induction p with
  | zero =>
    intro o L q hq h
    obtain rfl : q = 0 := by omega
    rfl
  | succ p ih =>
    intro o L q hq h
    cases q with
    | zero => rfl
    | succ q =>
      unfold autocovLoop at h ⊢
      obtain ⟨v, hv, h⟩ := Except.bind_eq_ok h
      obtain ⟨o', ho, h⟩ := Except.bind_eq_ok h
      obtain ⟨rest, hr, h⟩ := Except.bind_eq_ok h
      obtain rfl := Except.ok.inj h
      rw [hv, exc_bind, ho, exc_bind, ih (by omega) hr]
      rfl

/-- **C183, more lags.**  With more lags asked for, the autocovariances at the first ones are the same. -/
theorem C183_prefix {p q : Nat} (hq : q ≤ p) {L : List (Arr V)} (h : autocov la lyap t s gy gu sigma p = .ok L) :
    autocov la lyap t s gy gu sigma q = .ok (L.take q) := by
  unfold autocov at h ⊢
  obtain ⟨X, h1, h⟩ := Except.bind_eq_ok h
  obtain ⟨AB, h2, h⟩ := Except.bind_eq_ok h
  obtain ⟨gyd, h3, h⟩ := Except.bind_eq_ok h
  obtain ⟨gud, h4, h⟩ := Except.bind_eq_ok h
  obtain ⟨x0, h5, h⟩ := Except.bind_eq_ok h
  obtain ⟨x, h6, h⟩ := Except.bind_eq_ok h
  obtain ⟨u0, h7, h⟩ := Except.bind_eq_ok h
  obtain ⟨u, h8, h⟩ := Except.bind_eq_ok h
  obtain ⟨o, h9, h⟩ := Except.bind_eq_ok h
  simp only [h1, h2, h3, h4, h5, h6, h7, h8, h9, exc_bind]
  exact autocovLoop_take hq h

/-- **C183, more lags**: the same for autocorrelations. -/
theorem C183_prefix_autocorrelations {p q : Nat} (hq : q ≤ p) {L : List (Arr (Option V))}
    (h : autocorr la lyap sq t s gy gu sigma p = .ok L) : autocorr la lyap sq t s gy gu sigma q = .ok (L.take q) := by
  unfold autocorr at h ⊢
  obtain ⟨A, h1, h⟩ := Except.bind_eq_ok h
  obtain ⟨C, h2, h⟩ := Except.bind_eq_ok h
  obtain rfl := Except.ok.inj h
  rw [C183_prefix hq h1, exc_bind, h2, exc_bind, ← List.map_take]

/-- products with vanishing powers vanish -/
theorem product_vanishes {n : Nat} {ι κ : Type} {A : Matrix (Fin n) (Fin n) V} (hA : PowersVanish A) (G : Matrix ι (Fin n) V)
    (D : Matrix (Fin n) κ V) (i : ι) (j : κ) {ε : V} (hε : 0 < ε) : ∃ k0, ∀ k ≥ k0, |(G * (A ^ k * D) : Matrix ι κ V) i j| < ε := by
  set K := (∑ a, |G i a|) * ∑ b, |D b j| with hK
  have hK0 : 0 ≤ K := mul_nonneg (Finset.sum_nonneg fun _ _ => abs_nonneg _) (Finset.sum_nonneg fun _ _ => abs_nonneg _)
  obtain ⟨k0, h0⟩ := hA (ε / (K + 1)) (div_pos hε (by linarith))
  refine ⟨k0, fun k hk => ?_⟩
  have h1 : ∀ a, |(A ^ k * D) a j| ≤ (ε / (K + 1)) * ∑ b, |D b j| := by
    intro a
    rw [Matrix.mul_apply, Finset.mul_sum]
    refine (Finset.abs_sum_le_sum_abs _ _).trans (Finset.sum_le_sum fun b _ => ?_)
    rw [abs_mul]
    exact mul_le_mul_of_nonneg_right (h0 k hk a b).le (abs_nonneg _)
  have h2 : |(G * (A ^ k * D)) i j| ≤ (∑ a, |G i a|) * ((ε / (K + 1)) * ∑ b, |D b j|) := by
    rw [Matrix.mul_apply, Finset.sum_mul]
    refine (Finset.abs_sum_le_sum_abs _ _).trans (Finset.sum_le_sum fun a _ => ?_)
    rw [abs_mul]
    exact mul_le_mul_of_nonneg_left (h1 a) (abs_nonneg _)
  refine lt_of_le_of_lt h2 ?_
  have h3 : (∑ a, |G i a|) * ((ε / (K + 1)) * ∑ b, |D b j|) = ε * (K / (K + 1)) := by rw [hK]; ring
  rw [h3]
  have h4 : K / (K + 1) < 1 := (div_lt_one (by linarith)).mpr (by linarith)
  calc ε * (K / (K + 1)) < ε * 1 := mul_lt_mul_of_pos_left h4 hε
    _ = ε := mul_one ε

/-- **C183, autocovariances die out.**  In a solved model whose states return to the steady state without shocks, the
autocovariance of any two variables is as small as one likes from some lag on, however many lags are asked for. -/
theorem C183_dies_out (ly : LyapExact lyap) (sh : SolutionShape t gy gu) (hst : Stable (stateRows t gy)) {r c : Nat}
    (hr : r < t.n) (hc : c < t.n) {ε : V} (hε : 0 < ε) :
    ∃ k0 : Nat, ∀ (p : Nat) (L : List (Arr V)), autocov la lyap t s gy gu sigma p = .ok L →
      ∀ k ≥ k0, ∀ x : Arr V, L[k]? = some x → |x.e r c| < ε := by
  by_cases hX : ∃ X, stateVar la lyap t s gy gu sigma = .ok X
  · obtain ⟨X, hX⟩ := hX
    obtain ⟨k0, h0⟩ := product_vanishes (stable_vanish hst) (gM t gy)
      (aM t gy * X.toM t.nBackward t.nBackward * (gM t gy).transpose +
        bM t gu.c gu * sigma.toM gu.c gu.c * (hM t gu.c gu).transpose) ⟨r, hr⟩ ⟨c, hc⟩ hε
    refine ⟨k0, fun p L h k hk x hx => ?_⟩
    obtain ⟨l, X', hX', e⟩ := autocov_spec ly sh.perm sh.gyr sh.gyc sh.gur h
    obtain rfl := Except.ok.inj (hX.symm.trans hX')
    obtain ⟨a, a1, -, -, a4⟩ := e k (by rw [← l]; exact (List.getElem?_eq_some_iff.mp hx).1)
    obtain rfl := Option.some.inj (hx.symm.trans a1)
    have := h0 k hk
    rw [← a4] at this
    exact this
  · refine ⟨0, fun p L h => ?_⟩
    obtain ⟨-, X, hX', -⟩ := autocov_spec ly sh.perm sh.gyr sh.gyc sh.gur h
    exact absurd ⟨X, hX'⟩ hX

/-- **C183, autocorrelations die out.** -/
theorem C183_autocorrelations_die_out (ly : LyapExact lyap) (sh : SolutionShape t gy gu) (hst : Stable (stateRows t gy))
    {r c : Nat} (hr : r < t.n) (hc : c < t.n) {ε : V} (hε : 0 < ε) :
    ∃ k0 : Nat, ∀ (p : Nat) (L : List (Arr (Option V))), autocorr la lyap sq t s gy gu sigma p = .ok L →
      ∀ k ≥ k0, ∀ (x : Arr (Option V)) (v : V), L[k]? = some x → x.e r c = some v → |v| < ε := by
  by_cases hC : ∃ C x y, covArr la lyap t s gy gu sigma = .ok C ∧ sq (C.e r r) = some x ∧ sq (C.e c c) = some y ∧ x * y ≠ 0
  · obtain ⟨C, x, y, hC, hx, hy, hxy⟩ := hC
    have hpos : 0 < |x * y| := abs_pos.mpr hxy
    obtain ⟨k0, h0⟩ := C183_dies_out (la := la) (s := s) (sigma := sigma) ly sh hst hr hc (mul_pos hε hpos)
    refine ⟨k0, fun p L h k hk z v hz hv => ?_⟩
    unfold autocorr at h
    obtain ⟨A, h1, h⟩ := Except.bind_eq_ok h
    obtain ⟨C', h2, h⟩ := Except.bind_eq_ok h
    obtain rfl := Except.ok.inj (hC.symm.trans h2)
    obtain rfl := Except.ok.inj h
    rw [List.getElem?_map, Option.map_eq_some_iff] at hz
    obtain ⟨a, ha, rfl⟩ := hz
    have := h0 p A h1 k hk a ha
    simp only [hx, hy, scaled, if_neg hxy, Option.some.injEq] at hv
    rw [← hv, abs_div, div_lt_iff₀ hpos]
    exact this
  · refine ⟨0, fun p L h k hk z v hz hv => ?_⟩
    unfold autocorr at h
    obtain ⟨A, h1, h⟩ := Except.bind_eq_ok h
    obtain ⟨C', h2, h⟩ := Except.bind_eq_ok h
    obtain rfl := Except.ok.inj h
    rw [List.getElem?_map, Option.map_eq_some_iff] at hz
    obtain ⟨a, ha, rfl⟩ := hz
    exfalso
    dsimp only at hv
    unfold scaled at hv
    split at hv
    · rename_i x y hx hy
      split at hv
      · cases hv
      · rename_i hxy
        exact hC ⟨C', x, y, h2, hx, hy, hxy⟩
    · cases hv

/-- autocovariances at two and at ten lags -/
example : ∃ L, autocov stLa (ratLyap [stX]) stT stSpace stGy stGu stSigma 10 = .ok L ∧ L.length = 10 ∧
    autocov stLa (ratLyap [stX]) stT stSpace stGy stGu stSigma 2 = .ok (L.take 2) := by
  obtain ⟨L, h, e⟩ := ok_of_check (x := autocov stLa (ratLyap [stX]) stT stSpace stGy stGu stSigma 10)
    (p := fun L => decide (L.length = 10)) (by decide +kernel)
  exact ⟨L, h, of_decide_eq_true e, C183_prefix (by omega) h⟩

example : ∃ L, autocorr stLa (ratLyap [stX]) ratSqrt stT stSpace stGy stGu stSigma 10 = .ok L ∧ L.length = 10 ∧
    autocorr stLa (ratLyap [stX]) ratSqrt stT stSpace stGy stGu stSigma 2 = .ok (L.take 2) := by
  obtain ⟨L, h, e⟩ := ok_of_check (x := autocorr stLa (ratLyap [stX]) ratSqrt stT stSpace stGy stGu stSigma 10)
    (p := fun L => decide (L.length = 10)) (by decide +kernel)
  exact ⟨L, h, of_decide_eq_true e, C183_prefix_autocorrelations (by omega) h⟩

/-- the first variable at lag ten; from some lag on its autocorrelations are below a thousandth -/
example : (∃ L x, autocorr stLa (ratLyap [stX]) ratSqrt stT stSpace stGy stGu stSigma 10 = .ok L ∧ L[9]? = some x ∧
      x.e 0 0 = some ((4/5 : ℚ) ^ 10)) ∧
    ∃ k0 : Nat, ∀ (p : Nat) (L : List (Arr (Option ℚ))), autocorr stLa (ratLyap [stX]) ratSqrt stT stSpace stGy stGu stSigma p = .ok L →
      ∀ k ≥ k0, ∀ (x : Arr (Option ℚ)) (v : ℚ), L[k]? = some x → x.e 0 0 = some v → |v| < 1/1000 := by
  refine ⟨?_, C183_autocorrelations_die_out (ratLyap_exact _) stShape stStable (by decide +kernel) (by decide +kernel)
    (by norm_num)⟩
  obtain ⟨L, h, e⟩ := ok_of_check (x := autocorr stLa (ratLyap [stX]) ratSqrt stT stSpace stGy stGu stSigma 10)
    (p := fun L => match L[9]? with | some a => decide (a.e 0 0 = some ((4/5 : ℚ) ^ 10)) | none => false) (by decide +kernel)
  split at e
  · rename_i a ha
    exact ⟨L, a, h, ha, of_decide_eq_true e⟩
  · cases e

#print axioms C183_prefix
#print axioms C183_prefix_autocorrelations
#print axioms C183_dies_out
#print axioms C183_autocorrelations_die_out

end Pynare

import Verif.Examples.Stats
import Verif.Lemmas.Solution
/-!
# Properties C62-C66 and C81-C83: moments, variance decomposition, data

Statements are about processes that follow the policy functions (`LinearProcess`); random variables and their
covariance are left open.
-/

namespace Pynare

open Matrix

variable {V : Type}

/-- The arrays that the first-order solution returns have the shape required below. -/
theorem solution_shape [CommRing V] {la : LinAlg V} (ex : la.Exact) {t : Llx} {nExog : Nat} {J gy gu : Arr V}
    {s : Space V} (hcur : ∀ c < t.n, t.has 1 c = true) (hs : t.nStatic = t.static.length)
    (hJ : J.r = t.n) (hc : Space.create la t.toTyper J = .ok s) (hsep : s.parts.Separated)
    (hsol : solveFirstOrder la t nExog s = .ok (gy, gu)) : SolutionShape t.toTyper gy gu ∧ gu.c = nExog := by
  obtain ⟨h1, h2, h3, h4, -⟩ := solution_rows ex hcur hs hJ hc hsep hsol
  refine ⟨⟨(C30_permutation_iff_partial t.toTyper).mpr ?_, h1, h2, h3⟩, h4⟩
  intro c hc h
  rw [hcur c hc] at h
  exact absurd h.2.2 (by simp)

section ring
variable [CommRing V] {M : Type} [AddCommGroup M] [Module V M] {la : LinAlg V} {lyap : Lyap V} {t : Typer}
  {s : Space V} {gy gu sigma C : Arr V} {cov : M →ₗ[V] M →ₗ[V] V} {y u : Nat → Nat → M}

/-- **C62.**  A process that follows the policy functions, and whose states start with the covariance found,
has in all periods the covariances reported; and its states keep theirs. -/
theorem C62_stationary (ly : LyapExact lyap) (sh : SolutionShape t gy gu)
    (h : covArr la lyap t s gy gu sigma = .ok C) :
    C.r = t.n ∧ C.c = t.n ∧ ∃ X, stateVar la lyap t s gy gu sigma = .ok X ∧
    ∀ {M : Type} [AddCommGroup M] [Module V M] {cov : M →ₗ[V] M →ₗ[V] V} {y u : Nat → Nat → M},
      LinearProcess t gu.c gy gu sigma cov y u → StartsWith t X cov y →
      ∀ k, StartsWith t X cov (fun l => y (k + l)) ∧
        ∀ c < t.n, ∀ d < t.n, cov (y (k + 1) c) (y (k + 1) d) = C.e c d := by
  obtain ⟨hn, s1, s2, c1, c2, X, hX, hC⟩ := covArr_spec ly sh.perm sh.gyr sh.gyc sh.gur h
  obtain ⟨-, -, x1, x2, hL⟩ := stateVar_spec ly sh.perm sh.gyr sh.gyc sh.gur hn hX
  refine ⟨c1, c2, X, hX, ?_⟩
  intro M _ _ cov y u p h0 k
  have ps := p.toState sh.perm
  have hst := ps.stationary hL (by ext i j; exact h0 i i.2 j j.2)
  constructor
  · intro i hi j hj
    exact congrFun (congrFun (hst k) ⟨i, hi⟩) ⟨j, hj⟩
  · intro c hc d hd
    have := ps.obs (gM t gy) (hM t gu.c gu) (gM t gy) (hM t gu.c gu) k
    rw [hst k, ← hC, ← p.declared sh.perm k] at this
    exact congrFun (congrFun this ⟨c, hc⟩) ⟨d, hd⟩

/-- **C62**: such a process exists, for all symmetric covariances. -/
theorem C62_exists (sh : SolutionShape t gy gu) {X : Arr V} (hX : ∀ i j, X.e i j = X.e j i)
    (hs : ∀ i j, sigma.e i j = sigma.e j i) :
    ∃ (M : Type) (_ : AddCommGroup M) (_ : Module V M) (cov : M →ₗ[V] M →ₗ[V] V) (y u : Nat → Nat → M),
      LinearProcess t gu.c gy gu sigma cov y u ∧ StartsWith t X cov y :=
  process_exists sh.perm gu.c gy gu hX hs

end ring

/-- Three variables, two states, correlated shocks. -/
theorem stShape : SolutionShape stT stGy stGu :=
  ⟨stPerm, by decide +kernel, by decide +kernel, by decide +kernel⟩

theorem stCov : ∃ C, covArr stLa (ratLyap [stX]) stT stSpace stGy stGu stSigma = .ok C ∧ sameArr C stC = true :=
  ok_of_check (p := fun C => sameArr C stC) (by decide +kernel)

example : ∃ (M : Type) (_ : AddCommGroup M) (_ : Module ℚ M) (cov : M →ₗ[ℚ] M →ₗ[ℚ] ℚ) (y u : Nat → Nat → M),
    ∀ k, cov (y (k + 1) 0) (y (k + 1) 1) = 20 := by
  obtain ⟨C, hC, hs⟩ := stCov
  obtain ⟨-, -, X, hX, hall⟩ := C62_stationary (ratLyap_exact _) stShape hC
  have hX' : X = stX := by
    obtain ⟨X', h1, h2⟩ := ok_of_check (x := stateVar stLa (ratLyap [stX]) stT stSpace stGy stGu stSigma)
      (p := fun _ => true) (by decide +kernel)
    obtain ⟨A, B, Q, -, -, h3⟩ := stateVar_ok hX
    unfold ratLyap at h3
    split at h3
    · rename_i Y hf
      rw [← Except.ok.inj h3]
      simpa using List.mem_of_find?_eq_some hf
    · cases h3
  have hsym : ∀ i j, stX.e i j = stX.e j i := by
    intro i j
    match i, j with
    | 0, 0 => rfl
    | 0, 1 => rfl
    | 1, 0 => rfl
    | 1, 1 => rfl
    | 0, j + 2 => rfl
    | 1, j + 2 => rfl
    | i + 2, 0 => rfl
    | i + 2, 1 => rfl
    | i + 2, j + 2 => rfl
  have hsym' : ∀ i j, stSigma.e i j = stSigma.e j i := by
    intro i j
    match i, j with
    | 0, 0 => rfl
    | 0, 1 => rfl
    | 1, 0 => rfl
    | 1, 1 => rfl
    | 0, j + 2 => rfl
    | 1, j + 2 => rfl
    | i + 2, 0 => rfl
    | i + 2, 1 => rfl
    | i + 2, j + 2 => rfl
  obtain ⟨M, i1, i2, cov, y, u, p, h0⟩ := C62_exists (gy := stGy) stShape hsym hsym'
  refine ⟨M, i1, i2, cov, y, u, fun k => ?_⟩
  rw [hX'] at hall
  have := (hall p h0 k).2 0 (by decide +kernel) 1 (by decide +kernel)
  obtain ⟨h1, h2, h3⟩ := sameArr_spec hs
  rw [this, h3 0 (by rw [h1]; decide +kernel) 1 (by rw [h2]; decide +kernel)]
  decide +kernel

section order
variable [Field V] [LinearOrder V] [IsStrictOrderedRing V] {la : LinAlg V} {lyap : Lyap V} {t : Typer}
  {s : Space V} {gy gu sigma C : Arr V}

/-- **C62**, from everywhere: if without shocks the states return to the steady state, the covariances of every
process that follows the policy functions tend to those reported, wherever it starts. -/
theorem C62_limit (ly : LyapExact lyap) (sh : SolutionShape t gy gu) (hst : Stable (stateRows t gy))
    (h : covArr la lyap t s gy gu sigma = .ok C) {M : Type} [AddCommGroup M] [Module V M]
    {cov : M →ₗ[V] M →ₗ[V] V} {y u : Nat → Nat → M} (p : LinearProcess t gu.c gy gu sigma cov y u)
    {c d : Nat} (hc : c < t.n) (hd : d < t.n) : LongRun cov y c d (C.e c d) := by
  obtain ⟨hn, s1, s2, c1, c2, X, hX, hC⟩ := covArr_spec ly sh.perm sh.gyr sh.gyc sh.gur h
  obtain ⟨-, -, x1, x2, hL⟩ := stateVar_spec ly sh.perm sh.gyr sh.gyc sh.gur hn hX
  have := long_run sh.perm hst hL p ⟨c, hc⟩ ⟨d, hd⟩
  rw [← hC] at this
  exact this

/-- **C62**: the reported covariances are the only stationary ones. -/
theorem C62_only (ly : LyapExact lyap) (sh : SolutionShape t gy gu) (hst : Stable (stateRows t gy))
    (h : covArr la lyap t s gy gu sigma = .ok C) {M : Type} [AddCommGroup M] [Module V M]
    {cov : M →ₗ[V] M →ₗ[V] V} {y u : Nat → Nat → M} (p : LinearProcess t gu.c gy gu sigma cov y u)
    {c d : Nat} (hc : c < t.n) (hd : d < t.n) {v : V} (hv : ∀ k, cov (y (k + 1) c) (y (k + 1) d) = v) :
    v = C.e c d := by
  have : v - C.e c d = 0 := by
    refine zero_of_small fun ε hε => ?_
    obtain ⟨k0, h0⟩ := C62_limit ly sh hst h p hc hd ε hε
    have := h0 k0 (le_refl _)
    rwa [hv] at this
  exact sub_eq_zero.mp this

/-- **C62**: the reported covariance matrix is symmetric and positive semidefinite if that of the shocks is. -/
theorem C62_psd (ly : LyapExact lyap) (sh : SolutionShape t gy gu) (hst : Stable (stateRows t gy))
    (hs : SymmArr sigma) (hpos : PosSemi sigma) (h : covArr la lyap t s gy gu sigma = .ok C) :
    SymmArr C ∧ PosSemi C := by
  obtain ⟨hn, s1, s2, c1, c2, -⟩ := covArr_spec ly sh.perm sh.gyr sh.gyc sh.gur h
  obtain ⟨h1, h2, -⟩ := cov_psd ly sh.perm sh.gyr sh.gyc sh.gur hst hs hpos h
  exact ⟨(symmArr_toM c1 c2).mpr h1, (posSemi_iff c1).mpr h2⟩

/-- **C62** for the states. -/
theorem C62_states_psd (ly : LyapExact lyap) (sh : SolutionShape t gy gu) (hst : Stable (stateRows t gy))
    (hs : SymmArr sigma) (hpos : PosSemi sigma) (h : covArr la lyap t s gy gu sigma = .ok C) :
    ∃ X, stateVar la lyap t s gy gu sigma = .ok X ∧ SymmArr X ∧ PosSemi X := by
  obtain ⟨hn, s1, s2, c1, c2, X', hX', -⟩ := covArr_spec ly sh.perm sh.gyr sh.gyc sh.gur h
  obtain ⟨-, -, x1, x2, -⟩ := stateVar_spec ly sh.perm sh.gyr sh.gyc sh.gur hn hX'
  obtain ⟨-, -, X, hX, h3, h4⟩ := cov_psd ly sh.perm sh.gyr sh.gyc sh.gur hst hs hpos h
  have : X' = X := Except.ok.inj (hX'.symm.trans hX)
  subst this
  exact ⟨X', hX, (symmArr_toM x1 x2).mpr h3, (posSemi_iff x1).mpr h4⟩

/-- **C62** for the variances: a list with one number for each variable, in order of declaration; it holds the
variance of the variable in every process that follows the policy functions and starts with the covariance
found for the states, and no negative number. -/
theorem C62_variances (ly : LyapExact lyap) (sh : SolutionShape t gy gu) (hst : Stable (stateRows t gy))
    (hs : SymmArr sigma) (hpos : PosSemi sigma) {vs : List V} (h : varList la lyap t s gy gu sigma = .ok vs) :
    vs.length = t.n ∧ ∃ X, stateVar la lyap t s gy gu sigma = .ok X ∧ ∀ (c : Nat) v, vs[c]? = some v →
      0 ≤ v ∧ ∀ {M : Type} [AddCommGroup M] [Module V M] {cov : M →ₗ[V] M →ₗ[V] V} {y u : Nat → Nat → M},
        LinearProcess t gu.c gy gu sigma cov y u → StartsWith t X cov y →
        ∀ k, cov (y (k + 1) c) (y (k + 1) c) = v := by
  unfold varList at h
  obtain ⟨C, hC, h⟩ := Except.bind_eq_ok h
  have := Except.ok.inj h
  subst this
  obtain ⟨c1, c2, X, hX, hall⟩ := C62_stationary ly sh hC
  refine ⟨by simp [c1], X, hX, fun c v hv => ?_⟩
  have hc : c < C.r := by simpa using (List.getElem?_eq_some_iff.mp hv).1
  simp only [List.getElem?_map, List.getElem?_range hc, Option.map_some, Option.some.injEq] at hv
  subst hv
  refine ⟨?_, fun p h0 k => (hall p h0 k).2 c (by omega) c (by omega)⟩
  have := (C62_psd ly sh hst hs hpos hC).2 (fun k => if k = c then 1 else 0)
  simpa [sumTo_eq, Finset.sum_ite_eq', hc] using this

end order

/-- The covariance of the shocks of the example is symmetric and positive semidefinite, and its states are stable. -/
theorem stSigma_psd : SymmArr stSigma ∧ PosSemi stSigma := by
  refine ⟨⟨rfl, ?_⟩, ?_⟩
  · intro i hi j hj
    have hi : i < 2 := hi
    have hj : j < 2 := hj
    interval_cases i <;> interval_cases j <;> rfl
  · intro w
    have : (sumTo stSigma.r fun i => sumTo stSigma.r fun j => w i * stSigma.e i j * w j) =
        16 * (w 0 + 13 / 80 * w 1) ^ 2 + (9 - 169 / 400) * (w 1) ^ 2 := by
      show ((0 : ℚ) + ((0 + w 0 * 16 * w 0) + w 0 * (13 / 5) * w 1)) + ((0 + w 1 * (13 / 5) * w 0) + w 1 * 9 * w 1) = _
      ring
    rw [this]
    have h1 : (0 : ℚ) ≤ 16 * (w 0 + 13 / 80 * w 1) ^ 2 := by positivity
    have h2 : (0 : ℚ) ≤ (9 - 169 / 400) * (w 1) ^ 2 := mul_nonneg (by norm_num) (sq_nonneg _)
    linarith

example : ∃ C, covArr stLa (ratLyap [stX]) stT stSpace stGy stGu stSigma = .ok C ∧ SymmArr C ∧ PosSemi C := by
  obtain ⟨C, hC, -⟩ := stCov
  exact ⟨C, hC, C62_psd (ratLyap_exact _) stShape stStable stSigma_psd.1 stSigma_psd.2 hC⟩

/-- the variances of the example -/
example : ∃ vs, varList stLa (ratLyap [stX]) stT stSpace stGy stGu stSigma = .ok vs ∧ vs.length = 3 ∧
    vs[2]? = some 25 := by
  obtain ⟨vs, h, h'⟩ := ok_of_check (x := varList stLa (ratLyap [stX]) stT stSpace stGy stGu stSigma)
    (p := fun vs => decide (vs.length = 3) && decide (vs[2]? = some 25)) (by decide +kernel)
  simp only [Bool.and_eq_true, decide_eq_true_eq] at h'
  exact ⟨vs, h, h'.1, h'.2⟩

/-! ### C63: correlations -/

section corr
variable [Field V] [LinearOrder V] [IsStrictOrderedRing V] {la : LinAlg V} {lyap : Lyap V} {t : Typer}
  {s : Space V} {gy gu sigma : Arr V} {sq : V → Option V} {R : Arr (Option V)}

omit [IsStrictOrderedRing V] in
theorem corrArr_ok (h : corrArr la lyap sq t s gy gu sigma = .ok R) :
    ∃ C, covArr la lyap t s gy gu sigma = .ok C ∧ R.r = C.r ∧ R.c = C.c ∧
      ∀ i j, R.e i j = scaled (C.e i j) (sq (C.e i i)) (sq (C.e j j)) := by
  unfold corrArr at h
  obtain ⟨C, h1, h⟩ := Except.bind_eq_ok h
  have := Except.ok.inj h
  subst this
  exact ⟨C, h1, rfl, rfl, fun _ _ => rfl⟩

/-- **C63.**  The correlation of a variable with itself is one, unless its variance is zero. -/
theorem C63_unit (h : corrArr la lyap sq t s gy gu sigma = .ok R) {C : Arr V}
    (hC : covArr la lyap t s gy gu sigma = .ok C) {c : Nat} (hr : RootOf sq (C.e c c)) (h0 : C.e c c ≠ 0) :
    R.e c c = some 1 := by
  obtain ⟨C', h1, -, -, h2⟩ := corrArr_ok h
  have : C' = C := Except.ok.inj (h1.symm.trans hC)
  subst this
  obtain ⟨r, e1, e2, e3⟩ := hr
  rw [h2, e1]
  simp only [scaled, e3]
  rw [if_neg h0, div_self h0]

omit [IsStrictOrderedRing V] in
/-- **C63**: where correlations are numbers. -/
theorem C63_defined (h : corrArr la lyap sq t s gy gu sigma = .ok R) {C : Arr V}
    (hC : covArr la lyap t s gy gu sigma = .ok C) {c d : Nat} (hr : RootOf sq (C.e c c)) (hr' : RootOf sq (C.e d d)) :
    R.e c d = none ↔ C.e c c = 0 ∨ C.e d d = 0 := by
  obtain ⟨C', h1, -, -, h2⟩ := corrArr_ok h
  have : C' = C := Except.ok.inj (h1.symm.trans hC)
  subst this
  obtain ⟨r, e1, e2, e3⟩ := hr
  obtain ⟨r', f1, f2, f3⟩ := hr'
  rw [h2, e1, f1]
  simp only [scaled]
  by_cases hz : r * r' = 0
  · rw [if_pos hz]
    refine ⟨fun _ => ?_, fun _ => rfl⟩
    rcases mul_eq_zero.mp hz with h | h
    · exact Or.inl (by rw [← e3, h, mul_zero])
    · exact Or.inr (by rw [← f3, h, mul_zero])
  · rw [if_neg hz]
    refine ⟨fun h => absurd h (by simp), ?_⟩
    rintro (h | h)
    · exact absurd (by rw [mul_self_eq_zero.mp (e3.trans h), zero_mul]) hz
    · exact absurd (by rw [mul_self_eq_zero.mp (f3.trans h), mul_zero]) hz

/-- the part of a scaled covariance -/
theorem scaled_bound {a p q : V} (hp : RootOf sq p) (hq : RootOf sq q) (h : a * a ≤ p * q) {r : V}
    (hr : scaled a (sq p) (sq q) = some r) : -1 ≤ r ∧ r ≤ 1 := by
  obtain ⟨x, e1, e2, e3⟩ := hp
  obtain ⟨z, f1, f2, f3⟩ := hq
  rw [e1, f1] at hr
  simp only [scaled] at hr
  split at hr
  · cases hr
  · rename_i hne
    have hr := Option.some.inj hr
    have hpos : 0 < x * z := lt_of_le_of_ne (mul_nonneg e2 f2) (Ne.symm hne)
    have h1 : a * a ≤ (x * z) * (x * z) := by
      have : (x * z) * (x * z) = (x * x) * (z * z) := by ring
      rw [this, e3, f3]; exact h
    have h2 : |a| ≤ x * z := by
      have := abs_le_abs_of_sq_le h1
      rwa [abs_of_pos hpos] at this
    have h3 := abs_le.mp h2
    rw [← hr]
    refine ⟨?_, ?_⟩
    · rw [le_div_iff₀ hpos]; linarith
    · rw [div_le_iff₀ hpos]; linarith
where
  abs_le_abs_of_sq_le {a b : V} (h : a * a ≤ b * b) : |a| ≤ |b| := abs_le_iff_mul_self_le.mpr h

/-- **C63.**  All correlations lie between minus one and one. -/
theorem C63_bounded (ly : LyapExact lyap) (sh : SolutionShape t gy gu) (hst : Stable (stateRows t gy))
    (hs : SymmArr sigma) (hpos : PosSemi sigma) (h : corrArr la lyap sq t s gy gu sigma = .ok R) {C : Arr V}
    (hC : covArr la lyap t s gy gu sigma = .ok C) (hr : ∀ c < t.n, RootOf sq (C.e c c)) {c d : Nat} (hc : c < t.n)
    (hd : d < t.n) {r : V} (hrv : R.e c d = some r) : -1 ≤ r ∧ r ≤ 1 := by
  obtain ⟨C', h1, -, -, h2⟩ := corrArr_ok h
  have : C' = C := Except.ok.inj (h1.symm.trans hC)
  subst this
  obtain ⟨p1, p2, -⟩ := cov_psd ly sh.perm sh.gyr sh.gyc sh.gur hst hs hpos hC
  rw [h2] at hrv
  exact scaled_bound (hr c hc) (hr d hd) (cauchy_schwarz p2 p1 ⟨c, hc⟩ ⟨d, hd⟩) hrv

/-- **C63.**  Correlations are symmetric. -/
theorem C63_symm (ly : LyapExact lyap) (sh : SolutionShape t gy gu) (hst : Stable (stateRows t gy))
    (hs : SymmArr sigma) (hpos : PosSemi sigma) (h : corrArr la lyap sq t s gy gu sigma = .ok R) :
    R.r = t.n ∧ R.c = t.n ∧ ∀ c < t.n, ∀ d < t.n, R.e c d = R.e d c := by
  obtain ⟨C, h1, r1, r2, h2⟩ := corrArr_ok h
  obtain ⟨p1, -⟩ := C62_psd ly sh hst hs hpos h1
  obtain ⟨-, -, -, c1, c2, -⟩ := covArr_spec ly sh.perm sh.gyr sh.gyc sh.gur h1
  refine ⟨by omega, by omega, fun c hc d hd => ?_⟩
  rw [h2, h2, p1.2 c (by omega) d (by omega)]
  generalize sq (C.e c c) = a
  generalize sq (C.e d d) = b
  rcases a with _ | a <;> rcases b with _ | b <;> simp only [scaled]
  rw [mul_comm b a]

omit [IsStrictOrderedRing V] in
/-- **C63**: the correlation is the covariance over the standard deviations -/
theorem C63_value (h : corrArr la lyap sq t s gy gu sigma = .ok R) {C : Arr V}
    (hC : covArr la lyap t s gy gu sigma = .ok C) {c d : Nat} {x z r : V} (hx : sq (C.e c c) = some x)
    (hz : sq (C.e d d) = some z) (hr : R.e c d = some r) : r * (x * z) = C.e c d := by
  obtain ⟨C', h1, -, -, h2⟩ := corrArr_ok h
  have : C' = C := Except.ok.inj (h1.symm.trans hC)
  subst this
  rw [h2, hx, hz] at hr
  simp only [scaled] at hr
  split at hr
  · cases hr
  · rename_i hne
    rw [← Option.some.inj hr, div_mul_cancel₀ _ hne]

end corr

/-- All variances of the example are 25; the correlation of the first two variables is four fifths. -/
theorem stRoots {C : Arr ℚ} (hs : sameArr C stC = true) : ∀ c < stT.n, RootOf ratSqrt (C.e c c) := by
  intro c hc
  have hc : c < 3 := hc
  obtain ⟨h1, h2, h3⟩ := sameArr_spec hs
  have h1 : C.r = 3 := h1
  have h2 : C.c = 3 := h2
  rw [h3 c (by omega) c (by omega)]
  interval_cases c <;> exact ⟨5, by decide +kernel, by norm_num, by decide +kernel⟩

example : ∃ R, corrArr stLa (ratLyap [stX]) ratSqrt stT stSpace stGy stGu stSigma = .ok R ∧
    R.e 0 0 = some 1 ∧ R.e 0 1 = some (4/5) ∧ R.e 1 2 = some (3/25) := by
  obtain ⟨R, h, h'⟩ := ok_of_check (x := corrArr stLa (ratLyap [stX]) ratSqrt stT stSpace stGy stGu stSigma)
    (p := fun R => decide (R.e 0 0 = some 1) && decide (R.e 0 1 = some (4/5)) && decide (R.e 1 2 = some (3/25)))
    (by decide +kernel)
  simp only [Bool.and_eq_true, decide_eq_true_eq] at h'
  exact ⟨R, h, h'.1.1, h'.1.2, h'.2⟩

example : ∃ R C, corrArr stLa (ratLyap [stX]) ratSqrt stT stSpace stGy stGu stSigma = .ok R ∧
    covArr stLa (ratLyap [stX]) stT stSpace stGy stGu stSigma = .ok C ∧ ∀ c < stT.n, RootOf ratSqrt (C.e c c) := by
  obtain ⟨R, h, -⟩ := ok_of_check (x := corrArr stLa (ratLyap [stX]) ratSqrt stT stSpace stGy stGu stSigma)
    (p := fun _ => true) (by decide +kernel)
  obtain ⟨C, hC, hs⟩ := stCov
  exact ⟨R, C, h, hC, stRoots hs⟩

/-! ### C64: autocovariances -/

section lag
variable [CommRing V] {la : LinAlg V} {lyap : Lyap V} {t : Typer} {s : Space V} {gy gu sigma : Arr V}
  {L : List (Arr V)} {q : Nat}

/-- **C64**, what holds: entry `i` of the result is the covariance of the variables `i + 1` periods later with
the present ones. -/
theorem C64_lag_partial (ly : LyapExact lyap) (sh : SolutionShape t gy gu)
    (h : autocov la lyap t s gy gu sigma q = .ok L) :
    L.length = q ∧ ∃ X, stateVar la lyap t s gy gu sigma = .ok X ∧
    ∀ i < q, ∃ a, L[i]? = some a ∧ a.r = t.n ∧ a.c = t.n ∧
    ∀ {M : Type} [AddCommGroup M] [Module V M] {cov : M →ₗ[V] M →ₗ[V] V} {y u : Nat → Nat → M},
      LinearProcess t gu.c gy gu sigma cov y u → StartsWith t X cov y →
      ∀ k, ∀ c < t.n, ∀ d < t.n, cov (y (k + 1 + (i + 1)) c) (y (k + 1) d) = a.e c d := by
  obtain ⟨l1, X, hX, l2⟩ := autocov_spec ly sh.perm sh.gyr sh.gyc sh.gur h
  have hn : t.n ≠ 1 := by
    obtain ⟨A, B, Q, hk, -, -⟩ := stateVar_ok hX
    exact kalman_n sh.perm sh.gyr sh.gyc hk
  obtain ⟨-, -, x1, x2, hL⟩ := stateVar_spec ly sh.perm sh.gyr sh.gyc sh.gur hn hX
  refine ⟨l1, X, hX, fun i hi => ?_⟩
  obtain ⟨a, a1, a2, a3, a4⟩ := l2 i hi
  refine ⟨a, a1, a2, a3, ?_⟩
  intro M _ _ cov y u p h0 k c hc d hd
  have ps := p.toState sh.perm
  have hst := ps.stationary hL (by ext i j; exact h0 i i.2 j j.2)
  have hlead := ps.lead (gM t gy) (hM t gu.c gu) k i
  rw [hst k] at hlead
  have hd' := p.declared sh.perm k
  have hd2 := p.declared sh.perm (k + 1 + i)
  have hz : covM cov (fun l : Fin gu.c => u (k + 1 + i + 1) l) (fun c : Fin t.n => y (k + 1) c) = 0 := by
    rw [hd', covM_add_right, covM_act_right, covM_act_right, ps.across _ _ (by omega),
      covM_symm cov ps.symm (fun j : Fin t.nBackward => y k (t.drState[j.val]?.getD 0)),
      ps.past k (k + 1 + i) (by omega)]
    simp
  have hfin : covM cov (fun c : Fin t.n => y (k + 1 + i + 1) c) (fun c : Fin t.n => y (k + 1) c) = a.toM t.n t.n := by
    rw [hd2, covM_add_left, covM_act_left, covM_act_left, hz, Matrix.mul_zero, add_zero, a4]
    congr 1
    rw [hd']
    exact hlead
  exact congrFun (congrFun hfin ⟨c, hc⟩) ⟨d, hd⟩

end lag

/-- **C64** does not hold: the entry with number zero is not the covariance within a period. -/
theorem C64_false : ∃ (L : List (Arr ℚ)) (C a : Arr ℚ),
    autocov stLa (ratLyap [stX]) stT stSpace stGy stGu stSigma 2 = .ok L ∧
    covArr stLa (ratLyap [stX]) stT stSpace stGy stGu stSigma = .ok C ∧
    L[0]? = some a ∧ C.e 0 0 = 25 ∧ a.e 0 0 = 20 := by
  obtain ⟨L, h1, h2⟩ := ok_of_check (x := autocov stLa (ratLyap [stX]) stT stSpace stGy stGu stSigma 2)
    (p := fun L => match L[0]? with | some a => decide (a.e 0 0 = 20) | none => false) (by decide +kernel)
  obtain ⟨C, hC, hs⟩ := stCov
  obtain ⟨e1, e2, e3⟩ := sameArr_spec hs
  split at h2
  · rename_i a ha
    refine ⟨L, C, a, h1, hC, ha, ?_, of_decide_eq_true h2⟩
    rw [e3 0 (by rw [e1]; decide +kernel) 0 (by rw [e2]; decide +kernel)]
    decide +kernel
  · cases h2

/-- **C83.**  Autocorrelations lie between minus one and one. -/
theorem C83_bounded [Field V] [LinearOrder V] [IsStrictOrderedRing V] {la : LinAlg V} {lyap : Lyap V} {t : Typer}
    {s : Space V} {gy gu sigma : Arr V} {sq : V → Option V} {L : List (Arr (Option V))} {q : Nat}
    (ly : LyapExact lyap) (sh : SolutionShape t gy gu) (hst : Stable (stateRows t gy))
    (hs : SymmArr sigma) (hpos : PosSemi sigma) (h : autocorr la lyap sq t s gy gu sigma q = .ok L) {C : Arr V}
    (hC : covArr la lyap t s gy gu sigma = .ok C) (hr : ∀ c < t.n, RootOf sq (C.e c c)) {i : Nat} {R : Arr (Option V)}
    (hR : L[i]? = some R) {c d : Nat} (hc : c < t.n) (hd : d < t.n) {r : V} (hrv : R.e c d = some r) :
    -1 ≤ r ∧ r ≤ 1 := by
  unfold autocorr at h
  obtain ⟨acv, h1, h⟩ := Except.bind_eq_ok h
  obtain ⟨C', h2, h⟩ := Except.bind_eq_ok h
  have : C' = C := Except.ok.inj (h2.symm.trans hC)
  subst this
  have := Except.ok.inj h
  subst this
  obtain ⟨l1, X, hX, l2⟩ := autocov_spec ly sh.perm sh.gyr sh.gyc sh.gur h1
  obtain ⟨hn, s1, s2, c1, c2, X', hX', hC'⟩ := covArr_spec ly sh.perm sh.gyr sh.gyc sh.gur hC
  have : X' = X := Except.ok.inj (hX'.symm.trans hX)
  subst this
  obtain ⟨-, -, x1, x2, hL⟩ := stateVar_spec ly sh.perm sh.gyr sh.gyc sh.gur hn hX
  obtain ⟨p1, p2, X2, hX2, p3, p4⟩ := cov_psd ly sh.perm sh.gyr sh.gyc sh.gur hst hs hpos hC
  have : X' = X2 := Except.ok.inj (hX'.symm.trans hX2)
  subst this
  rw [List.getElem?_map] at hR
  have hi : i < acv.length := by
    by_contra hc
    rw [List.getElem?_eq_none (by omega)] at hR
    cases hR
  obtain ⟨a, a1, a2, a3, a4⟩ := l2 i (by omega)
  rw [a1] at hR
  have := Option.some.inj hR
  subst this
  have hb := lag_bound (G := gM t gy) (H := hM t gu.c gu) hL p3 p4 ((symmArr_toM s1 s2).mp hs) ((posSemi_iff s1).mp hpos) i
    ⟨c, hc⟩ ⟨d, hd⟩
  dsimp only at hb
  rw [← hC', ← a4] at hb
  exact scaled_bound (hr c hc) (hr d hd) hb hrv

example : ∃ L, autocorr stLa (ratLyap [stX]) ratSqrt stT stSpace stGy stGu stSigma 2 = .ok L ∧
    ∃ R, L[1]? = some R ∧ R.e 0 0 = some (16/25) := by
  obtain ⟨L, h1, h2⟩ := ok_of_check (x := autocorr stLa (ratLyap [stX]) ratSqrt stT stSpace stGy stGu stSigma 2)
    (p := fun L => match L[1]? with | some a => decide (a.e 0 0 = some (16/25)) | none => false) (by decide +kernel)
  split at h2
  · rename_i a ha
    exact ⟨L, h1, a, ha, of_decide_eq_true h2⟩
  · cases h2

/-! ### C65: variance decompositions -/

/-- Either the variable has no variance and no shares, or its shares are between zero and one, and their sum is one. -/
def SharesOf [Field V] [LinearOrder V] (D : Arr (Option V)) (c : Nat) : Prop :=
  (∀ i < D.c, D.e c i = none) ∨
    ∃ f : Nat → V, (∀ i < D.c, D.e c i = some (f i) ∧ 0 ≤ f i ∧ f i ≤ 1) ∧ sumTo D.c f = 1

section decomp
variable [Field V] [LinearOrder V] [IsStrictOrderedRing V] {la : LinAlg V} {lyap : Lyap V} {chol : Chol V} {tol : V}
  {t : Typer} {s : Space V} {gy gu sigma : Arr V} {D : Arr (Option V)}

theorem shares_sum (n : Nat) (parts : List (Arr V)) (c : Nat) : SharesOf (shares (fun x : V => |x|) n parts) c := by
  let f : Nat → V := fun i => match parts[i]? with | some a => |a.e c c| | none => 0
  have hf : ∀ i, 0 ≤ f i := by
    intro i
    dsimp only [f]
    split
    · exact abs_nonneg _
    · exact le_refl _
  by_cases h0 : sumTo parts.length f = 0
  · exact Or.inl fun i _ => if_pos h0
  · have hp : 0 < sumTo parts.length f := by
      refine lt_of_le_of_ne ?_ (Ne.symm h0)
      rw [sumTo_eq]
      exact Finset.sum_nonneg fun i _ => hf i
    refine Or.inr ⟨fun i => f i / sumTo parts.length f, fun i hi => ⟨if_neg h0, div_nonneg (hf i) hp.le, ?_⟩, ?_⟩
    · rw [div_le_one hp, sumTo_eq]
      exact Finset.single_le_sum (fun i _ => hf i) (Finset.mem_range.mpr hi)
    · show (sumTo parts.length fun i => f i / sumTo parts.length f) = 1
      have : (sumTo parts.length fun i => f i / sumTo parts.length f) = sumTo parts.length f / sumTo parts.length f := by
        simp only [div_eq_mul_inv]
        rw [sumTo_eq, ← Finset.sum_mul, ← sumTo_eq]
      rw [this, div_self h0]

/-- **C65.**  The table has a row for every variable and a column for every shock; in each row the shares lie
between zero and one and sum to one, or the whole row is not a number. -/
theorem C65_shares {endogNames stochNames : List String}
    (h : varDecomp la lyap chol (fun x : V => |x|) tol t s gy gu sigma endogNames stochNames [] [] = .ok D) :
    D.r = endogNames.length ∧ D.c = stochNames.length ∧ ∀ c < D.r, SharesOf D c := by
  unfold varDecomp at h
  by_cases h1 : stochNames.length = 1
  · rw [if_pos h1] at h
    have := Except.ok.inj h
    subst this
    refine ⟨rfl, h1.symm, fun c _ => Or.inr ⟨fun _ => 1, fun i _ => ⟨rfl, zero_le_one, le_refl _⟩, ?_⟩⟩
    show sumTo 1 _ = 1
    simp [sumTo]
  · rw [if_neg h1] at h
    obtain ⟨d, h2, h⟩ := Except.bind_eq_ok h
    have h : Except.ok d = Except.ok D := h
    have := Except.ok.inj h
    subst this
    obtain ⟨gyd, gud, AB, P, L, sc, gc, parts, -, -, -, -, -, -, -, hp, rfl⟩ := decompShares_ok h2
    have := (shockParts_ok hp).1
    refine ⟨rfl, ?_, fun c _ => shares_sum _ _ _⟩
    show parts.length = _
    rw [this, List.length_range]

/-- **C65**, what the shares are.  There is a factor `L` of the (slightly enlarged) covariance matrix of the
shocks; the share of shock `i` in variable `c` is the long-run variance of `c` when the shocks are those of
column `i` of `L` only, over its long-run variance when all are active. -/
theorem C65_meaning (ly : LyapExact lyap) (ch : CholLower chol) (sh : SolutionShape t gy gu)
    (hst : Stable (stateRows t gy)) (hs : sigma.c = sigma.r)
    (h : decompShares la lyap chol (fun x : V => |x|) tol t s gy gu sigma t.n gu.c = .ok D) :
    ∃ L, chol (perturbed tol sigma) = .ok L ∧ ∃ v : Nat → Nat → V,
      (∀ c < t.n, ∀ i < gu.c, D.e c i = if (sumTo gu.c fun k => v c k) = 0 then none
        else some (v c i / sumTo gu.c fun k => v c k)) ∧
      ∀ {M : Type} [AddCommGroup M] [Module V M] {cov : M →ₗ[V] M →ₗ[V] V} {y u : Nat → Nat → M}, ∀ c < t.n,
        (∀ i < gu.c, LinearProcess t gu.c gy gu (outerCol L i) cov y u → LongRun cov y c c (v c i)) ∧
        (LinearProcess t gu.c gy gu (perturbed tol sigma) cov y u →
          LongRun cov y c c (sumTo gu.c fun i => v c i)) := by
  obtain ⟨gyd, gud, AB, P, L, sc, gc, parts, h1, h2, h3, h4, h5, h6, h7, h8, rfl⟩ := decompShares_ok h
  have hP : P = perturbed tol sigma := by
    obtain ⟨-, -, rfl⟩ := Arr.add_eq h4
    unfold perturbed
    congr 1
    funext i j
    simp only [Arr.eye, Arr.scale]
    by_cases hij : i = j
    · rw [if_pos hij, if_pos (by omega)]; simp
    · rw [if_neg hij, if_neg (by omega)]; simp
  subst hP
  obtain ⟨l1, l2, l3, l4, -, -⟩ := ch _ _ h5
  obtain ⟨p1, p2⟩ := shockParts_ok h8
  rw [List.length_range] at p1
  have hpart : ∀ i, ∃ d : Arr V, i < gu.c → parts[i]? = some d ∧ L.r = gu.c ∧
      ∃ X : Matrix (Fin t.nBackward) (Fin t.nBackward) V,
      X = aM t gy * X * (aM t gy)ᵀ + bM t gu.c gu * (outerCol L i).toM gu.c gu.c * (bM t gu.c gu)ᵀ ∧
      d.toM t.n t.n = gM t gy * X * (gM t gy)ᵀ + hM t gu.c gu * (outerCol L i).toM gu.c gu.c * (hM t gu.c gu)ᵀ := by
    intro i
    by_cases hi : i < gu.c
    · obtain ⟨d, d1, d2⟩ := p2 i i (by simp [hi])
      exact ⟨d, fun _ => ⟨d1, decomp_part ly sh.perm sh.gyr sh.gyc sh.gur h1 h2 h3 h6 h7 d2⟩⟩
    · exact ⟨Arr.zeros 0 0, fun h => absurd h hi⟩
  choose d hd using hpart
  have hpos : ∀ i < gu.c, ∀ c < t.n, 0 ≤ (d i).e c c := by
    intro i hi c hc
    obtain ⟨-, -, X, hX, hdX⟩ := hd i hi
    have hx := lyapunov_pos (stable_vanish hst) hX (posM_congr (outerCol_pos L i gu.c) _)
    have := posM_diag (posM_add (posM_congr hx (gM t gy)) (posM_congr (outerCol_pos L i gu.c) (hM t gu.c gu))) ⟨c, hc⟩
    rw [← hdX] at this
    exact this
  have hv : ∀ c < t.n, ∀ i < gu.c,
      (match parts[i]? with | some a => |a.e c c| | none => (0 : V)) = (d i).e c c := by
    intro c hc i hi
    rw [(hd i hi).1]
    exact abs_of_nonneg (hpos i hi c hc)
  refine ⟨L, h5, fun c i => (d i).e c c, ?_, ?_⟩
  · intro c hc i hi
    have hsum : (sumTo parts.length fun k => match parts[k]? with | some a => |a.e c c| | none => (0 : V)) =
        sumTo gu.c fun k => (d k).e c c := by
      rw [p1]; exact sumTo_congr fun k hk => hv c hc k hk
    show (if (sumTo parts.length fun k => match parts[k]? with | some a => |a.e c c| | none => (0 : V)) = 0 then none
      else some ((match parts[i]? with | some a => |a.e c c| | none => (0 : V)) /
        sumTo parts.length fun k => match parts[k]? with | some a => |a.e c c| | none => (0 : V))) = _
    rw [hsum, hv c hc i hi]
  · intro M _ _ cov y u c hc
    constructor
    · intro i hi p
      obtain ⟨-, -, X, hX, hdX⟩ := hd i hi
      have := long_run sh.perm hst hX p ⟨c, hc⟩ ⟨c, hc⟩
      rw [← hdX] at this
      exact this
    · intro p
      have hall : ∀ i : Fin gu.c, ∃ X : Matrix (Fin t.nBackward) (Fin t.nBackward) V,
          X = aM t gy * X * (aM t gy)ᵀ + bM t gu.c gu * (outerCol L i).toM gu.c gu.c * (bM t gu.c gu)ᵀ ∧
          (d i).toM t.n t.n = gM t gy * X * (gM t gy)ᵀ +
            hM t gu.c gu * (outerCol L i).toM gu.c gu.c * (hM t gu.c gu)ᵀ := fun i => (hd i i.2).2.2
      choose X hX hdX using hall
      by_cases h0 : gu.c = 0
      · have hz : (perturbed tol sigma).toM gu.c gu.c = 0 := by
          ext a b; exact absurd a.2 (by omega)
        have := long_run (X := 0) sh.perm hst (by rw [hz]; simp) p ⟨c, hc⟩ ⟨c, hc⟩
        rw [hz] at this
        simpa [h0, sumTo] using this
      · have hr : (perturbed tol sigma).r = gu.c := by
          rw [← l1]; exact (hd 0 (by omega)).2.1
        have hsum := outerCol_sum (m := gu.c) (L := L) (P := perturbed tol sigma) (by rw [← hr]; exact l4)
        have hXs : (∑ i, X i) = aM t gy * (∑ i, X i) * (aM t gy)ᵀ +
            bM t gu.c gu * (perturbed tol sigma).toM gu.c gu.c * (bM t gu.c gu)ᵀ := by
          rw [← hsum, Matrix.mul_sum, Matrix.sum_mul, Matrix.mul_sum, Matrix.sum_mul, ← Finset.sum_add_distrib]
          exact Finset.sum_congr rfl fun i _ => hX i
        have := long_run sh.perm hst hXs p ⟨c, hc⟩ ⟨c, hc⟩
        have hE : gM t gy * (∑ i, X i) * (gM t gy)ᵀ +
            hM t gu.c gu * (perturbed tol sigma).toM gu.c gu.c * (hM t gu.c gu)ᵀ = ∑ i : Fin gu.c, (d i).toM t.n t.n := by
          rw [← hsum, Matrix.mul_sum, Matrix.sum_mul, Matrix.mul_sum, Matrix.sum_mul, ← Finset.sum_add_distrib]
          exact Finset.sum_congr rfl fun i _ => (hdX i).symm
        rw [hE, Matrix.sum_apply] at this
        rw [toM_sum]
        exact this

/-- **C65** for shocks that are not correlated: the share of shock `i` is the long-run variance when only shock `i`
is active, over the long-run variance when all are. -/
theorem C65_uncorrelated (ly : LyapExact lyap) (ch : CholLower chol) (sh : SolutionShape t gy gu)
    (hst : Stable (stateRows t gy)) (hs : sigma.c = sigma.r) (hd : ∀ i < sigma.r, ∀ j < sigma.r, i ≠ j → sigma.e i j = 0)
    (h : decompShares la lyap chol (fun x : V => |x|) tol t s gy gu sigma t.n gu.c = .ok D) :
    ∃ v : Nat → Nat → V,
      (∀ c < t.n, ∀ i < gu.c, D.e c i = if (sumTo gu.c fun k => v c k) = 0 then none
        else some (v c i / sumTo gu.c fun k => v c k)) ∧
      ∀ {M : Type} [AddCommGroup M] [Module V M] {cov : M →ₗ[V] M →ₗ[V] V} {y u : Nat → Nat → M}, ∀ c < t.n,
        (∀ i < gu.c, LinearProcess t gu.c gy gu (onlyShock (perturbed tol sigma) i) cov y u →
          LongRun cov y c c (v c i)) ∧
        (LinearProcess t gu.c gy gu (perturbed tol sigma) cov y u →
          LongRun cov y c c (sumTo gu.c fun i => v c i)) := by
  obtain ⟨L, hL, v, h1, h2⟩ := C65_meaning ly ch sh hst hs h
  refine ⟨v, h1, ?_⟩
  intro M _ _ cov y u c hc
  refine ⟨fun i hi p => (h2 (u := u) c hc).1 i hi ?_, (h2 c hc).2⟩
  have hr : (perturbed tol sigma).r = gu.c := by
    obtain ⟨gyd, gud, AB, P, L', sc, gc, parts, g1, g2, g3, g4, g5, g6, g7, g8, -⟩ := decompShares_ok h
    obtain ⟨p1, p2⟩ := shockParts_ok g8
    obtain ⟨d, -, d2⟩ := p2 i i (by simp [hi])
    have := (decomp_part ly sh.perm sh.gyr sh.gyc sh.gur g1 g2 g3 g6 g7 d2).1
    obtain ⟨q1, q2, rfl⟩ := Arr.add_eq g4
    have := (ch _ _ g5).1
    have e : sigma.r = gu.c := by rw [← ‹L'.r = gu.c›, this]
    exact e
  obtain ⟨-, -, -, l4, -, -⟩ := ch _ _ hL
  have hdiag := factor_diag ch hL (by
    intro a ha b hb hab
    show sigma.e a b + _ = 0
    rw [hd a ha b hb hab, if_neg hab, add_zero])
  rw [hr] at l4 hdiag
  refine ⟨p.policy, p.symm, ?_, p.across, p.start⟩
  intro k l hl l' hl'
  rw [p.within k l hl l' hl']
  show (if l = i ∧ l' = i then (perturbed tol sigma).e i i else 0) = L.e l i * L.e l' i
  by_cases e1 : l = i
  · by_cases e2 : l' = i
    · subst e1; subst e2
      rw [if_pos ⟨rfl, rfl⟩, ← l4 l' hl' l' hl', sumTo_eq]
      refine Finset.sum_eq_single l' ?_ ?_
      · intro b hb hbl
        rw [hdiag l' hl' b (Finset.mem_range.mp hb) (Ne.symm hbl), zero_mul]
      · intro hb; exact absurd (Finset.mem_range.mpr hl) hb
    · rw [if_neg (by tauto), hdiag l' hl' i hi e2, mul_zero]
  · rw [if_neg (by tauto), hdiag l hl i hi e1, zero_mul]

end decomp

/-! ### C66: labels of data -/

/-- the lookup of names -/
theorem nameIdx_ok {names : List String} : ∀ {qs : List String} {is : List Nat}, nameIdx names qs = .ok is →
    is.length = qs.length ∧ ∀ k : Nat, ∀ q, qs[k]? = some q → ∃ i, is[k]? = some i ∧ names.idxOf? q = some i := by
  intro qs
  induction qs with
  | nil =>
    intro is h
    have := Except.ok.inj h
    subst this
    exact ⟨rfl, fun k q hk => by simp at hk⟩
  | cons q qs ih =>
    intro is h
    rw [nameIdx] at h
    split at h
    · cases h
    · rename_i i hi
      obtain ⟨rest, h1, h⟩ := Except.bind_eq_ok h
      have := Except.ok.inj h
      subst this
      obtain ⟨l1, l2⟩ := ih h1
      refine ⟨by simp [l1], fun k q' hk => ?_⟩
      cases k with
      | zero =>
        have : q = q' := by simpa using hk
        subst this
        exact ⟨i, rfl, hi⟩
      | succ k => exact l2 k q' (by simpa using hk)

theorem nameIdx_known {names : List String} : ∀ {qs : List String}, (∀ q ∈ qs, q ∈ names) →
    ∃ is, nameIdx names qs = .ok is := by
  intro qs
  induction qs with
  | nil => exact fun _ => ⟨[], rfl⟩
  | cons q qs ih =>
    intro h
    obtain ⟨is, his⟩ := ih fun q' hq' => h q' (List.mem_cons_of_mem _ hq')
    have hq := h q (List.mem_cons_self ..)
    rw [nameIdx]
    cases hi : names.idxOf? q with
    | none => exact absurd hq (List.idxOf?_eq_none_iff.mp hi)
    | some i => exact ⟨i :: is, by simp only; rw [his]; rfl⟩

theorem nameIdx_unknown {names : List String} : ∀ {qs : List String} {q : String}, q ∈ qs → q ∉ names →
    nameIdx names qs = .error .valueError := by
  intro qs
  induction qs with
  | nil => intro q h; cases h
  | cons p qs ih =>
    intro q h hn
    rw [nameIdx]
    cases hi : names.idxOf? p with
    | none => rfl
    | some i =>
      rcases List.mem_cons.mp h with h | h
      · subst h
        exact absurd (List.idxOf?_eq_none_iff.mpr hn) (by rw [hi]; simp)
      · simp only
        rw [ih h hn]
        rfl

theorem nodup_pos {l : List String} (h : l.Nodup) {i j : Nat} {x : String} (hi : l[i]? = some x) (hj : l[j]? = some x) :
    i = j := by
  obtain ⟨a, ha⟩ := List.getElem?_eq_some_iff.mp hi
  obtain ⟨b, hb⟩ := List.getElem?_eq_some_iff.mp hj
  exact (List.Nodup.getElem_inj_iff h).mp (ha.trans hb.symm)

theorem idxOf?_pos {l : List String} {i : Nat} {x : String} (h : l.idxOf? x = some i) : l[i]? = some x := by
  have := List.of_findIdx?_eq_some h
  split at this
  · rename_i a ha
    rw [ha]
    simpa using this
  · cases this

/-- what the constructor does with labelled data -/
theorem filterData_labelled {obs labels : List String} {data : Arr V} (hl : labels ≠ []) (hlen : labels.length = obs.length)
    (hmem : ∀ l ∈ labels, l ∈ obs) (hd : data.c = labels.length) :
    ∃ out, filterData obs labels data = .ok out ∧ out.r = data.r ∧ out.c = obs.length ∧
      ∀ (j : Nat) (l : String), labels[j]? = some l → ∃ i : Nat, obs[i]? = some l ∧ ∀ k, out.e k j = data.e k i := by
  obtain ⟨is, his⟩ := nameIdx_known hmem
  obtain ⟨l1, l2⟩ := nameIdx_ok his
  unfold filterData
  rw [if_neg hl, if_neg (by omega), if_neg (by simpa using hmem), his]
  show ∃ out, data.cols is = .ok out ∧ _
  unfold Arr.cols
  rw [if_pos ?_]
  · refine ⟨_, rfl, rfl, by simp only; omega, fun j l hj => ?_⟩
    obtain ⟨i, h1, h2⟩ := l2 j l hj
    exact ⟨i, idxOf?_pos h2, fun k => by simp [h1]⟩
  · rw [List.all_eq_true]
    intro i hi
    obtain ⟨k, hk⟩ := List.mem_iff_getElem?.mp hi
    have hk' : k < labels.length := by
      rw [← l1]; exact (List.getElem?_eq_some_iff.mp hk).1
    obtain ⟨i', h1, h2⟩ := l2 k labels[k] (List.getElem?_eq_getElem hk')
    have : i' = i := Option.some.inj (h1.symm.trans hk)
    subst this
    have := (List.getElem?_eq_some_iff.mp (idxOf?_pos h2)).1
    simp only [decide_eq_true_eq]
    omega

/-- **C66**, exactly when it holds: the columns follow their labels, whatever the data, if and only if the
arrangement of the labels is its own inverse. -/
theorem C66_iff_partial {obs labels : List String} (ho : obs.Nodup) (hp : labels.Perm obs) (hl : labels ≠ []) :
    (∀ data : Arr Nat, data.c = labels.length → ∃ out, filterData obs labels data = .ok out ∧
      Labelled obs labels data out) ↔
    ∀ (i j : Nat) (o : String), labels[i]? = some o → obs[j]? = some o → labels[j]? = obs[i]? := by
  have hlen := hp.length_eq
  have hln : labels.Nodup := hp.nodup_iff.mpr ho
  have hmem : ∀ l ∈ labels, l ∈ obs := fun l h => hp.mem_iff.mp h
  constructor
  · intro h i j o hi hj
    obtain ⟨out, h1, h2⟩ := h ⟨1, labels.length, fun _ c => c⟩ rfl
    obtain ⟨out', g1, g2, g3, g4⟩ := filterData_labelled (data := ⟨1, labels.length, fun _ c => c⟩) hl hlen hmem rfl
    have : out' = out := Except.ok.inj (g1.symm.trans h1)
    subst this
    have hj' : j < labels.length := by
      rw [hlen]; exact (List.getElem?_eq_some_iff.mp hj).1
    obtain ⟨i', f1, f2⟩ := g4 j labels[j] (List.getElem?_eq_getElem hj')
    have e1 := h2.2.2 i j o hj hi 0 (by show 0 < 1; omega)
    have e2 := f2 0
    have : i = i' := e1.symm.trans e2
    subst this
    rw [f1, List.getElem?_eq_getElem hj']
  · intro h data hd
    obtain ⟨out, g1, g2, g3, g4⟩ := filterData_labelled hl hlen hmem hd
    refine ⟨out, g1, g2, g3, ?_⟩
    intro i j o hj hi k _
    have hj' : j < labels.length := by
      rw [hlen]; exact (List.getElem?_eq_some_iff.mp hj).1
    obtain ⟨i', f1, f2⟩ := g4 j labels[j] (List.getElem?_eq_getElem hj')
    have := h i j o hi hj
    rw [List.getElem?_eq_getElem hj'] at this
    rw [nodup_pos ho this.symm f1]
    exact f2 k

/-- **C66**: data in the order of the observed variables, or with two columns exchanged, is treated correctly. -/
theorem C66_same_order_partial {obs : List String} (ho : obs.Nodup) (hl : obs ≠ []) (data : Arr V) (hd : data.c = obs.length) :
    ∃ out, filterData obs obs data = .ok out ∧ Labelled obs obs data out := by
  obtain ⟨out, g1, g2, g3, g4⟩ := filterData_labelled (labels := obs) hl rfl (fun _ h => h) hd
  refine ⟨out, g1, g2, g3, ?_⟩
  intro i j o hj hi k _
  obtain ⟨i', f1, f2⟩ := g4 j o hj
  rw [nodup_pos ho hi f1]
  exact f2 k

/-- **C66** does not hold: three columns that come in rotated order are given to the wrong variables. -/
theorem C66_false : ∃ (obs labels : List String) (data out : Arr Nat), labels.Perm obs ∧ obs.Nodup ∧
    data.c = labels.length ∧ filterData obs labels data = .ok out ∧ ¬ Labelled obs labels data out := by
  obtain ⟨out, h1, h2⟩ := ok_of_check
    (x := filterData ["y", "c", "k"] ["c", "k", "y"] (⟨1, 3, fun _ c => c⟩ : Arr Nat))
    (p := fun o => o.e 0 0 == 1) (by decide +kernel)
  refine ⟨["y", "c", "k"], ["c", "k", "y"], ⟨1, 3, fun _ c => c⟩, out, by decide +kernel, by decide +kernel, rfl, h1, ?_⟩
  intro h
  have := h.2.2 2 0 "y" rfl rfl 0 (by show 0 < 1; omega)
  have h2 : out.e 0 0 = 1 := by simpa using h2
  rw [h2] at this
  cases this

/-- two columns exchanged -/
example : ∀ (i j : Nat) (o : String), ["c", "y"][i]? = some o → ["y", "c"][j]? = some o →
    ["c", "y"][j]? = ["y", "c"][i]? := by
  intro i j o hi hj
  have h1 := (List.getElem?_eq_some_iff.mp hi).1
  have h2 := (List.getElem?_eq_some_iff.mp hj).1
  have h1 : i < 2 := h1
  have h2 : j < 2 := h2
  interval_cases i <;> interval_cases j <;> simp_all

/-! ### C81: which models have moments -/

/-- **C81** does not hold: a model with one variable has no moments, whatever its solution. -/
theorem C81_one_variable [CommRing V] {la : LinAlg V} {lyap : Lyap V} {t : Typer} {s : Space V} {gy gu sigma : Arr V}
    (sh : SolutionShape t gy gu) (h1 : t.n = 1) : covArr la lyap t s gy gu sigma = .error .indexError := by
  have hdc : ∀ {x}, gy.storedRows t.dcOrder ≠ .ok x := fun h => n_ne_one sh.perm sh.gyr sh.gyc h h1
  have : gy.storedRows t.dcOrder = .error .indexError := by
    unfold Arr.storedRows at hdc ⊢
    split
    · rfl
    · rename_i h
      rw [if_neg h] at hdc
      rw [if_pos (by rw [sh.gyr, h1])] at hdc ⊢
      unfold Arr.rows at hdc ⊢
      split
      · rename_i h'
        rw [if_pos h'] at hdc
        exact absurd rfl hdc
      · rfl
  unfold covArr
  rw [this]
  rfl

/-- `y = y(-1)/2 + e`, solved. -/
def arT : Typer := match buildLlx [[-1, 0]] with
  | .ok t => t.toTyper
  | .error _ => ⟨0, fun _ _ => none⟩

theorem C81_false (lyap : Lyap ℚ) : SolutionShape arT (listArr [[1/2]] 1) (listArr [[(1 : ℚ)]] 1) ∧
    Stable (stateRows arT (listArr [[(1/2 : ℚ)]] 1)) ∧
    covArr stLa lyap arT stSpace (listArr [[1/2]] 1) (listArr [[1]] 1) (listArr [[1]] 1) = .error .indexError := by
  have sh : SolutionShape arT (listArr [[1/2]] 1) (listArr [[(1 : ℚ)]] 1) :=
    ⟨by decide +kernel, by decide +kernel, by decide +kernel, by decide +kernel⟩
  refine ⟨sh, ?_, C81_one_variable sh (by decide +kernel)⟩
  refine stable_of_weights (fun _ => 1) (ρ := 1/2) (fun _ _ => by norm_num) (by norm_num) (by norm_num) ?_
  intro i hi
  have hi : i < 1 := hi
  interval_cases i
  decide +kernel

/-- **C81** for the others: moments exist if the model is determinate and the Lyapunov equation of its states
can be solved. -/
theorem C81_partial [CommRing V] {la : LinAlg V} {lyap : Lyap V} {t : Typer} {s : Space V} {gy gu sigma : Arr V}
    (ly : LyapExact lyap) (sh : SolutionShape t gy gu) (hn : 2 ≤ t.n) (hv : s.verify la t = .ok ())
    (hs : sigma.r = gu.c ∧ sigma.c = gu.c)
    (hl : ∀ Q : Arr V, Q.r = t.nBackward → Q.c = t.nBackward → ∃ X, lyap (stateRows t gy) Q = .ok X) :
    ∃ C, covArr la lyap t s gy gu sigma = .ok C := by
  have hrows : ∀ (a : Arr V) (rs : List Nat), a.r = t.n → (∀ i ∈ rs, i < t.n) →
      a.storedRows rs = .ok ⟨rs.length, a.c, fun i j => a.e (rs[i]?.getD 0) j⟩ := by
    intro a rs ha hr
    unfold Arr.storedRows
    rw [if_neg (by omega), if_neg (by omega)]
    unfold Arr.rows
    rw [if_pos]
    rw [List.all_eq_true]
    intro i hi
    simpa [ha] using hr i hi
  obtain ⟨hdl, hdc, -⟩ := C30_inverse t sh.perm
  have hdc' : ∀ i ∈ t.dcOrder, i < t.n := by
    intro i hi
    obtain ⟨k, hk⟩ := List.mem_iff_getElem?.mp hi
    have hkl := (List.getElem?_eq_some_iff.mp hk).1
    obtain ⟨i', h1, h2⟩ := hdc k (by omega)
    have : i' = i := Option.some.inj (h1.symm.trans hk)
    subst this
    have h3 := (List.getElem?_eq_some_iff.mp h2).1
    have := sh.perm.length_eq
    rw [List.length_range] at this
    omega
  have hst : ∀ i ∈ (t.permute t.drOrder).state, i < t.n := by
    intro i hi
    unfold Typer.state at hi
    have := List.mem_of_mem_filter hi
    rw [List.mem_range] at this
    have h2 := sh.perm.length_eq
    rw [List.length_range] at h2
    have this : i < t.drOrder.length := this
    omega
  have hlen := state_length sh.perm
  have hdot : ∀ a b : Arr V, a.c = b.r → ∃ c, a.dot b = .ok c ∧ c.r = a.r ∧ c.c = b.c := by
    intro a b h
    unfold Arr.dot
    rw [if_pos h]
    exact ⟨_, rfl, rfl, rfl⟩
  have hsand : ∀ a x : Arr V, x.r = a.c → x.c = a.c → ∃ c, sandwich a x = .ok c ∧ c.r = a.r ∧ c.c = a.r := by
    intro a x h1 h2
    obtain ⟨y, y1, y2, y3⟩ := hdot x a.tr h2
    obtain ⟨c, c1, c2, c3⟩ := hdot a y (by omega)
    refine ⟨c, ?_, c2, by rw [c3, y3]; rfl⟩
    unfold sandwich
    rw [y1]
    exact c1
  have hA : gy.storedRows (t.permute t.drOrder).state = .ok (stateRows t gy) := by
    rw [hrows gy _ sh.gyr hst]
    unfold stateRows
    rw [hlen, sh.gyc]
  obtain ⟨B, hB, b1, b2⟩ : ∃ B, gu.storedRows (t.permute t.drOrder).state = .ok B ∧ B.r = t.nBackward ∧ B.c = gu.c :=
    ⟨_, hrows gu _ sh.gur hst, hlen, rfl⟩
  obtain ⟨Q, q1, q2, q3⟩ := hsand B sigma (by omega) (by omega)
  obtain ⟨X, hX⟩ := hl Q (by omega) (by omega)
  obtain ⟨x1, x2, -⟩ := ly _ _ _ rfl (q2.trans b1) (q3.trans b1) hX
  have x1 : X.r = t.nBackward := x1
  have x2 : X.c = t.nBackward := x2
  have hK : kalmanTransition la t s gy gu = .ok (stateRows t gy, B) := by
    unfold kalmanTransition
    rw [hv]
    show (do let A ← gy.storedRows _; _) = _
    rw [hA]
    show (if t.nBackward ≠ t.nBackward then _ else _) = _
    rw [if_neg (by simp), hB]
    rfl
  have hS : stateVar la lyap t s gy gu sigma = .ok X := by
    unfold stateVar
    rw [hK]
    show (do let Q ← sandwich _ sigma; _) = _
    rw [q1]
    exact hX
  obtain ⟨x, s1, s2, s3⟩ := hsand ⟨t.dcOrder.length, gy.c, fun i j => gy.e (t.dcOrder[i]?.getD 0) j⟩ X
    (by rw [x1]; exact sh.gyc.symm) (by rw [x2]; exact sh.gyc.symm)
  obtain ⟨u, u1, u2, u3⟩ := hsand ⟨t.dcOrder.length, gu.c, fun i j => gu.e (t.dcOrder[i]?.getD 0) j⟩ sigma hs.1 hs.2
  unfold covArr
  rw [hrows gy _ sh.gyr hdc', hrows gu _ sh.gur hdc', hS]
  simp only [bind, Except.bind]
  rw [s1, u1]
  dsimp only
  unfold Arr.add
  rw [if_pos ⟨by rw [s2, u2], by rw [s3, u3]⟩]
  exact ⟨_, rfl⟩

/-- a solver for the example that works for every covariance of the innovations -/
def stLyap : Lyap ℚ := fun A Q => if sameArr A (listArr [[3/5, 0], [0, 4/5]] 2) then
  .ok ⟨2, 2, fun i j => Q.e i j / (1 - A.e i i * A.e j j)⟩ else .error .valueError

theorem stLyap_exact : LyapExact stLyap := by
  intro A Q X _ _ _ h
  unfold stLyap at h
  by_cases hs : sameArr A (listArr [[3/5, 0], [0, 4/5]] 2) = true
  · rw [if_pos hs] at h
    have := Except.ok.inj h
    subst this
    obtain ⟨h1, h2, h3⟩ := sameArr_spec hs
    have h1 : A.r = 2 := h1
    have h2 : A.c = 2 := h2
    have e00 : A.e 0 0 = 3/5 := by rw [h3 0 (by omega) 0 (by omega)]; decide +kernel
    have e01 : A.e 0 1 = 0 := by rw [h3 0 (by omega) 1 (by omega)]; decide +kernel
    have e10 : A.e 1 0 = 0 := by rw [h3 1 (by omega) 0 (by omega)]; decide +kernel
    have e11 : A.e 1 1 = 4/5 := by rw [h3 1 (by omega) 1 (by omega)]; decide +kernel
    refine ⟨h1.symm, h1.symm, ?_⟩
    intro i hi j hj
    rw [h1] at hi hj ⊢
    interval_cases i <;> interval_cases j <;> simp only [sumTo, e00, e01, e10, e11] <;> ring
  · rw [if_neg hs] at h; cases h

example : ∃ C, covArr stLa stLyap stT stSpace stGy stGu stSigma = .ok C := by
  refine C81_partial stLyap_exact stShape (by decide +kernel) ?_ ⟨by decide +kernel, by decide +kernel⟩ ?_
  · obtain ⟨_, h, -⟩ := ok_of_check (x := stSpace.verify stLa stT) (p := fun _ => true) (by decide +kernel)
    exact h
  · intro Q _ _
    have : sameArr (stateRows stT stGy) (listArr [[3/5, 0], [0, 4/5]] 2) = true := by decide +kernel
    unfold stLyap
    rw [if_pos this]
    exact ⟨_, rfl⟩

/-! ### C82: selection by name -/

section select
variable [Field V] [LinearOrder V] {la : LinAlg V} {lyap : Lyap V} {chol : Chol V} {mag : V → V} {tol : V} {t : Typer}
  {s : Space V} {gy gu sigma : Arr V} {endogNames stochNames endog stoch : List String} {D out : Arr (Option V)}

/-- the position of a name in the table; without names all are shown in order -/
def At (names queried : List String) (k i : Nat) : Prop :=
  if queried = [] then k = i else ∃ q, queried[k]? = some q ∧ names.idxOf? q = some i

/-- **C82**: the table for some variables and some shocks consists of the entries of the whole table in the rows
and columns of these names. -/
theorem C82_select (hD : varDecomp la lyap chol mag tol t s gy gu sigma endogNames stochNames [] [] = .ok D)
    (h : varDecomp la lyap chol mag tol t s gy gu sigma endogNames stochNames endog stoch = .ok out)
    (h1 : stochNames.length ≠ 1) :
    out.r = (if endog = [] then D.r else endog.length) ∧ out.c = (if stoch = [] then D.c else stoch.length) ∧
    ∀ a < out.r, ∀ b < out.c, ∃ i j, At endogNames endog a i ∧ At stochNames stoch b j ∧ out.e a b = D.e i j := by
  unfold varDecomp at hD h
  rw [if_neg h1] at hD h
  obtain ⟨d, h2, hD⟩ := Except.bind_eq_ok hD
  have hD : Except.ok d = Except.ok D := hD
  have := Except.ok.inj hD
  subst this
  obtain ⟨d', h2', h⟩ := Except.bind_eq_ok h
  have : d' = d := Except.ok.inj (h2'.symm.trans h2)
  subst this
  unfold selectShares at h
  obtain ⟨ei, h3, h⟩ := Except.bind_eq_ok h
  obtain ⟨si, h4, h⟩ := Except.bind_eq_ok h
  obtain ⟨e1, e2⟩ := nameIdx_ok h3
  obtain ⟨s1, s2⟩ := nameIdx_ok h4
  have he : ei = [] ↔ endog = [] := by rw [← List.length_eq_zero_iff, ← List.length_eq_zero_iff, e1]
  have hs : si = [] ↔ stoch = [] := by rw [← List.length_eq_zero_iff, ← List.length_eq_zero_iff, s1]
  have hrow : ∀ a < endog.length, endog ≠ [] → At endogNames endog a (ei[a]?.getD 0) := by
    intro a ha hne
    unfold At
    rw [if_neg hne]
    obtain ⟨i, i1, i2⟩ := e2 a endog[a] (List.getElem?_eq_getElem ha)
    exact ⟨endog[a], List.getElem?_eq_getElem ha, by rw [i1]; exact i2⟩
  have hcol : ∀ a < stoch.length, stoch ≠ [] → At stochNames stoch a (si[a]?.getD 0) := by
    intro a ha hne
    unfold At
    rw [if_neg hne]
    obtain ⟨i, i1, i2⟩ := s2 a stoch[a] (List.getElem?_eq_getElem ha)
    exact ⟨stoch[a], List.getElem?_eq_getElem ha, by rw [i1]; exact i2⟩
  have cols_get : ∀ {W : Type} {a x : Arr W} {cs : List Nat}, a.cols cs = .ok x →
      x.r = a.r ∧ x.c = cs.length ∧ ∀ i j, x.e i j = a.e i (cs[j]?.getD 0) := by
    intro W a x cs h
    unfold Arr.cols at h
    split at h
    · have := Except.ok.inj h
      subst this
      exact ⟨rfl, rfl, fun _ _ => rfl⟩
    · cases h
  by_cases c1 : endog = [] <;> by_cases c2 : stoch = []
  · rw [he.mpr c1, hs.mpr c2] at h
    have h : Except.ok _ = Except.ok out := h
    have := Except.ok.inj h
    subst this
    rw [if_pos c1, if_pos c2]
    exact ⟨rfl, rfl, fun a _ b _ => ⟨a, b, by simp [At, c1], by simp [At, c2], rfl⟩⟩
  · rw [if_neg (fun hh => hh.1 (he.mpr c1)), if_neg (fun hh => hh (he.mpr c1)), if_pos (fun hh => c2 (hs.mp hh))] at h
    obtain ⟨r1, r2, r3⟩ := cols_get h
    rw [if_pos c1, if_neg c2]
    exact ⟨r1, by omega, fun a _ b hb => ⟨a, _, by simp [At, c1], hcol b (by omega) c2, r3 a b⟩⟩
  · rw [if_neg (fun hh => hh.2 (hs.mpr c2)), if_pos (fun hh => c1 (he.mp hh))] at h
    obtain ⟨r1, r2, r3, -⟩ := Arr.rows_ok h
    rw [if_neg c1, if_pos c2]
    exact ⟨by omega, r2, fun a ha b _ => ⟨_, b, hrow a (by omega) c1, by simp [At, c2], r3 a b⟩⟩
  · rw [if_pos ⟨fun hh => c1 (he.mp hh), fun hh => c2 (hs.mp hh)⟩] at h
    obtain ⟨r, g1, g2⟩ := Except.bind_eq_ok h
    obtain ⟨r1, r2, r3, -⟩ := Arr.rows_ok g1
    obtain ⟨q1, q2, q3⟩ := cols_get g2
    rw [if_neg c1, if_neg c2]
    exact ⟨by omega, by omega, fun a ha b hb => ⟨_, _, hrow a (by omega) c1, hcol b (by omega) c2, by rw [q3, r3]⟩⟩

/-- **C82**, what holds of unknown names: with several shocks they are refused, and so are unknown variables with
one shock. -/
theorem C82_unknown_partial {q : String}
    (hq : (q ∈ endog ∧ q ∉ endogNames) ∨ (q ∈ stoch ∧ q ∉ stochNames ∧ stochNames.length ≠ 1))
    (hD : varDecomp la lyap chol mag tol t s gy gu sigma endogNames stochNames [] [] = .ok D) :
    varDecomp la lyap chol mag tol t s gy gu sigma endogNames stochNames endog stoch = .error .valueError := by
  unfold varDecomp at hD ⊢
  by_cases h1 : stochNames.length = 1
  · rw [if_pos h1]
    rcases hq with ⟨hq, hn⟩ | ⟨-, -, hn⟩
    · have hne : endog ≠ [] := List.ne_nil_of_mem hq
      show (if endog = [] then _ else _) = _
      rw [if_neg hne, nameIdx_unknown hq hn]
      rfl
    · exact absurd h1 hn
  · rw [if_neg h1] at hD ⊢
    obtain ⟨d, h2, hD⟩ := Except.bind_eq_ok hD
    rw [h2]
    show selectShares d _ _ _ _ = _
    unfold selectShares
    by_cases he : ∀ q ∈ endog, q ∈ endogNames
    · obtain ⟨ei, hei⟩ := nameIdx_known he
      rw [hei]
      rcases hq with ⟨hq, hn⟩ | ⟨hq, hn, -⟩
      · exact absurd (he q hq) hn
      · show (do let si ← nameIdx _ _; _) = _
        rw [nameIdx_unknown hq hn]
        rfl
    · obtain ⟨q', h3, h4⟩ : ∃ q', q' ∈ endog ∧ q' ∉ endogNames := by
        by_contra hc
        refine he fun q hq => ?_
        by_contra hn
        exact hc ⟨q, hq, hn⟩
      rw [nameIdx_unknown h3 h4]
      rfl

omit [LinearOrder V] in
/-- **C82** does not hold: in a model with one shock the names of shocks are not looked at. -/
theorem C82_false [DecidableEq V] (endogNames : List String) (e : String) (stoch : List String) :
    ∃ out, varDecomp la lyap chol mag tol t s gy gu sigma endogNames [e] [] stoch = .ok out ∧ out.c = 1 :=
  ⟨_, rfl, rfl⟩

end select

/-- the decomposition of the example -/
theorem stDecomp : ∃ D, varDecomp stLa stLyap stChol (fun x : ℚ => |x|) 1 stT stSpace stGy stGu stSigma' ["c", "k", "z"]
    ["e", "u"] [] [] = .ok D ∧ D.e 0 0 = some (1/10) ∧ D.e 2 0 = some 1 := by
  obtain ⟨D, h, h'⟩ := ok_of_check
    (x := varDecomp stLa stLyap stChol (fun x : ℚ => |x|) 1 stT stSpace stGy stGu stSigma' ["c", "k", "z"] ["e", "u"] [] [])
    (p := fun D => decide (D.e 0 0 = some (1/10)) && decide (D.e 2 0 = some 1)) (by decide +kernel)
  simp only [Bool.and_eq_true, decide_eq_true_eq] at h'
  exact ⟨D, h, h'.1, h'.2⟩

example : ∃ D, decompShares stLa stLyap stChol (fun x : ℚ => |x|) 1 stT stSpace stGy stGu stSigma' stT.n stGu.c = .ok D ∧
    D.e 1 1 = some (9/10) := by
  obtain ⟨D, h, h'⟩ := ok_of_check
    (x := decompShares stLa stLyap stChol (fun x : ℚ => |x|) 1 stT stSpace stGy stGu stSigma' stT.n stGu.c)
    (p := fun D => decide (D.e 1 1 = some (9/10))) (by decide +kernel)
  exact ⟨D, h, of_decide_eq_true h'⟩

/-- shocks that are not correlated, and their factor -/
def stDiag : Arr ℚ := listArr [[15, 0], [0, 8]] 2
/-- the factorisation of this matrix -/
def stChol2 : Chol ℚ := fun s => if sameArr s (perturbed 1 stDiag) then .ok (listArr [[4, 0], [0, 3]] 2) else .error .valueError

theorem stChol2_exact : CholLower stChol2 := by
  intro s L h
  unfold stChol2 at h
  by_cases hs : sameArr s (perturbed 1 stDiag) = true
  · rw [if_pos hs] at h
    have := Except.ok.inj h
    subst this
    obtain ⟨h1, h2, h3⟩ := sameArr_spec hs
    have h1 : s.r = 2 := h1
    have h2 : s.c = 2 := h2
    refine ⟨h1.symm, h1.symm, by omega, ?_, ?_, ?_⟩
    · intro i hi j hj
      rw [h1] at hi hj ⊢
      rw [h3 i (by omega) j (by omega)]
      interval_cases i <;> interval_cases j <;> decide +kernel
    · intro i hi j hj hij
      rw [h1] at hi hj
      interval_cases i <;> interval_cases j <;> first | omega | decide +kernel
    · intro i hi
      rw [h1] at hi
      interval_cases i <;> decide +kernel
  · rw [if_neg hs] at h; cases h

/-- responses of one variable to both shocks -/
def stGu' : Arr ℚ := listArr [[1, 1], [1, 0], [0, 1]] 2

example : (∀ i < stDiag.r, ∀ j < stDiag.r, i ≠ j → stDiag.e i j = 0) ∧ SolutionShape stT stGy stGu' ∧
    ∃ D, decompShares stLa stLyap stChol2 (fun x : ℚ => |x|) 1 stT stSpace stGy stGu' stDiag stT.n stGu'.c = .ok D ∧
      D.e 0 0 = some 0 ∧ D.e 0 1 = some 1 ∧ D.e 1 0 = some (8/25) := by
  refine ⟨?_, ⟨stPerm, by decide +kernel, by decide +kernel, by decide +kernel⟩, ?_⟩
  · intro i hi j hj hij
    have hi : i < 2 := hi
    have hj : j < 2 := hj
    interval_cases i <;> interval_cases j <;> first | omega | decide +kernel
  · obtain ⟨D, h, h'⟩ := ok_of_check
      (x := decompShares stLa stLyap stChol2 (fun x : ℚ => |x|) 1 stT stSpace stGy stGu' stDiag stT.n stGu'.c)
      (p := fun D => decide (D.e 0 0 = some 0) && decide (D.e 0 1 = some 1) && decide (D.e 1 0 = some (8/25)))
      (by decide +kernel)
    simp only [Bool.and_eq_true, decide_eq_true_eq] at h'
    exact ⟨D, h, h'.1.1, h'.1.2, h'.2⟩

example : ∃ D, varDecomp stLa stLyap stChol (fun x : ℚ => |x|) 1 stT stSpace stGy stGu stSigma' ["c", "k", "z"]
    ["e", "u"] ["k", "c"] ["u"] = .ok D ∧ D.e 0 0 = some (9/10) := by
  obtain ⟨D, h, h'⟩ := ok_of_check
    (x := varDecomp stLa stLyap stChol (fun x : ℚ => |x|) 1 stT stSpace stGy stGu stSigma' ["c", "k", "z"] ["e", "u"]
      ["k", "c"] ["u"])
    (p := fun D => decide (D.e 0 0 = some (9/10))) (by decide +kernel)
  exact ⟨D, h, of_decide_eq_true h'⟩

#print axioms C62_stationary
#print axioms C62_exists
#print axioms C62_limit
#print axioms C62_only
#print axioms C62_psd
#print axioms C62_states_psd
#print axioms C62_variances
#print axioms C63_unit
#print axioms C63_defined
#print axioms C63_bounded
#print axioms C63_symm
#print axioms C63_value
#print axioms C64_lag_partial
#print axioms C64_false
#print axioms C65_shares
#print axioms C65_meaning
#print axioms C65_uncorrelated
#print axioms C66_iff_partial
#print axioms C66_same_order_partial
#print axioms C66_false
#print axioms C81_one_variable
#print axioms C81_false
#print axioms C81_partial
#print axioms C82_select
#print axioms C82_unknown_partial
#print axioms C82_false
#print axioms C83_bounded

end Pynare

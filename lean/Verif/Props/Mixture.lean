import Verif.Spec.Mixture
import Verif.Spec.Certainty
import Verif.Props.Stats
/-!
# C182: moments under different covariances of the shocks
-/

namespace Pynare

set_option linter.unusedSectionVars false

variable {V : Type} [Field V] [LinearOrder V] [IsStrictOrderedRing V] {la : LinAlg V} {lyap : Lyap V} {t : Typer}
  {s : Space V} {gy gu sigma sigma' sigma'' C C' C'' : Arr V}

theorem mix_toM {a b : V} {x y z : Arr V} {n m : Nat} (hr : x.r = n) (hc : x.c = m) (h : Arr.Mix a b x y z) :
    z.toM n m = a • x.toM n m + b • y.toM n m := by
  ext i j
  exact h.2.2.2.2 i (by rw [hr]; exact i.2) j (by rw [hc]; exact j.2)

/-- the variance of the states under different covariances -/
theorem state_mix (ly : LyapExact lyap) (sh : SolutionShape t gy gu) (hst : Stable (stateRows t gy)) (hn : t.n ≠ 1) {a b : V}
    (hm : Arr.Mix a b sigma sigma' sigma'') {X X' X'' : Arr V} (h : stateVar la lyap t s gy gu sigma = .ok X)
    (h' : stateVar la lyap t s gy gu sigma' = .ok X') (h'' : stateVar la lyap t s gy gu sigma'' = .ok X'') :
    X''.toM t.nBackward t.nBackward = a • X.toM t.nBackward t.nBackward + b • X'.toM t.nBackward t.nBackward := by
  obtain ⟨s1, s2, -, -, e⟩ := stateVar_spec ly sh.perm sh.gyr sh.gyc sh.gur hn h
  obtain ⟨-, -, -, -, e'⟩ := stateVar_spec ly sh.perm sh.gyr sh.gyc sh.gur hn h'
  obtain ⟨-, -, -, -, e''⟩ := stateVar_spec ly sh.perm sh.gyr sh.gyc sh.gur hn h''
  refine lyapunov_unique (stable_vanish hst) e'' ?_
  rw [mix_toM s1 s2 hm]
  nth_rewrite 1 [e, e']
  simp only [Matrix.mul_add, Matrix.add_mul, Matrix.mul_smul, Matrix.smul_mul, smul_add]
  abel

/-- **C182, covariances**.  A solved model whose states return to the steady state without shocks.  If the covariances of
the shocks are `a` times those in one case plus `b` times those in another, so are the covariances reported for the
variables. -/
theorem C182_covariances (ly : LyapExact lyap) (sh : SolutionShape t gy gu) (hst : Stable (stateRows t gy)) {a b : V}
    (hm : Arr.Mix a b sigma sigma' sigma'') (h : covArr la lyap t s gy gu sigma = .ok C)
    (h' : covArr la lyap t s gy gu sigma' = .ok C') (h'' : covArr la lyap t s gy gu sigma'' = .ok C'') :
    Arr.Mix a b C C' C'' := by
  obtain ⟨hn, s1, s2, c1, c2, X, hX, e⟩ := covArr_spec ly sh.perm sh.gyr sh.gyc sh.gur h
  obtain ⟨-, -, -, c1', c2', X', hX', e'⟩ := covArr_spec ly sh.perm sh.gyr sh.gyc sh.gur h'
  obtain ⟨-, -, -, c1'', c2'', X'', hX'', e''⟩ := covArr_spec ly sh.perm sh.gyr sh.gyc sh.gur h''
  refine ⟨by omega, by omega, by omega, by omega, fun i hi j hj => ?_⟩
  rw [state_mix ly sh hst hn hm hX hX' hX'', mix_toM s1 s2 hm] at e''
  have : C''.toM t.n t.n = a • C.toM t.n t.n + b • C'.toM t.n t.n := by
    rw [e'', e, e']
    simp only [Matrix.mul_add, Matrix.add_mul, Matrix.mul_smul, Matrix.smul_mul, smul_add]
    abel
  exact congrFun (congrFun this ⟨i, by omega⟩) ⟨j, by omega⟩

/-- **C182, autocovariances**: the same for every lag. -/
theorem C182_autocovariances (ly : LyapExact lyap) (sh : SolutionShape t gy gu) (hst : Stable (stateRows t gy)) {a b : V}
    (hm : Arr.Mix a b sigma sigma' sigma'') {p : Nat} {L L' L'' : List (Arr V)}
    (h : autocov la lyap t s gy gu sigma p = .ok L) (h' : autocov la lyap t s gy gu sigma' p = .ok L')
    (h'' : autocov la lyap t s gy gu sigma'' p = .ok L'') :
    L.length = p ∧ L'.length = p ∧ L''.length = p ∧ ∀ (i : Nat) x x' x'', L[i]? = some x → L'[i]? = some x' → L''[i]? = some x'' →
      Arr.Mix a b x x' x'' := by
  obtain ⟨l, X, hX, e⟩ := autocov_spec ly sh.perm sh.gyr sh.gyc sh.gur h
  obtain ⟨l', X', hX', e'⟩ := autocov_spec ly sh.perm sh.gyr sh.gyc sh.gur h'
  obtain ⟨l'', X'', hX'', e''⟩ := autocov_spec ly sh.perm sh.gyr sh.gyc sh.gur h''
  have hn : t.n ≠ 1 := by
    unfold autocov at h
    obtain ⟨_, -, h⟩ := Except.bind_eq_ok h
    obtain ⟨_, -, h⟩ := Except.bind_eq_ok h
    obtain ⟨gyd, h3, h⟩ := Except.bind_eq_ok h
    exact n_ne_one sh.perm sh.gyr sh.gyc h3
  obtain ⟨s1, s2, -⟩ := stateVar_spec ly sh.perm sh.gyr sh.gyc sh.gur hn hX
  refine ⟨l, l', l'', fun i x x' x'' g g' g'' => ?_⟩
  have hi : i < p := by rw [← l]; exact (List.getElem?_eq_some_iff.mp g).1
  obtain ⟨y, k1, k2, k3, k4⟩ := e i hi
  obtain ⟨y', k1', k2', k3', k4'⟩ := e' i hi
  obtain ⟨y'', k1'', k2'', k3'', k4''⟩ := e'' i hi
  obtain rfl := Option.some.inj (g.symm.trans k1)
  obtain rfl := Option.some.inj (g'.symm.trans k1')
  obtain rfl := Option.some.inj (g''.symm.trans k1'')
  refine ⟨by omega, by omega, by omega, by omega, fun r hr c hc => ?_⟩
  rw [state_mix ly sh hst hn hm hX hX' hX'', mix_toM s1 s2 hm] at k4''
  have : x''.toM t.n t.n = a • x.toM t.n t.n + b • x'.toM t.n t.n := by
    rw [k4'', k4, k4']
    simp only [Matrix.mul_add, Matrix.add_mul, Matrix.mul_smul, Matrix.smul_mul, smul_add]
    abel
  exact congrFun (congrFun this ⟨r, by omega⟩) ⟨c, by omega⟩

/-- an array with entries multiplied by a number -/
theorem Arr.Times.mix {k : V} {x y : Arr V} (h : x.Times k y) : Arr.Mix k 0 x x y :=
  ⟨rfl, rfl, h.1, h.2.1, fun i hi j hj => by rw [h.2.2 i hi j hj]; ring⟩

theorem Arr.Mix.times {k : V} {x y : Arr V} (h : Arr.Mix k 0 x x y) : x.Times k y :=
  ⟨h.2.2.1, h.2.2.2.1, fun i hi j hj => by rw [h.2.2.2.2 i hi j hj]; ring⟩

/-- **C182, covariances**: if the covariances of all shocks are multiplied by `k`, so are those of the variables. -/
theorem C182_multiplied (ly : LyapExact lyap) (sh : SolutionShape t gy gu) (hst : Stable (stateRows t gy)) {k : V}
    (hk : sigma.Times k sigma') (h : covArr la lyap t s gy gu sigma = .ok C) (h' : covArr la lyap t s gy gu sigma' = .ok C') :
    C.Times k C' :=
  (C182_covariances ly sh hst hk.mix h h h').times

theorem scaled_times {k v : V} (hk : 0 < k) {sq : V → Option V} {x y x' y' : V} (hx : x' = k * x) (hy : y' = k * y)
    (h1 : RootOf sq x) (h2 : RootOf sq y) (h1' : RootOf sq x') (h2' : RootOf sq y') :
    scaled (k * v) (sq x') (sq y') = scaled v (sq x) (sq y) := by
  obtain ⟨r, e1, n1, m1⟩ := h1
  obtain ⟨q, e2, n2, m2⟩ := h2
  obtain ⟨r', e1', n1', m1'⟩ := h1'
  obtain ⟨q', e2', n2', m2'⟩ := h2'
  rw [e1, e2, e1', e2']
  have key : r' * q' = k * (r * q) := by
    refine (mul_self_inj (mul_nonneg n1' n2') (mul_nonneg hk.le (mul_nonneg n1 n2))).mp ?_
    calc r' * q' * (r' * q') = (r' * r') * (q' * q') := by ring
      _ = (k * (r * r)) * (k * (q * q)) := by rw [m1', m2', m1, m2, hx, hy]
      _ = k * (r * q) * (k * (r * q)) := by ring
  simp only [scaled, key, mul_eq_zero_iff_left hk.ne', mul_div_mul_left _ _ hk.ne']

/-- **C182, correlations**: if the covariances of all shocks are multiplied by a positive number, correlations and
autocorrelations do not change, where the square roots of the variances are exact. -/
theorem C182_correlations (ly : LyapExact lyap) (sh : SolutionShape t gy gu) (hst : Stable (stateRows t gy)) {k : V}
    (hk : 0 < k) (hs : sigma.Times k sigma') {sq : V → Option V} {R R' : Arr (Option V)}
    (h : covArr la lyap t s gy gu sigma = .ok C) (h' : covArr la lyap t s gy gu sigma' = .ok C')
    (hsq : ∀ c < t.n, RootOf sq (C.e c c)) (hsq' : ∀ c < t.n, RootOf sq (C'.e c c))
    (hR : corrArr la lyap sq t s gy gu sigma = .ok R) (hR' : corrArr la lyap sq t s gy gu sigma' = .ok R') :
    R.Same R' := by
  obtain ⟨-, -, -, c1, c2, -⟩ := covArr_spec ly sh.perm sh.gyr sh.gyc sh.gur h
  obtain ⟨d1, d2, d3⟩ := C182_multiplied ly sh hst hs h h'
  obtain ⟨D, hD, r1, r2, r3⟩ := corrArr_ok hR
  obtain rfl := Except.ok.inj (h.symm.trans hD)
  obtain ⟨D', hD', r1', r2', r3'⟩ := corrArr_ok hR'
  obtain rfl := Except.ok.inj (h'.symm.trans hD')
  refine ⟨by omega, by omega, fun i hi j hj => ?_⟩
  rw [r3, r3', d3 i (by omega) j (by omega)]
  exact scaled_times hk (d3 i (by omega) i (by omega)) (d3 j (by omega) j (by omega)) (hsq i (by omega))
    (hsq j (by omega)) (hsq' i (by omega)) (hsq' j (by omega))

/-- **C182, autocorrelations**: the same for every lag. -/
theorem C182_autocorrelations (ly : LyapExact lyap) (sh : SolutionShape t gy gu) (hst : Stable (stateRows t gy)) {k : V}
    (hk : 0 < k) (hs : sigma.Times k sigma') {sq : V → Option V} {p : Nat} {L L' : List (Arr (Option V))}
    (h : covArr la lyap t s gy gu sigma = .ok C) (h' : covArr la lyap t s gy gu sigma' = .ok C')
    (hsq : ∀ c < t.n, RootOf sq (C.e c c)) (hsq' : ∀ c < t.n, RootOf sq (C'.e c c))
    (hL : autocorr la lyap sq t s gy gu sigma p = .ok L) (hL' : autocorr la lyap sq t s gy gu sigma' p = .ok L') :
    L.length = p ∧ L'.length = p ∧ ∀ (i : Nat) x x', L[i]? = some x → L'[i]? = some x' → x.Same x' := by
  obtain ⟨-, -, -, c1, c2, -⟩ := covArr_spec ly sh.perm sh.gyr sh.gyc sh.gur h
  obtain ⟨-, -, d3⟩ := C182_multiplied ly sh hst hs h h'
  unfold autocorr at hL hL'
  obtain ⟨A, hA, hL⟩ := Except.bind_eq_ok hL
  obtain ⟨D, hD, hL⟩ := Except.bind_eq_ok hL
  obtain rfl := Except.ok.inj (h.symm.trans hD)
  obtain ⟨A', hA', hL'⟩ := Except.bind_eq_ok hL'
  obtain ⟨D', hD', hL'⟩ := Except.bind_eq_ok hL'
  obtain rfl := Except.ok.inj (h'.symm.trans hD')
  obtain rfl := Except.ok.inj hL
  obtain rfl := Except.ok.inj hL'
  obtain ⟨l, -, l', hall⟩ := C182_autocovariances ly sh hst hs.mix hA hA hA'
  obtain ⟨_, _, _, hshape⟩ := autocov_spec ly sh.perm sh.gyr sh.gyc sh.gur hA
  refine ⟨by rw [List.length_map, l], by rw [List.length_map, l'], fun i x x' hx hx' => ?_⟩
  rw [List.getElem?_map, Option.map_eq_some_iff] at hx hx'
  obtain ⟨y, hy, rfl⟩ := hx
  obtain ⟨y', hy', rfl⟩ := hx'
  obtain ⟨e1, e2, e3⟩ := (hall i y y y' hy hy hy').times
  obtain ⟨z, z1, z2, z3, -⟩ := hshape i (by rw [← l]; exact (List.getElem?_eq_some_iff.mp hy).1)
  obtain rfl := Option.some.inj (hy.symm.trans z1)
  refine ⟨e1, e2, fun r hr c hc => ?_⟩
  show scaled (y'.e r c) _ _ = scaled (y.e r c) _ _
  have hr : r < y.r := hr
  have hc : c < y.c := hc
  rw [e3 r hr c hc]
  exact scaled_times hk (d3 r (by omega) r (by omega)) (d3 c (by omega) c (by omega)) (hsq r (by omega))
    (hsq c (by omega)) (hsq' r (by omega)) (hsq' c (by omega))

/-! The model of the examples of moments under four covariance matrices: `mxSum` is twice `stSigma` plus three times
`mxOther`, `mxFour` is four times `stSigma`. -/

def mxOther : Arr ℚ := listArr [[16, 0], [0, 9]] 2
def mxSum : Arr ℚ := listArr [[80, 26/5], [26/5, 45]] 2
def mxFour : Arr ℚ := listArr [[64, 52/5], [52/5, 36]] 2
def mxLyap : Lyap ℚ := ratLyap [stX, listArr [[25, 0], [0, 25]] 2, listArr [[125, 10], [10, 125]] 2,
  listArr [[100, 20], [20, 100]] 2]
def mxSq (v : ℚ) : Option ℚ := if v = 25 then some 5 else if v = 100 then some 10 else none

theorem mx_mix : Arr.Mix 2 3 stSigma mxOther mxSum := by
  refine ⟨rfl, rfl, rfl, rfl, fun i hi j hj => ?_⟩
  have hi : i < 2 := hi
  have hj : j < 2 := hj
  interval_cases i <;> interval_cases j <;> decide +kernel

theorem mx_times : stSigma.Times 4 mxFour := by
  refine ⟨rfl, rfl, fun i hi j hj => ?_⟩
  have hi : i < 2 := hi
  have hj : j < 2 := hj
  interval_cases i <;> interval_cases j <;> decide +kernel

example : ∃ C C' C'', covArr stLa mxLyap stT stSpace stGy stGu stSigma = .ok C ∧
    covArr stLa mxLyap stT stSpace stGy stGu mxOther = .ok C' ∧ covArr stLa mxLyap stT stSpace stGy stGu mxSum = .ok C'' ∧
    Arr.Mix 2 3 C C' C'' ∧ C.e 0 1 = 20 ∧ C'.e 0 1 = 20 ∧ C''.e 0 1 = 100 := by
  obtain ⟨C, h, e⟩ := ok_of_check (x := covArr stLa mxLyap stT stSpace stGy stGu stSigma)
    (p := fun C => decide (C.e 0 1 = 20)) (by decide +kernel)
  obtain ⟨C', h', e'⟩ := ok_of_check (x := covArr stLa mxLyap stT stSpace stGy stGu mxOther)
    (p := fun C => decide (C.e 0 1 = 20)) (by decide +kernel)
  obtain ⟨C'', h'', e''⟩ := ok_of_check (x := covArr stLa mxLyap stT stSpace stGy stGu mxSum)
    (p := fun C => decide (C.e 0 1 = 100)) (by decide +kernel)
  exact ⟨C, C', C'', h, h', h'', C182_covariances (ratLyap_exact _) stShape stStable mx_mix h h' h'', of_decide_eq_true e,
    of_decide_eq_true e', of_decide_eq_true e''⟩

example : ∃ L L' L'', autocov stLa mxLyap stT stSpace stGy stGu stSigma 2 = .ok L ∧
    autocov stLa mxLyap stT stSpace stGy stGu mxOther 2 = .ok L' ∧ autocov stLa mxLyap stT stSpace stGy stGu mxSum 2 = .ok L'' ∧
    ∀ (i : Nat) x x' x'', L[i]? = some x → L'[i]? = some x' → L''[i]? = some x'' → Arr.Mix 2 3 x x' x'' := by
  obtain ⟨L, h, -⟩ := ok_of_check (x := autocov stLa mxLyap stT stSpace stGy stGu stSigma 2)
    (p := fun _ => true) (by decide +kernel)
  obtain ⟨L', h', -⟩ := ok_of_check (x := autocov stLa mxLyap stT stSpace stGy stGu mxOther 2)
    (p := fun _ => true) (by decide +kernel)
  obtain ⟨L'', h'', -⟩ := ok_of_check (x := autocov stLa mxLyap stT stSpace stGy stGu mxSum 2)
    (p := fun _ => true) (by decide +kernel)
  exact ⟨L, L', L'', h, h', h'', (C182_autocovariances (ratLyap_exact _) stShape stStable mx_mix h h' h'').2.2.2⟩

/-- with variances four times as large, correlations and autocorrelations are the same -/
example : ∃ C C' R R' L L', covArr stLa mxLyap stT stSpace stGy stGu stSigma = .ok C ∧
    covArr stLa mxLyap stT stSpace stGy stGu mxFour = .ok C' ∧ C.Times 4 C' ∧
    corrArr stLa mxLyap mxSq stT stSpace stGy stGu stSigma = .ok R ∧ corrArr stLa mxLyap mxSq stT stSpace stGy stGu mxFour = .ok R' ∧
    R.Same R' ∧ R.e 0 1 = some (4/5) ∧
    autocorr stLa mxLyap mxSq stT stSpace stGy stGu stSigma 2 = .ok L ∧
    autocorr stLa mxLyap mxSq stT stSpace stGy stGu mxFour 2 = .ok L' ∧
    ∀ (i : Nat) x x', L[i]? = some x → L'[i]? = some x' → x.Same x' := by
  obtain ⟨C, h, e⟩ := ok_of_check (x := covArr stLa mxLyap stT stSpace stGy stGu stSigma)
    (p := fun C => (List.range 3).all fun c => decide (C.e c c = 25)) (by decide +kernel)
  obtain ⟨C', h', e'⟩ := ok_of_check (x := covArr stLa mxLyap stT stSpace stGy stGu mxFour)
    (p := fun C => (List.range 3).all fun c => decide (C.e c c = 100)) (by decide +kernel)
  obtain ⟨R, hR, eR⟩ := ok_of_check (x := corrArr stLa mxLyap mxSq stT stSpace stGy stGu stSigma)
    (p := fun R => decide (R.e 0 1 = some (4/5))) (by decide +kernel)
  obtain ⟨R', hR', -⟩ := ok_of_check (x := corrArr stLa mxLyap mxSq stT stSpace stGy stGu mxFour)
    (p := fun _ => true) (by decide +kernel)
  obtain ⟨L, hL, -⟩ := ok_of_check (x := autocorr stLa mxLyap mxSq stT stSpace stGy stGu stSigma 2)
    (p := fun _ => true) (by decide +kernel)
  obtain ⟨L', hL', -⟩ := ok_of_check (x := autocorr stLa mxLyap mxSq stT stSpace stGy stGu mxFour 2)
    (p := fun _ => true) (by decide +kernel)
  simp only [List.all_eq_true, List.mem_range, decide_eq_true_eq] at e e'
  have r : ∀ c < stT.n, RootOf mxSq (C.e c c) := fun c hc => by
    rw [e c hc]; exact ⟨5, by decide +kernel, by norm_num, by norm_num⟩
  have r' : ∀ c < stT.n, RootOf mxSq (C'.e c c) := fun c hc => by
    rw [e' c hc]; exact ⟨10, by decide +kernel, by norm_num, by norm_num⟩
  exact ⟨C, C', R, R', L, L', h, h', C182_multiplied (ratLyap_exact _) stShape stStable mx_times h h', hR, hR',
    C182_correlations (ratLyap_exact _) stShape stStable (by norm_num) mx_times h h' r r' hR hR', of_decide_eq_true eR, hL, hL',
    (C182_autocorrelations (ratLyap_exact _) stShape stStable (by norm_num) mx_times h h' r r' hL hL').2.2⟩

#print axioms C182_covariances
#print axioms C182_autocovariances
#print axioms C182_multiplied
#print axioms C182_correlations
#print axioms C182_autocorrelations

end Pynare

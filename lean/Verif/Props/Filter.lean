import Verif.Lemmas.Filter
import Verif.Lemmas.Decomp
import Verif.Examples.Filter
import Verif.Examples.FirstOrder
/-!
# Filters and observed models
-/

namespace Pynare

variable {V : Type}

/-! ### C124: the recursion predicts -/

section kalman
variable [CommRing V] {lp : Lapack V} {n : Nat} {x0 P0 T Q : Arr V} {locs : List Nat} {data : Arr V}

/-- **C124.** Let LAPACK be exact, and let the loop get through `N` periods of the data.  Then it gets through `N`
periods of any data with as many columns, with the same sum and the same covariances; the predictions are fixed linear
functions of the data; and for every process that follows `T`, with innovations of covariances `Q` and first states of
means `x0` and covariances `P0`, these functions are right on average, have errors that are uncorrelated with all
earlier observations, and the covariances of the errors are those the loop computed. -/
theorem C124_predictions (hl : LapackExact lp) (hs : KShape n x0 P0 T Q locs) (hd : data.c = locs.length)
    {N : Nat} {llk : V} {x P : Arr V} (h : kalmanRun lp T Q locs x0 P0 data N = .ok (llk, x, P)) :
    ∃ (c : Nat → V) (w : Nat → Nat → Nat → V),
      (∀ i < n, x.e i 0 = weightedData locs.length (c i) (w i) data N) ∧
      (∀ data' : Arr V, data'.c = locs.length → ∃ x', kalmanRun lp T Q locs x0 P0 data' N = .ok (llk, x', P) ∧
        ∀ i < n, x'.e i 0 = weightedData locs.length (c i) (w i) data' N) ∧
      ∀ {M : Type} [AddCommGroup M] [Module V M] (cov : M →ₗ[V] M →ₗ[V] V) (mean : M →ₗ[V] V) (s e : Nat → Nat → M),
        ObservedProcess n x0 P0 T Q cov mean s e → Predicts n locs N c w P cov mean s := by
  obtain ⟨K, PP, d, p0, pN, rfl, hsh, hg, hdata⟩ := kalmanRun_facts hl hs hd h
  obtain ⟨c, w, h1, h2⟩ := kalman_predicts hl hs p0 hsh hg N (le_refl N)
  have key : ∀ data' : Arr V, data'.c = locs.length → ∃ x', kalmanRun lp T Q locs x0 P0 data' N = .ok (sumTo N d, x', P) ∧
        ∀ i < n, x'.e i 0 = weightedData locs.length (c i) (w i) data' N := by
    intro data' hd'
    obtain ⟨X, X0, hX, hstep⟩ := hdata data' hd'
    exact ⟨X N, by rw [(hX N (le_refl N)).2.2, pN], h1 data' X X0 hstep⟩
  refine ⟨c, w, ?_, key, ?_⟩
  · obtain ⟨x', hx', hc⟩ := key data hd
    rw [h] at hx'
    have := Except.ok.inj hx'
    simp only [Prod.ext_iff] at this
    rw [this.2.1]
    exact hc
  · intro M _ _ cov mean s e p
    rw [← pN]
    exact h2 cov mean s e p

/-- **C124**: if no variance is negative, no other linear function of the earlier observations has an error with a
smaller variance. -/
theorem C124_smallest [LinearOrder V] [IsStrictOrderedRing V] (hl : LapackExact lp) (hs : KShape n x0 P0 T Q locs)
    (hd : data.c = locs.length) {N : Nat} {llk : V} {x P : Arr V}
    (h : kalmanRun lp T Q locs x0 P0 data N = .ok (llk, x, P))
    {M : Type} [AddCommGroup M] [Module V M] {cov : M →ₗ[V] M →ₗ[V] V} {mean : M →ₗ[V] V} {s e : Nat → Nat → M}
    (p : ObservedProcess n x0 P0 T Q cov mean s e) (hpos : ∀ z, 0 ≤ cov z z) {i : Nat} (hi : i < n) (w' : Nat → Nat → V) :
    P.e i i ≤ cov (s N i - weighted locs w' s N) (s N i - weighted locs w' s N) := by
  obtain ⟨c, w, -, -, hp⟩ := C124_predictions hl hs hd h
  have q := hp cov mean s e p
  let er := s N i - weighted locs (w i) s N
  let df := weighted locs (w i) s N - weighted locs w' s N
  have h0 : ∀ v : Nat → Nat → V, cov er (weighted locs v s N) = 0 := by
    intro v
    rw [weighted, sumTo_eq, map_sum]
    refine Finset.sum_eq_zero fun τ hτ => ?_
    rw [sumTo_eq, cov_sum_right]
    refine Finset.sum_eq_zero fun k hk => ?_
    rw [q.uncorrelated i hi τ (Finset.mem_range.mp hτ) k (Finset.mem_range.mp hk), mul_zero]
  have h1 : cov er df = 0 := by
    show cov er (_ - _) = 0
    rw [map_sub, h0, h0, sub_zero]
  have h2 : s N i - weighted locs w' s N = er + df := by simp [er, df]
  rw [h2, map_add, map_add, LinearMap.add_apply, LinearMap.add_apply, h1, p.symm df er, h1, ← q.errors i hi i hi]
  simpa [er] using hpos df

/-- **C124**: such a process exists, for all symmetric covariances. -/
theorem C124_exists (n : Nat) (x0 P0 T Q : Arr V) (hP : ∀ i < n, ∀ j < n, P0.e i j = P0.e j i)
    (hQ : ∀ i < n, ∀ j < n, Q.e i j = Q.e j i) :
    ∃ (M : Type) (_ : AddCommGroup M) (_ : Module V M) (cov : M →ₗ[V] M →ₗ[V] V) (mean : M →ₗ[V] V)
      (s e : Nat → Nat → M), ObservedProcess n x0 P0 T Q cov mean s e := by
  let cut : Arr V → Arr V := fun a => ⟨a.r, a.c, fun i j => if i < n ∧ j < n then a.e i j else 0⟩
  have hcut : ∀ a : Arr V, (∀ i < n, ∀ j < n, a.e i j = a.e j i) → ∀ i j, (cut a).e i j = (cut a).e j i := by
    intro a ha i j
    by_cases hij : i < n ∧ j < n
    · simp only [cut, if_pos hij, if_pos hij.symm, ha i hij.1 j hij.2]
    · simp only [cut, if_neg hij, if_neg (show ¬ (j < n ∧ i < n) from fun h => hij h.symm)]
  let e : Nat → Nat → (Nat ⊕ (Nat × Nat) →₀ V) := fun t i => Finsupp.single (.inr (t, i)) 1
  let s : Nat → Nat → (Nat ⊕ (Nat × Nat) →₀ V) := fun t => Nat.rec (fun i => Finsupp.single (.inl i) 1)
    (fun t s i => (sumTo n fun j => T.e i j • s j) + e (t + 1) i) t
  let mean : (Nat ⊕ (Nat × Nat) →₀ V) →ₗ[V] V := Finsupp.linearCombination V fun i => match i with
    | .inl i => x0.e i 0
    | .inr _ => 0
  refine ⟨_, inferInstance, inferInstance, kernelForm (cut P0) (cut Q), mean, s, e, ⟨?_, ?_, ?_, ?_, ?_, ?_, ?_, ?_⟩⟩
  · intro t i _; rfl
  · exact kernelForm_symm (hcut P0 hP) (hcut Q hQ)
  · intro t i hi j hj
    rw [kernelForm_single]; simp [kernel, cut, hi, hj]
  · intro t t' htt i hi j hj
    rw [kernelForm_single]; simp [kernel, htt]
  · intro t i hi j hj
    show kernelForm (cut P0) (cut Q) (Finsupp.single _ 1) (Finsupp.single _ 1) = 0
    rw [kernelForm_single]; simp [kernel]
  · intro i hi j hj
    show kernelForm (cut P0) (cut Q) (Finsupp.single _ 1) (Finsupp.single _ 1) = _
    rw [kernelForm_single]; simp [kernel, cut, hi, hj]
  · intro i hi
    show mean (Finsupp.single _ 1) = _
    simp [mean]
  · intro t i hi
    show mean (Finsupp.single _ 1) = _
    simp [mean]

end kalman

theorem oneLapack_exact : LapackExact oneLapack := by
  intro a c b ha hc hb
  simp only [oneLapack] at hc hb
  split at hc
  case isFalse => cases hc
  rename_i h1
  cases hc
  cases hb
  refine ⟨h1.1.symm, h1.1.symm, fun _ _ => 1 / a.e 0 0, ?_, fun i hi j hj _ => rfl⟩
  rw [h1.1]
  intro i hi j hj
  obtain rfl : i = 0 := by omega
  obtain rfl : j = 0 := by omega
  refine ⟨rfl, ?_⟩
  have : a.e 0 0 ≠ 0 := ne_of_gt h1.2
  simp [sumTo, this]

theorem kfShape : KShape 2 kfX kfEye kfT kfEye [0] :=
  ⟨⟨rfl, rfl⟩, ⟨rfl, rfl⟩, ⟨rfl, rfl, fun i _ j _ => by simp only [kfEye, eq_comm]⟩,
    ⟨rfl, rfl, fun i _ j _ => by simp only [kfEye, eq_comm]⟩, by simp⟩

/-- hypotheses met: two states, one observed, two periods -/
theorem kfRun : ∃ p, kalmanRun oneLapack kfT kfEye [0] kfX kfEye (kfData 1 2) 2 = .ok p :=
  (ok_of_check (p := fun _ => true) (by decide +kernel)).imp fun _ h => h.1

example : ∃ (c : Nat → ℚ) (w : Nat → Nat → Nat → ℚ) (P : Arr ℚ) (M : Type) (_ : AddCommGroup M) (_ : Module ℚ M)
    (cov : M →ₗ[ℚ] M →ₗ[ℚ] ℚ) (mean : M →ₗ[ℚ] ℚ) (s : Nat → Nat → M), Predicts 2 [0] 2 c w P cov mean s := by
  obtain ⟨⟨llk, x, P⟩, h⟩ := kfRun
  obtain ⟨c, w, -, -, hp⟩ := C124_predictions oneLapack_exact kfShape rfl h
  obtain ⟨M, i1, i2, cov, mean, s, e, p⟩ := C124_exists 2 kfX kfEye kfT kfEye
    (fun i _ j _ => by simp only [kfEye, eq_comm]) (fun i _ j _ => by simp only [kfEye, eq_comm])
  exact ⟨c, w, P, M, i1, i2, cov, mean, s, hp cov mean s e p⟩

/-! ### C125: what is returned -/

section value
variable [CommRing V] {lp : Lapack V} {n : Nat} {x0 P0 T Q : Arr V} {locs : List Nat} {data : Arr V}

/-- **C125** in part: what is returned is the sum, over periods, of the logarithms of the determinants of the
covariance matrices of the errors in predicting the observations from the earlier ones.  What is missing: the other
terms of the log-likelihood. -/
theorem C125_value_partial (hl : LapackExact lp) (hs : KShape n x0 P0 T Q locs) (hd : data.c = locs.length)
    {v : V} (h : kalmanSelection lp data x0 P0 T Q locs = .ok v) :
    ∃ (F : Nat → Arr V) (δ : Nat → V), (v = sumTo data.r fun t => lp.log (δ t)) ∧ ∀ t < data.r,
      (F t).r = locs.length ∧ (F t).c = locs.length ∧ lp.det (F t) = .ok (δ t) ∧
      ∃ (c : Nat → V) (w : Nat → Nat → Nat → V) (P : Arr V),
        (∀ k < locs.length, ∀ l < locs.length, (F t).e k l = P.e (obsAt locs k) (obsAt locs l)) ∧
        ∀ {M : Type} [AddCommGroup M] [Module V M] (cov : M →ₗ[V] M →ₗ[V] V) (mean : M →ₗ[V] V) (s e : Nat → Nat → M),
          ObservedProcess n x0 P0 T Q cov mean s e → Predicts n locs t c w P cov mean s := by
  unfold kalmanSelection at h
  obtain ⟨⟨llk, x, P⟩, h', he⟩ := Except.bind_ok_iff.mp h
  have hv : llk = v := Except.ok.inj he
  subst hv
  obtain ⟨K, PP, d, p0, pN, rfl, hsh, hg, -⟩ := kalmanRun_facts hl hs hd h'
  have key : ∀ t, ∃ p : Arr V × V, t < data.r → d t = lp.log p.2 ∧ p.1.r = locs.length ∧ p.1.c = locs.length ∧
      lp.det p.1 = .ok p.2 ∧
      ∀ k < locs.length, ∀ l < locs.length, p.1.e k l = (PP t).e (obsAt locs k) (obsAt locs l) := by
    intro t
    by_cases ht : t < data.r
    · obtain ⟨-, -, -, -, F, f1, f2, ⟨δ, f3, f4⟩, f5⟩ :=
        kalmanGain_facts hl hs.t (hsh t (by omega)) hs.q hs.locs (hg t ht)
      exact ⟨(F, δ), fun _ => ⟨f4, f1, f2, f3, f5⟩⟩
    · exact ⟨(T, 0), fun h => absurd h ht⟩
  choose p hp using key
  refine ⟨fun t => (p t).1, fun t => (p t).2, sumTo_congr fun t ht => (hp t ht).1, fun t ht => ?_⟩
  obtain ⟨-, q1, q2, q3, q4⟩ := hp t ht
  obtain ⟨c, w, -, h2⟩ := kalman_predicts hl hs p0 hsh hg t (by omega)
  exact ⟨q1, q2, q3, c, w, PP t, q4, h2⟩

/-- **C125**: the numbers in the data do not matter. -/
theorem C125_ignores_data (hl : LapackExact lp) (hs : KShape n x0 P0 T Q locs) (hd : data.c = locs.length)
    {data' : Arr V} (hr : data'.r = data.r) (hc : data'.c = data.c) {v : V}
    (h : kalmanSelection lp data x0 P0 T Q locs = .ok v) : kalmanSelection lp data' x0 P0 T Q locs = .ok v := by
  unfold kalmanSelection at h ⊢
  obtain ⟨⟨llk, x, P⟩, h, he⟩ := Except.bind_ok_iff.mp h
  obtain ⟨c, w, -, hdata, -⟩ := C124_predictions hl hs hd h
  obtain ⟨x', hx', -⟩ := hdata data' (by rw [hc, hd])
  rw [hr, hx']
  exact he

end value

/-- hypotheses met -/
example : ∃ v, kalmanSelection oneLapack (kfData 1 2) kfX kfEye kfT kfEye [0] = .ok v ∧
    kalmanSelection oneLapack (kfData 100 (-3)) kfX kfEye kfT kfEye [0] = .ok v := by
  obtain ⟨⟨llk, x, P⟩, h⟩ := kfRun
  have h1 : kalmanSelection oneLapack (kfData 1 2) kfX kfEye kfT kfEye [0] = .ok llk := by
    unfold kalmanSelection
    rw [show (kfData 1 2).r = 2 from rfl, h]
    rfl
  exact ⟨llk, h1, C125_ignores_data (data := kfData 1 2) (data' := kfData 100 (-3)) oneLapack_exact kfShape rfl rfl rfl h1⟩

/-- **C125 is false**: the value returned is not the log-likelihood, not even for a single state observed once, whatever
the constant. -/
theorem C125_false (c : ℚ) : ¬ ∀ (p : ℚ) (y : ℚ) (v : ℚ), 0 < p →
    kalmanSelection oneLapack ⟨1, 1, fun _ _ => y⟩ ⟨1, 1, fun _ _ => 0⟩ ⟨1, 1, fun _ _ => p⟩ ⟨1, 1, fun _ _ => 0⟩
      ⟨1, 1, fun _ _ => 1⟩ [0] = .ok v →
    v = normalLogDensity c 1 (oneLapack.log p) (fun _ _ => 1 / p) fun _ => y := by
  intro h
  have run : ∀ y : ℚ, kalmanSelection oneLapack ⟨1, 1, fun _ _ => y⟩ ⟨1, 1, fun _ _ => 0⟩ ⟨1, 1, fun _ _ => 1⟩
      ⟨1, 1, fun _ _ => 0⟩ ⟨1, 1, fun _ _ => 1⟩ [0] = .ok 1 := by
    intro y
    simp [kalmanSelection, kalmanRun, kalmanGain, kalmanState, dataRow, oneLapack, invSymPd, symFromUpper, Arr.cols,
      Arr.rows, Arr.dot, Arr.add, Arr.neg, Arr.tr, bind, Except.bind]
  have h0 := h 1 0 1 (by norm_num) (run 0)
  have h1 := h 1 1 1 (by norm_num) (run 1)
  simp only [normalLogDensity, sumTo, oneLapack, id] at h0 h1
  have e0 : c = -3 := by linarith
  have e1 : c = -4 := by linarith
  rw [e0] at e1
  norm_num at e1

/-! ### C126: filters of models -/

section obj
variable {SS S : Type} [Zero V] [Mul V]

/-- **C126**: running a filter always raises, `AttributeError` unless bringing the model up to date raises something
else, whatever would follow. -/
theorem C126_filter (env : MEnv V SS S) (f : KFilter V SS S) (rest : List Nat × List Nat × List Nat → Except Err V) :
    ∃ m e, f.filter env rest = (m, .error e) ∧ ((f.model.refresh env).2 = none → e = .attributeError) := by
  unfold KFilter.filter KFilter.indices MState.readAttr
  rcases hr : f.model.refresh env with ⟨m, _ | e⟩
  · exact ⟨m, _, rfl, fun _ => rfl⟩
  · exact ⟨m, e, rfl, fun h => by cases h⟩

omit [Zero V] [Mul V] in
/-- **C126**: the log-likelihood is never a number, and an exception for models of all names but one; for that one it is
`None` if nothing raises. -/
theorem C126_loglike (f : KFilter V SS S) (rest : Except Err Unit) :
    (∀ v, f.loglike rest ≠ .ok (some v)) ∧
    (f.model.name ≠ "herbst_schorfheide" → f.loglike rest = .error .notImplemented) ∧
    (f.model.name = "herbst_schorfheide" → rest = .ok () → f.loglike rest = .ok none) := by
  unfold KFilter.loglike
  refine ⟨fun v => ?_, fun h => if_pos h, fun h hr => by rw [if_neg (not_not.2 h), hr]; rfl⟩
  split
  · intro h; cases h
  · cases rest with
    | error e => intro h; cases h
    | ok u => intro h; cases h

omit [Mul V] in
/-- **C126**: only Kalman filters, and only with the default initialisation, can be made. -/
theorem C126_made {env : MEnv V SS S} {nan : V} {m : MState V SS S} {labels : List String} {data : Arr V}
    {obs : List (String × String)} {kind init : String} {f : KFilter V SS S}
    (h : filterModel env nan m labels data obs kind init = .ok f) :
    kind = "kalman" ∧ init = "" ∧ observedModel env nan m obs = .ok f.model ∧ f.obs = obs.map Prod.fst ∧
      filterData f.obs labels data = .ok f.data := by
  unfold filterModel at h
  split at h
  · cases h
  rename_i hk
  obtain ⟨om, h1, h⟩ := Except.bind_ok_iff.mp h
  obtain ⟨d, h2, h⟩ := Except.bind_ok_iff.mp h
  split at h
  · cases h
  rename_i hi
  cases h
  exact ⟨not_not.mp hk, not_not.mp hi, h1, rfl, h2⟩

end obj

/-- **C126 is false**: a filter can be made that can neither be run nor give a log-likelihood. -/
theorem C126_false : ∃ m f, MState.create obsEnv { toyArgs with name := "ar" } = .ok m ∧
    filterModel obsEnv 0 m ["z"] ⟨1, 1, fun _ _ => 3⟩ [("z", "x")] "kalman" "" = .ok f ∧
    (∀ rest, ∃ m', f.filter obsEnv rest = (m', .error .attributeError)) ∧
    ∀ rest, f.loglike rest = .error .notImplemented :=
  ⟨_, _, rfl, rfl, fun _ => ⟨_, rfl⟩, fun _ => rfl⟩

/-! ### C127: observed models -/

section observed
variable {SS S : Type}

theorem exprLoop_texts {parse : String → Except Err (Expr V)} : ∀ {ts : List String} {x y : ModelExprs V},
    exprLoop parse (ts.map .text) x = (y, none) → ∃ es, ts.map parse = es.map .ok ∧ y.exprs = x.exprs ++ es
  | [], x, y, h => by
    cases h
    exact ⟨[], rfl, by simp⟩
  | t :: ts, x, y, h => by
    rw [List.map_cons, exprLoop] at h
    split at h
    case h_2 => cases h
    rename_i x' hx
    obtain ⟨e, he, hx'⟩ := Except.bind_ok_iff.mp hx
    cases hx'
    obtain ⟨es, h1, h2⟩ := exprLoop_texts h
    refine ⟨e :: es, ?_, ?_⟩
    · rw [List.map_cons, List.map_cons, h1]
      congr 1
    · rw [h2]
      simp [pyInsert, pyInsertPos]

theorem Endog.create_named [Zero V] (x : String) (l : Option (List Int)) (i t h : Option V) :
    (Endog.create x l i t h).name = x := by
  unfold Endog.create
  split <;> rfl

variable [Zero V] {env : MEnv V SS S} {nan : V} {m om : MState V SS S} {exprs : List (String × String)}

theorem observedModel_inv (h : observedModel env nan m exprs = .ok om) :
    exprs ≠ [] ∧ ∃ es params ll, exprs.map (fun p => env.parse (p.1 ++ " = " ++ p.2)) = es.map .ok ∧
      om.exprs.exprs = m.exprs.exprs ++ es ∧ m.params.nest env.ops = .ok params ∧ om.params = params ∧
      om.name = m.name ∧ om.stoch = m.stoch ∧ om.determ = m.determ ∧
      om.endog = (m.endogNames ++ exprs.map Prod.fst).map (fun x => Endog.create x (Dict.get? ll x)
        ((boundDict nan Endog.initial m.endog).get? x)
        ((boundDict nan Endog.terminal m.endog).get? x) ((boundDict nan Endog.historical m.endog).get? x)) ∧
      steadyFuncs env.ops env.okName (m.endogNames ++ exprs.map Prod.fst) (scopeOf params ⟨[], []⟩) om.exprs.exprs =
        .ok om.steady ∧
      dynamicFuncs env.ops env.okName (m.endogNames ++ exprs.map Prod.fst) m.stochNames om.indexes.toTyper
        (scopeOf params ⟨[], []⟩) om.exprs.exprs = .ok om.dynamic := by
  unfold observedModel at h
  split at h
  · cases h
  rename_i hne
  have e0 : (exprs.map fun p => ExprArg.text (V := V) (p.1 ++ " = " ++ p.2)) =
      (exprs.map fun p => p.1 ++ " = " ++ p.2).map .text := by simp
  rw [e0] at h
  split at h
  · cases h
  rename_i xs hxs
  obtain ⟨es, hes, hx⟩ := exprLoop_texts hxs
  obtain ⟨params, h1, h⟩ := Except.bind_ok_iff.mp h
  obtain ⟨ll, h2, h⟩ := Except.bind_ok_iff.mp h
  obtain ⟨steady, h3, h⟩ := Except.bind_ok_iff.mp h
  obtain ⟨idx, h4, h⟩ := Except.bind_ok_iff.mp h
  obtain ⟨dy, h5, h⟩ := Except.bind_ok_iff.mp h
  obtain ⟨ss, h6, h⟩ := Except.bind_ok_iff.mp h
  cases h
  exact ⟨hne, es, params, ll, by rw [← hes, List.map_map]; rfl, hx, h1, rfl, rfl, rfl, rfl, rfl, h3, h5⟩

/-- **C127**: an observed model has the variables of the model and then the observed ones, the equations of the model
and then, for every observed variable, the equation that sets it to its expression, and the same shocks. -/
theorem C127_contains (h : observedModel env nan m exprs = .ok om) :
    om.endogNames = m.endogNames ++ exprs.map Prod.fst ∧
    (∃ es, exprs.map (fun p => env.parse (p.1 ++ " = " ++ p.2)) = es.map .ok ∧
      om.exprs.exprs = m.exprs.exprs ++ es) ∧
    om.stoch = m.stoch ∧ om.determ = m.determ ∧ om.name = m.name := by
  obtain ⟨-, es, params, ll, h1, h2, -, -, h3, h4, h5, h6, -, -⟩ := observedModel_inv h
  refine ⟨?_, ⟨es, h1, h2⟩, h4, h5, h3⟩
  unfold MState.endogNames at h6 ⊢
  rw [h6, List.map_map]
  conv_rhs => rw [← List.map_id (List.map Endog.name m.endog ++ List.map Prod.fst exprs)]
  exact List.map_congr_left fun x _ => Endog.create_named ..

/-- **C127**: without observation equations there is no observed model. -/
theorem C127_refused (env : MEnv V SS S) (nan : V) (m : MState V SS S) :
    observedModel env nan m [] = .error .valueError := rfl

omit [Zero V] in
theorem boundDict_get {nan : V} {f : Endog V → Option V} : ∀ {es : List (Endog V)}, (es.map Endog.name).Nodup →
    (∀ e ∈ es, (boundDict nan f es).get? e.name = some ((f e).getD nan)) ∧
    ∀ x, x ∉ es.map Endog.name → (boundDict nan f es).get? x = none := by
  intro es
  induction es using List.reverseRecOn with
  | nil => intro _; exact ⟨fun e he => absurd he (by simp), fun x _ => rfl⟩
  | append_singleton es e ih =>
    intro hn
    rw [List.map_append, List.nodup_append] at hn
    obtain ⟨h1, h2⟩ := ih hn.1
    have hx : boundDict nan f (es ++ [e]) = (boundDict nan f es).set e.name ((f e).getD nan) := by
      simp [boundDict]
    rw [hx]
    constructor
    · intro e' he'
      rw [Dict.get?_set]
      rcases List.mem_append.mp he' with he' | he'
      · have : ¬ e'.name = e.name := fun hh =>
          hn.2.2 _ (List.mem_map.mpr ⟨e', he', rfl⟩) _ (by simp) hh
        simp only [Ne.symm this, if_false]
        exact h1 e' he'
      · rw [List.mem_singleton.mp he']
        simp
    · intro x hx'
      rw [List.map_append, List.mem_append, not_or] at hx'
      have : ¬ x = e.name := fun hh => hx'.2 (by simp [hh])
      rw [Dict.get?_set]
      simp only [Ne.symm this, if_false]
      exact h2 x hx'.1

/-- **C127**: the boundary values of a variable are those it has in the model, not a number where it has none there; an
observed variable starts at zero. -/
theorem C127_bounds (hn : m.endogNames.Nodup) (h : observedModel env nan m exprs = .ok om) :
    (∀ (i : Nat) e, m.endog[i]? = some e → ∃ e', om.endog[i]? = some e' ∧ e'.name = e.name ∧
      e'.initial = some (e.initial.getD nan) ∧ e'.terminal = some (e.terminal.getD nan) ∧
      e'.historical = some (e.historical.getD nan)) ∧
    ∀ (j : Nat) p, exprs[j]? = some p → p.1 ∉ m.endogNames → ∃ e', om.endog[m.endog.length + j]? = some e' ∧
      e'.name = p.1 ∧ e'.initial = some 0 ∧ e'.terminal = none ∧ e'.historical = none := by
  obtain ⟨-, es, params, ll, -, -, -, -, -, -, -, h6, -, -⟩ := observedModel_inv h
  rw [h6]
  constructor
  · intro i e hi
    have hmem := List.mem_of_getElem? hi
    have hi' : (m.endogNames ++ exprs.map Prod.fst)[i]? = some e.name := by
      rw [List.getElem?_append_left]
      · simp [MState.endogNames, hi]
      · have := (List.getElem?_eq_some_iff.mp hi).1
        simpa [MState.endogNames] using this
    rw [List.getElem?_map, hi']
    refine ⟨_, rfl, Endog.create_named .., ?_⟩
    dsimp only
    rw [(boundDict_get hn).1 e hmem, (boundDict_get hn).1 e hmem, (boundDict_get hn).1 e hmem]
    exact ⟨rfl, rfl, rfl⟩
  · intro j p hj hp
    have hj' : (m.endogNames ++ exprs.map Prod.fst)[m.endog.length + j]? = some p.1 := by
      rw [List.getElem?_append_right (by simp [MState.endogNames])]
      simp [MState.endogNames, hj]
    rw [List.getElem?_map, hj']
    refine ⟨_, rfl, Endog.create_named .., ?_⟩
    dsimp only
    rw [(boundDict_get hn).2 _ hp, (boundDict_get hn).2 _ hp, (boundDict_get hn).2 _ hp]
    exact ⟨rfl, rfl, rfl⟩

omit [Zero V] in
theorem scopeOf_empty (c : Calibration V) : scopeOf c ⟨[], []⟩ = c.val := by
  funext x
  rfl

theorem steadyFuncs_at {ops : Ops V} {okName : String → Bool} {endo : List String} {σ : String → Option V} :
    ∀ {es : List (Expr V)} {fs : List (List V → Except Err V)}, steadyFuncs ops okName endo σ es = .ok fs →
    fs.length = es.length ∧ ∀ (i : Nat) e, es[i]? = some e → ∃ f, fs[i]? = some f ∧ steadyFunc ops okName endo σ e = .ok f := by
  intro es
  induction es with
  | nil => intro fs h; cases h; simp
  | cons e es ih =>
    intro fs h
    simp only [steadyFuncs, Except.bind_ok_iff, Except.ok.injEq] at h
    obtain ⟨f, h1, fs', h2, rfl⟩ := h
    obtain ⟨i1, i2⟩ := ih h2
    refine ⟨by simp [i1], fun i e' hi => ?_⟩
    cases i with
    | zero => cases hi; exact ⟨f, rfl, h1⟩
    | succ i => exact i2 i e' hi

theorem readsSteady_append {σ : String → Option V} {endo obs : List String} {ys zs : List V}
    (hy : ys.length = endo.length) {x : String} (hx : x ∉ obs) (v : V) :
    ReadsSteady σ endo ys x v ↔ ReadsSteady σ (endo ++ obs) (ys ++ zs) x v := by
  have hget : ∀ {i : Nat} {w : V}, endo[i]? = some x → ((ys ++ zs)[i]? = some w ↔ ys[i]? = some w) := by
    intro i w hi
    rw [List.getElem?_append_left (by rw [hy]; exact (List.getElem?_eq_some_iff.mp hi).1)]
  constructor
  · rintro (h | ⟨h0, h1, h2⟩ | ⟨h0, h1⟩)
    · exact .param h
    · refine .endog h0 ?_ ((hget h1).mpr h2)
      rw [List.getElem?_append_left (List.getElem?_eq_some_iff.mp h1).1]
      exact h1
    · exact .shock h0 (by simp [h1, hx])
  · rintro (h | ⟨h0, h1, h2⟩ | ⟨h0, h1⟩)
    · exact .param h
    · rename_i i
      have hi : endo[i]? = some x := by
        by_cases hlt : i < endo.length
        · rwa [List.getElem?_append_left hlt] at h1
        · rw [List.getElem?_append_right (by omega)] at h1
          exact absurd (List.mem_of_getElem? h1) hx
      exact .endog h0 hi ((hget hi).mp h2)
    · exact .shock h0 (by simpa [hx] using h1)

/-- **C127** in part: if the model has no local variables, an equation `left = right` of the model in which no observed
variable occurs has, in the observed model, the same steady residual as in the model, whatever the values of the
observed variables.  What is missing: models with local variables, for which this is false. -/
theorem C127_steady_partial [One V] [Mul V] {a : MArgs V} (hk : a.params.keys.Nodup) (hc : MState.create env a = .ok m)
    (hloc : a.locals = []) (h : observedModel env nan m exprs = .ok om) {i : Nat} {l r : Expr V}
    (hi : m.exprs.exprs[i]? = some (.bin .sub l r))
    (hv : ∀ p ∈ exprs, p.1 ∉ (Expr.bin .sub l r).vars ∧ ∀ o, (p.1, o) ∉ (Expr.bin .sub l r).pvars) :
    ∃ f g, m.steady[i]? = some f ∧ om.steady[i]? = some g ∧
      ∀ ys zs : List V, ys.length = m.endog.length → zs.length = exprs.length → ∀ v, f ys = .ok v ↔ g (ys ++ zs) = .ok v := by
  obtain ⟨params, locals, c1, c2, c3⟩ := create_build hc
  have hfr := (create_fresh c3).1
  have hml : m.locals = ⟨[], []⟩ ∧ m.params = params := by
    simp only [MState.build, Except.bind_ok_iff, Except.ok.injEq] at c3
    obtain ⟨ll, h1, st, h2, sto, h3, det, h4, idx, h5, dy, h6, ss, h7, rfl⟩ := c3
    rw [hloc] at c2
    cases c2
    exact ⟨rfl, rfl⟩
  have hsv : Solved env.ops params := solved_create hk c1
  obtain ⟨-, es, params', ll, -, h2, h3, -, -, -, -, -, h7, -⟩ := observedModel_inv h
  rw [hml.2, nest_eq hsv] at h3
  cases h3
  have hsc : m.scope = scopeOf params ⟨[], []⟩ := by
    unfold MState.scope
    rw [hml.1, hml.2]
  have hst := hfr.steady
  rw [hsc] at hst
  obtain ⟨f, f1, f2⟩ := (steadyFuncs_at hst).2 i _ hi
  have hi' : om.exprs.exprs[i]? = some (.bin .sub l r) := by
    rw [h2, List.getElem?_append_left (List.getElem?_eq_some_iff.mp hi).1]
    exact hi
  obtain ⟨g, g1, g2⟩ := (steadyFuncs_at h7).2 i _ hi'
  refine ⟨f, g, f1, g1, fun ys zs hy hz v => ?_⟩
  have hy' : ys.length = m.endogNames.length := by simpa [MState.endogNames] using hy
  rw [C34_steady_residual _ _ _ _ l r f2 hy' v, C34_steady_residual _ _ _ _ l r g2 (by simp [hy', hz]) v]
  have hV : ∀ x ∈ (Expr.bin BinOp.sub l r).vars, x ∉ exprs.map Prod.fst := by
    intro x hx hm
    obtain ⟨p, hp, rfl⟩ := List.mem_map.mp hm
    exact (hv p hp).1 hx
  have hP : ∀ x o, (x, o) ∈ (Expr.bin BinOp.sub l r).pvars → x ∉ exprs.map Prod.fst := by
    intro x o hx hm
    obtain ⟨p, hp, rfl⟩ := List.mem_map.mp hm
    exact (hv p hp).2 o hx
  have key : ∀ e : Expr V, (∀ x ∈ e.vars, x ∈ (Expr.bin BinOp.sub l r).vars) →
      (∀ q ∈ e.pvars, q ∈ (Expr.bin BinOp.sub l r).pvars) → ∀ w,
      PEvals env.ops (ReadsSteady (scopeOf params ⟨[], []⟩) m.endogNames ys)
        (fun x _ => ReadsSteady (scopeOf params ⟨[], []⟩) m.endogNames ys x) e w ↔
      PEvals env.ops (ReadsSteady (scopeOf params ⟨[], []⟩) (m.endogNames ++ exprs.map Prod.fst) (ys ++ zs))
        (fun x _ => ReadsSteady (scopeOf params ⟨[], []⟩) (m.endogNames ++ exprs.map Prod.fst) (ys ++ zs) x) e w := by
    intro e h1 h2 w
    constructor <;> intro hh
    · exact hh.congr (fun x hx v hr => (readsSteady_append hy' (hV x (h1 x hx)) v).mp hr)
        (fun x o hx v hr => (readsSteady_append hy' (hP x o (h2 _ hx)) v).mp hr)
    · exact hh.congr (fun x hx v hr => (readsSteady_append hy' (hV x (h1 x hx)) v).mpr hr)
        (fun x o hx v hr => (readsSteady_append hy' (hP x o (h2 _ hx)) v).mpr hr)
  constructor
  · rintro ⟨x, y, hx, hy, hs⟩
    exact ⟨x, y, (key l (fun _ h => by simp [Expr.vars, h]) (fun _ h => by simp [Expr.pvars, h]) x).mp hx,
      (key r (fun _ h => by simp [Expr.vars, h]) (fun _ h => by simp [Expr.pvars, h]) y).mp hy, hs⟩
  · rintro ⟨x, y, hx, hy, hs⟩
    exact ⟨x, y, (key l (fun _ h => by simp [Expr.vars, h]) (fun _ h => by simp [Expr.pvars, h]) x).mpr hx,
      (key r (fun _ h => by simp [Expr.vars, h]) (fun _ h => by simp [Expr.pvars, h]) y).mpr hy, hs⟩

/-- **C127** in part: in a model without local variables, where the equation of observed variable `k` was read as
`z = right` and `z` is no parameter, its steady residual is the value given for `z` minus that of the expression. -/
theorem C127_observation_partial [One V] [Mul V] {a : MArgs V} (hk : a.params.keys.Nodup)
    (hc : MState.create env a = .ok m) (hloc : a.locals = [])
    (h : observedModel env nan m exprs = .ok om) {k : Nat} {z t : String} {r : Expr V}
    (hz : exprs[k]? = some (z, t)) (hp : env.parse (z ++ " = " ++ t) = .ok (.bin .sub (.var z) r))
    (hno : m.scope z = none) :
    ∃ g, om.steady[m.exprs.exprs.length + k]? = some g ∧
      ∀ ys zs : List V, ys.length = m.endog.length → zs.length = exprs.length → ∀ v, g (ys ++ zs) = .ok v ↔
        ∃ x b, zs[k]? = some x ∧
          PEvals env.ops (ReadsSteady m.scope om.endogNames (ys ++ zs)) (fun y _ => ReadsSteady m.scope om.endogNames (ys ++ zs) y) r b ∧
          env.ops.bin .sub x b = .ok v := by
  obtain ⟨params, locals, c1, c2, c3⟩ := create_build hc
  have hml : m.locals = ⟨[], []⟩ ∧ m.params = params := by
    simp only [MState.build, Except.bind_ok_iff, Except.ok.injEq] at c3
    obtain ⟨ll, h1, st, h2, sto, h3, det, h4, idx, h5, dy, h6, ss, h7, rfl⟩ := c3
    rw [hloc] at c2
    cases c2
    exact ⟨rfl, rfl⟩
  have hsv : Solved env.ops params := solved_create hk c1
  have hnames := (C127_contains h).1
  obtain ⟨-, es, params', ll, he, h2, h3, -, -, -, -, -, h7, -⟩ := observedModel_inv h
  rw [hml.2, nest_eq hsv] at h3
  cases h3
  have hsc : m.scope = scopeOf params ⟨[], []⟩ := by
    unfold MState.scope
    rw [hml.1, hml.2]
  rw [← hsc, ← hnames] at h7
  have hek : es[k]? = some (.bin .sub (.var z) r) := by
    have := congrArg (fun l => l[k]?) he
    simp only [List.getElem?_map, hz, Option.map_some, hp] at this
    cases hh : es[k]? with
    | none => rw [hh] at this; cases this
    | some e => rw [hh] at this; simp only [Option.map_some, Option.some.injEq, Except.ok.injEq] at this; rw [this]
  have hek' : om.exprs.exprs[m.exprs.exprs.length + k]? = some (.bin .sub (.var z) r) := by
    rw [h2, List.getElem?_append_right (by omega)]
    simpa using hek
  obtain ⟨g, g1, g2⟩ := (steadyFuncs_at h7).2 _ _ hek'
  refine ⟨g, g1, fun ys zs hy hzl v => ?_⟩
  have hlen : (ys ++ zs).length = om.endogNames.length := by rw [hnames]; simp [MState.endogNames, hy, hzl]
  have hnd : om.endogNames.Nodup := (steadyFunc_run rfl g2 hlen).1
  rw [C34_steady_residual _ _ _ _ (.var z) r g2 hlen v]
  have hkz : om.endogNames[m.endog.length + k]? = some z := by
    rw [hnames, List.getElem?_append_right (by simp [MState.endogNames])]
    simp [MState.endogNames, hz]
  have hzs : ∀ x, (ys ++ zs)[m.endog.length + k]? = some x ↔ zs[k]? = some x := by
    intro x
    rw [List.getElem?_append_right (by omega), ← hy]
    simp
  have hval : ∀ x, PEvals env.ops (ReadsSteady m.scope om.endogNames (ys ++ zs))
      (fun y _ => ReadsSteady m.scope om.endogNames (ys ++ zs) y) (.var z) x ↔ zs[k]? = some x := by
    intro x
    constructor
    · intro hh
      cases hh with
      | var hr =>
        rcases hr with hr | ⟨-, r1, r2⟩ | ⟨-, r1⟩
        · rw [hno] at hr; cases hr
        · have := getElem?_inj_of_nodup hnd r1 hkz
          subst this
          exact (hzs x).mp r2
        · exact absurd (List.mem_of_getElem? hkz) r1
    · intro hh
      exact .var (.endog hno hkz ((hzs x).mpr hh))
  constructor
  · rintro ⟨x, b, hx, hb, hs⟩
    exact ⟨x, b, (hval x).mp hx, hb, hs⟩
  · rintro ⟨x, b, hx, hb, hs⟩
    exact ⟨x, b, (hval x).mpr hx, hb, hs⟩

end observed

/-- hypotheses met: `x = rho*x(-1) + e`, observed as `z = x` -/
example : ∃ m om, MState.create obsEnv toyArgs = .ok m ∧ observedModel obsEnv 0 m [("z", "x")] = .ok om ∧
    toyArgs.params.keys.Nodup ∧ toyArgs.locals = [] ∧ m.endogNames.Nodup ∧
    m.exprs.exprs[0]? = some eqAR ∧ "z" ∉ eqAR.vars ∧ (∀ o, ("z", o) ∉ eqAR.pvars) ∧
    obsEnv.parse ("z" ++ " = " ++ "x") = .ok (.bin .sub (.var "z") (.var "x")) ∧ m.scope "z" = none ∧
    om.endogNames = ["x", "z"] :=
  ⟨_, _, rfl, rfl, by decide, rfl, by decide, rfl, by decide, by simp [eqAR, Expr.pvars], by decide, rfl, rfl⟩

/-- is this value -/
def isVal (x : Except Err Int) (v : Int) : Bool := match x with
  | .ok w => w == v
  | .error _ => false

theorem isVal_eq {x : Except Err Int} {v : Int} (h : isVal x v = true) : x = .ok v := by
  cases x with
  | error e => cases h
  | ok w => simp only [isVal, beq_iff_eq] at h; rw [h]

def isKeyErr (x : Except Err Int) : Bool := match x with
  | .error .keyError => true
  | _ => false

theorem isKeyErr_eq {x : Except Err Int} (h : isKeyErr x = true) : x = .error .keyError := by
  unfold isKeyErr at h
  split at h
  · rfl
  · cases h

def localCheck (m om : MState Int Int Int) : Bool :=
  match m.steady, om.steady, m.dynamic, om.dynamic with
  | f :: _, g :: _, f' :: _, g' :: _ => isVal (f [5]) 0 && isVal (g [5, 5]) 5 && isVal (g [0, 0]) 0 && isVal (f' [5, 0]) 0 &&
      isKeyErr (g' [5, 5, 0])
  | _, _, _, _ => false

/-- **C127 is false**: an equation with a local variable, `x = k` where `k` is 5, is silently solved by zero in the
observed model, and its dynamic residual raises `KeyError` there. -/
theorem C127_false : ∃ m om f g f' g', MState.create obsEnv localArgs = .ok m ∧
    observedModel obsEnv 0 m [("z", "x")] = .ok om ∧
    m.steady[0]? = some f ∧ om.steady[0]? = some g ∧ m.dynamic[0]? = some f' ∧ om.dynamic[0]? = some g' ∧
    f [5] = .ok 0 ∧ g [5, 5] = .ok 5 ∧ g [0, 0] = .ok 0 ∧ f' [5, 0] = .ok 0 ∧ g' [5, 5, 0] = .error .keyError := by
  obtain ⟨m, hm, h⟩ := ok_of_check (x := MState.create obsEnv localArgs)
    (p := fun m => okAnd (observedModel obsEnv 0 m [("z", "x")]) (localCheck m)) (by decide +kernel)
  obtain ⟨om, hom, h⟩ := ok_of_check h
  unfold localCheck at h
  split at h
  case h_2 => cases h
  rename_i f _ g _ f' _ g' _ h1 h2 h3 h4
  simp only [Bool.and_eq_true] at h
  obtain ⟨⟨⟨⟨a1, a2⟩, a3⟩, a4⟩, a5⟩ := h
  exact ⟨m, om, f, g, f', g', hm, hom, by rw [h1]; rfl, by rw [h2]; rfl, by rw [h3]; rfl, by rw [h4]; rfl, isVal_eq a1, isVal_eq a2,
    isVal_eq a3, isVal_eq a4, isKeyErr_eq a5⟩

/-- **C127 is false**: a variable without a terminal value gets one that is not a number (for which 1000 stands here). -/
theorem C127_bounds_false : ∃ m om e e', MState.create obsEnv toyArgs = .ok m ∧
    observedModel obsEnv 1000 m [("z", "x")] = .ok om ∧ m.endog[0]? = some e ∧ om.endog[0]? = some e' ∧
    e'.name = e.name ∧ e.terminal = none ∧ e'.terminal = some 1000 := by
  obtain ⟨m, hm, h⟩ := ok_of_check (x := MState.create obsEnv toyArgs)
    (p := fun m => okAnd (observedModel obsEnv 1000 m [("z", "x")]) fun _ => decide m.endogNames.Nodup && match m.endog with
      | e :: _ => e.terminal.isNone
      | [] => false) (by decide +kernel)
  obtain ⟨om, hom, h⟩ := ok_of_check h
  simp only [Bool.and_eq_true, decide_eq_true_eq] at h
  obtain ⟨hn, h⟩ := h
  split at h
  case h_2 => cases h
  rename_i e es he
  have he0 : m.endog[0]? = some e := by rw [he]; rfl
  obtain ⟨e', h1, h2, -, h3, -⟩ := (C127_bounds hn hom).1 0 e he0
  have ht : e.terminal = none := by
    cases hh : e.terminal with
    | none => rfl
    | some v => rw [hh] at h; cases h
  rw [ht] at h3
  exact ⟨m, om, e, e', hm, hom, he0, h1, h2, ht, h3⟩

end Pynare

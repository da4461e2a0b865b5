import Verif.Lemmas.Report
import Verif.Examples.Report
import Verif.Props.Stats
/-!
# C128-C135: printed summaries of models and statistics
-/

namespace Pynare

set_option linter.unusedSectionVars false

section
variable {V : Type} [Field V] [LinearOrder V] [IsStrictOrderedRing V] [FloorRing V] {S : Statistics V} {sig pad : ℕ}
  {endog stoch : List Txt} {text : Txt}

/-! ### C128: tables of statistics -/

theorem namedTable_shows {title : Txt} {width : ℕ} {headings names : List Txt} {rows : List (List (Option V))}
    (h : namedTable title pad sig width headings names rows = .ok text) (ht : '\n' ∉ title)
    (hh : ∀ h ∈ headings, '\n' ∉ h) (hn : ∀ n ∈ names, Plain n) :
    TableShows sig title headings (names.zip rows) text := by
  obtain ⟨-, l, lp, -, h2, rfl⟩ := namedTable_ok h
  exact tableText_shows ht hh hn h2

/-- **C128.**  The table of moments shows beside the name of every variable its mean, its standard deviation, and the
square of that. -/
theorem C128_moments (h : momentsText S sig pad endog = .ok text) (hn : ∀ n ∈ endog, Plain n) :
    ∃ mean std, S.mean = .ok mean ∧ S.std = .ok std ∧ mean.length = std.length ∧
      TableShows sig "model moments:".toList ["mean".toList, "std dev".toList, "var".toList]
        (endog.zip (List.zipWith (fun m s => [some m, s, s.map fun x => x ^ 2]) mean std)) text := by
  unfold momentsText at h
  obtain ⟨mean, h1, h⟩ := Except.bind_ok_iff.1 h
  obtain ⟨std, h2, h⟩ := Except.bind_ok_iff.1 h
  obtain ⟨rows, h3, h⟩ := Except.bind_ok_iff.1 h
  unfold momentRows at h3
  split at h3
  · rename_i hl
    have := Except.ok.inj h3
    subst this
    refine ⟨mean, std, h1, h2, hl, ?_⟩
    have := namedTable_shows h (by decide) (by decide) hn
    have e : (fun (m : V) (s : Option V) => [some m, s, squareOf s]) = fun m s => [some m, s, s.map fun x => x ^ 2] := by
      funext m s
      cases s <;> simp [squareOf, sq]
    rw [e] at this
    exact this
  · cases h3

/-- **C128**: what the table of moments shows as standard deviations and variances are those of the variables. -/
theorem C128_variance {la : LinAlg V} {lyap : Lyap V} {sq : V → Option V} {t : Typer} {s : Space V} {gy gu sigma : Arr V}
    {std : List (Option V)} (h : stdList la lyap sq t s gy gu sigma = .ok std) :
    ∃ C, covArr la lyap t s gy gu sigma = .ok C ∧ std.length = C.r ∧
      ∀ c < C.r, RootOf sq (C.e c c) → ∃ r, std[c]? = some (some r) ∧ 0 ≤ r ∧ r ^ 2 = C.e c c ∧
        ((some r).map fun x => x ^ 2) = some (C.e c c) := by
  unfold stdList at h
  obtain ⟨v, h1, h⟩ := Except.bind_ok_iff.1 h
  unfold varList at h1
  obtain ⟨C, h0, h1⟩ := Except.bind_ok_iff.1 h1
  have := Except.ok.inj h1
  subst this
  have := Except.ok.inj h
  subst this
  refine ⟨C, h0, by simp, ?_⟩
  rintro c hc ⟨r, r1, r2, r3⟩
  refine ⟨r, ?_, r2, by rw [pow_two, r3], by simp [pow_two, r3]⟩
  simp [List.getElem?_map, List.getElem?_range hc, r1]

/-- **C128.**  The table of correlations shows beside the name of a variable and below that of another the correlation
of the two. -/
theorem C128_corr (h : corrText S sig pad endog = .ok text) (hn : ∀ n ∈ endog, Plain n) :
    ∃ R, S.corr = .ok R ∧ R.c = endog.length ∧
      TableShows sig "correlation:".toList endog
        (endog.zip ((List.range R.r).map fun i => (List.range R.c).map fun j => R.e i j)) text := by
  obtain ⟨a, l, lp, h1, h2, -, h4, rfl⟩ := corrText_ok h
  exact ⟨a, h1, h2.symm, tableText_shows (by decide) (fun n hm => (hn n hm).2.2) hn h4⟩

/-- **C128.**  The table of the decomposition of variances shows beside the name of a variable and below that of a shock
the share of that shock. -/
theorem C128_decomp (h : decompText S sig pad endog stoch = .ok text) (hn : ∀ n ∈ endog, Plain n)
    (hs : ∀ n ∈ stoch, Plain n) :
    ∃ D, S.decomp = .ok D ∧ D.c = stoch.length ∧
      TableShows sig "variance decomposition:".toList stoch
        (endog.zip ((List.range D.r).map fun i => (List.range D.c).map fun j => D.e i j)) text := by
  unfold decompText at h
  obtain ⟨D, h1, h⟩ := Except.bind_ok_iff.1 h
  exact ⟨D, h1, (namedTable_ok h).1.symm, namedTable_shows h (by decide) (fun n hm => (hs n hm).2.2) hn⟩

/-- the headings and the lines of a table, and where they come from -/
theorem TableShows.cell {d : ℕ} {title : Txt} {headings names : List Txt} {rows : List (List (Option V))} {t : Txt}
    (h : TableShows d title headings (names.zip rows) t) {k j : ℕ} {name : Txt} {row : List (Option V)} {x : Option V}
    (hn : names[k]? = some name) (hr : rows[k]? = some row) (hx : row[j]? = some x) :
    ∃ line cell, (linesOf t)[k + 2]? = some line ∧ (lineWords line)[0]? = some name ∧ (lineWords line)[j + 1]? = some cell ∧
      Shows d cell x := by
  obtain ⟨head, lines, h1, -, h3⟩ := h
  have hz : (names.zip rows)[k]? = some (name, row) := by
    rw [List.getElem?_zip_eq_some]
    exact ⟨hn, hr⟩
  obtain ⟨hlen, hall⟩ := List.forall₂_iff_get.1 h3
  obtain ⟨hk, he⟩ := List.getElem?_eq_some_iff.1 hz
  have hk' : k < lines.length := by omega
  have := hall k hk' hk
  rw [List.get_eq_getElem, List.get_eq_getElem, he] at this
  obtain ⟨cells, c1, c2⟩ := this
  obtain ⟨hlen2, hall2⟩ := List.forall₂_iff_get.1 c2
  obtain ⟨hj, hxe⟩ := List.getElem?_eq_some_iff.1 hx
  have hj' : j < cells.length := by simp only at hlen2; omega
  have h4 := hall2 j hj' hj
  rw [List.get_eq_getElem, List.get_eq_getElem, hxe] at h4
  refine ⟨lines[k], cells[j], ?_, ?_, ?_, h4⟩
  · rw [h1]; simp [hk']
  · rw [c1]; rfl
  · rw [c1]; simp [hj']

/-- The case: the three tables of a small model. -/
example : (∃ t, momentsText stStats 6 4 stNames = .ok t) ∧ (∃ t, corrText stStats 6 4 stNames = .ok t) ∧
    (∃ t, decompText stStats 6 4 stNames ["e".toList, "u".toList] = .ok t) ∧ (∀ n ∈ stNames, Plain n) := by
  refine ⟨?_, ?_, ?_, ?_⟩
  · obtain ⟨t, h, -⟩ := ok_of_check (x := momentsText stStats 6 4 stNames) (p := fun _ => true) (by decide +kernel)
    exact ⟨t, h⟩
  · obtain ⟨t, h, -⟩ := ok_of_check (x := corrText stStats 6 4 stNames) (p := fun _ => true) (by decide +kernel)
    exact ⟨t, h⟩
  · obtain ⟨t, h, -⟩ := ok_of_check (x := decompText stStats 6 4 stNames ["e".toList, "u".toList]) (p := fun _ => true)
      (by decide +kernel)
    exact ⟨t, h⟩
  · unfold Plain; decide

/-! ### C129: lags -/

/-- **C129**, what holds: in the table of autocorrelations, the column with heading `p = i` shows the correlation of each
variable with itself `i + 1` periods later. -/
theorem C129_lag_partial {la : LinAlg V} {lyap : Lyap V} {sq : V → Option V} {t : Typer} {s : Space V}
    {gy gu sigma : Arr V} {lags : ℕ} (ly : LyapExact lyap) (sh : SolutionShape t gy gu)
    (hS : S.autocorr = autocorr la lyap sq t s gy gu sigma)
    (h : autocorrText S sig pad lags endog = .ok text) (hn : ∀ n ∈ endog, Plain n) :
    ∃ R : List (List (Option V)), R.length = t.n ∧
      TableShows sig "autocovariance of endogenous variables:".toList ((List.range lags).map lagHeading) (endog.zip R) text ∧
    ∃ X, stateVar la lyap t s gy gu sigma = .ok X ∧
    ∀ {M : Type} [AddCommGroup M] [Module V M] {cov : M →ₗ[V] M →ₗ[V] V} {y u : Nat → Nat → M},
      LinearProcess t gu.c gy gu sigma cov y u → StartsWith t X cov y →
      ∀ k, ∀ c < t.n, ∃ row, R[c]? = some row ∧ row.length = lags ∧ ∀ i < lags,
        row[i]? = some (scaled (cov (y (k + 1 + (i + 1)) c) (y (k + 1) c))
          (sq (cov (y (k + 1) c) (y (k + 1) c))) (sq (cov (y (k + 1) c) (y (k + 1) c)))) := by
  unfold autocorrText at h
  obtain ⟨as, h1, h⟩ := Except.bind_ok_iff.1 h
  rw [hS] at h1
  unfold autocorr at h1
  obtain ⟨acv, a1, h1⟩ := Except.bind_ok_iff.1 h1
  obtain ⟨C, a2, h1⟩ := Except.bind_ok_iff.1 h1
  have := Except.ok.inj h1
  subst this
  obtain ⟨l1, X, hX, hlag⟩ := C64_lag_partial ly sh a1
  obtain ⟨c1, c2, X', hX', hcov⟩ := C62_stationary ly sh a2
  have : X' = X := Except.ok.inj (hX'.symm.trans hX)
  subst this
  have hshow := namedTable_shows h (by decide) (by
    intro h hh
    obtain ⟨i, -, rfl⟩ := List.mem_map.1 hh
    unfold lagHeading
    intro hm
    rcases List.mem_append.1 hm with hm | hm
    · revert hm; decide
    · exact not_mem_of_digits toDigits_digit (by decide) hm) hn
  have hlags : lags ≠ 0 := by
    rintro rfl
    obtain ⟨-, l, lp, hl', -, -⟩ := namedTable_ok h
    have : acv = [] := by simpa using l1
    subst this
    simp [diagRows, leftDigits] at hl'
  cases acv with
  | nil => exact absurd l1.symm hlags
  | cons a0 acv =>
    obtain ⟨b, b1, b2, b3, -⟩ := hlag 0 (by omega)
    have hb : a0 = b := by simpa using b1
    subst hb
    refine ⟨_, ?_, hshow, X', hX, ?_⟩
    · simp [diagRows, b2]
    · intro M _ _ cov y u hp h0 k c hc
      have hv := (hcov hp h0 k).2 c hc c hc
      rw [hv]
      refine ⟨_, by simp only [List.map_cons, diagRows]; rw [List.getElem?_map, List.getElem?_range (by rw [b2]; exact hc)]; rfl,
        by simpa using l1, ?_⟩
      intro i hi
      obtain ⟨a, e1, -, -, e4⟩ := hlag i hi
      rw [e4 hp h0 k c hc c hc]
      have : ((a0 :: acv).map fun a : Arr V => (⟨a.r, a.c, fun i j => scaled (a.e i j) (sq (C.e i i)) (sq (C.e j j))⟩ :
          Arr (Option V)))[i]? = some ⟨a.r, a.c, fun i j => scaled (a.e i j) (sq (C.e i i)) (sq (C.e j j))⟩ := by
        rw [List.getElem?_map, e1]; rfl
      have := congrArg (Option.map fun b : Arr (Option V) => b.e c c) this
      rw [← List.getElem?_map] at this
      exact this

end

/-- **C129** does not hold: the column with heading `p = 0` does not show the correlation within a period, which is one. -/
theorem C129_false : ∃ t line, autocorrText stStats 6 4 2 stNames = .ok t ∧ (linesOf t)[2]? = some line ∧
    (lineWords ((linesOf t)[1]?.getD [])).take 3 = ["p".toList, "=".toList, "0".toList] ∧
    (lineWords line).take 2 = ["c".toList, "0.800000".toList] := by
  obtain ⟨t, h, hc⟩ := ok_of_check (x := autocorrText stStats 6 4 2 stNames)
    (p := fun t => match (linesOf t)[2]? with
      | some line => decide ((lineWords ((linesOf t)[1]?.getD [])).take 3 = ["p".toList, "=".toList, "0".toList]) &&
          decide ((lineWords line).take 2 = ["c".toList, "0.800000".toList])
      | none => false) (by decide +kernel)
  split at hc
  · rename_i line hl
    rw [Bool.and_eq_true, decide_eq_true_eq, decide_eq_true_eq] at hc
    exact ⟨t, line, h, hl, hc.1, hc.2⟩
  · cases hc

section
variable {V : Type} [Field V] [LinearOrder V] [IsStrictOrderedRing V] [FloorRing V] {S : Statistics V} {sig pad : ℕ}
  {endog stoch : List Txt} {text : Txt}

/-! ### C130: which summaries can be printed -/

theorem feature_variables (s : ModelSummary V) :
    s.feature "variables" = (s, .ok (if s.vars then [variablesText s.view s.pad] else [])) := by
  unfold ModelSummary.feature
  rw [if_pos rfl]

theorem feature_eigen (s : ModelSummary V) : s.feature "eigen" =
    (s, if s.eigen then (eigenText s.view s.sig s.pad).map fun t => [t] else .ok []) := by
  unfold ModelSummary.feature
  rw [if_neg (by decide), if_pos rfl]

theorem feature_stoch (s : ModelSummary V) : s.feature "stoch" =
    (s, if s.stoch then (stochText s.view s.sig s.pad).map fun t => [t] else .ok []) := by
  unfold ModelSummary.feature
  rw [if_neg (by decide), if_neg (by decide), if_pos rfl]

theorem feature_params (s : ModelSummary V) : s.feature "params" =
    if s.params.truth then
      ({ s with params := (paramsText s.view s.sig s.pad s.params).1 },
        (paramsText s.view s.sig s.pad s.params).2.map fun t => [t])
    else (s, .ok []) := by
  unfold ModelSummary.feature
  rw [if_neg (by decide), if_neg (by decide), if_neg (by decide), if_pos rfl]

theorem summary_print (m : ModelView V) : ({ view := m, only := .seq modelFeatures } : ModelSummary V).print.2 =
    (do
      let a ← eigenText m 6 4
      let b ← stochText m 6 4
      let c ← paramLines 6 4 m.params
      .ok (joinTxt ['\n', '\n'] ["model summary:".toList, variablesText m 4, a, b,
        joinTxt ['\n'] ("model calibration:".toList :: c)])) := by
  have h1 : NamesArg.truth (.str "all") = true := by decide
  rcases ha : eigenText m 6 4 with e | a
  · simp only [ModelSummary.print, NamesArg.visit, modelFeatures, ModelSummary.sections, feature_variables, feature_eigen,
      if_true, ha, Except.map]
    rfl
  · rcases hb : stochText m 6 4 with e | b
    · simp only [ModelSummary.print, NamesArg.visit, modelFeatures, ModelSummary.sections, feature_variables, feature_eigen,
        feature_stoch, if_true, ha, hb, Except.map]
      rfl
    · rcases hc : paramLines 6 4 m.params with e | c
      · simp only [ModelSummary.print, NamesArg.visit, modelFeatures, ModelSummary.sections, feature_variables, feature_eigen,
          feature_stoch, feature_params, if_true, ha, hb, hc, h1, paramsText, Except.map]
        rfl
      · simp only [ModelSummary.print, NamesArg.visit, modelFeatures, ModelSummary.sections, feature_variables, feature_eigen,
          feature_stoch, feature_params, if_true, ha, hb, hc, h1, paramsText, Except.map]
        rfl

theorem eigenText_error {m : ModelView V} {es : List (Eigen V)} (h : m.eigen = .ok es)
    (hn : ¬ ∃ e ∈ es, ∃ x, x ≠ 0 ∧ (e.re = .fin x ∨ e.im = .fin x ∨ e.mod = .fin x)) :
    eigenText m sig pad = .error .valueError := by
  have h1 : ¬ ∃ t, eigenText m sig pad = .ok t := by
    rw [eigenText_ok_iff]
    rintro ⟨es', h', hx⟩
    have := Except.ok.inj (h'.symm.trans h)
    subst this
    exact hn hx
  unfold eigenText at h1 ⊢
  rw [h] at h1 ⊢
  dsimp only [bind, Except.bind] at h1 ⊢
  split
  · rfl
  · rename_i hg
    rw [if_neg hg] at h1
    exact absurd ⟨_, rfl⟩ h1

/-- **C130**, what holds: the summary of a model can be printed if and only if it has eigenvalues that are not all zero or
infinite, shocks whose covariances are not all zero, and parameters that are not all zero. -/
theorem C130_iff_partial (m : ModelView V) :
    (∃ s t, ModelSummary.make { view := m } = .ok s ∧ s.print.2 = .ok t) ↔
      (∃ es, m.eigen = .ok es ∧ ∃ e ∈ es, ∃ x, x ≠ 0 ∧ (e.re = .fin x ∨ e.im = .fin x ∨ e.mod = .fin x)) ∧
      (m.stoch ≠ [] ∧ ∃ sigma, m.sigma = .ok sigma ∧ ∃ row ∈ sigma, ∃ x ∈ row, x ≠ 0) ∧
      ∃ p ∈ m.params, p.2 ≠ 0 := by
  rw [← eigenText_ok_iff (sig := 6) (pad := 4), ← stochText_ok_iff (sig := 6) (pad := 4),
    ← paramLines_ok_iff (sig := 6) (pad := 4)]
  have hm : ModelSummary.make { view := m } = .ok { view := m, only := .seq modelFeatures } := rfl
  have hp := summary_print m
  constructor
  · rintro ⟨s, t, h1, h2⟩
    rw [hm] at h1
    have := Except.ok.inj h1
    subst this
    rw [hp] at h2
    obtain ⟨a, ha, h2⟩ := Except.bind_ok_iff.1 h2
    obtain ⟨b, hb, h2⟩ := Except.bind_ok_iff.1 h2
    obtain ⟨c, hc, h2⟩ := Except.bind_ok_iff.1 h2
    exact ⟨⟨a, ha⟩, ⟨b, hb⟩, ⟨c, hc⟩⟩
  · rintro ⟨⟨a, ha⟩, ⟨b, hb⟩, ⟨c, hc⟩⟩
    refine ⟨_, joinTxt ['\n', '\n'] ["model summary:".toList, variablesText m 4, a, b,
          joinTxt ['\n'] ("model calibration:".toList :: c)], hm, ?_⟩
    rw [hp, ha, hb, hc]
    rfl

/-- **C130**, for calibrations: one can be printed if and only if some parameter is not zero. -/
theorem C130_calib_partial (params : Dict V) : (∃ t, calibText params = .ok t) ↔ ∃ p ∈ params, p.2 ≠ 0 := by
  rw [← paramLines_ok_iff (sig := 6) (pad := 4)]
  constructor
  · rintro ⟨t, h⟩
    obtain ⟨ls, h, -⟩ := Except.bind_ok_iff.1 h
    exact ⟨ls, h⟩
  · rintro ⟨ls, h⟩
    exact ⟨_, by unfold calibText; rw [h]; rfl⟩

/-- **C130**, for moments: they can be printed if and only if there are means and standard deviations and they are not all
zero or undefined. -/
theorem C130_moments_partial : (∃ t, momentsText S sig pad endog = .ok t) ↔
    ∃ mean std, S.mean = .ok mean ∧ S.std = .ok std ∧ mean.length = std.length ∧
      ((∃ x ∈ mean, x ≠ 0) ∨ ∃ x, some x ∈ std ∧ x ≠ 0) := by
  have hrows : ∀ (mean : List V) (std : List (Option V)), mean.length = std.length →
      ((∃ row ∈ List.zipWith (fun m s => [some m, s, squareOf s]) mean std, ∃ x, some x ∈ row ∧ x ≠ 0) ↔
        ((∃ x ∈ mean, x ≠ 0) ∨ ∃ x, some x ∈ std ∧ x ≠ 0)) := by
    intro mean
    induction mean with
    | nil =>
      intro std hl
      have : std = [] := List.length_eq_zero_iff.1 hl.symm
      subst this
      simp
    | cons m mean ih =>
      intro std hl
      cases std with
      | nil => cases hl
      | cons s std =>
        have := ih std (by simpa using hl)
        simp only [List.zipWith_cons_cons, List.exists_mem_cons_iff, this]
        constructor
        · rintro (⟨x, hx, h0⟩ | h)
          · simp only [List.mem_cons, List.not_mem_nil, or_false] at hx
            rcases hx with hx | hx | hx
            · exact .inl (.inl (Option.some.inj hx ▸ h0))
            · exact .inr ⟨x, by simp [hx], h0⟩
            · cases s with
              | none => cases hx
              | some y =>
                have := Option.some.inj hx
                refine .inr ⟨y, by simp, ?_⟩
                rintro rfl
                exact h0 (by rw [this]; simp)
          · rcases h with ⟨x, hx, h0⟩ | ⟨x, hx, h0⟩
            · exact .inl (.inr ⟨x, hx, h0⟩)
            · exact .inr ⟨x, by simp [hx], h0⟩
        · rintro ((h0 | ⟨x, hx, h0⟩) | ⟨x, hx, h0⟩)
          · exact .inl ⟨m, by simp, h0⟩
          · exact .inr (.inl ⟨x, hx, h0⟩)
          · rcases List.mem_cons.1 hx with hx | hx
            · exact .inl ⟨x, by simp [hx], h0⟩
            · exact .inr (.inr ⟨x, hx, h0⟩)
  constructor
  · rintro ⟨t, h⟩
    unfold momentsText at h
    obtain ⟨mean, h1, h⟩ := Except.bind_ok_iff.1 h
    obtain ⟨std, h2, h⟩ := Except.bind_ok_iff.1 h
    obtain ⟨rows, h3, h⟩ := Except.bind_ok_iff.1 h
    unfold momentRows at h3
    split at h3
    · rename_i hl
      have := Except.ok.inj h3
      subst this
      exact ⟨mean, std, h1, h2, hl, (hrows mean std hl).1 (namedTable_ok_iff.1 ⟨t, h⟩).2⟩
    · cases h3
  · rintro ⟨mean, std, h1, h2, hl, h⟩
    obtain ⟨t, ht⟩ := (namedTable_ok_iff (title := "model moments:".toList) (pad := pad) (sig := sig) (width := 3)
      (headings := ["mean".toList, "std dev".toList, "var".toList]) (names := endog)).2 ⟨rfl, (hrows mean std hl).2 h⟩
    refine ⟨t, ?_⟩
    unfold momentsText momentRows
    rw [h1, h2]
    dsimp only [bind, Except.bind]
    rw [if_pos hl]
    exact ht

end

/-- **C130** does not hold: models without parameters, with parameters that are zero, with shocks of covariance zero,
without shocks, and with eigenvalues that are zero or infinite. -/
theorem C130_false :
    (∃ s, ModelSummary.make { view := { smallView with params := [] } } = .ok s ∧ s.print.2 = .error .valueError) ∧
    (∃ s, ModelSummary.make { view := { smallView with params := [("a", 0)] } } = .ok s ∧ s.print.2 = .error .overflowError) ∧
    (∃ s, ModelSummary.make { view := { smallView with sigma := .ok [[0, 0], [0, 0]] } } = .ok s ∧
      s.print.2 = .error .overflowError) ∧
    (∃ s, ModelSummary.make { view := { smallView with stoch := [], sigma := .ok [] } } = .ok s ∧
      s.print.2 = .error .valueError) ∧
    (∃ s, ModelSummary.make { view := { smallView with eigen := .ok [⟨.fin 0, .fin 0, .fin 0⟩, ⟨.inf false, .nan, .inf false⟩] } }
      = .ok s ∧ s.print.2 = .error .valueError) ∧
    calibText ([] : Dict ℚ) = .error .valueError ∧ calibText ([("a", 0)] : Dict ℚ) = .error .overflowError := by
  have he : ∀ m : ModelView ℚ, m.eigen = smallView.eigen → ∃ t, eigenText m 6 4 = .ok t := by
    intro m hm
    rw [eigenText_ok_iff, hm]
    exact ⟨_, rfl, ⟨.fin (3/5), .fin 0, .fin (3/5)⟩, by simp, 3/5, by norm_num, .inl rfl⟩
  refine ⟨⟨_, rfl, ?_⟩, ⟨_, rfl, ?_⟩, ⟨_, rfl, ?_⟩, ⟨_, rfl, ?_⟩, ⟨_, rfl, ?_⟩, by decide +kernel, by decide +kernel⟩
  · refine (summary_print _).trans ?_
    obtain ⟨t, ht⟩ := he { smallView with params := [] } rfl
    obtain ⟨u, hu, -⟩ := ok_of_check (x := stochText { smallView with params := [] } 6 4) (p := fun _ => true) (by decide +kernel)
    rw [ht, hu]
    rfl
  · refine (summary_print _).trans ?_
    obtain ⟨t, ht⟩ := he { smallView with params := [("a", 0)] } rfl
    obtain ⟨u, hu, -⟩ := ok_of_check (x := stochText { smallView with params := [("a", 0)] } 6 4) (p := fun _ => true)
      (by decide +kernel)
    have hp : paramLines 6 4 ([("a", 0)] : Dict ℚ) = .error .overflowError := by decide +kernel
    rw [ht, hu]
    dsimp only [bind, Except.bind]
    rw [hp]
  · refine (summary_print _).trans ?_
    obtain ⟨t, ht⟩ := he { smallView with sigma := .ok [[0, 0], [0, 0]] } rfl
    have hs : stochText { smallView with sigma := .ok [[0, 0], [0, 0]] } 6 4 = .error .overflowError := by decide +kernel
    rw [ht, hs]
    rfl
  · refine (summary_print _).trans ?_
    obtain ⟨t, ht⟩ := he { smallView with stoch := [], sigma := .ok [] } rfl
    have hs : stochText { smallView with stoch := [], sigma := .ok [] } 6 4 = .error .valueError := by decide +kernel
    rw [ht, hs]
    rfl
  · refine (summary_print _).trans ?_
    rw [eigenText_error rfl (by
      rintro ⟨e, h, x, hx, hc⟩
      simp only [List.mem_cons, List.not_mem_nil, or_false] at h
      rcases h with rfl | rfl
      · simp only [XNum.fin.injEq] at hc
        rcases hc with h | h | h <;> exact hx h.symm
      · rcases hc with h | h | h <;> cases h)]
    rfl

/-- The case: a model whose summary can be printed. -/
example : ∃ s t, ModelSummary.make { view := smallView } = .ok s ∧ s.print.2 = .ok t :=
  (C130_iff_partial smallView).2 ⟨⟨_, rfl, ⟨.fin (3/5), .fin 0, .fin (3/5)⟩, by simp, 3/5, by norm_num, .inl rfl⟩,
    ⟨by simp [smallView], _, rfl, [16, 13/5], by simp, 16, by simp, by norm_num⟩, ("a", 1/3), by simp [smallView], by norm_num⟩

/-! ### C131: parameters -/

section
variable {V : Type} [Field V] [LinearOrder V] [IsStrictOrderedRing V] [FloorRing V] {m : ModelView V} {sig pad : ℕ} {text : Txt}

theorem forall₂_and {α β : Type} {R : α → β → Prop} {Q : β → Prop} {as : List α} {bs : List β} (h : List.Forall₂ R as bs)
    (hq : ∀ b ∈ bs, Q b) : List.Forall₂ (fun a b => R a b ∧ Q b) as bs := by
  induction h with
  | nil => exact .nil
  | cons h _ ih => exact .cons ⟨h, hq _ (by simp)⟩ (ih fun b hb => hq b (by simp [hb]))

/-- **C131**, what holds: if a list of names is given, then exactly these parameters are shown, each once, in the order of
the list, with their values; and the list can be used again. -/
theorem C131_list_partial {ps : List String} (h : (paramsText m sig pad (.seq ps)).2 = .ok text)
    (hn : ∀ p ∈ ps, Plain p.toList) :
    (paramsText m sig pad (.seq ps)).1 = .seq ps ∧
    ∃ lines names, linesOf text = "partial model calibration:".toList :: lines ∧ names.Sublist ps ∧ names.Nodup ∧
      (∀ p, p ∈ names ↔ p ∈ ps) ∧
      List.Forall₂ (fun line p => ∃ v, m.params.get? p = some v ∧ ParamShows sig line (p, v)) lines names := by
  have e : paramsText m sig pad (.seq ps) = (.seq ps, do
      let d ← pickParams m.params [] ps
      let ls ← paramLines sig pad d
      .ok (joinTxt ['\n'] ("partial model calibration:".toList :: ls))) := by
    unfold paramsText
    rw [if_neg (by intro h; cases h)]
    rfl
  rw [e] at h ⊢
  refine ⟨rfl, ?_⟩
  dsimp only at h
  obtain ⟨d, h1, h⟩ := Except.bind_ok_iff.1 h
  obtain ⟨ls, h2, h⟩ := Except.bind_ok_iff.1 h
  have := Except.ok.inj h
  subst this
  obtain ⟨k1, k2, k3, names, k4, k5⟩ := pickParams_ok h1 (by simp [Dict.keys]) (by simp)
  have k5' : d.keys = names := by simpa [Dict.keys] using k5
  have k3' : ∀ p, p ∈ d.keys ↔ p ∈ ps := by simpa [Dict.keys] using k3
  have hplain : ∀ p ∈ d, Plain p.1.toList := by
    intro p hp
    exact hn p.1 ((k3' p.1).1 (List.mem_map.2 ⟨p, hp, rfl⟩))
  obtain ⟨n1, n2⟩ := paramLines_shows h2 hplain
  refine ⟨ls, names, linesOf_join_lines ?_, k4, k5' ▸ k1, fun p => k5' ▸ k3' p, ?_⟩
  · intro t ht
    rcases List.mem_cons.1 ht with rfl | ht
    · decide
    · exact n1 t ht
  · rw [← k5']
    unfold Dict.keys
    rw [List.forall₂_map_right_iff]
    refine List.Forall₂.imp ?_ (forall₂_and n2 k2)
    rintro line p ⟨hs, hp⟩
    exact ⟨p.2, hp, hs⟩

/-- **C131**: without a choice all parameters are shown, in their order. -/
theorem C131_all (h : (paramsText m sig pad (.str "all")).2 = .ok text) (hn : ∀ p ∈ m.params, Plain p.1.toList) :
    ∃ lines, linesOf text = "model calibration:".toList :: lines ∧ List.Forall₂ (ParamShows sig) lines m.params := by
  unfold paramsText at h
  rw [if_pos rfl] at h
  dsimp only at h
  obtain ⟨ls, h2, h⟩ := Except.bind_ok_iff.1 h
  have := Except.ok.inj h
  subst this
  obtain ⟨n1, n2⟩ := paramLines_shows h2 hn
  refine ⟨ls, linesOf_join_lines ?_, n2⟩
  intro t ht
  rcases List.mem_cons.1 ht with rfl | ht
  · decide
  · exact n1 t ht

/-- **C131**: the text of a calibration shows all parameters, in their order. -/
theorem C131_calib {params : Dict V} (h : calibText params = .ok text) (hn : ∀ p ∈ params, Plain p.1.toList) :
    ∃ lines, linesOf text = "ModelCalibration".toList :: lines ∧ List.Forall₂ (ParamShows 6) lines params := by
  unfold calibText at h
  obtain ⟨ls, h2, h⟩ := Except.bind_ok_iff.1 h
  have := Except.ok.inj h
  subst this
  obtain ⟨n1, n2⟩ := paramLines_shows h2 hn
  refine ⟨ls, linesOf_join_lines ?_, n2⟩
  intro t ht
  rcases List.mem_cons.1 ht with rfl | ht
  · decide
  · exact n1 t ht

/-- **C131**: names that are no parameters are refused. -/
theorem C131_unknown {ps : List String} (h : ∃ p ∈ ps, p ∉ m.params.keys) :
    (paramsText m sig pad (.seq ps)).2 = .error .keyError := by
  have key : ∀ (ps : List String) (d : Dict V), (∃ p ∈ ps, p ∉ m.params.keys) → pickParams m.params d ps = .error .keyError := by
    intro ps
    induction ps with
    | nil => rintro d ⟨p, hp, -⟩; cases hp
    | cons q ps ih =>
      rintro d ⟨p, hp, hk⟩
      unfold pickParams
      split
      · rfl
      · rename_i v hq
        rcases List.mem_cons.1 hp with rfl | hp
        · exact absurd (Dict.mem_keys_of_get? hq) hk
        · exact ih _ ⟨p, hp, hk⟩
  unfold paramsText
  rw [if_neg (by intro h; cases h)]
  simp only [NamesArg.visit, key ps [] h]
  rfl

end

/-- **C131** does not hold: the name of a parameter is taken letter by letter, so that it is refused or other parameters
are shown; names from an iterator are shown once and then no more. -/
theorem C131_false :
    (paramsText smallView 6 4 (.str "beta")).2 = .error .keyError ∧ "beta" ∈ smallView.params.keys ∧
    (∃ t, (paramsText smallView 6 4 (.str "ab")).2 = .ok t ∧
      (linesOf t).map (fun l => (lineWords l).take 1) = [["partial".toList], ["a".toList], ["b".toList]]) ∧
    (∃ t, (paramsText smallView 6 4 (.once ["beta"])).2 = .ok t) ∧
    (paramsText smallView 6 4 (paramsText smallView 6 4 (.once ["beta"])).1).2 = .error .valueError := by
  refine ⟨by decide +kernel, by decide, ?_, ?_, by decide +kernel⟩
  · obtain ⟨t, h, hc⟩ := ok_of_check (x := (paramsText smallView 6 4 (.str "ab")).2)
      (p := fun t => decide ((linesOf t).map (fun l => (lineWords l).take 1) = [["partial".toList], ["a".toList], ["b".toList]]))
      (by decide +kernel)
    exact ⟨t, h, of_decide_eq_true hc⟩
  · obtain ⟨t, h, -⟩ := ok_of_check (x := (paramsText smallView 6 4 (.once ["beta"])).2) (p := fun _ => true)
      (by decide +kernel)
    exact ⟨t, h⟩

/-- The case: two of three parameters, in another order, one twice. -/
example : (∃ t, (paramsText smallView 6 4 (.seq ["b", "beta", "b"])).2 = .ok t) ∧
    (∃ t, (paramsText smallView 6 4 (.str "all")).2 = .ok t) ∧ (∀ p ∈ smallView.params, Plain p.1.toList) ∧
    (∃ p ∈ ["beta", "gamma"], p ∉ smallView.params.keys) := by
  refine ⟨?_, ?_, ?_, ?_⟩
  · obtain ⟨t, h, -⟩ := ok_of_check (x := (paramsText smallView 6 4 (.seq ["b", "beta", "b"])).2) (p := fun _ => true)
      (by decide +kernel)
    exact ⟨t, h⟩
  · obtain ⟨t, h, -⟩ := ok_of_check (x := (paramsText smallView 6 4 (.str "all")).2) (p := fun _ => true)
      (by decide +kernel)
    exact ⟨t, h⟩
  · unfold Plain; decide
  · decide

/-! ### C132: choice of features -/

section
variable {V : Type} [Field V] [LinearOrder V] [IsStrictOrderedRing V] [FloorRing V] {s s' : ModelSummary V} {text : Txt}

theorem sections_ok {fs : List String} {ts : List Txt} (h : (s.sections fs).2 = .ok ts) (hp : ∀ xs, s.params ≠ .once xs) :
    List.Forall₂ (SectionOf s) (fs.filter (switchedOn s)) ts := by
  induction fs generalizing ts with
  | nil =>
    have := Except.ok.inj h
    subst this
    exact .nil
  | cons f fs ih =>
    have key : ∀ us, (s.feature f).1 = s ∧ ((s.feature f).2 = .ok us →
        List.Forall₂ (SectionOf s) ([f].filter (switchedOn s)) us) := by
      intro us
      by_cases h1 : f = "variables"
      · subst h1
        rw [feature_variables]
        refine ⟨rfl, fun h => ?_⟩
        have := Except.ok.inj h
        subst this
        cases hv : s.vars
        · simp [switchedOn, hv]
        · simp only [switchedOn, hv, List.filter]
          exact .cons (.inl ⟨rfl, rfl⟩) .nil
      by_cases h2 : f = "eigen"
      · subst h2
        rw [feature_eigen]
        refine ⟨rfl, fun h => ?_⟩
        cases hv : s.eigen
        · rw [hv] at h
          have := Except.ok.inj h
          subst this
          simp [switchedOn, hv]
        · rw [hv] at h
          simp only [if_true] at h
          cases ht : eigenText s.view s.sig s.pad with
          | error e => rw [ht] at h; cases h
          | ok t =>
            rw [ht] at h
            have := Except.ok.inj h
            subst this
            simp only [switchedOn, hv, List.filter]
            exact .cons (.inr (.inl ⟨rfl, ht⟩)) .nil
      by_cases h3 : f = "stoch"
      · subst h3
        rw [feature_stoch]
        refine ⟨rfl, fun h => ?_⟩
        cases hv : s.stoch
        · rw [hv] at h
          have := Except.ok.inj h
          subst this
          simp [switchedOn, hv]
        · rw [hv] at h
          simp only [if_true] at h
          cases ht : stochText s.view s.sig s.pad with
          | error e => rw [ht] at h; cases h
          | ok t =>
            rw [ht] at h
            have := Except.ok.inj h
            subst this
            simp only [switchedOn, hv, List.filter]
            exact .cons (.inr (.inr (.inl ⟨rfl, ht⟩))) .nil
      by_cases h4 : f = "params"
      · subst h4
        have harg : (paramsText s.view s.sig s.pad s.params).1 = s.params := by
          unfold paramsText
          split
          · rfl
          · cases hq : s.params with
            | str x => rfl
            | seq xs => rfl
            | once xs => exact absurd hq (hp xs)
            | other => rfl
        rw [feature_params]
        cases hv : s.params.truth
        · simp only [Bool.false_eq_true, if_false]
          refine ⟨trivial, fun h => ?_⟩
          have := Except.ok.inj h
          subst this
          simp [switchedOn, hv]
        · simp only [if_true, harg]
          refine ⟨trivial, fun h => ?_⟩
          cases ht : (paramsText s.view s.sig s.pad s.params).2 with
          | error e => rw [ht] at h; cases h
          | ok t =>
            rw [ht] at h
            have := Except.ok.inj h
            subst this
            simp only [switchedOn, hv, List.filter]
            exact .cons (.inr (.inr (.inr ⟨rfl, ht⟩))) .nil
      · unfold ModelSummary.feature
        rw [if_neg h1, if_neg h2, if_neg h3, if_neg h4]
        exact ⟨rfl, fun h => by cases h⟩
    unfold ModelSummary.sections at h
    rcases hf : s.feature f with ⟨s1, e | us⟩
    · rw [hf] at h
      cases h
    · rw [hf] at h
      have k := key us
      rw [hf] at k
      obtain ⟨k1, k2⟩ := k
      simp only at k1
      subst k1
      dsimp only at h
      rcases hr : s1.sections fs with ⟨s2, e | rest⟩
      · rw [hr] at h
        cases h
      · rw [hr] at h
        have := Except.ok.inj h
        subst this
        have e : (f :: fs).filter (switchedOn s1) = [f].filter (switchedOn s1) ++ fs.filter (switchedOn s1) := by
          rw [← List.filter_append]
          rfl
        rw [e]
        exact List.rel_append (k2 rfl) (ih (by rw [hr]))

/-- **C132**, what holds: a summary made for features that are given as a list shows what belongs to these features, in
their order, leaving out what is switched off; a single name stands for a list with this name, nothing for all features.
(The parameters, if they are chosen, are not given by an iterator.) -/
theorem C132_sections_partial {fs : List String} (h : s.make = .ok s') (hp : s'.print.2 = .ok text)
    (hi : ∀ xs, s.params ≠ .once xs)
    (ho : s.only = .seq fs ∨ (∃ f, f ≠ "" ∧ s.only = .str f ∧ fs = [f]) ∨ (s.only = .str "" ∧ fs = modelFeatures)) :
    (∀ f ∈ fs, f ∈ modelFeatures) ∧
    ∃ ts, text = joinTxt ['\n', '\n'] ("model summary:".toList :: ts) ∧
      List.Forall₂ (SectionOf s) (fs.filter (switchedOn s)) ts := by
  unfold ModelSummary.make at h
  obtain ⟨o, h1, h⟩ := Except.bind_ok_iff.1 h
  have := Except.ok.inj h
  subst this
  have hfs : o = .seq fs ∧ ∀ f ∈ fs, f ∈ modelFeatures := by
    rcases ho with ho | ⟨f, hf, ho, rfl⟩ | ⟨ho, rfl⟩
    · rw [ho] at h1
      simp only [chooseOnly] at h1
      split at h1
      · rename_i hall
        refine ⟨(Except.ok.inj h1).symm, fun f hf => ?_⟩
        exact of_decide_eq_true (List.all_eq_true.1 hall f hf)
      · cases h1
    · rw [ho] at h1
      simp only [chooseOnly, if_neg hf] at h1
      split at h1
      · rename_i hm
        exact ⟨(Except.ok.inj h1).symm, by simpa using hm⟩
      · cases h1
    · rw [ho] at h1
      exact ⟨(Except.ok.inj h1).symm, fun f hf => hf⟩
  obtain ⟨rfl, hall⟩ := hfs
  refine ⟨hall, ?_⟩
  simp only [ModelSummary.print, NamesArg.visit] at hp
  cases hr : (({ s with only := .seq fs } : ModelSummary V).sections fs).2 with
  | error e => rw [hr] at hp; cases hp
  | ok ts =>
    rw [hr] at hp
    exact ⟨ts, (Except.ok.inj hp).symm, sections_ok (s := { s with only := .seq fs }) hr hi⟩

/-- **C132**, for statistics: the summary shows what belongs to the features chosen, in their order, leaving out what is
switched off. -/
theorem C132_statistics_partial {s : StatSummary V} (h : s.print = .ok text) :
    (∀ f ∈ s.only, f ∈ statFeatures) ∧
    ∃ ts, text = joinTxt ['\n', '\n'] ("statistics summary:".toList :: ts) ∧
      List.Forall₂ (StatSectionOf s) (s.only.filter (statSwitchedOn s)) ts := by
  unfold StatSummary.print at h
  obtain ⟨tss, h1, h⟩ := Except.bind_ok_iff.1 h
  have := Except.ok.inj h
  subst this
  have key : ∀ f us, s.feature f = .ok us → f ∈ statFeatures ∧
      List.Forall₂ (StatSectionOf s) ([f].filter (statSwitchedOn s)) us := by
    have one : ∀ (f : String) (b : Bool) (x : Except Err Txt) (us : List Txt), statSwitchedOn s f = b →
        (∀ t, x = .ok t → StatSectionOf s f t) → (if b then x.map fun t => [t] else .ok []) = .ok us →
        List.Forall₂ (StatSectionOf s) ([f].filter (statSwitchedOn s)) us := by
      intro f b x us hb hx hu
      cases b with
      | false =>
        have := Except.ok.inj hu
        subst this
        simp [hb]
      | true =>
        simp only [if_true] at hu
        cases x with
        | error e => cases hu
        | ok t =>
          have := Except.ok.inj hu
          subst this
          simp only [List.filter, hb]
          exact .cons (hx t rfl) .nil
    intro f us hf
    by_cases f1 : f = "moments"
    · subst f1
      unfold StatSummary.feature at hf
      rw [if_pos rfl] at hf
      exact ⟨by decide, one _ s.moments _ us (by simp [statSwitchedOn]) (fun t ht => .inl ⟨rfl, ht⟩) hf⟩
    by_cases f2 : f = "corr"
    · subst f2
      unfold StatSummary.feature at hf
      rw [if_neg f1, if_pos rfl] at hf
      exact ⟨by decide, one _ s.corr _ us (by simp [statSwitchedOn]) (fun t ht => .inr (.inl ⟨rfl, ht⟩)) hf⟩
    by_cases f3 : f = "autocorr"
    · subst f3
      unfold StatSummary.feature at hf
      rw [if_neg f1, if_neg f2, if_pos rfl] at hf
      refine ⟨by decide, one _ (decide (s.autocorr ≠ 0)) _ us (by simp [statSwitchedOn])
        (fun t ht => .inr (.inr (.inl ⟨rfl, ht⟩))) ?_⟩
      simpa using hf
    by_cases f4 : f = "decomp"
    · subst f4
      unfold StatSummary.feature at hf
      rw [if_neg f1, if_neg f2, if_neg f3, if_pos rfl] at hf
      exact ⟨by decide, one _ s.decomp _ us (by simp [statSwitchedOn]) (fun t ht => .inr (.inr (.inr ⟨rfl, ht⟩))) hf⟩
    · unfold StatSummary.feature at hf
      rw [if_neg f1, if_neg f2, if_neg f3, if_neg f4] at hf
      cases hf
  have all : ∀ (fs : List String) (tss : List (List Txt)), fs.mapM s.feature = .ok tss →
      (∀ f ∈ fs, f ∈ statFeatures) ∧ List.Forall₂ (StatSectionOf s) (fs.filter (statSwitchedOn s)) tss.flatten := by
    intro fs
    induction fs with
    | nil =>
      intro tss ht
      have := Except.ok.inj ht
      subst this
      exact ⟨by simp, .nil⟩
    | cons f fs ih =>
      intro tss ht
      rw [List.mapM_cons] at ht
      obtain ⟨us, u1, ht⟩ := Except.bind_ok_iff.1 ht
      obtain ⟨rest, u2, ht⟩ := Except.bind_ok_iff.1 ht
      have := Except.ok.inj ht
      subst this
      obtain ⟨k1, k2⟩ := key f us u1
      obtain ⟨i1, i2⟩ := ih rest u2
      refine ⟨?_, ?_⟩
      · intro g hg
        rcases List.mem_cons.1 hg with rfl | hg
        · exact k1
        · exact i1 g hg
      · have e : (f :: fs).filter (statSwitchedOn s) = [f].filter (statSwitchedOn s) ++ fs.filter (statSwitchedOn s) := by
          rw [← List.filter_append]
          rfl
        rw [e, List.flatten_cons]
        exact List.rel_append k2 i2
  obtain ⟨a1, a2⟩ := all _ _ h1
  exact ⟨a1, _, rfl, a2⟩

/-- **C132**: features that do not exist are refused, however they are given. -/
theorem C132_unknown (h : (∃ fs, (s.only = .seq fs ∨ s.only = .once fs) ∧ ∃ f ∈ fs, f ∉ modelFeatures) ∨
    ∃ f, s.only = .str f ∧ f ≠ "" ∧ f ∉ modelFeatures) : s.make = .error .valueError := by
  have : chooseOnly modelFeatures s.only = .error .valueError := by
    rcases h with ⟨fs, ho, f, hf, hn⟩ | ⟨f, ho, h0, hn⟩
    · have hall : ¬ (fs.all fun f => decide (f ∈ modelFeatures)) = true := by
        rw [List.all_eq_true]
        intro hall
        exact hn (of_decide_eq_true (hall f hf))
      rcases ho with ho | ho <;> rw [ho] <;> simp only [chooseOnly, if_neg hall]
    · rw [ho]
      simp only [chooseOnly, if_neg h0, if_neg hn]
  unfold ModelSummary.make
  rw [this]
  rfl

end

/-- **C132** does not hold: features from an iterator are accepted, but nothing is shown. -/
theorem C132_false : ∃ s, ModelSummary.make { view := smallView, only := .once ["variables", "params"] } = .ok s ∧
    s.print.2 = .ok "model summary:".toList := ⟨_, rfl, by decide +kernel⟩

/-- The case: two of the features of a summary of statistics, in another order. -/
example : ∃ t, stSummary.print = .ok t := by
  obtain ⟨t, h, -⟩ := ok_of_check (x := stSummary.print) (p := fun _ => true) (by decide +kernel)
  exact ⟨t, h⟩

/-- The case: two of the features, and one that does not exist. -/
example : (∃ s t, ModelSummary.make { view := smallView, only := .seq ["params", "variables"] } = .ok s ∧ s.print.2 = .ok t) ∧
    (∃ fs, (NamesArg.seq ["params", "moments"] = .seq fs ∨ NamesArg.seq ["params", "moments"] = .once fs) ∧
      ∃ f ∈ fs, f ∉ modelFeatures) := by
  refine ⟨?_, _, .inl rfl, "moments", by simp, by decide⟩
  obtain ⟨t, h, -⟩ := ok_of_check (x := ({ view := smallView, only := .seq ["params", "variables"] } : ModelSummary ℚ).print.2)
    (p := fun _ => true) (by decide +kernel)
  exact ⟨_, t, rfl, h⟩

/-! ### C133: calls of statistics -/

section
variable {A R : Type} {call : String → Dict A → Except Err R} {model : A} {attr : String} {params : List String} {kw : Dict A}

theorem foldl_set_of_new (d kw : Dict A) (hn : kw.keys.Nodup) (hd : ∀ k ∈ kw.keys, k ∉ d.keys) :
    kw.foldl (fun d p => d.set p.1 p.2) d = d ++ kw := by
  induction kw generalizing d with
  | nil => simp
  | cons p kw ih =>
    have hp : p.1 ∉ d.keys := hd p.1 (by simp [Dict.keys])
    have hset : d.set p.1 p.2 = d ++ [p] := by
      clear ih hd hn
      induction d with
      | nil => rfl
      | cons q d ihd =>
        have h1 : ¬ q.1 = p.1 := fun he => hp (by simp [Dict.keys, he])
        have h2 : p.1 ∉ Dict.keys d := fun he => hp (by
          unfold Dict.keys at he ⊢
          exact List.mem_cons_of_mem _ he)
        obtain ⟨q1, q2⟩ := q
        simp only [Dict.set, if_neg h1, ihd h2, List.cons_append]
    rw [List.foldl_cons, hset]
    have hn' : (Dict.keys kw).Nodup := (List.nodup_cons.1 hn).2
    rw [ih (d ++ [p]) hn' ?_]
    · simp
    · intro k hk
      unfold Dict.keys
      rw [List.map_append, List.mem_append]
      rintro (h | h)
      · exact hd k (by unfold Dict.keys at hk ⊢; exact List.mem_cons_of_mem _ hk) h
      · have : k = p.1 := by simpa using h
        subst this
        exact (List.nodup_cons.1 hn).1 hk

/-- **C133**, what holds: if all arguments are given with keywords, the statistic is computed for the model with these
arguments. -/
theorem C133_keywords_partial (h : statParams.get? attr = some params) (hn : kw.keys.Nodup)
    (hk : ∀ k ∈ kw.keys, k ∈ params) (hm : "md" ∉ kw.keys) :
    statsCall call model attr [] kw = call attr (("md", model) :: kw) := by
  have hmd : "md" ∈ params := by
    have : ∀ p ∈ statParams, "md" ∈ p.2 := by decide
    exact this _ (Dict.mem_of_get? h)
  unfold statsCall
  rw [h, foldl_set_of_new _ kw hn (by
    intro k hk' hd
    have : k = "md" := by simpa [Dict.keys] using hd
    exact hm (this ▸ hk'))]
  have : bindArgs params [] ([("md", model)] ++ kw) = .ok (("md", model) :: kw) := by
    unfold bindArgs
    rw [if_neg (by simp), if_neg]
    · simp
    · rw [List.any_eq_true]
      rintro ⟨p, hp, hd⟩
      have hd := of_decide_eq_true hd
      rcases List.mem_append.1 hp with hp | hp
      · have : p = ("md", model) := by simpa using hp
        subst this
        exact hd hmd
      · exact hd (hk p.1 (List.mem_map.2 ⟨p, hp, rfl⟩))
  dsimp only
  rw [this]
  rfl

/-- **C133**: a name that is no statistic is no attribute. -/
theorem C133_unknown {pos : List A} (h : attr ∉ statParams.keys) :
    statsCall call model attr pos kw = .error .attributeError := by
  unfold statsCall
  rw [(Dict.get?_eq_none_iff _ _).2 h]

theorem mem_keys_foldl (k : String) (d kw : Dict A) (h : k ∈ d.keys) :
    k ∈ (kw.foldl (fun d p => d.set p.1 p.2) d).keys := by
  induction kw generalizing d with
  | nil => exact h
  | cons p kw ih =>
    rw [List.foldl_cons]
    apply ih
    by_cases hm : p.1 ∈ d.keys
    · rw [Dict.keys_set_of_mem hm]; exact h
    · rw [Dict.keys_set_of_not_mem hm]; exact List.mem_append_left _ h

/-- **C133** does not hold: no statistic accepts an argument without keyword. -/
theorem C133_positional {pos : List A} (h : attr ∈ statParams.keys) (hp : pos ≠ []) :
    statsCall call model attr pos kw = .error .typeError := by
  obtain ⟨params, hg⟩ : ∃ params, statParams.get? attr = some params := by
    cases hc : statParams.get? attr with
    | none => exact absurd h ((Dict.get?_eq_none_iff _ _).1 hc)
    | some p => exact ⟨p, rfl⟩
  unfold statsCall
  rw [hg]
  have hmd : ∀ p ∈ statParams, "md" ∉ p.2.drop 1 := by decide
  have hmem := mem_keys_foldl "md" [("md", model)] kw (by simp [Dict.keys])
  have : bindArgs params pos (kw.foldl (fun d p => d.set p.1 p.2) [("md", model)]) = .error .typeError := by
    unfold bindArgs
    split
    · rfl
    · rw [if_pos]
      rw [List.any_eq_true]
      obtain ⟨p, h1, h2⟩ := List.mem_map.1 hmem
      refine ⟨p, h1, decide_eq_true ?_⟩
      rw [h2]
      intro hd
      refine hmd _ (Dict.mem_of_get? hg) ?_
      obtain ⟨k, hk⟩ : ∃ k, pos.length = k + 1 := ⟨pos.length - 1, by
        have := List.length_pos_of_ne_nil hp
        omega⟩
      rw [hk, Nat.add_comm, ← List.drop_drop] at hd
      exact List.mem_of_mem_drop hd
  dsimp only
  rw [this]
  rfl

/-- **C133** does not hold, in the simplest case: `model.stats.autocorr(5)`. -/
theorem C133_false (five : A) : statsCall call model "autocorr" [five] [] = .error .typeError :=
  C133_positional (by decide) (by simp)

end

/-- The case: autocorrelations with the number of lags given by keyword. -/
example : statParams.get? "autocorr" = some ["md", "p"] ∧ (Dict.keys [("p", 5)]).Nodup ∧
    (∀ k ∈ Dict.keys [("p", 5)], k ∈ ["md", "p"]) ∧ "md" ∉ Dict.keys [("p", 5)] ∧ "skewness" ∉ statParams.keys := by
  decide

/-! ### C134: numbers below their headings -/

section
variable {V : Type} [Field V] [LinearOrder V] [IsStrictOrderedRing V] [FloorRing V] {S : Statistics V} {sig pad : ℕ}
  {endog stoch : List Txt} {text : Txt}

theorem cellText_fits {l : ℤ} {rows : List (List (Option V))} {headings : List Txt}
    (hl : leftDigits fixLog10 rows.flatten = .ok l) (hb : ∃ row ∈ rows, ∃ x, some x ∈ row ∧ 1 / 100 < |x|) :
    0 ≤ colWidth l sig headings ∧
    ∀ row ∈ rows, ∀ x ∈ row, (cellText sig x).length ≤ (colWidth l sig headings).toNat := by
  obtain ⟨h1, -⟩ := leftDigits_value hl
  obtain ⟨row, hr, x, hx, hx1⟩ := hb
  have hge : ∀ row ∈ rows, ∀ y, some y ∈ row → |y| ≤ maxAbs (rows.flatten.filterMap id) := fun row hr y hy =>
    maxAbs_ge y (List.mem_filterMap.2 ⟨some y, List.mem_flatten.2 ⟨row, hr, hy⟩, rfl⟩)
  have hm : 1 / 100 < maxAbs (rows.flatten.filterMap id) := lt_of_lt_of_le hx1 (hge row hr x hx)
  have hw := (colWidth_ge l sig headings).1
  have h3 := (fits (d := sig) (x := (0 : V)) hm (by rw [abs_zero]; exact maxAbs_nonneg _)).2
  refine ⟨by omega, ?_⟩
  intro row hr y hy
  cases y with
  | none =>
    have : (cellText sig (none : Option V)).length = 3 := rfl
    omega
  | some y =>
    have := (fits (d := sig) hm (hge row hr y hy)).1
    have e : (cellText sig (some y)).length = (fixedText sig y).length := rfl
    omega

theorem namedTable_aligned {title : Txt} {width : ℕ} {headings names : List Txt} {rows : List (List (Option V))}
    (h : namedTable title pad sig width headings names rows = .ok text) (ht : '\n' ∉ title)
    (hh : ∀ h ∈ headings, '\n' ∉ h ∧ ∀ a, h.head? = some a → a ≠ ' ') (hn : ∀ n ∈ names, Plain n)
    (hr : ∀ row ∈ rows, row.length = width) (hb : ∃ row ∈ rows, ∃ x, some x ∈ row ∧ 1 / 100 < |x|) :
    AlignedTable headings text := by
  obtain ⟨h1, l, lp, h2, h3, rfl⟩ := namedTable_ok h
  obtain ⟨c1, c2⟩ := cellText_fits (sig := sig) (headings := headings) h2 hb
  refine tableText_aligned ht (fun t ht' => (hh t ht').1) hn h3 ?_ ?_ (fun row hrow => (hr row hrow).trans h1.symm) c1 c2
  · rintro rfl
    obtain ⟨row, hr', x, hx, -⟩ := hb
    have := hr row hr'
    rw [← h1] at this
    rw [List.length_eq_zero_iff.1 this] at hx
    cases hx
  · intro t ht'
    have := (colWidth_ge l sig headings).2 t ht'
    exact ⟨by omega, (hh t ht').2⟩

/-- **C134**, what holds: in the table of moments the numbers stand in columns below their headings, if some number
exceeds one hundredth in absolute value. -/
theorem C134_moments_partial (h : momentsText S sig pad endog = .ok text) (hn : ∀ n ∈ endog, Plain n)
    (hb : ∃ mean std, S.mean = .ok mean ∧ S.std = .ok std ∧
      ((∃ x ∈ mean, 1 / 100 < |x|) ∨ ∃ x, some x ∈ std ∧ 1 / 100 < |x|)) :
    AlignedTable ["mean".toList, "std dev".toList, "var".toList] text := by
  obtain ⟨mean, std, m1, m2, hb⟩ := hb
  unfold momentsText at h
  rw [m1, m2] at h
  dsimp only [bind, Except.bind] at h
  unfold momentRows at h
  by_cases hl : mean.length = std.length
  · rw [if_pos hl] at h
    have hz : ∀ row ∈ List.zipWith (fun (m : V) s => [some m, s, squareOf s]) mean std,
        ∃ m s, row = [some m, s, squareOf s] := by
      intro row hr
      obtain ⟨k, hk⟩ := List.getElem?_of_mem hr
      rw [List.getElem?_zipWith] at hk
      cases hm : mean[k]? with
      | none => rw [hm] at hk; cases hk
      | some m =>
        cases hs : std[k]? with
        | none => rw [hm, hs] at hk; cases hk
        | some s =>
          rw [hm, hs] at hk
          exact ⟨m, s, (Option.some.inj hk).symm⟩
    refine namedTable_aligned h (by decide) (by decide) hn ?_ ?_
    · intro row hr
      obtain ⟨m, s, rfl⟩ := hz row hr
      rfl
    · rcases hb with ⟨x, hx, h1⟩ | ⟨x, hx, h1⟩
      · obtain ⟨k, hk, he⟩ := List.mem_iff_getElem.1 hx
        refine ⟨[some mean[k], std[k], squareOf std[k]], List.mem_of_getElem? (i := k) ?_, x, by simp [he], h1⟩
        rw [List.getElem?_zipWith, List.getElem?_eq_getElem hk, List.getElem?_eq_getElem (hl ▸ hk)]
      · obtain ⟨k, hk, he⟩ := List.mem_iff_getElem.1 hx
        have hk' : k < mean.length := by omega
        refine ⟨[some mean[k], std[k], squareOf std[k]], List.mem_of_getElem? (i := k) ?_, x, by simp [he], h1⟩
        rw [List.getElem?_zipWith, List.getElem?_eq_getElem hk', List.getElem?_eq_getElem hk]
  · rw [if_neg hl] at h
    cases h

/-- **C134**, the same for correlations. -/
theorem C134_corr_partial (h : corrText S sig pad endog = .ok text) (hn : ∀ n ∈ endog, Plain n)
    (hb : ∃ R, S.corr = .ok R ∧ ∃ i < R.r, ∃ j < R.c, ∃ x, R.e i j = some x ∧ 1 / 100 < |x|) : AlignedTable endog text := by
  obtain ⟨a, l, lp, h1, h2, h3, h4, rfl⟩ := corrText_ok h
  obtain ⟨R, r1, i, hi, j, hj, x, hx, hx1⟩ := hb
  have := Except.ok.inj (r1.symm.trans h1)
  subst this
  obtain ⟨c1, c2⟩ := cellText_fits (sig := sig) (headings := endog) h3
    ⟨(List.range R.c).map (R.e i), List.mem_map.2 ⟨i, List.mem_range.2 hi, rfl⟩, x,
      List.mem_map.2 ⟨j, List.mem_range.2 hj, hx⟩, hx1⟩
  refine tableText_aligned (by decide) (fun t ht' => (hn t ht').2.2) hn h4 ?_ ?_ ?_ c1 c2
  · rintro rfl
    rw [← h2] at hj
    simp at hj
  · intro t ht'
    have := (colWidth_ge l sig endog).2 t ht'
    exact ⟨by omega, (hn t ht').head⟩
  · intro row hr
    obtain ⟨k, -, rfl⟩ := List.mem_map.1 hr
    simp [h2]

/-- **C134**, the same for the decomposition of variances. -/
theorem C134_decomp_partial (h : decompText S sig pad endog stoch = .ok text) (hn : ∀ n ∈ endog, Plain n)
    (hs : ∀ n ∈ stoch, Plain n)
    (hb : ∃ D, S.decomp = .ok D ∧ ∃ i < D.r, ∃ j < D.c, ∃ x, D.e i j = some x ∧ 1 / 100 < |x|) : AlignedTable stoch text := by
  obtain ⟨D, d1, i, hi, j, hj, x, hx, hx1⟩ := hb
  unfold decompText at h
  rw [d1] at h
  refine namedTable_aligned h (by decide) (fun t ht => ⟨(hs t ht).2.2, (hs t ht).head⟩) hn ?_ ?_
  · intro row hr
    obtain ⟨k, -, rfl⟩ := List.mem_map.1 hr
    simp
  · exact ⟨(List.range D.c).map (D.e i), List.mem_map.2 ⟨i, List.mem_range.2 hi, rfl⟩, x,
      List.mem_map.2 ⟨j, List.mem_range.2 hj, hx⟩, hx1⟩

theorem floorLog10_eq {m : V} (h : 1 ≤ m) : floorLog10 m = fixLog10 m := by
  unfold floorLog10 fixLog10
  rw [if_pos h, if_pos h]

theorem fits_nonneg {d : ℕ} {m x : V} (hm : 1 ≤ m) (hx : x ≤ m) (h0 : 0 ≤ x) :
    ((fixedText d x).length : ℤ) ≤ floorLog10 m + 3 + d := by
  rw [floorLog10_eq hm]
  have hm' : 1 / 100 < m := lt_of_lt_of_le (by norm_num) hm
  rcases h0.lt_or_eq with h | rfl
  · have h1 := (fits (d := d) (x := -x) hm' (by rw [abs_neg, abs_of_nonneg h0]; exact hx)).1
    have h2 : (fixedText d (-x)).length = (fixedText d x).length + 1 := by
      have p1 : -x < 0 := by linarith
      have p2 : ¬ x < 0 := by linarith
      unfold fixedText
      rw [if_pos p1, if_neg p2, abs_neg]
      simp only [List.length_append, List.length_cons, List.length_nil]
      omega
    omega
  · have h1 : (fixedText d (0 : V)).length ≤ 2 + d := by
      unfold fixedText roundEven
      simp only [lt_irrefl, if_false, abs_zero, zero_mul, Nat.floor_zero, Nat.cast_zero, sub_zero]
      rw [if_pos (by norm_num)]
      simp only [List.length_append, Nat.zero_div, Nat.zero_mod]
      split
      · simp; omega
      · simp [lastDigits_length]; omega
    have h3 : 0 ≤ fixLog10 m := by
      unfold fixLog10
      rw [if_pos hm]
      exact Int.natCast_nonneg _
    omega

/-- **C134**, for the covariances of shocks: the numbers stand below their headings if none is negative, some is at least
one, and no name is longer than the numbers of decimals and three. -/
theorem C134_stoch_partial {m : ModelView V} (h : stochText m sig pad = .ok text) (hs : ∀ n ∈ m.stoch, Plain n)
    (hlen : ∀ n ∈ m.stoch, n.length ≤ sig + 3)
    (hb : ∃ sigma, m.sigma = .ok sigma ∧ (∀ row ∈ sigma, row.length = m.stoch.length ∧ ∀ x ∈ row, 0 ≤ x) ∧
      ∃ row ∈ sigma, ∃ x ∈ row, 1 ≤ x) : AlignedTable m.stoch text := by
  obtain ⟨sigma, l, lp, h1, h2, h3, h4, rfl⟩ := stochText_ok h
  obtain ⟨sigma', e1, hrow, row, hr, x, hx, hx1⟩ := hb
  have := Except.ok.inj (e1.symm.trans h1)
  subst this
  obtain ⟨hl, -⟩ := leftDigits_value h2
  have hge : ∀ row ∈ sigma', ∀ y ∈ row, |y| ≤ maxAbs ((sigma'.flatten.map some).filterMap id) := fun row hr y hy =>
    maxAbs_ge y (List.mem_filterMap.2 ⟨some y, List.mem_map.2 ⟨y, List.mem_flatten.2 ⟨row, hr, hy⟩, rfl⟩, rfl⟩)
  have hm : 1 ≤ maxAbs ((sigma'.flatten.map some).filterMap id) :=
    le_trans hx1 (le_trans (le_abs_self x) (hge row hr x hx))
  have hl0 : 3 ≤ l := by
    rw [hl, floorLog10_eq hm]
    unfold fixLog10
    rw [if_pos hm]
    omega
  refine tableText_aligned (by decide) (fun t ht' => (hs t ht').2.2) hs h4 h3 ?_ ?_ (by omega) ?_
  · intro t ht'
    have := hlen t ht'
    exact ⟨by omega, (hs t ht').head⟩
  · intro r hr'
    obtain ⟨r0, hr0, rfl⟩ := List.mem_map.1 hr'
    rw [List.length_map]
    exact (hrow r0 hr0).1
  · intro r hr' y hy
    obtain ⟨r0, hr0, rfl⟩ := List.mem_map.1 hr'
    obtain ⟨y0, hy0, rfl⟩ := List.mem_map.1 hy
    have h0 := (hrow r0 hr0).2 y0 hy0
    have := fits_nonneg (d := sig) hm (le_trans (le_abs_self y0) (hge r0 hr0 y0 hy0)) h0
    have e : (cellText sig (some y0)).length = (fixedText sig y0).length := rfl
    omega

end

/-- **C134** does not hold: small moments do not stand below their headings, nor do covariances of shocks with a standard
deviation of one hundredth. -/
theorem C134_false :
    (∃ t, momentsText tinyStats 6 4 ["c".toList, "k".toList] = .ok t ∧
      ¬ AlignedTable ["mean".toList, "std dev".toList, "var".toList] t) ∧
    (∃ t, stochText { smallView with sigma := .ok [[1/10000, 0], [0, 1/10000]] } 6 4 = .ok t ∧
      ¬ AlignedTable ["e".toList, "u".toList] t) := by
  constructor
  · obtain ⟨t, h, hc⟩ := ok_of_check (x := momentsText tinyStats 6 4 ["c".toList, "k".toList])
      (p := fun t => match (linesOf t)[1]?, (linesOf t)[0 + 2]? with
        | some head, some line => decide ((lineWords line).length = 4 ∧ line.length ≠ head.length)
        | _, _ => false) (by decide +kernel)
    refine ⟨t, h, fun ha => ?_⟩
    split at hc
    · rename_i head line h1 h2
      have := of_decide_eq_true hc
      exact this.2 (ha.lengths h1 h2 this.1)
    · cases hc
  · obtain ⟨t, h, hc⟩ := ok_of_check (x := stochText { smallView with sigma := .ok [[1/10000, 0], [0, 1/10000]] } 6 4)
      (p := fun t => match (linesOf t)[1]?, (linesOf t)[0 + 2]? with
        | some head, some line => decide ((lineWords line).length = 3 ∧ line.length ≠ head.length)
        | _, _ => false) (by decide +kernel)
    refine ⟨t, h, fun ha => ?_⟩
    split at hc
    · rename_i head line h1 h2
      have := of_decide_eq_true hc
      exact this.2 (ha.lengths h1 h2 this.1)
    · cases hc

/-- The case: the small model, whose moments, correlations and shares exceed one hundredth, and whose shocks have
covariances that exceed one. -/
example : (∃ mean std, stStats.mean = .ok mean ∧ stStats.std = .ok std ∧
      ((∃ x ∈ mean, 1 / 100 < |x|) ∨ ∃ x, some x ∈ std ∧ 1 / 100 < |x|)) ∧
    (∃ R, stStats.corr = .ok R ∧ ∃ i < R.r, ∃ j < R.c, ∃ x, R.e i j = some x ∧ 1 / 100 < |x|) ∧
    (∃ D, stStats.decomp = .ok D ∧ ∃ i < D.r, ∃ j < D.c, ∃ x, D.e i j = some x ∧ 1 / 100 < |x|) ∧
    (∃ t, stochText smallView 6 4 = .ok t) ∧ (∀ n ∈ smallView.stoch, Plain n ∧ n.length ≤ 6 + 3) ∧
    (∃ sigma, smallView.sigma = .ok sigma ∧ (∀ row ∈ sigma, row.length = smallView.stoch.length ∧ ∀ x ∈ row, 0 ≤ x) ∧
      ∃ row ∈ sigma, ∃ x ∈ row, 1 ≤ x) := by
  refine ⟨?_, ?_, ?_, ?_, ?_, ?_⟩
  · obtain ⟨std, h, -⟩ := ok_of_check (x := stStats.std) (p := fun _ => true) (by decide +kernel)
    exact ⟨_, std, rfl, h, .inl ⟨1, by simp, by norm_num⟩⟩
  · obtain ⟨R, h, hc⟩ := ok_of_check (x := stStats.corr) (p := fun R => decide (0 < R.r ∧ 0 < R.c) &&
      match R.e 0 0 with
        | some x => decide (1 / 100 < |x|)
        | none => false) (by decide +kernel)
    rw [Bool.and_eq_true, decide_eq_true_eq] at hc
    cases he : R.e 0 0 with
    | none => rw [he] at hc; cases hc.2
    | some x =>
      rw [he] at hc
      exact ⟨R, h, 0, hc.1.1, 0, hc.1.2, x, he, of_decide_eq_true hc.2⟩
  · exact ⟨_, rfl, 0, by decide, 0, by decide, 1/3, rfl, by norm_num⟩
  · obtain ⟨t, h, -⟩ := ok_of_check (x := stochText smallView 6 4) (p := fun _ => true) (by decide +kernel)
    exact ⟨t, h⟩
  · unfold Plain; decide
  · refine ⟨_, rfl, ?_, [16, 13/5], by simp, 16, by simp, by norm_num⟩
    intro row hr
    simp only [List.mem_cons, List.not_mem_nil, or_false] at hr
    rcases hr with rfl | rfl
    · refine ⟨rfl, ?_⟩
      intro x hx
      simp only [List.mem_cons, List.not_mem_nil, or_false] at hx
      rcases hx with rfl | rfl <;> norm_num
    · refine ⟨rfl, ?_⟩
      intro x hx
      simp only [List.mem_cons, List.not_mem_nil, or_false] at hx
      rcases hx with rfl | rfl <;> norm_num

/-! ### C135: the sections of the summary of a model -/

section
variable {V : Type} [Field V] [LinearOrder V] [IsStrictOrderedRing V] [FloorRing V] {m : ModelView V} {sig pad : ℕ} {text : Txt}

/-- **C135.**  The section on variables gives the numbers of variables, shocks, and variables of the three kinds; those
that are zero are left out. -/
theorem C135_variables : ∃ lines, linesOf (variablesText m pad) = "variables:".toList :: lines ∧
    List.Forall₂ CountShows lines ([("variables".toList, m.endog.length), ("stochastic shocks".toList, m.stoch.length),
      ("state vars".toList, m.nState), ("forward-looking vars".toList, m.nForward), ("static vars".toList, m.nStatic)].filter
      fun p => p.2 ≠ 0) := by
  obtain ⟨a1, a2⟩ := countLine_shows pad 20 m.endog.length "variables".toList (by decide)
  obtain ⟨b1, b2⟩ := countLine_shows pad 20 m.stoch.length "stochastic shocks".toList (by decide)
  obtain ⟨c1, c2⟩ := countLine_shows pad 20 m.nState "state vars".toList (by decide)
  obtain ⟨d1, d2⟩ := countLine_shows pad 20 m.nForward "forward-looking vars".toList (by decide)
  obtain ⟨e1, e2⟩ := countLine_shows pad 20 m.nStatic "static vars".toList (by decide)
  have hf : ∀ (l : Txt) (n : ℕ) (rest : List (Txt × ℕ)), ((l, n) :: rest).filter (fun p => p.2 ≠ 0) =
      (if n = 0 then [] else [(l, n)]) ++ rest.filter fun p => p.2 ≠ 0 := by
    intro l n rest
    by_cases hn : n = 0
    · simp [hn]
    · simp [hn]
  refine ⟨_, linesOf_join (not_mem_replicate_blank pad) _ _ ?_, ?_⟩
  · intro t ht
    rcases List.mem_cons.1 ht with rfl | ht
    · decide
    · simp only [List.mem_append] at ht
      rcases ht with (((ht | ht) | ht) | ht) | ht
      · exact a1 t ht
      · exact b1 t ht
      · exact c1 t ht
      · exact d1 t ht
      · exact e1 t ht
  · simp only [List.map_append]
    rw [hf, hf, hf, hf, hf, List.filter_nil, List.append_nil, ← List.append_assoc, ← List.append_assoc, ← List.append_assoc]
    exact List.rel_append (List.rel_append (List.rel_append (List.rel_append a2 b2) c2) d2) e2

/-- **C135.**  The section on eigenvalues shows all of them, each with real part, imaginary part and modulus, in the order
of their moduli, infinite ones at the end. -/
theorem C135_eigen (h : eigenText m sig pad = .ok text) :
    ∃ es sorted head lines, m.eigen = .ok es ∧ sorted.Perm es ∧
      linesOf text = "steady-state eigenvalues:".toList :: head :: lines ∧
      lineWords head = ["real".toList, "imag".toList, "mod".toList] ∧ List.Forall₂ (EigenShows sig) lines sorted ∧
      sorted.Pairwise (fun a b => (∀ x y, a.mod = .fin x → b.mod = .fin y → x ≤ y) ∧
        (a.mod = .inf false → ∀ y, b.mod ≠ .fin y) ∧ (a.mod = .nan → ∀ y, b.mod ≠ .fin y)) := by
  obtain ⟨es, sorted, head, lines, h1, h2, h3, h4, h5, h6⟩ := eigenText_ok h
  refine ⟨es, sorted, head, lines, h1, h2, h4, h5, h6, h3.imp ?_⟩
  intro a b hab
  refine ⟨?_, ?_, ?_⟩
  · intro x y hx hy
    rw [hx, hy] at hab
    exact of_decide_eq_true hab
  · intro hx y hy
    rw [hx, hy] at hab
    cases hab
  · intro hx y hy
    rw [hx, hy] at hab
    cases hab

/-- **C135.**  The section on shocks shows beside the name of a shock and below that of another the covariance of the
two. -/
theorem C135_stoch (h : stochText m sig pad = .ok text) (hs : ∀ n ∈ m.stoch, Plain n) :
    ∃ sigma, m.sigma = .ok sigma ∧ TableShows sig "covariance of stoch shocks:".toList m.stoch
      (m.stoch.zip (sigma.map fun row => row.map some)) text := by
  obtain ⟨sigma, l, lp, h1, h2, h3, h4, rfl⟩ := stochText_ok h
  exact ⟨sigma, h1, tableText_shows (by decide) (fun n hm => (hs n hm).2.2) hs h4⟩

end

/-- The case: a model with three eigenvalues, one of them infinite, and two shocks. -/
example : (∃ t, eigenText smallView 6 4 = .ok t) ∧ (∃ t, stochText smallView 6 4 = .ok t) ∧
    (∀ n ∈ smallView.stoch, Plain n) := by
  refine ⟨eigenText_ok_iff.2 ⟨_, rfl, ⟨.fin (3/5), .fin 0, .fin (3/5)⟩, by simp, 3/5, by norm_num, .inl rfl⟩, ?_, ?_⟩
  · obtain ⟨t, h, -⟩ := ok_of_check (x := stochText smallView 6 4) (p := fun _ => true) (by decide +kernel)
    exact ⟨t, h⟩
  · unfold Plain; decide

end Pynare

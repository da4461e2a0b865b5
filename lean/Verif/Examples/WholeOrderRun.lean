import Verif.Examples.WholeOrder
/-!
# Both files of `Examples/WholeOrder.lean` taken to their solutions
-/

namespace Pynare

/-- a steady state at zero is found -/
theorem zero_steady {fs : List (ResFun ℚ)} {st : List ℚ}
    (h : callAll fs (List.replicate st.length 0) = .ok (List.replicate fs.length 0)) :
    modelValues zeroMin "dynare" ⟨callAll fs, st⟩ = .ok (List.replicate st.length 0) := by
  have h0 : ∃ w, leastSquares ⟨callAll fs, st⟩ (List.replicate st.length 0) = .ok w ∧ w = 0 := by
    have hex : ∃ w, leastSquares ⟨callAll fs, st⟩ (List.replicate st.length 0) = .ok w := by
      unfold leastSquares
      show ∃ v, (callAll fs _).bind _ = .ok v
      rw [h]
      exact ⟨_, rfl⟩
    obtain ⟨w, hw⟩ := hex
    obtain ⟨-, vs, d1, d2⟩ := leastSquares_zero hw
    refine ⟨w, hw, d2.mpr fun z hz => ?_⟩
    have := Except.ok.inj (d1.symm.trans h)
    rw [this] at hz
    exact List.eq_of_mem_replicate hz
  obtain ⟨w, h0, rfl⟩ := h0
  have hm : zeroMin .gradient (leastSquares ⟨callAll fs, st⟩) st = .ok ⟨List.replicate st.length 0, true⟩ := by
    unfold zeroMin
    rw [if_pos ⟨0, h0, fun y v _ hv => (leastSquares_zero hv).1⟩]
  simp [modelValues, SteadyObj.values, SteadyObj.compute, selectAlgo, runAlgo, hm]

/-- a file that can be read, with libraries for which the rest succeeds -/
theorem run_first {lib : Libs ℚ} {file : ModelFile ℚ} {toks : List (Tok ℚ)} {text : List Char} {o : Outline ℚ}
    {m : MState ℚ Unit Unit} (h1 : createOutline ratOps .ok file = .ok o) (h2 : fromOutline whRead.env o "dynare" "m" = .ok m)
    (hf : FileOf ratPC toks file) (hw : Written ratCfg toks text []) (hv : file.params = []) (hp : PlainParams file)
    (he : PlainEquations file) {sp : ModelSpace ℚ}
    (hs : modelSpace lib m.endog m.stoch.length m.indexes m.steady m.dynamic = .ok sp) {sg : Sig ℚ}
    (hsg : defineSigma id m.stoch = .ok sg) {gy gu : Arr ℚ} (hsol : firstSolution lib sp sg = .ok (gy, gu)) :
    ∃ md md' : MState ℚ (ModelSpace ℚ) (Arr ℚ × Arr ℚ), md.statespace = sp ∧ md.indexes = m.indexes ∧ md.steady = m.steady ∧
      ReadFrom (whRead.first lib) text file noValues md ∧ md.solve (whRead.env.first lib) = (md', .ok (gy, gu)) := by
  have hm := fromOutline_space (env := whRead.env) (env' := whRead.env.first lib) rfl rfl h2 hs
  obtain ⟨md', hso⟩ := fresh_solves hm hsg hsol
  refine ⟨_, md', rfl, rfl, rfl, ⟨charOk_rat, ⟨_, hf, hw⟩, ⟨"dynare", "m", ?_⟩, by rw [hv]; exact .nil, hp, he⟩, hso⟩
  rw [fromText_run (r := whRead.first lib) charOk_rat hf hw h1,
    show fromOutline (whRead.first lib).env o "dynare" "m" = _ from hm]
  rfl

/-- what is left, once the model is as in C149 -/
theorem run_solved {lib : Libs ℚ} (hopt : lib.opt = zeroMin) {file : ModelFile ℚ} {toks : List (Tok ℚ)} {text : List Char}
    {o : Outline ℚ} {m : MState ℚ Unit Unit} (h1 : createOutline ratOps .ok file = .ok o)
    (h2 : fromOutline whRead.env o "dynare" "m" = .ok m) (hf : FileOf ratPC toks file) (hw : Written ratCfg toks text [])
    (hv : file.params = []) (hp : PlainParams file) (he : PlainEquations file) (hn : m.endog.length = 3) {J gy gu : Arr ℚ}
    {s : Space ℚ} {q : QZ ℚ} {ev : Nat → Option ℂ} {endo exo : List String} {es : List (Expr ℚ)}
    (hm : SolvedModel (Rat.castHom ℂ) ratOps (fun _ => true) lib.ad lib.la odσ endo exo es [0, 0, 0] m.indexes J gy gu s q ev)
    (e1 : m.endogNames = endo) (e2 : m.stochNames = exo) (e3 : m.scope = odσ) (e4 : m.exprs.exprs = es)
    (hst : callAll m.steady [0, 0, 0] = .ok (List.replicate m.steady.length 0))
    (hi : m.indexes.n = 3) {sg : Sig ℚ} (hsg : defineSigma id m.stoch = .ok sg) :
    ∃ md md' : MState ℚ (ModelSpace ℚ) (Arr ℚ × Arr ℚ), md.steady = m.steady ∧
      ReadFrom (whRead.first lib) text file noValues md ∧ md.solve (whRead.env.first lib) = (md', .ok (gy, gu)) ∧
      PassesCheck (Rat.castHom ℂ) lib.la md := by
  obtain ⟨-, _, _, _, _, _, _, _, _, _, hb⟩ := fromOutline_inv h2
  obtain ⟨hfr, -⟩ := create_fresh hb
  obtain ⟨fs, hfs, hJ⟩ := hm.jacobian
  have hd := hfr.dynamic
  rw [e1, e2, e3, e4] at hd
  obtain rfl : fs = m.dynamic := Except.ok.inj (hfs.symm.trans hd)
  have hl : m.stoch.length = exo.length := by rw [← e2, MState.stochNames, List.length_map]
  have hss : modelValues lib.opt "dynare" ⟨callAll m.steady, startValues lib.nan m.endog⟩ = .ok [0, 0, 0] := by
    have h3 : (startValues lib.nan m.endog).length = 3 := by simp [startValues, hn]
    rw [hopt, zero_steady (by rw [h3]; exact hst), h3]
    rfl
  have hsp : modelSpace lib m.endog m.stoch.length m.indexes m.steady m.dynamic =
      .ok ⟨m.indexes, exo.length, m.dynamic, [0, 0, 0], J, s⟩ := by
    unfold modelSpace
    rw [hss]
    simp only [bind, Except.bind]
    rw [if_neg (show ¬ ([0, 0, 0] : List ℚ).length ≠ m.indexes.n by rw [hi]; simp), hl, hJ]
    simp only [hm.space]
  obtain ⟨md, md', a1, a2, a3, a4, a5⟩ := run_first h1 h2 hf hw hv hp he hsp hsg (gy := gy) (gu := gu) hm.solved
  refine ⟨md, md', a3, a4, a5, ⟨?_, q, ev, ?_, hm.eigen, hm.noUnit⟩⟩
  · rw [a1, a2]; exact hm.verified
  · rw [a1]; exact hm.decomposed

/-- the libraries for the two orders -/
noncomputable def ofLib : Libs ℚ := ⟨sbLa (1 / 2) 2, triQz, idealAd, zeroMin, 0⟩
/-- the libraries for the other order -/
noncomputable def ofLib' : Libs ℚ := ⟨ratLa 1 odQz', triQz, idealAd, zeroMin, 0⟩

theorem of_vals : FileVals ratOps ofFile noValues noValues := by
  refine ⟨.nil, ?_⟩
  have : ofFile.paramVals noValues = (noValues : String → Option ℚ) := by
    funext x
    simp [ModelFile.paramVals, noValues]
  rw [this]
  exact .nil

theorem of_first : ∃ (md md' : MState ℚ (ModelSpace ℚ) (Arr ℚ × Arr ℚ)) (gy gu : Arr ℚ),
    ReadFrom (whRead.first ofLib) (exText ofText) ofFile noValues md ∧
    md.solve (whRead.env.first ofLib) = (md', .ok (gy, gu)) ∧ PassesCheck (Rat.castHom ℂ) ofLib.la md ∧
    OneRest ratOps ofFile noValues fun _ => 0 := by
  obtain ⟨o, m, h1, h2, h3, h4, h5, h6, h7, h8, h9, f₁, f₂, f₃, hf, hfv⟩ := of_read
  obtain ⟨s, gy, gu, hm, -⟩ := od_solved
  obtain ⟨md, md', a1, a2, a3, a4⟩ := run_solved (lib := ofLib) rfl h1 h2 of_file of_written rfl of_params of_equations h3
    (by rw [h5]; exact hm) h6 h7 h8 h9 (by
      obtain ⟨k1, k2, k3⟩ := hfv 0 0 0
      rw [hf]; simp [callAll, k1, k2, k3, bind, Except.bind]) (by rw [h5]; rfl) (sg := sigmaDiag m.stoch) (by rw [h4]; rfl)
  refine ⟨md, md', gy, gu, a2, a3, a4, ?_⟩
  obtain ⟨σ, pss, tf⟩ := text_facts (r := whRead.first ofLib) (lib := ofLib) rfl a2
  obtain rfl : σ = noValues := exec_unique tf.vals.model of_vals.model
  rw [hf] at a1
  intro ys hl
  match ys, hl with
  | [z, x, w], hl =>
    obtain ⟨k1, k2, k3⟩ := hfv z x w
    have g1 := tf.rest (fun _ _ => rfl) of_params of_equations (i := 0) rfl (by rw [a1]; rfl) hl 0
    have g2 := tf.rest (fun _ _ => rfl) of_params of_equations (i := 1) rfl (by rw [a1]; rfl) hl 0
    have g3 := tf.rest (fun _ _ => rfl) of_params of_equations (i := 2) rfl (by rw [a1]; rfl) hl 0
    rw [k1] at g1
    rw [k2] at g2
    rw [k3] at g3
    constructor
    · intro h
      have e1 := Except.ok.inj (g1.mpr (h _ _ (by simp [ofFile, equations])))
      have e2 := Except.ok.inj (g2.mpr (h _ _ (by simp [ofFile, equations])))
      have e3 := Except.ok.inj (g3.mpr (h _ _ (by simp [ofFile, equations])))
      obtain rfl : z = 0 := by linarith
      obtain rfl : x = 0 := by linarith
      obtain rfl : w = 0 := by linarith
      rfl
    · intro h l r hlr
      have h' : [z, x, w] = [0, 0, 0] := h
      simp only [List.cons.injEq, and_true] at h'
      obtain ⟨rfl, rfl, rfl⟩ := h'
      simp only [ofFile, equations, List.mem_cons, List.not_mem_nil, or_false,
        Prod.mk.injEq] at hlr
      rcases hlr with ⟨rfl, rfl⟩ | ⟨rfl, rfl⟩ | ⟨rfl, rfl⟩
      · exact g1.mp (by norm_num)
      · exact g2.mp (by norm_num)
      · exact g3.mp (by norm_num)

theorem of_second : ∃ (md md' : MState ℚ (ModelSpace ℚ) (Arr ℚ × Arr ℚ)) (gy gu : Arr ℚ),
    ReadFrom (whRead.first ofLib') (exText ofText') ofFile' noValues md ∧
    md.solve (whRead.env.first ofLib') = (md', .ok (gy, gu)) ∧ PassesCheck (Rat.castHom ℂ) ofLib'.la md := by
  obtain ⟨o, m, h1, h2, h3, h4, h5, h6, h7, h8, h9, f₁, f₂, f₃, hf, hfv⟩ := of_read'
  obtain ⟨s, gy, gu, hm, -⟩ := od_solved'
  obtain ⟨md, md', a1, a2, a3, a4⟩ := run_solved (lib := ofLib') rfl h1 h2 of_file' of_written' rfl of_params'
    (of_reordered.plainEquations of_equations) h3
    (by rw [h5]; exact hm) h6 h7 h8 h9 (by
      obtain ⟨k1, k2, k3⟩ := hfv 0 0 0
      rw [hf]; simp [callAll, k1, k2, k3, bind, Except.bind]) (by rw [h5]; rfl) (sg := sigmaDiag m.stoch) (by rw [h4]; rfl)
  exact ⟨md, md', gy, gu, a2, a3, a4⟩

/-- the hypotheses of `C161_reordered_partial` are met by the two files -/
example : ∃ (md md' mw mw' : MState ℚ (ModelSpace ℚ) (Arr ℚ × Arr ℚ)) (gy gu gy' gu' : Arr ℚ),
    ofLib.la.Exact ∧ ofLib'.la.Exact ∧ ofLib.ad.Exact ∧ ofLib'.ad.Exact ∧ FindsMinimum ofLib.opt ∧ FindsMinimum ofLib'.opt ∧
    (∀ a b, whRead.env.ops.bin .sub a b = .ok (a - b)) ∧
    Reordered ofFile ofFile' ∧ ofFile ≠ ofFile' ∧ WellPosed ofFile ∧ FileVals whRead.env.ops ofFile noValues noValues ∧
    OneRest whRead.env.ops ofFile noValues (fun _ => 0) ∧
    ReadFrom (whRead.first ofLib) (exText ofText) ofFile noValues md ∧
    ReadFrom (whRead.first ofLib') (exText ofText') ofFile' noValues md' ∧
    md.solve (whRead.env.first ofLib) = (mw, .ok (gy, gu)) ∧ md'.solve (whRead.env.first ofLib') = (mw', .ok (gy', gu')) ∧
    PassesCheck (Rat.castHom ℂ) ofLib.la md ∧ PassesCheck (Rat.castHom ℂ) ofLib'.la md' := by
  obtain ⟨md, mw, gy, gu, a1, a2, a3, a4⟩ := of_first
  obtain ⟨md', mw', gy', gu', b1, b2, b3⟩ := of_second
  refine ⟨md, md', mw, mw', gy, gu, gy', gu', ?_, ?_, idealAd_exact, idealAd_exact, zeroMin_finds, zeroMin_finds,
    fun _ _ => rfl, of_reordered, ?_, of_posed, of_vals, a4, a1, b1, a2, b2, a3, b3⟩
  · exact ratLa_exact _ _
  · exact ratLa_exact _ _
  · intro h
    have := congrArg ModelFile.decls h
    revert this
    decide

end Pynare

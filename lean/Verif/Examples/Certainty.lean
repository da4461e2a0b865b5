import Verif.Props.Certainty
import Verif.Examples.WholeOrderSecond
/-!
# The first file of `Examples/WholeOrderSecond.lean` with other shocks, for the example of C181
-/

namespace Pynare

/-- the model with other shocks -/
def ceText : String :=
  "var x z w ; varexo e1 e2 ; model ; x = 0.5 * x ( - 1 ) + x ( - 1 ) * x ( - 1 ) + e1 ; " ++
  "z = 0.25 * z ( - 1 ) + e2 ; w ( + 1 ) = 2 * w ; end ; " ++
  "shocks ; var e1 ; stderr 4 ; var e2 ; stderr 1 ; end ;"
/-- its tokens -/
def ceToks : List (Tok ℚ) := (wordsOf ceText.toList).map ratTok
/-- what it contains -/
def ceFile : ModelFile ℚ :=
  { oqFile with actions := ⟨none, none, none, some ⟨[], [.stderr "e1" (.num 4), .stderr "e2" (.num 1)]⟩⟩ }

theorem ce_file : FileOf ratPC ceToks ceFile :=
  fileOf_check (noCall_of_check _ (by decide +kernel)) (by decide +kernel) (by decide +kernel)

theorem ce_written : Written ratCfg ceToks (exText ceText) [] := by
  have := written_spaced charOk_rat ((wordsOf ceText.toList).map fun w => (ratTok w, w)) (by
    intro p hp
    obtain ⟨w, hw, rfl⟩ := List.mem_map.mp hp
    have h : ((wordsOf ceText.toList).all fun w => spelled ratCfg (ratTok w) w) = true := by decide +kernel
    exact List.all_eq_true.mp h w hw)
  simpa [List.map_map, Function.comp_def, ceToks, exText] using this

theorem ce_differ : DifferInShocks oqFile ceFile := ⟨rfl, rfl, rfl, rfl, rfl, rfl⟩

theorem ce_params : PlainParams ceFile := ⟨oq_params.all, oq_params.last⟩

theorem ce_equations : PlainEquations ceFile := ⟨oq_equations.vars, oq_equations.pvars⟩

/-- what is made from the file -/
theorem ce_read : ∃ (o : Outline ℚ) (m : MState ℚ Unit Unit), createOutline ratOps .ok ceFile = .ok o ∧
    fromOutline whRead.env o "dynare" "m" = .ok m ∧ m.endog.length = 3 ∧
    m.stoch = [⟨"e1", "", some 4, none, none⟩, ⟨"e2", "", some 1, none, none⟩] ∧
    m.indexes = xqT ∧ m.endogNames = ["x", "z", "w"] ∧ m.stochNames = ["e1", "e2"] ∧ m.scope = odσ ∧
    m.exprs.exprs = [xqX, xqZ, xqW] ∧
    (∃ f₁ f₂ f₃, m.steady = [f₁, f₂, f₃] ∧ ∀ x z w : ℚ, f₁ [x, z, w] = .ok (x - (1 / 2 * x + x * x + 0)) ∧
      f₂ [x, z, w] = .ok (z - (1 / 4 * z + 0)) ∧ f₃ [x, z, w] = .ok (w - 2 * w)) :=
  ⟨_, _, rfl, rfl, rfl, rfl, rfl, rfl, rfl, rfl, rfl, _, _, _, rfl, fun _ _ _ => ⟨rfl, rfl, rfl⟩⟩

/-- the covariances of the first file -/
def ceSig : Sig ℚ := sigmaDiag [⟨"e1", "", some 1, none, none⟩, ⟨"e2", "", some (1 / 4), none, none⟩]
/-- and of the second -/
def ceSig' : Sig ℚ := sigmaDiag [⟨"e1", "", some 4, none, none⟩, ⟨"e2", "", some 1, none, none⟩]

theorem oq_run : ∃ (md md' : MState ℚ (ModelSpace ℚ) ((Arr ℚ × Arr ℚ) × SecondNd ℚ)) (gy gu : Arr ℚ) (so : SecondNd ℚ)
    (lang name : String), fromText (whRead.second oqLib (1 / 2)) lang name (exText oqText) = .ok md ∧
    md.solve (whRead.env.second oqLib (1 / 2)) = (md', .ok ((gy, gu), so)) ∧
    (md.readSigma (whRead.env.second oqLib (1 / 2))).2 = .ok ceSig ∧ md.stoch.length = 2 := by
  obtain ⟨o, m, h1, h2, h3, h4, h5, h6, h7, h8, h9, ⟨f₁, f₂, f₃, hf, hfv⟩, -⟩ := oq_read
  obtain ⟨s, gy, gu, so, hm, -⟩ := xq_second (ls := [1/2, 1/4, 2]) (sigma := ⟨2, 2, ceSig⟩) rfl xq_derivs
    (by unfold SymmetricHessian; decide +kernel) (by decide +kernel) (by
      intro i j hij hj
      have hj : j < 3 := hj
      interval_cases j <;> interval_cases i <;> norm_num [abs_lt]) (by
      simp only [List.mem_cons, List.not_mem_nil, or_false, forall_eq_or_imp, forall_eq]
      norm_num [abs_lt]) (fun _ _ _ => true) (by decide +kernel)
  obtain ⟨md, md', a1, a2, a3, a4, a5, a6, a7, a8⟩ := run_second (lib := oqLib) rfl h1 h2 oq_file oq_written rfl oq_params
    oq_equations h3 (sg := ceSig) (by rw [h5]; exact hm) h6 h7 h8 h9 (by
      obtain ⟨k1, k2, k3⟩ := hfv 0 0 0
      rw [hf]; simp [callAll, k1, k2, k3, bind, Except.bind]) (by rw [h5]; rfl) (by rw [h4]; rfl)
  obtain ⟨lang, name, hmade⟩ := a4.made
  exact ⟨md, md', gy, gu, _, lang, name, hmade, a5, a7, by rw [a8, h4]; rfl⟩

theorem ce_run : ∃ (md md' : MState ℚ (ModelSpace ℚ) ((Arr ℚ × Arr ℚ) × SecondNd ℚ)) (gy gu : Arr ℚ) (so : SecondNd ℚ)
    (lang name : String), fromText (whRead.second oqLib (1 / 2)) lang name (exText ceText) = .ok md ∧
    md.solve (whRead.env.second oqLib (1 / 2)) = (md', .ok ((gy, gu), so)) ∧
    (md.readSigma (whRead.env.second oqLib (1 / 2))).2 = .ok ceSig' ∧ md.stoch.length = 2 := by
  obtain ⟨o, m, h1, h2, h3, h4, h5, h6, h7, h8, h9, f₁, f₂, f₃, hf, hfv⟩ := ce_read
  obtain ⟨s, gy, gu, so, hm, -⟩ := xq_second (ls := [1/2, 1/4, 2]) (sigma := ⟨2, 2, ceSig'⟩) rfl xq_derivs
    (by unfold SymmetricHessian; decide +kernel) (by decide +kernel) (by
      intro i j hij hj
      have hj : j < 3 := hj
      interval_cases j <;> interval_cases i <;> norm_num [abs_lt]) (by
      simp only [List.mem_cons, List.not_mem_nil, or_false, forall_eq_or_imp, forall_eq]
      norm_num [abs_lt]) (fun _ _ _ => true) (by decide +kernel)
  obtain ⟨md, md', a1, a2, a3, a4, a5, a6, a7, a8⟩ := run_second (lib := oqLib) rfl h1 h2 ce_file ce_written rfl ce_params
    ce_equations h3 (sg := ceSig') (by rw [h5]; exact hm) h6 h7 h8 h9 (by
      obtain ⟨k1, k2, k3⟩ := hfv 0 0 0
      rw [hf]; simp [callAll, k1, k2, k3, bind, Except.bind]) (by rw [h5]; rfl) (by rw [h4]; rfl)
  obtain ⟨lang, name, hmade⟩ := a4.made
  exact ⟨md, md', gy, gu, _, lang, name, hmade, a5, a7, by rw [a8, h4]; rfl⟩

/-- the hypotheses of `C181_second_order` are met by the two files, with covariances four times as large in the second -/
example : ∃ (us us' : List (Tok ℚ)) (md md₁ md' md₁' : MState ℚ (ModelSpace ℚ) ((Arr ℚ × Arr ℚ) × SecondNd ℚ))
    (gy gu gy' gu' : Arr ℚ) (so so' : SecondNd ℚ) (lang name lang' name' : String) (sg sg' : Sig ℚ), CharOk whRead.cfg ∧
    oqLib.la.Exact ∧ DifferInShocks oqFile ceFile ∧ oqFile ≠ ceFile ∧ FileOf whRead.pc us oqFile ∧ FileOf whRead.pc us' ceFile ∧
    Written whRead.cfg us (exText oqText) [] ∧ Written whRead.cfg us' (exText ceText) [] ∧
    fromText (whRead.second oqLib (1 / 2)) lang name (exText oqText) = .ok md ∧
    fromText (whRead.second oqLib (1 / 2)) lang' name' (exText ceText) = .ok md' ∧
    md.solve (whRead.env.second oqLib (1 / 2)) = (md₁, .ok ((gy, gu), so)) ∧
    md'.solve (whRead.env.second oqLib (1 / 2)) = (md₁', .ok ((gy', gu'), so')) ∧
    (md.readSigma (whRead.env.second oqLib (1 / 2))).2 = .ok sg ∧
    (md'.readSigma (whRead.env.second oqLib (1 / 2))).2 = .ok sg' ∧
    (∀ i < md.stoch.length, ∀ j < md.stoch.length, sg' i j = 4 * sg i j) := by
  obtain ⟨md, md₁, gy, gu, so, lang, name, a1, a2, a3, a4⟩ := oq_run
  obtain ⟨md', md₁', gy', gu', so', lang', name', b1, b2, b3, -⟩ := ce_run
  refine ⟨_, _, md, md₁, md', md₁', gy, gu, gy', gu', so, so', lang, name, lang', name', _, _, charOk_rat, xqLa_exact _, ce_differ,
    ?_, oq_file, ce_file, oq_written, ce_written, a1, b1, a2, b2, a3, b3, ?_⟩
  · intro h
    have := congrArg ModelFile.actions h
    revert this
    decide
  · rw [a4]
    decide +kernel

theorem oq_run_first : ∃ (md md' : MState ℚ (ModelSpace ℚ) (Arr ℚ × Arr ℚ)) (gy gu : Arr ℚ) (lang name : String),
    fromText (whRead.first oqLib) lang name (exText oqText) = .ok md ∧
    md.solve (whRead.env.first oqLib) = (md', .ok (gy, gu)) := by
  obtain ⟨o, m, h1, h2, h3, h4, h5, h6, h7, h8, h9, ⟨f₁, f₂, f₃, hf, hfv⟩, -⟩ := oq_read
  obtain ⟨s, gy, gu, so, hm, -⟩ := xq_second (ls := [1/2, 1/4, 2]) (sigma := ⟨2, 2, ceSig⟩) rfl xq_derivs
    (by unfold SymmetricHessian; decide +kernel) (by decide +kernel) (by
      intro i j hij hj
      have hj : j < 3 := hj
      interval_cases j <;> interval_cases i <;> norm_num [abs_lt]) (by
      simp only [List.mem_cons, List.not_mem_nil, or_false, forall_eq_or_imp, forall_eq]
      norm_num [abs_lt]) (fun _ _ _ => true) (by decide +kernel)
  obtain ⟨md, md', -, a4, a5, -⟩ := run_solved (lib := oqLib) rfl h1 h2 oq_file oq_written rfl oq_params
    oq_equations h3 (sg := ceSig) (by rw [h5]; exact hm.toSolvedModel) h6 h7 h8 h9 (by
      obtain ⟨k1, k2, k3⟩ := hfv 0 0 0
      rw [hf]; simp [callAll, k1, k2, k3, bind, Except.bind]) (by rw [h5]; rfl) (by rw [h4]; rfl)
  obtain ⟨lang, name, hmade⟩ := a4.made
  exact ⟨md, md', gy, gu, lang, name, hmade, a5⟩

theorem ce_run_first : ∃ (md md' : MState ℚ (ModelSpace ℚ) (Arr ℚ × Arr ℚ)) (gy gu : Arr ℚ) (lang name : String),
    fromText (whRead.first oqLib) lang name (exText ceText) = .ok md ∧
    md.solve (whRead.env.first oqLib) = (md', .ok (gy, gu)) := by
  obtain ⟨o, m, h1, h2, h3, h4, h5, h6, h7, h8, h9, f₁, f₂, f₃, hf, hfv⟩ := ce_read
  obtain ⟨s, gy, gu, so, hm, -⟩ := xq_second (ls := [1/2, 1/4, 2]) (sigma := ⟨2, 2, ceSig'⟩) rfl xq_derivs
    (by unfold SymmetricHessian; decide +kernel) (by decide +kernel) (by
      intro i j hij hj
      have hj : j < 3 := hj
      interval_cases j <;> interval_cases i <;> norm_num [abs_lt]) (by
      simp only [List.mem_cons, List.not_mem_nil, or_false, forall_eq_or_imp, forall_eq]
      norm_num [abs_lt]) (fun _ _ _ => true) (by decide +kernel)
  obtain ⟨md, md', -, a4, a5, -⟩ := run_solved (lib := oqLib) rfl h1 h2 ce_file ce_written rfl ce_params
    ce_equations h3 (sg := ceSig') (by rw [h5]; exact hm.toSolvedModel) h6 h7 h8 h9 (by
      obtain ⟨k1, k2, k3⟩ := hfv 0 0 0
      rw [hf]; simp [callAll, k1, k2, k3, bind, Except.bind]) (by rw [h5]; rfl) (by rw [h4]; rfl)
  obtain ⟨lang, name, hmade⟩ := a4.made
  exact ⟨md, md', gy, gu, lang, name, hmade, a5⟩

/-- the hypotheses of `C181_space` and `C181_first_order` are met by the two files -/
example : ∃ (us us' : List (Tok ℚ)) (md md₁ md' md₁' : MState ℚ (ModelSpace ℚ) (Arr ℚ × Arr ℚ))
    (gy gu gy' gu' : Arr ℚ) (lang name lang' name' : String), CharOk whRead.cfg ∧
    DifferInShocks oqFile ceFile ∧ FileOf whRead.pc us oqFile ∧ FileOf whRead.pc us' ceFile ∧
    Written whRead.cfg us (exText oqText) [] ∧ Written whRead.cfg us' (exText ceText) [] ∧
    fromText (whRead.first oqLib) lang name (exText oqText) = .ok md ∧
    fromText (whRead.first oqLib) lang' name' (exText ceText) = .ok md' ∧
    md.solve (whRead.env.first oqLib) = (md₁, .ok (gy, gu)) ∧
    md'.solve (whRead.env.first oqLib) = (md₁', .ok (gy', gu')) := by
  obtain ⟨md, md₁, gy, gu, lang, name, a1, a2⟩ := oq_run_first
  obtain ⟨md', md₁', gy', gu', lang', name', b1, b2⟩ := ce_run_first
  exact ⟨_, _, md, md₁, md', md₁', gy, gu, gy', gu', lang, name, lang', name', charOk_rat, ce_differ, oq_file, ce_file,
    oq_written, ce_written, a1, b1, a2, b2⟩

end Pynare

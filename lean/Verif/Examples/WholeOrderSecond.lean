import Verif.Props.WholeOrderSecond
import Verif.Examples.WholeOrderRun
/-!
# The model of `Examples/OrderSecond.lean` as two files, for the example of C168
-/

namespace Pynare

/-- the model -/
def oqText : String :=
  "var x z w ; varexo e1 e2 ; model ; x = 0.5 * x ( - 1 ) + x ( - 1 ) * x ( - 1 ) + e1 ; " ++
  "z = 0.25 * z ( - 1 ) + e2 ; w ( + 1 ) = 2 * w ; end ; " ++
  "shocks ; var e1 ; stderr 1 ; var e2 ; stderr 0.25 ; end ;"
/-- its tokens -/
def oqToks : List (Tok ℚ) := (wordsOf oqText.toList).map ratTok
/-- what it contains -/
def oqFile : ModelFile ℚ where
  decls := [("x", "var"), ("z", "var"), ("w", "var"), ("e1", "varexo"), ("e2", "varexo")]
  params := []
  args := []
  stmts := [
    .eqn (.var "x") (.bin .add (.bin .add (.bin .mul (.num (1 / 2)) (.pvar "x" (-1)))
      (.bin .mul (.pvar "x" (-1)) (.pvar "x" (-1)))) (.var "e1")) none,
    .eqn (.var "z") (.bin .add (.bin .mul (.num (1 / 4)) (.pvar "z" (-1))) (.var "e2")) none,
    .eqn (.pvar "w" 1) (.bin .mul (.num 2) (.var "w")) none]
  actions := ⟨none, none, none, some ⟨[], [.stderr "e1" (.num 1), .stderr "e2" (.num (1 / 4))]⟩⟩

/-- the model in another order -/
def oqText' : String :=
  "var w z x ; varexo e2 e1 ; model ; z = 0.25 * z ( - 1 ) + e2 ; " ++
  "x = 0.5 * x ( - 1 ) + x ( - 1 ) * x ( - 1 ) + e1 ; w ( + 1 ) = 2 * w ; end ; " ++
  "shocks ; var e2 ; stderr 0.25 ; var e1 ; stderr 1 ; end ;"
/-- its tokens -/
def oqToks' : List (Tok ℚ) := (wordsOf oqText'.toList).map ratTok
/-- what it contains -/
def oqFile' : ModelFile ℚ where
  decls := [("w", "var"), ("z", "var"), ("x", "var"), ("e2", "varexo"), ("e1", "varexo")]
  params := []
  args := []
  stmts := [
    .eqn (.var "z") (.bin .add (.bin .mul (.num (1 / 4)) (.pvar "z" (-1))) (.var "e2")) none,
    .eqn (.var "x") (.bin .add (.bin .add (.bin .mul (.num (1 / 2)) (.pvar "x" (-1)))
      (.bin .mul (.pvar "x" (-1)) (.pvar "x" (-1)))) (.var "e1")) none,
    .eqn (.pvar "w" 1) (.bin .mul (.num 2) (.var "w")) none]
  actions := ⟨none, none, none, some ⟨[], [.stderr "e2" (.num (1 / 4)), .stderr "e1" (.num 1)]⟩⟩

theorem oq_file : FileOf ratPC oqToks oqFile :=
  fileOf_check (noCall_of_check _ (by decide +kernel)) (by decide +kernel) (by decide +kernel)

theorem oq_file' : FileOf ratPC oqToks' oqFile' :=
  fileOf_check (noCall_of_check _ (by decide +kernel)) (by decide +kernel) (by decide +kernel)

theorem oq_written : Written ratCfg oqToks (exText oqText) [] := by
  have := written_spaced charOk_rat ((wordsOf oqText.toList).map fun w => (ratTok w, w)) (by
    intro p hp
    obtain ⟨w, hw, rfl⟩ := List.mem_map.mp hp
    have h : ((wordsOf oqText.toList).all fun w => spelled ratCfg (ratTok w) w) = true := by decide +kernel
    exact List.all_eq_true.mp h w hw)
  simpa [List.map_map, Function.comp_def, oqToks, exText] using this

theorem oq_written' : Written ratCfg oqToks' (exText oqText') [] := by
  have := written_spaced charOk_rat ((wordsOf oqText'.toList).map fun w => (ratTok w, w)) (by
    intro p hp
    obtain ⟨w, hw, rfl⟩ := List.mem_map.mp hp
    have h : ((wordsOf oqText'.toList).all fun w => spelled ratCfg (ratTok w) w) = true := by decide +kernel
    exact List.all_eq_true.mp h w hw)
  simpa [List.map_map, Function.comp_def, oqToks', exText] using this

theorem oq_reordered : Reordered oqFile oqFile' := by
  refine ⟨?_, rfl, rfl, ?_⟩
  · show List.Perm [("w", "var"), ("z", "var"), ("x", "var"), ("e2", "varexo"), ("e1", "varexo")]
      [("x", "var"), ("z", "var"), ("w", "var"), ("e1", "varexo"), ("e2", "varexo")]
    decide
  · exact .swap ..

theorem oq_params : PlainParams oqFile := by
  refine ⟨fun x h => ?_, fun pre x e post h => ?_⟩
  · simp [ModelFile.DeclaredAs, oqFile] at h
  · simp [oqFile] at h

theorem oq_params' : PlainParams oqFile' := by
  refine ⟨fun x h => ?_, fun pre x e post h => ?_⟩
  · simp [ModelFile.DeclaredAs, oqFile'] at h
  · simp [oqFile'] at h

theorem oq_equations : PlainEquations oqFile := by
  constructor
  · intro l r h x hx
    simp only [oqFile, equations, List.filterMap_cons, List.filterMap_nil, List.mem_cons, List.not_mem_nil, or_false,
      Prod.mk.injEq] at h
    rcases h with ⟨rfl, rfl⟩ | ⟨rfl, rfl⟩ | ⟨rfl, rfl⟩ <;>
      simp [Expr.vars] at hx <;> simp [ModelFile.DeclaredAs, oqFile] <;> tauto
  · intro l r h x o hx
    simp only [oqFile, equations, List.filterMap_cons, List.filterMap_nil, List.mem_cons, List.not_mem_nil, or_false,
      Prod.mk.injEq] at h
    rcases h with ⟨rfl, rfl⟩ | ⟨rfl, rfl⟩ | ⟨rfl, rfl⟩ <;>
      simp [Expr.pvars] at hx <;> simp [ModelFile.DeclaredAs, oqFile] <;> tauto

theorem oq_posed : WellPosed oqFile := by
  constructor
  · intro x h
    simp only [ModelFile.DeclaredAs, oqFile, List.mem_cons, List.not_mem_nil, or_false, Prod.mk.injEq] at h
    rcases h with ⟨rfl, -⟩ | ⟨rfl, -⟩ | ⟨rfl, -⟩ | ⟨-, h⟩ | ⟨-, h⟩
    · exact ⟨_, _, .head _, .inl (by simp [Expr.vars])⟩
    · exact ⟨_, _, .tail _ (.head _), .inl (by simp [Expr.vars])⟩
    · exact ⟨_, _, .tail _ (.tail _ (.head _)), .inr (by simp [Expr.vars])⟩
    · simp at h
    · simp at h
  · rfl

/-- what is made from the first file -/
theorem oq_read : ∃ (o : Outline ℚ) (m : MState ℚ Unit Unit), createOutline ratOps .ok oqFile = .ok o ∧
    fromOutline whRead.env o "dynare" "m" = .ok m ∧ m.endog.length = 3 ∧
    m.stoch = [⟨"e1", "", some 1, none, none⟩, ⟨"e2", "", some (1 / 4), none, none⟩] ∧
    m.indexes = xqT ∧ m.endogNames = ["x", "z", "w"] ∧ m.stochNames = ["e1", "e2"] ∧ m.scope = odσ ∧
    m.exprs.exprs = [xqX, xqZ, xqW] ∧
    (∃ f₁ f₂ f₃, m.steady = [f₁, f₂, f₃] ∧ ∀ x z w : ℚ, f₁ [x, z, w] = .ok (x - (1 / 2 * x + x * x + 0)) ∧
      f₂ [x, z, w] = .ok (z - (1 / 4 * z + 0)) ∧ f₃ [x, z, w] = .ok (w - 2 * w)) ∧
    ∃ g₁ g₂ g₃, m.dynamic = [g₁, g₂, g₃] ∧ ∀ xm zm x z w wp e1 e2,
      g₁ [xm, zm, x, z, w, wp, e1, e2] = .ok (x - (1 / 2 * xm + xm * xm + e1)) ∧
      g₂ [xm, zm, x, z, w, wp, e1, e2] = .ok (z - (1 / 4 * zm + e2)) ∧
      g₃ [xm, zm, x, z, w, wp, e1, e2] = .ok (wp - 2 * w) :=
  ⟨_, _, rfl, rfl, rfl, rfl, rfl, rfl, rfl, rfl, rfl, ⟨_, _, _, rfl, fun _ _ _ => ⟨rfl, rfl, rfl⟩⟩,
    _, _, _, rfl, fun _ _ _ _ _ _ _ _ => ⟨rfl, rfl, rfl⟩⟩

/-- what is made from the second file -/
theorem oq_read' : ∃ (o : Outline ℚ) (m : MState ℚ Unit Unit), createOutline ratOps .ok oqFile' = .ok o ∧
    fromOutline whRead.env o "dynare" "m" = .ok m ∧ m.endog.length = 3 ∧
    m.stoch = [⟨"e2", "", some (1 / 4), none, none⟩, ⟨"e1", "", some 1, none, none⟩] ∧
    m.indexes = xqT' ∧ m.endogNames = ["w", "z", "x"] ∧ m.stochNames = ["e2", "e1"] ∧ m.scope = odσ ∧
    m.exprs.exprs = [xqZ, xqX, xqW] ∧
    (∃ f₁ f₂ f₃, m.steady = [f₁, f₂, f₃] ∧ ∀ w z x : ℚ, f₁ [w, z, x] = .ok (z - (1 / 4 * z + 0)) ∧
      f₂ [w, z, x] = .ok (x - (1 / 2 * x + x * x + 0)) ∧ f₃ [w, z, x] = .ok (w - 2 * w)) ∧
    ∃ g₁ g₂ g₃, m.dynamic = [g₁, g₂, g₃] ∧ ∀ zm xm w z x wp e2 e1,
      g₁ [zm, xm, w, z, x, wp, e2, e1] = .ok (z - (1 / 4 * zm + e2)) ∧
      g₂ [zm, xm, w, z, x, wp, e2, e1] = .ok (x - (1 / 2 * xm + xm * xm + e1)) ∧
      g₃ [zm, xm, w, z, x, wp, e2, e1] = .ok (wp - 2 * w) :=
  ⟨_, _, rfl, rfl, rfl, rfl, rfl, rfl, rfl, rfl, rfl, ⟨_, _, _, rfl, fun _ _ _ => ⟨rfl, rfl, rfl⟩⟩,
    _, _, _, rfl, fun _ _ _ _ _ _ _ _ => ⟨rfl, rfl, rfl⟩⟩

/-- an equation with eight arguments and a square is differentiated twice exactly -/
theorem oq_exact {f : List ℚ → Except Err ℚ} (g : List ℚ) (c : ℚ) (j : Nat) (hg : g.length = 8) (hj : j < 2)
    (hf : ∀ a0 a1 a2 a3 a4 a5 a6 a7 : ℚ, f [a0, a1, a2, a3, a4, a5, a6, a7] = .ok (vecEntry g 0 * a0 + vecEntry g 1 * a1 +
      vecEntry g 2 * a2 + vecEntry g 3 * a3 + vecEntry g 4 * a4 + vecEntry g 5 * a5 + vecEntry g 6 * a6 +
      vecEntry g 7 * a7 + c * (([a0, a1][j]?.getD 0) * ([a0, a1][j]?.getD 0)))) {p : List ℚ} (hp : p.length = 8) :
    idealAd.SecondExactAt f p := by
  refine IsQuad.second (n := 8) (g := vecEntry g) (h := fun m => if m = j * 8 + j then 2 * c else 0) ⟨?_, fun x hx => ?_⟩ hp
  · intro k hk l hl
    have : k * 8 + l = j * 8 + j ↔ l * 8 + k = j * 8 + j := by omega
    simp only [this]
  · rw [xq_quad hg hj hf x hx, quadFun, if_pos hx]

/-- what is left, once the model is as in C154 -/
theorem run_second {lib : Libs ℚ} (hopt : lib.opt = zeroMin) {file : ModelFile ℚ} {toks : List (Tok ℚ)} {text : List Char}
    {o : Outline ℚ} {m : MState ℚ Unit Unit} (h1 : createOutline ratOps .ok file = .ok o)
    (h2 : fromOutline whRead.env o "dynare" "m" = .ok m) (hf : FileOf ratPC toks file) (hw : Written ratCfg toks text [])
    (hv : file.params = []) (hp : PlainParams file) (he : PlainEquations file) (hn : m.endog.length = 3)
    {J H gy gu : Arr ℚ} {so : SecondNd ℚ} {s : Space ℚ} {q : QZ ℚ} {ev : Nat → Option ℂ} {endo exo : List String}
    {es : List (Expr ℚ)} {sg : Sig ℚ}
    (hm : SecondModel (Rat.castHom ℂ) ratOps (fun _ => true) lib.ad lib.la lib.qz (1 / 2) odσ endo exo es [0, 0, 0] m.indexes J
      H ⟨exo.length, exo.length, sg⟩ gy gu so s q ev)
    (e1 : m.endogNames = endo) (e2 : m.stochNames = exo) (e3 : m.scope = odσ) (e4 : m.exprs.exprs = es)
    (hst : callAll m.steady [0, 0, 0] = .ok (List.replicate m.steady.length 0))
    (hi : m.indexes.n = 3) (hsg : defineSigma id m.stoch = .ok sg) :
    ∃ md md' : MState ℚ (ModelSpace ℚ) ((Arr ℚ × Arr ℚ) × SecondNd ℚ), md.dynamic = m.dynamic ∧ md.indexes = m.indexes ∧
      md.statespace.steady = [0, 0, 0] ∧
      ReadFrom (whRead.second lib (1 / 2)) text file noValues md ∧
      md.solve (whRead.env.second lib (1 / 2)) = (md', .ok ((gy, gu), so.stored (1 / 2))) ∧
      PassesCheck (Rat.castHom ℂ) lib.la md ∧
      (md.readSigma (whRead.env.second lib (1 / 2))).2 = .ok sg ∧ md.stoch = m.stoch := by
  obtain ⟨-, _, _, _, _, _, _, _, _, _, hb⟩ := fromOutline_inv h2
  obtain ⟨hfr, -⟩ := create_fresh hb
  obtain ⟨fs, hfs, hJ⟩ := hm.jacobian
  obtain ⟨fs', hfs', hH⟩ := hm.hessian
  have hd := hfr.dynamic
  rw [e1, e2, e3, e4] at hd
  obtain rfl : fs = m.dynamic := Except.ok.inj (hfs.symm.trans hd)
  obtain rfl : fs' = m.dynamic := Except.ok.inj (hfs'.symm.trans hd)
  have hl : m.stoch.length = exo.length := by rw [← e2, MState.stochNames, List.length_map]
  have hss : modelValues lib.opt "dynare" ⟨callAll m.steady, startValues lib.nan m.endog⟩ = .ok [0, 0, 0] := by
    have h3 : (startValues lib.nan m.endog).length = 3 := by simp [startValues, hn]
    rw [hopt, zero_steady (by rw [h3]; exact hst), h3]
    rfl
  have hsp : modelSpace lib m.endog m.stoch.length m.indexes m.steady m.dynamic =
      .ok ⟨m.indexes, exo.length, m.dynamic, [0, 0, 0], J, s⟩ := by
    unfold modelSpace
    rw [hss]
    simp only [bind, Except.bind]
    rw [if_neg (show ¬ ([0, 0, 0] : List ℚ).length ≠ m.indexes.n by rw [hi]; simp), hl, hJ]
    simp only [hm.space]
  have hsol : secondSolution lib (1 / 2) ⟨m.indexes, exo.length, m.dynamic, [0, 0, 0], J, s⟩ sg =
      .ok ((gy, gu), so.stored (1 / 2)) := by
    unfold secondSolution
    simp only [hm.solved, hH, hm.second, bind, Except.bind]
  have hmm := fromOutline_space (env := whRead.env) (env' := whRead.env.second lib (1 / 2)) rfl rfl h2 hsp
  obtain ⟨md', hs⟩ := fresh_solves hmm hsg hsol
  refine ⟨_, md', rfl, rfl, rfl, ⟨charOk_rat, ⟨_, hf, hw⟩, ⟨"dynare", "m", ?_⟩, by rw [hv]; exact .nil, hp, he⟩, hs,
    ⟨hm.verified, q, ev, hm.decomposed, hm.eigen, hm.noUnit⟩, ?_, rfl⟩
  swap
  · obtain ⟨-, _, _, _, _, _, _, _, _, _, hb'⟩ := fromOutline_inv hmm
    obtain ⟨hfr', k1, k2, -⟩ := create_fresh hb'
    rw [readSigma_fresh hfr' k1 k2 (show defineSigma (whRead.env.second lib (1 / 2)).sqrt _ = _ from hsg)]
  rw [fromText_run (r := whRead.second lib (1 / 2)) charOk_rat hf hw h1,
    show fromOutline (whRead.second lib (1 / 2)).env o "dynare" "m" = _ from hmm]
  rfl

/-- the libraries for the first file -/
noncomputable def oqLib : Libs ℚ := ⟨xqLa [1/2, 1/4, 2], triQz, idealAd, zeroMin, 0⟩
/-- the libraries for the second file -/
noncomputable def oqLib' : Libs ℚ := ⟨xqLa [1/4, 1/2, 2], triQz, idealAd, zeroMin, 0⟩

theorem oq_first : ∃ (md md' : MState ℚ (ModelSpace ℚ) ((Arr ℚ × Arr ℚ) × SecondNd ℚ)) (gy gu : Arr ℚ) (so : SecondNd ℚ),
    ReadFrom (whRead.second oqLib (1 / 2)) (exText oqText) oqFile noValues md ∧
    (∀ f ∈ md.dynamic,
      oqLib.ad.SecondExactAt f (linPoint md.indexes.toTyper (oqFile.names "varexo").length md.statespace.steady)) ∧
    md.solve (whRead.env.second oqLib (1 / 2)) = (md', .ok ((gy, gu), so)) ∧ md.statespace.steady = [0, 0, 0] ∧
    PassesCheck (Rat.castHom ℂ) oqLib.la md := by
  obtain ⟨o, m, h1, h2, h3, h4, h5, h6, h7, h8, h9, ⟨f₁, f₂, f₃, hf, hfv⟩, g₁, g₂, g₃, hg, hgv⟩ := oq_read
  obtain ⟨s, gy, gu, so, hm, -⟩ := xq_second (ls := [1/2, 1/4, 2])
    (sigma := ⟨2, 2, sigmaDiag [⟨"e1", "", some 1, none, none⟩, ⟨"e2", "", some (1 / 4), none, none⟩]⟩) rfl xq_derivs
    (by unfold SymmetricHessian; decide +kernel) (by decide +kernel) (by
      intro i j hij hj
      have hj : j < 3 := hj
      interval_cases j <;> interval_cases i <;> norm_num [abs_lt]) (by
      simp only [List.mem_cons, List.not_mem_nil, or_false, forall_eq_or_imp, forall_eq]
      norm_num [abs_lt]) (fun _ _ _ => true) (by decide +kernel)
  obtain ⟨md, md', a1, a2, a3, a4, a5, a6, -⟩ := run_second (lib := oqLib) rfl h1 h2 oq_file oq_written rfl oq_params
    oq_equations h3 (sg := sigmaDiag m.stoch) (by rw [h5, h4]; exact hm) h6 h7 h8 h9 (by
      obtain ⟨k1, k2, k3⟩ := hfv 0 0 0
      rw [hf]; simp [callAll, k1, k2, k3, bind, Except.bind]) (by rw [h5]; rfl) (by rw [h4]; rfl)
  refine ⟨md, md', gy, gu, _, a4, ?_, a5, a3, a6⟩
  have hlen : (linPoint md.indexes.toTyper (oqFile.names "varexo").length md.statespace.steady).length = 8 := by
    rw [a2, a3, h5]; decide +kernel
  rw [a1, hg]
  intro f hf
  simp only [List.mem_cons, List.not_mem_nil, or_false] at hf
  rcases hf with rfl | rfl | rfl
  · refine oq_exact [-(1/2), 0, 1, 0, 0, 0, -1, 0] (-1) 0 rfl (by decide) (fun a0 a1 a2 a3 a4 a5 a6 a7 => ?_) hlen
    rw [(hgv a0 a1 a2 a3 a4 a5 a6 a7).1]
    simp [vecEntry]
    ring
  · refine oq_exact [0, -(1/4), 0, 1, 0, 0, 0, -1] 0 0 rfl (by decide) (fun a0 a1 a2 a3 a4 a5 a6 a7 => ?_) hlen
    rw [(hgv a0 a1 a2 a3 a4 a5 a6 a7).2.1]
    simp [vecEntry]
    ring
  · refine oq_exact [0, 0, 0, 0, -2, 1, 0, 0] 0 0 rfl (by decide) (fun a0 a1 a2 a3 a4 a5 a6 a7 => ?_) hlen
    rw [(hgv a0 a1 a2 a3 a4 a5 a6 a7).2.2]
    simp [vecEntry]
    ring

theorem oq_second : ∃ (md md' : MState ℚ (ModelSpace ℚ) ((Arr ℚ × Arr ℚ) × SecondNd ℚ)) (gy gu : Arr ℚ) (so : SecondNd ℚ),
    ReadFrom (whRead.second oqLib' (1 / 2)) (exText oqText') oqFile' noValues md ∧
    (∀ f ∈ md.dynamic,
      oqLib'.ad.SecondExactAt f (linPoint md.indexes.toTyper (oqFile'.names "varexo").length md.statespace.steady)) ∧
    md.solve (whRead.env.second oqLib' (1 / 2)) = (md', .ok ((gy, gu), so)) ∧ md.statespace.steady = [0, 0, 0] ∧
    PassesCheck (Rat.castHom ℂ) oqLib'.la md := by
  obtain ⟨o, m, h1, h2, h3, h4, h5, h6, h7, h8, h9, ⟨f₁, f₂, f₃, hf, hfv⟩, g₁, g₂, g₃, hg, hgv⟩ := oq_read'
  obtain ⟨s, gy, gu, so, hm, -⟩ := xq_second (ls := [1/4, 1/2, 2])
    (sigma := ⟨2, 2, sigmaDiag [⟨"e2", "", some (1 / 4), none, none⟩, ⟨"e1", "", some 1, none, none⟩]⟩) rfl xq_derivs'
    (by unfold SymmetricHessian; decide +kernel) (by decide +kernel) (by
      intro i j hij hj
      have hj : j < 3 := hj
      interval_cases j <;> interval_cases i <;> norm_num [abs_lt]) (by
      simp only [List.mem_cons, List.not_mem_nil, or_false, forall_eq_or_imp, forall_eq]
      norm_num [abs_lt]) (fun _ _ _ => true) (by decide +kernel)
  obtain ⟨md, md', a1, a2, a3, a4, a5, a6, -⟩ := run_second (lib := oqLib') rfl h1 h2 oq_file' oq_written' rfl oq_params'
    (oq_reordered.plainEquations oq_equations) h3 (sg := sigmaDiag m.stoch) (by rw [h5, h4]; exact hm) h6 h7 h8 h9 (by
      obtain ⟨k1, k2, k3⟩ := hfv 0 0 0
      rw [hf]; simp [callAll, k1, k2, k3, bind, Except.bind]) (by rw [h5]; rfl) (by rw [h4]; rfl)
  refine ⟨md, md', gy, gu, _, a4, ?_, a5, a3, a6⟩
  have hlen : (linPoint md.indexes.toTyper (oqFile'.names "varexo").length md.statespace.steady).length = 8 := by
    rw [a2, a3, h5]; decide +kernel
  rw [a1, hg]
  intro f hf
  simp only [List.mem_cons, List.not_mem_nil, or_false] at hf
  rcases hf with rfl | rfl | rfl
  · refine oq_exact [-(1/4), 0, 0, 1, 0, 0, -1, 0] 0 1 rfl (by decide) (fun a0 a1 a2 a3 a4 a5 a6 a7 => ?_) hlen
    rw [(hgv a0 a1 a2 a3 a4 a5 a6 a7).1]
    simp [vecEntry]
    ring
  · refine oq_exact [0, -(1/2), 0, 0, 1, 0, 0, -1] (-1) 1 rfl (by decide) (fun a0 a1 a2 a3 a4 a5 a6 a7 => ?_) hlen
    rw [(hgv a0 a1 a2 a3 a4 a5 a6 a7).2.1]
    simp [vecEntry]
    ring
  · refine oq_exact [0, 0, -2, 0, 0, 1, 0, 0] 0 1 rfl (by decide) (fun a0 a1 a2 a3 a4 a5 a6 a7 => ?_) hlen
    rw [(hgv a0 a1 a2 a3 a4 a5 a6 a7).2.2]
    simp [vecEntry]
    ring

theorem oq_shocks : PlainShocks (oqFile.names "varexo") [.stderr "e1" (.num 1), .stderr "e2" (.num (1 / 4 : ℚ))] where
  oneVar pre s post h x hx t ht := by
    match pre, h with
    | [], h =>
      cases h
      cases hx
      simp only [List.mem_singleton] at ht
      subst ht
      exact fun h => absurd (show "e2" = "e1" from h) (by decide)
    | [_], h => cases h; cases ht
    | _ :: _ :: [], h => cases h
    | _ :: _ :: _ :: _, h => cases h
  onePair pre s post h x hx t ht := by
    have hs : s ∈ [Shock.stderr "e1" (.num 1), .stderr "e2" (.num (1 / 4 : ℚ))] := by rw [h]; simp
    simp only [List.mem_cons, List.not_mem_nil, or_false] at hs
    rcases hs with rfl | rfl <;> cases hx
  hasVar s hs x hx := by
    simp only [List.mem_cons, List.not_mem_nil, or_false] at hs
    rcases hs with rfl | rfl <;> cases hx
  declared s hs x y hx := by
    simp only [List.mem_cons, List.not_mem_nil, or_false] at hs
    rcases hs with rfl | rfl <;> cases hx
  proper s hs x y hx := by
    simp only [List.mem_cons, List.not_mem_nil, or_false] at hs
    rcases hs with rfl | rfl <;> cases hx

/-- the hypotheses of `C168_reordered_partial` are met by the two files -/
example : ∃ (md md₁ md' md₁' : MState ℚ (ModelSpace ℚ) ((Arr ℚ × Arr ℚ) × SecondNd ℚ)) (gy gu gy' gu' : Arr ℚ)
    (so so' : SecondNd ℚ) (b b' : Shocks ℚ),
    oqLib.la.Exact ∧ oqLib'.la.Exact ∧ oqLib.ad.Exact ∧ oqLib'.ad.Exact ∧ GQZExact oqLib.qz ∧ GQZExact oqLib'.qz ∧
    Reordered oqFile oqFile' ∧ oqFile ≠ oqFile' ∧ WellPosed oqFile ∧
    ReadFrom (whRead.second oqLib (1 / 2)) (exText oqText) oqFile noValues md ∧
    ReadFrom (whRead.second oqLib' (1 / 2)) (exText oqText') oqFile' noValues md' ∧
    (∀ f ∈ md.dynamic,
      oqLib.ad.SecondExactAt f (linPoint md.indexes.toTyper (oqFile.names "varexo").length md.statespace.steady)) ∧
    (∀ f ∈ md'.dynamic,
      oqLib'.ad.SecondExactAt f (linPoint md'.indexes.toTyper (oqFile'.names "varexo").length md'.statespace.steady)) ∧
    oqFile.actions.shocks = some b ∧ oqFile'.actions.shocks = some b' ∧ b'.shocks.Perm b.shocks ∧
    PlainShocks (oqFile.names "varexo") b.shocks ∧
    (∀ s ∈ b.shocks, ∀ x, s.isVarOf x → ∃ v, SetsVar whRead.env.ops whRead.sq noValues s x v) ∧
    (∀ x y e, Shock.corr x y e ∈ b.shocks ∨ Shock.cov x y e ∈ b.shocks → ∃ v, Evals whRead.env.ops noValues e v) ∧
    md.solve (whRead.env.second oqLib (1 / 2)) = (md₁, .ok ((gy, gu), so)) ∧
    md'.solve (whRead.env.second oqLib' (1 / 2)) = (md₁', .ok ((gy', gu'), so')) ∧
    PassesCheck (Rat.castHom ℂ) oqLib.la md ∧ PassesCheck (Rat.castHom ℂ) oqLib'.la md' ∧
    SameByName (oqFile.names "var") (oqFile'.names "var") (vecEntry md.statespace.steady) (vecEntry md'.statespace.steady) := by
  obtain ⟨md, md₁, gy, gu, so, a1, a2, a3, a4, a5⟩ := oq_first
  obtain ⟨md', md₁', gy', gu', so', b1, b2, b3, b4, b5⟩ := oq_second
  refine ⟨md, md₁, md', md₁', gy, gu, gy', gu', so, so', _, _, xqLa_exact _, xqLa_exact _, idealAd_exact, idealAd_exact,
    triQz_exact, triQz_exact, oq_reordered, ?_, oq_posed, a1, b1, a2, b2, rfl, rfl, .swap .., oq_shocks, ?_, ?_, a3, b3,
    a5, b5, ?_⟩
  · intro h
    have := congrArg ModelFile.decls h
    revert this
    decide
  · intro s hs x hx
    simp only [List.mem_cons, List.not_mem_nil, or_false] at hs
    rcases hs with rfl | rfl <;> (obtain rfl := hx; exact ⟨_, .stderr .num rfl⟩)
  · intro x y e h
    simp only [List.mem_cons, List.not_mem_nil, or_false] at h
    rcases h with (h | h) | (h | h) <;> cases h
  · intro i i' x _ _
    have : ∀ l, vecEntry ([0, 0, 0] : List ℚ) l = 0 := by
      intro l
      unfold vecEntry
      by_cases hl : l < 3
      · interval_cases l <;> rfl
      · rw [List.getElem?_eq_none (by simpa using hl)]; rfl
    rw [a4, b4, this, this]

end Pynare

import Verif.Examples.Whole

/-!
The file of `Examples/Whole.lean` taken from its text to its second-order solution.
-/

namespace Pynare

theorem wh_lin : linPoint so2T.toTyper 2 ([0, 0, 0] : List ℚ) = List.replicate 8 0 := by decide +kernel

theorem wh_arrays {g₁ g₂ g₃ : ResFun ℚ} (h : IsQuad 8 (vecEntry [-1 / 2, 0, 1, 0, -1, 0, -1, 0]) whD₁ g₁ ∧
    IsQuad 8 (vecEntry [-1, -1 / 4, 0, 1, 0, 0, 0, -1]) (fun _ => 0) g₂ ∧
    IsQuad 8 (vecEntry [0, 0, 0, 0, 1, -1 / 2, 0, -1]) whD₃ g₃) :
    modelJacobian idealAd so2T.toTyper 2 [g₁, g₂, g₃] [0, 0, 0] = .ok (rowsArr 8 whG) ∧
    modelHessian idealAd so2T.toTyper 2 [g₁, g₂, g₃] [0, 0, 0] = .ok (rowsArr 64 whH) := by
  obtain ⟨h1, h2, h3⟩ := h
  have hl : (List.replicate 8 (0 : ℚ)).length = 8 := rfl
  have a1 := IsQuad.grad (p := List.replicate 8 (0 : ℚ)) (by rw [hl]; exact h1)
  have a2 := IsQuad.grad (p := List.replicate 8 (0 : ℚ)) (by rw [hl]; exact h2)
  have a3 := IsQuad.grad (p := List.replicate 8 (0 : ℚ)) (by rw [hl]; exact h3)
  have b1 := IsQuad.jacobian (p := List.replicate 8 (0 : ℚ)) (by rw [hl]; exact h1)
  have b2 := IsQuad.jacobian (p := List.replicate 8 (0 : ℚ)) (by rw [hl]; exact h2)
  have b3 := IsQuad.jacobian (p := List.replicate 8 (0 : ℚ)) (by rw [hl]; exact h3)
  rw [hl] at a1 a2 a3 b1 b2 b3
  rw [show (List.range 8).map (quadGrad 8 (vecEntry [-1 / 2, 0, 1, 0, -1, 0, -1, 0]) whD₁ (List.replicate 8 0)) =
    ([-1 / 2, 0, 1, 0, -1, 0, -1, 0] : List ℚ) by decide +kernel] at a1
  rw [show (List.range 8).map (quadGrad 8 (vecEntry [-1, -1 / 4, 0, 1, 0, 0, 0, -1]) (fun _ => 0) (List.replicate 8 0)) =
    ([-1, -1 / 4, 0, 1, 0, 0, 0, -1] : List ℚ) by decide +kernel] at a2
  rw [show (List.range 8).map (quadGrad 8 (vecEntry [0, 0, 0, 0, 1, -1 / 2, 0, -1]) whD₃ (List.replicate 8 0)) =
    ([0, 0, 0, 0, 1, -1 / 2, 0, -1] : List ℚ) by decide +kernel] at a3
  have c1 : (hessRows 8 whD₁).flatten = (List.range 64).map whD₁ := by decide +kernel
  have c2 : (hessRows 8 fun _ => (0 : ℚ)).flatten = List.replicate 64 0 := by decide +kernel
  have c3 : (hessRows 8 whD₃).flatten = (List.range 64).map whD₃ := by decide +kernel
  constructor
  · unfold modelJacobian jacobianArray
    rw [wh_lin]
    simp only [List.map_cons, List.map_nil, assignRows, a1, a2, a3, bind, Except.bind]
    rfl
  · unfold modelHessian hessianArray
    rw [wh_lin]
    simp only [List.map_cons, List.map_nil, assignRows, b1, b2, b3, bind, Except.bind, c1, c2, c3]
    rfl

/-- the minimiser finds the steady state -/
theorem wh_steady {f₁ f₂ f₃ : ResFun ℚ} (h : ∀ a b c, f₁ [a, b, c] = .ok (a - (1 / 2 * a + c + 0 + a * b)) ∧
      f₂ [a, b, c] = .ok (b - (a + 1 / 4 * b + 0)) ∧ f₃ [a, b, c] = .ok (c - (1 / 2 * c + 0 + a * a)))
    {st : List ℚ} (hst : st.length = 3) :
    modelValues zeroMin "dynare" ⟨callAll [f₁, f₂, f₃], st⟩ = .ok [0, 0, 0] := by
  have h0 : leastSquares ⟨callAll [f₁, f₂, f₃], st⟩ [0, 0, 0] = .ok 0 := by
    obtain ⟨h1, h2, h3⟩ := h 0 0 0
    simp [leastSquares, callAll, h1, h2, h3, bind, Except.bind]
  have hm : ∀ a, zeroMin a (leastSquares ⟨callAll [f₁, f₂, f₃], st⟩) st = .ok ⟨[0, 0, 0], true⟩ := by
    intro a
    unfold zeroMin
    rw [hst, if_pos ⟨0, h0, fun y v _ hv => (leastSquares_zero hv).1⟩]
    rfl
  have hm' := hm .gradient
  simp [modelValues, SteadyObj.values, SteadyObj.compute, selectAlgo, runAlgo, hm']

/-- the state space and the solutions -/
theorem wh_spaces : ∃ s gy gu so, Space.create chLa so2T.toTyper (rowsArr 8 whG) = .ok s ∧ s.parts.Separated ∧
    solveFirstOrder chLa so2T 2 s = .ok (gy, gu) ∧
    solveSecondOrder chLa triQz (1 / 2) so2T.toTyper 2 (rowsArr 8 whG) (rowsArr 64 whH)
      ⟨2, 2, sigmaDiag [⟨"u", "", some 1, none, none⟩, ⟨"w", "", some (1 / 2), none, none⟩]⟩ (Nd.mat gy).squeeze
      (Nd.mat gu).squeeze = .ok so := by
  obtain ⟨s, gy, gu, so, h, hs⟩ := wh_solved
  unfold whAll at h
  obtain ⟨s', h1, h⟩ := Except.bind_eq_ok h
  obtain ⟨⟨gy', gu'⟩, h2, h⟩ := Except.bind_eq_ok h
  obtain ⟨so', h3, h⟩ := Except.bind_eq_ok h
  cases h
  exact ⟨s, gy, gu, so, h1, hs, h2, h3⟩

theorem wh_params : PlainParams whFile := by
  refine ⟨fun x h => ?_, fun pre x e post h => ?_⟩
  · simp [ModelFile.DeclaredAs, whFile] at h
  · simp [whFile] at h

theorem wh_equations : PlainEquations whFile := by
  constructor
  · intro l r h x hx
    simp only [whFile, equations, List.filterMap_cons, List.filterMap_nil, List.mem_cons, List.not_mem_nil, or_false,
      Prod.mk.injEq] at h
    rcases h with ⟨rfl, rfl⟩ | ⟨rfl, rfl⟩ | ⟨rfl, rfl⟩ <;>
      simp [Expr.vars] at hx <;> simp [ModelFile.DeclaredAs, whFile] <;> tauto
  · intro l r h x o hx
    simp only [whFile, equations, List.filterMap_cons, List.filterMap_nil, List.mem_cons, List.not_mem_nil, or_false,
      Prod.mk.injEq] at h
    rcases h with ⟨rfl, rfl⟩ | ⟨rfl, rfl⟩ | ⟨rfl, rfl⟩ <;>
      simp [Expr.pvars] at hx <;> simp [ModelFile.DeclaredAs, whFile] <;> tauto

theorem wh_posed : WellPosed whFile := by
  constructor
  · intro x h
    simp only [ModelFile.DeclaredAs, whFile, List.mem_cons, List.not_mem_nil, or_false, Prod.mk.injEq] at h
    rcases h with ⟨rfl, -⟩ | ⟨rfl, -⟩ | ⟨rfl, -⟩ | ⟨-, h⟩ | ⟨-, h⟩
    · exact ⟨_, _, .head _, .inl (by simp [Expr.vars])⟩
    · exact ⟨_, _, .tail _ (.head _), .inl (by simp [Expr.vars])⟩
    · exact ⟨_, _, .tail _ (.tail _ (.head _)), .inl (by simp [Expr.vars])⟩
    · simp at h
    · simp at h
  · rfl

/-- what the libraries make of the model -/
theorem wh_model : ∃ (o : Outline ℚ) (m : MState ℚ Unit Unit) (s : Space ℚ) (gy gu : Arr ℚ),
    createOutline ratOps .ok whFile = .ok o ∧ fromOutline whRead.env o "dynare" "m" = .ok m ∧
    modelSpace whLib m.endog m.stoch.length m.indexes m.steady m.dynamic =
      .ok ⟨m.indexes, 2, m.dynamic, [0, 0, 0], rowsArr 8 whG, s⟩ ∧ s.parts.Separated ∧
    (∀ f ∈ m.dynamic, idealAd.SecondExactAt f (linPoint m.indexes.toTyper 2 [0, 0, 0])) ∧
    ∀ sg, defineSigma id m.stoch = .ok sg → ∃ so,
      firstSolution whLib ⟨m.indexes, 2, m.dynamic, [0, 0, 0], rowsArr 8 whG, s⟩ sg = .ok (gy, gu) ∧
      secondSolution whLib (1 / 2) ⟨m.indexes, 2, m.dynamic, [0, 0, 0], rowsArr 8 whG, s⟩ sg = .ok ((gy, gu), so) := by
  obtain ⟨o, m, h1, h2, h3, h4, h5, h6, ⟨f₁, f₂, f₃, h7, h8⟩, g₁, g₂, g₃, h9, h10⟩ := wh_read
  obtain ⟨s, gy, gu, so, k1, k2, k3, k4⟩ := wh_spaces
  have hi : m.indexes = so2T := by
    have : buildLlx [[-1, 0], [-1, 0], [0, 1]] = .ok so2T := rfl
    exact Except.ok.inj (h6.symm.trans this)
  have hq := wh_quad h10
  obtain ⟨j1, j2⟩ := wh_arrays hq
  refine ⟨o, m, s, gy, gu, h1, h2, ?_, k2, ?_, fun sg hsg => ⟨so.stored (1 / 2), ?_, ?_⟩⟩
  · unfold modelSpace
    rw [h7, show modelValues whLib.opt "dynare" ⟨callAll [f₁, f₂, f₃], startValues whLib.nan m.endog⟩ = .ok [0, 0, 0] from
      wh_steady h8 (by simp [startValues, h3])]
    simp only [bind, Except.bind, hi, h9]
    rw [if_neg (show ¬ ([0, 0, 0] : List ℚ).length ≠ so2T.n by decide)]
    rw [show m.stoch.length = 2 by rw [h4]; rfl, show modelJacobian whLib.ad so2T.toTyper 2 [g₁, g₂, g₃] [0, 0, 0] = _ from j1]
    simp only [show Space.create whLib.la so2T.toTyper (rowsArr 8 whG) = .ok s from k1]
  · rw [hi, wh_lin, h9]
    have hl : (List.replicate 8 (0 : ℚ)).length = 8 := rfl
    intro f hf
    simp only [List.mem_cons, List.not_mem_nil, or_false] at hf
    rcases hf with rfl | rfl | rfl
    · exact IsQuad.second hq.1 hl
    · exact IsQuad.second hq.2.1 hl
    · exact IsQuad.second hq.2.2 hl
  · unfold firstSolution
    rw [hi]; exact k3
  · have hs : sg = sigmaDiag m.stoch := by
      rw [h4] at hsg ⊢
      exact (Except.ok.inj hsg).symm
    unfold secondSolution
    simp only [hi, h9, hs, h4]
    rw [show solveFirstOrder whLib.la so2T 2 s = .ok (gy, gu) from k3]
    simp only [bind, Except.bind]
    rw [show modelHessian whLib.ad so2T.toTyper 2 [g₁, g₂, g₃] [0, 0, 0] = _ from j2]
    simp only []
    rw [show solveSecondOrder whLib.la whLib.qz (1 / 2) so2T.toTyper 2 (rowsArr 8 whG) (rowsArr 64 whH) _ _ _ = .ok so from k4]

/-- a model with a fresh state space can be solved if its solver succeeds -/
theorem fresh_solves {V SS S : Type} [Zero V] [One V] [Mul V] {env : MEnv V SS S} {o : Outline V} {lang name : String}
    {md : MState V SS S} (h : fromOutline env o lang name = .ok md) {sg : Sig V} (hd : defineSigma env.sqrt md.stoch = .ok sg)
    {s : S} (hs : env.mkSol md.statespace sg = .ok s) : ∃ md', md.solve env = (md', .ok s) := by
  obtain ⟨-, _, _, _, _, _, _, _, _, _, h⟩ := fromOutline_inv h
  obtain ⟨hf, ha, hg, -⟩ := create_fresh h
  unfold MState.solve MState.readAttr MState.refresh
  simp only [ha, Bool.false_eq_true, if_false, readSigma_fresh hf ha hg hd, hs]
  exact ⟨_, rfl⟩

/-- the shocks have a covariance matrix -/
theorem wh_sigma {o : Outline ℚ} {m : MState ℚ Unit Unit} (h1 : createOutline ratOps .ok whFile = .ok o)
    (h2 : fromOutline whRead.env o "dynare" "m" = .ok m) : ∃ sg, defineSigma id m.stoch = .ok sg := by
  obtain ⟨o', m', h1', h2', -, h4, -⟩ := wh_read
  obtain rfl := Except.ok.inj (h1.symm.trans h1')
  obtain rfl := Except.ok.inj (h2.symm.trans h2')
  rw [h4]
  exact ⟨_, rfl⟩

/-- **the hypotheses of C159 hold** for the model made from the text above -/
theorem wh_first : ∃ (md md' : MState ℚ (ModelSpace ℚ) (Arr ℚ × Arr ℚ)) (gy gu : Arr ℚ),
    ReadFrom (whRead.first whLib) (exText whText) whFile noValues md ∧
    md.solve (whRead.env.first whLib) = (md', .ok (gy, gu)) ∧ md.statespace.space.parts.Separated := by
  obtain ⟨o, m, s, gy, gu, h1, h2, h3, h4, h5, h6⟩ := wh_model
  obtain ⟨sg, hsg⟩ := wh_sigma h1 h2
  obtain ⟨so, k1, k2⟩ := h6 sg hsg
  have hm := fromOutline_space (env := whRead.env) (env' := whRead.env.first whLib) rfl rfl h2 h3
  obtain ⟨md', hs⟩ := fresh_solves hm hsg k1
  refine ⟨_, md', gy, gu, ⟨charOk_rat, ⟨_, wh_file, wh_written⟩, ⟨"dynare", "m", ?_⟩, .nil, wh_params, wh_equations⟩, hs, h4⟩
  rw [fromText_run (r := whRead.first whLib) charOk_rat wh_file wh_written h1,
    show fromOutline (whRead.first whLib).env o "dynare" "m" = _ from hm]
  rfl

/-- the hypotheses of C160 hold -/
theorem wh_second : ∃ (md md' : MState ℚ (ModelSpace ℚ) ((Arr ℚ × Arr ℚ) × SecondNd ℚ)) (gy gu : Arr ℚ) (so : SecondNd ℚ),
    ReadFrom (whRead.second whLib (1 / 2)) (exText whText) whFile noValues md ∧
    (∀ f ∈ md.dynamic,
      whLib.ad.SecondExactAt f (linPoint md.indexes.toTyper (whFile.names "varexo").length md.statespace.steady)) ∧
    md.solve (whRead.env.second whLib (1 / 2)) = (md', .ok ((gy, gu), so)) ∧ md.statespace.space.parts.Separated := by
  obtain ⟨o, m, s, gy, gu, h1, h2, h3, h4, h5, h6⟩ := wh_model
  obtain ⟨sg, hsg⟩ := wh_sigma h1 h2
  obtain ⟨so, k1, k2⟩ := h6 sg hsg
  have hm := fromOutline_space (env := whRead.env) (env' := whRead.env.second whLib (1 / 2)) rfl rfl h2 h3
  obtain ⟨md', hs⟩ := fresh_solves hm hsg k2
  refine ⟨_, md', gy, gu, so, ⟨charOk_rat, ⟨_, wh_file, wh_written⟩, ⟨"dynare", "m", ?_⟩, .nil, wh_params, wh_equations⟩,
    h5, hs, h4⟩
  rw [fromText_run (r := whRead.second whLib (1 / 2)) charOk_rat wh_file wh_written h1,
    show fromOutline (whRead.second whLib (1 / 2)).env o "dynare" "m" = _ from hm]
  rfl

theorem wh_vals : FileVals ratOps whFile noValues noValues := by
  refine ⟨.nil, ?_⟩
  have : whFile.paramVals noValues = (noValues : String → Option ℚ) := by
    funext x
    simp [ModelFile.paramVals, noValues]
  rw [this]
  exact .nil

/-- at zero the equations of the file hold -/
theorem wh_rest : ∀ l r, (l, r) ∈ equations whFile.stmts →
    GapIs ratOps whFile noValues (levelsAt [0, 0, 0] noDev) l r 0 := by
  intro l r h
  simp only [whFile, equations, List.filterMap_cons, List.filterMap_nil, List.mem_cons, List.not_mem_nil, or_false,
    Prod.mk.injEq] at h
  have na : NameNow noValues (whFile.names "var") (whFile.names "varexo") (levelsAt [0, 0, 0] noDev) "a" (0 : ℚ) := by
    have := NameNow.endog (V := ℚ) (σ := noValues) (endo := whFile.names "var") (exo := whFile.names "varexo")
      (L := levelsAt [0, 0, 0] noDev) (x := "a") (c := 0) rfl rfl
    simpa [levelsAt, noDev, vecEntry] using this
  have nb : NameNow noValues (whFile.names "var") (whFile.names "varexo") (levelsAt [0, 0, 0] noDev) "b" (0 : ℚ) := by
    have := NameNow.endog (V := ℚ) (σ := noValues) (endo := whFile.names "var") (exo := whFile.names "varexo")
      (L := levelsAt [0, 0, 0] noDev) (x := "b") (c := 1) rfl rfl
    simpa [levelsAt, noDev, vecEntry] using this
  have nc : NameNow noValues (whFile.names "var") (whFile.names "varexo") (levelsAt [0, 0, 0] noDev) "c" (0 : ℚ) := by
    have := NameNow.endog (V := ℚ) (σ := noValues) (endo := whFile.names "var") (exo := whFile.names "varexo")
      (L := levelsAt [0, 0, 0] noDev) (x := "c") (c := 2) rfl rfl
    simpa [levelsAt, noDev, vecEntry] using this
  have nu : NameNow noValues (whFile.names "var") (whFile.names "varexo") (levelsAt [0, 0, 0] noDev) "u" (0 : ℚ) :=
    NameNow.shock (V := ℚ) (σ := noValues) (endo := whFile.names "var") (exo := whFile.names "varexo")
      (L := levelsAt [0, 0, 0] noDev) (x := "u") (j := 0) rfl rfl
  have nw : NameNow noValues (whFile.names "var") (whFile.names "varexo") (levelsAt [0, 0, 0] noDev) "w" (0 : ℚ) :=
    NameNow.shock (V := ℚ) (σ := noValues) (endo := whFile.names "var") (exo := whFile.names "varexo")
      (L := levelsAt [0, 0, 0] noDev) (x := "w") (j := 1) rfl rfl
  have pa : NameAt (whFile.names "var") (levelsAt [0, 0, 0] noDev) "a" (-1) (0 : ℚ) := by
    have := NameAt.before (V := ℚ) (endo := whFile.names "var") (L := levelsAt [0, 0, 0] noDev) (x := "a") (c := 0) rfl
    simpa [levelsAt, noDev, vecEntry] using this
  have pb : NameAt (whFile.names "var") (levelsAt [0, 0, 0] noDev) "b" (-1) (0 : ℚ) := by
    have := NameAt.before (V := ℚ) (endo := whFile.names "var") (L := levelsAt [0, 0, 0] noDev) (x := "b") (c := 1) rfl
    simpa [levelsAt, noDev, vecEntry] using this
  have pc : NameAt (whFile.names "var") (levelsAt [0, 0, 0] noDev) "c" 1 (0 : ℚ) := by
    have := NameAt.after (V := ℚ) (endo := whFile.names "var") (L := levelsAt [0, 0, 0] noDev) (x := "c") (c := 2) rfl
    simpa [levelsAt, noDev, vecEntry] using this
  rcases h with ⟨rfl, rfl⟩ | ⟨rfl, rfl⟩ | ⟨rfl, rfl⟩
  · exact ⟨0, 0, .var na, .bin (.bin (.bin (.bin .num (.pvar pa) rfl) (.var nc) rfl) (.var nu) rfl)
      (.bin (.pvar pa) (.pvar pb) rfl) (by simp [ratOps]), by norm_num⟩
  · exact ⟨0, 0, .var nb, .bin (.bin (.pvar pa) (.bin .num (.pvar pb) rfl) rfl) (.var nw) (by simp [ratOps]),
      by norm_num⟩
  · exact ⟨0, 0, .var nc, .bin (.bin (.bin .num (.pvar pc) rfl) (.var nw) rfl)
      (.bin (.pvar pa) (.pvar pa) rfl) (by simp [ratOps]), by norm_num⟩

example : ∃ (md md' : MState ℚ (ModelSpace ℚ) (Arr ℚ × Arr ℚ)) (gy gu : Arr ℚ),
    whLib.la.Exact ∧ whLib.ad.Exact ∧ FindsMinimum whLib.opt ∧ (∀ a b, whRead.env.ops.bin .sub a b = .ok (a - b)) ∧
    FileVals whRead.env.ops whFile noValues noValues ∧
    (∀ l r, (l, r) ∈ equations whFile.stmts → GapIs whRead.env.ops whFile noValues (levelsAt [0, 0, 0] noDev) l r 0) ∧
    ReadFrom (whRead.first whLib) (exText whText) whFile noValues md ∧ WellPosed whFile ∧
    md.solve (whRead.env.first whLib) = (md', .ok (gy, gu)) ∧ md.statespace.space.parts.Separated := by
  obtain ⟨md, md', gy, gu, h1, h2, h3⟩ := wh_first
  exact ⟨md, md', gy, gu, chLa_exact, idealAd_exact, zeroMin_finds, fun _ _ => rfl, wh_vals, wh_rest, h1, wh_posed, h2, h3⟩

example : ∃ (md md' : MState ℚ (ModelSpace ℚ) ((Arr ℚ × Arr ℚ) × SecondNd ℚ)) (gy gu : Arr ℚ) (so : SecondNd ℚ),
    whLib.la.Exact ∧ whLib.ad.Exact ∧ GQZExact whLib.qz ∧ (∀ a b, whRead.env.ops.bin .sub a b = .ok (a - b)) ∧
    ReadFrom (whRead.second whLib (1 / 2)) (exText whText) whFile noValues md ∧ WellPosed whFile ∧
    (∀ f ∈ md.dynamic,
      whLib.ad.SecondExactAt f (linPoint md.indexes.toTyper (whFile.names "varexo").length md.statespace.steady)) ∧
    md.solve (whRead.env.second whLib (1 / 2)) = (md', .ok ((gy, gu), so)) ∧ md.statespace.space.parts.Separated := by
  obtain ⟨md, md', gy, gu, so, h1, h2, h3, h4⟩ := wh_second
  exact ⟨md, md', gy, gu, so, chLa_exact, idealAd_exact, triQz_exact, fun _ _ => rfl, h1, wh_posed, h2, h3, h4⟩

end Pynare

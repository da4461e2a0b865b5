import Verif.Props.ScaledBlock
import Verif.Examples.RestatedMoments
/-!
# The hypotheses of C185 are met by the file of `Examples/Restated.lean` and by the same file with larger shocks
-/

namespace Pynare

/-! ### a block with a correlation -/

/-- the block -/
def sbBlock (a b : ℚ) : List (Shock ℚ) := [.corr "a" "b" (.num (1 / 2)), .stderr "a" (.num a), .stderr "b" (.num b)]
/-- squares -/
def sbSquare (v : ℚ) : Except Err ℚ := .ok (v * v)
/-- the roots that are needed -/
def sbRoot (v : ℚ) : ℚ := if v = 36 then 6 else 54

theorem sb_plain (a b : ℚ) : PlainShocks ["a", "b"] (sbBlock a b) := by
  refine ⟨?_, ?_, ?_, ?_, ?_⟩
  · intro pre s post he x hs t ht
    rcases pre with _ | ⟨p, _ | ⟨q, _ | ⟨r, _ | _⟩⟩⟩ <;> simp [sbBlock] at he <;>
      (try (obtain ⟨rfl, rfl⟩ := he)) <;> (try (obtain ⟨_, rfl, rfl⟩ := he)) <;>
      (try (obtain ⟨_, _, rfl, rfl⟩ := he)) <;> simp [Shock.isVarOf] at hs ht ⊢
    subst hs ht; simp
  · intro pre s post he x hs t ht
    rcases pre with _ | ⟨p, _ | ⟨q, _ | ⟨r, _ | _⟩⟩⟩ <;> simp [sbBlock] at he <;>
      (try (obtain ⟨rfl, rfl⟩ := he)) <;> (try (obtain ⟨_, rfl, rfl⟩ := he)) <;>
      (try (obtain ⟨_, _, rfl, rfl⟩ := he)) <;> simp [Shock.isPairOf] at hs ht ⊢
    rcases ht with rfl | rfl <;> simp
  · intro s hs x hx
    simp [sbBlock] at hs
    rcases hs with rfl | rfl | rfl <;> simp [Shock.isPairOf, Shock.isVarOf, sbBlock] at hx ⊢
    exact .inl hx
  · intro s hs x y hx
    simp [sbBlock] at hs
    rcases hs with rfl | rfl | rfl <;> simp [Shock.isPair] at hx ⊢
    exact ⟨.inl hx.1.symm, .inr hx.2.symm⟩
  · intro s hs x y hx
    simp [sbBlock] at hs
    rcases hs with rfl | rfl | rfl <;> simp [Shock.isPair, sbBlock] at hx ⊢
    obtain ⟨rfl, rfl⟩ := hx; simp

theorem sb_sets (a b : ℚ) : ∀ s ∈ sbBlock a b, ∀ x, s.isVarOf x → ∃ v, SetsVar ratOps sbSquare noValues s x v := by
  intro s hs x hx
  simp [sbBlock] at hs
  rcases hs with rfl | rfl | rfl <;> simp [Shock.isVarOf] at hx
  · subst hx; exact ⟨_, .stderr .num rfl⟩
  · subst hx; exact ⟨_, .stderr .num rfl⟩

theorem sb_stderr {x y : String} {a v : ℚ} (h : SetsVar ratOps sbSquare noValues (.stderr y (.num a)) x v) : y = x ∧ v = a * a := by
  cases h with
  | stderr h1 h2 =>
    cases h1
    exact ⟨rfl, (Except.ok.inj h2).symm⟩

/-- the variances of the block -/
theorem sb_var {a b : ℚ} : (∀ {v}, VarOf ratOps sbSquare noValues (sbBlock a b) "a" v → v = a * a) ∧
    ∀ {v}, VarOf ratOps sbSquare noValues (sbBlock a b) "b" v → v = b * b := by
  constructor
  all_goals
    intro v h
    cases h with
    | @stated s v hs h =>
      simp only [sbBlock, List.mem_cons, List.not_mem_nil, or_false] at hs
      rcases hs with rfl | rfl | rfl
      · cases h
      · have := sb_stderr h
        simp_all
      · have := sb_stderr h
        simp_all
    | omitted h =>
      first
        | exact absurd rfl (h (.stderr "a" (.num a)) (by simp [sbBlock])).1
        | exact absurd rfl (h (.stderr "b" (.num b)) (by simp [sbBlock])).1

theorem sb_times : BlockTimes ratOps sbSquare noValues 3 ["a", "b"] (sbBlock 2 3) (sbBlock 6 9) where
  variances x hx := by
    simp only [List.mem_cons, List.not_mem_nil, or_false] at hx
    rcases hx with rfl | rfl
    · exact ⟨4, .stated (s := .stderr "a" (.num 2)) (by simp [sbBlock]) (.stderr .num (by decide +kernel)),
        .stated (s := .stderr "a" (.num 6)) (by simp [sbBlock]) (.stderr .num (by decide +kernel))⟩
    · exact ⟨9, .stated (s := .stderr "b" (.num 3)) (by simp [sbBlock]) (.stderr .num (by decide +kernel)),
        .stated (s := .stderr "b" (.num 9)) (by simp [sbBlock]) (.stderr .num (by decide +kernel))⟩
  correlations x y e h := by
    simp [sbBlock] at h
    obtain ⟨rfl, rfl, rfl⟩ := h
    exact ⟨_, _, .num, by simp [sbBlock], .num⟩
  covariances x y e h := by simp [sbBlock] at h
  others s hs x y hx := by
    simp only [sbBlock, List.mem_cons, List.not_mem_nil, or_false] at hs
    rcases hs with rfl | rfl | rfl
    · exact ⟨_, .head _, hx⟩
    · cases hx
    · cases hx

theorem sb_roots : RootsOfBlock ratOps sbSquare sbRoot noValues 3 (sbBlock 2 3) := by
  intro x y e h v w hv hw
  simp [sbBlock] at h
  obtain ⟨rfl, rfl, rfl⟩ := h
  rw [sb_var.1 hv, sb_var.2 hw]
  unfold RootAt sbRoot
  norm_num

/-- the hypotheses of `C185_matrix_partial` are met by a block with a correlation -/
example : ∃ d d', facShocks ratOps sbSquare noValues [] (sbBlock 2 3) = .ok d ∧
    facShocks ratOps sbSquare noValues [] (sbBlock 6 9) = .ok d' ∧
    ∃ sig sig', defineSigma sbRoot (createStochs d ["a", "b"]) = .ok sig ∧
      defineSigma sbRoot (createStochs d' ["a", "b"]) = .ok sig' ∧ ∀ i < 2, ∀ j < 2, sig' i j = 3 * 3 * sig i j :=
  ⟨_, _, rfl, rfl, C185_matrix_partial rfl rfl (sb_plain _ _) (sb_plain _ _) (sb_sets _ _) (sb_sets _ _) (by norm_num) sb_times
    sb_roots⟩

/-! ### two files -/

/-- the second file -/
def tsText : String :=
  "var z x ; varexo e f ; model ; 0 - x - x * x * x = 0.5 * ( 0 - x ( - 1 ) - x ( - 1 ) * x ( - 1 ) * x ( - 1 ) ) + ( e + 2 * f ) ; z ( + 1 ) = 2 * z ; end ; " ++
  "shocks ; var e ; stderr 4 ; var f ; stderr 8 ; end ;"
/-- its tokens -/
def tsToks : List (Tok ℚ) := (wordsOf tsText.toList).map ratTok
/-- what it contains -/
def tsFile : ModelFile ℚ := { trFile with actions := ⟨none, none, none, some ⟨[], [.stderr "e" (.num 4), .stderr "f" (.num 8)]⟩⟩ }

theorem ts_file : FileOf ratPC tsToks tsFile :=
  fileOf_check (noCall_of_check _ (by decide +kernel)) (by decide +kernel) (by decide +kernel)

theorem ts_written : Written ratCfg tsToks (exText tsText) [] := by
  have := written_spaced charOk_rat ((wordsOf tsText.toList).map fun w => (ratTok w, w)) (by
    intro p hp
    obtain ⟨w, hw, rfl⟩ := List.mem_map.mp hp
    have h : ((wordsOf tsText.toList).all fun w => spelled ratCfg (ratTok w) w) = true := by decide +kernel
    exact List.all_eq_true.mp h w hw)
  simpa [List.map_map, Function.comp_def, tsToks, exText] using this

theorem ts_differ : DifferInShocks trFile tsFile := ⟨rfl, rfl, rfl, rfl, rfl, rfl⟩

theorem ts_params : PlainParams tsFile := ⟨tr_params.all, tr_params.last⟩

theorem ts_equations : PlainEquations tsFile := ⟨tr_equations.vars, tr_equations.pvars⟩

theorem ts_read : ∃ (o : Outline ℚ) (m : MState ℚ Unit Unit), createOutline ratOps .ok tsFile = .ok o ∧
    fromOutline whRead.env o "dynare" "m" = .ok m ∧ m.endog.length = 2 ∧
    m.stoch = [⟨"e", "", some 4, none, none⟩, ⟨"f", "", some 8, none, none⟩] ∧
    m.indexes = enT ∧ m.endogNames = ["z", "x"] ∧ m.stochNames = ["e", "f"] ∧ m.scope = odσ ∧
    m.exprs.exprs = [trX, odZ] ∧
    ∃ f₁ f₂, m.steady = [f₁, f₂] ∧ ∀ z x : ℚ,
      f₁ [z, x] = .ok (0 - x - x * x * x - (1 / 2 * (0 - x - x * x * x) + (0 + 2 * 0))) ∧ f₂ [z, x] = .ok (z - 2 * z) :=
  ⟨_, _, rfl, rfl, rfl, rfl, rfl, rfl, rfl, rfl, rfl, _, _, rfl, fun _ _ => ⟨rfl, rfl⟩⟩

/-- the covariance matrices of the two files -/
def tsSig (a b : ℚ) : Sig ℚ := sigmaDiag [⟨"e", "", some a, none, none⟩, ⟨"f", "", some b, none, none⟩]

/-- the covariance matrix of a model that was read -/
theorem run_sigma {lib : Libs ℚ} {file : ModelFile ℚ} {toks : List (Tok ℚ)} {text : List Char} {o : Outline ℚ} {m : MState ℚ Unit Unit}
    (h1 : createOutline ratOps .ok file = .ok o) (h2 : fromOutline whRead.env o "dynare" "m" = .ok m) (hf : FileOf ratPC toks file)
    (hw : Written ratCfg toks text []) {sg : Sig ℚ} (hsg : defineSigma id m.stoch = .ok sg)
    {md : MState ℚ (ModelSpace ℚ) (Arr ℚ × Arr ℚ)} {lang name : String}
    (h : fromText (whRead.first lib) lang name text = .ok md) : (md.readSigma (whRead.env.first lib)).2 = .ok sg := by
  obtain ⟨_, o', k1, k2⟩ := fromText_inv charOk_rat hf hw h
  obtain rfl : o = o' := Except.ok.inj (h1.symm.trans k1)
  obtain ⟨_, _, _, _, _, _, _, _, _, _, hb⟩ := fromOutline_inv k2
  obtain ⟨hfr, ha, hn, _⟩ := create_fresh hb
  have e : md.stoch = m.stoch := by rw [fromOutline_stoch k2, fromOutline_stoch h2]
  exact congrArg Prod.snd (readSigma_fresh hfr ha hn (by rw [e]; exact hsg))

/-- the two models -/
theorem ts_run {file : ModelFile ℚ} {toks : List (Tok ℚ)} {text : List Char} {a b : ℚ} (hf : FileOf ratPC toks file)
    (hw : Written ratCfg toks text []) (hv : file.params = []) (hp : PlainParams file) (he : PlainEquations file)
    (hr : ∃ (o : Outline ℚ) (m : MState ℚ Unit Unit), createOutline ratOps .ok file = .ok o ∧
      fromOutline whRead.env o "dynare" "m" = .ok m ∧ m.endog.length = 2 ∧
      m.stoch = [⟨"e", "", some a, none, none⟩, ⟨"f", "", some b, none, none⟩] ∧
      m.indexes = enT ∧ m.endogNames = ["z", "x"] ∧ m.stochNames = ["e", "f"] ∧ m.scope = odσ ∧
      m.exprs.exprs = [trX, odZ] ∧
      ∃ f₁ f₂, m.steady = [f₁, f₂] ∧ ∀ z x : ℚ,
        f₁ [z, x] = .ok (0 - x - x * x * x - (1 / 2 * (0 - x - x * x * x) + (0 + 2 * 0))) ∧ f₂ [z, x] = .ok (z - 2 * z)) :
    ∃ (md md' : MState ℚ (ModelSpace ℚ) (Arr ℚ × Arr ℚ)) (gy gu : Arr ℚ) (lang name : String) (s : Space ℚ),
      fromText (whRead.first trLib) lang name text = .ok md ∧ md.solve (whRead.env.first trLib) = (md', .ok (gy, gu)) ∧
      (md.readSigma (whRead.env.first trLib)).2 = .ok (tsSig a b) ∧ md.indexes = enT ∧ md.statespace.steady = [0, 0] ∧
      md.statespace.space = s ∧ Space.create (ratLa 1 trQz) enT.toTyper (rowsArr 6 trRows) = .ok s ∧
      solveFirstOrder (ratLa 1 trQz) enT 2 s = .ok (gy, gu) ∧ SolutionShape enT.toTyper gy gu ∧
      Stable (stateRows enT.toTyper gy) := by
  obtain ⟨o, m, h1, h2, h3, h4, h5, h6, h7, h8, h9, f₁, f₂, hs, hfv⟩ := hr
  obtain ⟨s, gy, gu, hm⟩ := tr_solved
  have hsg : defineSigma id m.stoch = .ok (tsSig a b) := by rw [h4]; rfl
  obtain ⟨md, md', a1, a2, a3, a4, a5, a6, a7⟩ := run_solved₂ (lib := trLib) rfl h1 h2 hf hw hv hp he h3
    (by rw [h5]; exact hm) h6 h7 h8 h9 (by
      obtain ⟨k1, k2⟩ := hfv 0 0
      rw [hs]; simp [callAll, k1, k2, bind, Except.bind]) (by rw [h5]; rfl) hsg
  obtain ⟨lang, name, hmade⟩ := a2.made
  have cast : (Complex.ofRealHom.comp (Rat.castHom ℝ) : ℚ →+* ℂ) = Rat.castHom ℂ := Subsingleton.elim _ _
  rw [← cast] at hm
  obtain ⟨_, _, pss, _, hd⟩ := hm.determinate idealAd_exact
  obtain ⟨sh, _, hst⟩ := (hd.det (ratLa_exact _ _)).1.stable (ψ := Rat.castHom ℝ) (fun a b h => by simpa using h)
    (ratLa_exact _ _)
  exact ⟨md, md', gy, gu, lang, name, s, hmade, a3, run_sigma h1 h2 hf hw hsg hmade, a5.trans h5, a6, a7, hm.space, hm.solved,
    sh, hst⟩

theorem ts_plain (a b : ℚ) : PlainShocks (trFile.names "varexo") [.stderr "e" (.num a), .stderr "f" (.num b)] where
  oneVar pre s post h x hx t ht := by
    match pre, h with
    | [], h =>
      cases h
      cases hx
      simp only [List.mem_singleton] at ht
      subst ht
      exact fun h => absurd (show "f" = "e" from h) (by decide)
    | [_], h => cases h; cases ht
    | _ :: _ :: [], h => cases h
    | _ :: _ :: _ :: _, h => cases h
  onePair pre s post h x hx t ht := by
    have hs : s ∈ [Shock.stderr "e" (.num a), .stderr "f" (.num b)] := by rw [h]; simp
    simp only [List.mem_cons, List.not_mem_nil, or_false] at hs
    rcases hs with rfl | rfl <;> cases hx
  hasVar s hs x hx := by
    simp only [List.mem_cons, List.not_mem_nil, or_false] at hs
    rcases hs with rfl | rfl <;> cases hx
  declared s hs x y hx := by
    simp only [List.mem_cons, List.not_mem_nil, or_false] at hs
    rcases hs with rfl | rfl <;> cases hx
  proper s hs x y hx := by
    simp only [List.mem_cons, List.not_mem_nil, or_false] at hs
    rcases hs with rfl | rfl <;> cases hx

theorem ts_sets (a b : ℚ) : ∀ s ∈ [Shock.stderr "e" (.num a), .stderr "f" (.num b)], ∀ x, s.isVarOf x →
    ∃ v, SetsVar whRead.env.ops whRead.sq noValues s x v := by
  intro s hs x hx
  simp only [List.mem_cons, List.not_mem_nil, or_false] at hs
  rcases hs with rfl | rfl <;> cases hx
  · exact ⟨a, .stderr .num rfl⟩
  · exact ⟨b, .stderr .num rfl⟩

theorem ts_times : BlockTimes whRead.env.ops whRead.sq noValues (2 : ℚ) (trFile.names "varexo")
    [.stderr "e" (.num 1), .stderr "f" (.num 2)] [.stderr "e" (.num 4), .stderr "f" (.num 8)] where
  variances x hx := by
    have : x = "e" ∨ x = "f" := by
      simpa [show trFile.names "varexo" = ["e", "f"] from rfl] using hx
    rcases this with rfl | rfl
    · exact ⟨1, .stated (.head _) (.stderr .num rfl), .stated (.head _) (.stderr .num (by decide +kernel))⟩
    · exact ⟨2, .stated (.tail _ (.head _)) (.stderr .num rfl), .stated (.tail _ (.head _)) (.stderr .num (by decide +kernel))⟩
  correlations x y e h := by simp at h
  covariances x y e h := by simp at h
  others s hs x y hx := by
    simp only [List.mem_cons, List.not_mem_nil, or_false] at hs
    rcases hs with rfl | rfl <;> cases hx

/-- the solver for the example -/
def tsLyap : Lyap ℚ := ratLyap [listArr [[12]] 1, listArr [[48]] 1]

/-- the hypotheses of `C185_impulse_partial` and `C185_covariances_partial` are met by the two files, and the variance of `x`
is not zero -/
example : ∃ (md md₁ md' md₁' : MState ℚ (ModelSpace ℚ) (Arr ℚ × Arr ℚ)) (gy gu gy' gu' C C' : Arr ℚ)
    (lang lang' name name' : String) (sg sg' : Sig ℚ) (b b' : Shocks ℚ), DifferInShocks trFile tsFile ∧
    fromText (whRead.first trLib) lang name (exText trText) = .ok md ∧
    fromText (whRead.first trLib) lang' name' (exText tsText) = .ok md' ∧
    md.solve (whRead.env.first trLib) = (md₁, .ok (gy, gu)) ∧ md'.solve (whRead.env.first trLib) = (md₁', .ok (gy', gu')) ∧
    Exec whRead.env.ops noValues trFile.params noValues ∧ trFile.actions.shocks = some b ∧ tsFile.actions.shocks = some b' ∧
    PlainShocks (trFile.names "varexo") b.shocks ∧ PlainShocks (trFile.names "varexo") b'.shocks ∧
    BlockTimes whRead.env.ops whRead.sq noValues 2 (trFile.names "varexo") b.shocks b'.shocks ∧
    RootsOfBlock whRead.env.ops whRead.sq whRead.env.sqrt noValues 2 b.shocks ∧ LyapExact tsLyap ∧
    SolutionShape md.indexes.toTyper gy gu ∧ Stable (stateRows md.indexes.toTyper gy) ∧
    (md.readSigma (whRead.env.first trLib)).2 = .ok sg ∧ (md'.readSigma (whRead.env.first trLib)).2 = .ok sg' ∧
    covArr trLib.la tsLyap md.indexes.toTyper md.statespace.space gy gu ⟨2, 2, sg⟩ = .ok C ∧
    covArr trLib.la tsLyap md'.indexes.toTyper md'.statespace.space gy' gu' ⟨2, 2, sg'⟩ = .ok C' ∧
    C.Times (2 * 2) C' ∧ C.e 1 1 = 12 := by
  obtain ⟨md, md₁, gy, gu, lang, name, s, a1, a2, a3, a4, a5, a6, a7, a8, a9, a10⟩ := ts_run tr_file tr_written rfl tr_params
    tr_equations tr_read
  obtain ⟨md', md₁', gy', gu', lang', name', s', b1, b2, b3, b4, b5, b6, b7, b8, -⟩ := ts_run ts_file ts_written rfl ts_params
    ts_equations ts_read
  obtain rfl := Except.ok.inj (a7.symm.trans b7)
  obtain ⟨rfl, rfl⟩ := Prod.mk.inj (Except.ok.inj (a8.symm.trans b8))
  obtain ⟨_, hr, c⟩ := ok_of_check (x := Space.create (ratLa 1 trQz) enT.toTyper (rowsArr 6 trRows)) (p := fun s =>
    okAnd (solveFirstOrder (ratLa 1 trQz) enT 2 s) fun g =>
    okAnd (covArr (ratLa 1 trQz) tsLyap enT.toTyper s g.1 g.2 ⟨2, 2, tsSig 1 2⟩) fun C =>
    okAnd (covArr (ratLa 1 trQz) tsLyap enT.toTyper s g.1 g.2 ⟨2, 2, tsSig 4 8⟩) fun _ => decide (C.e 1 1 = 12))
    (by decide +kernel)
  obtain rfl := Except.ok.inj (a7.symm.trans hr)
  obtain ⟨_, hg, c⟩ := ok_of_check c
  obtain rfl := Except.ok.inj (a8.symm.trans hg)
  obtain ⟨C, hC, c⟩ := ok_of_check c
  obtain ⟨C', hC', c⟩ := ok_of_check c
  have roots : RootsOfBlock whRead.env.ops whRead.sq whRead.env.sqrt noValues (2 : ℚ)
      [.stderr "e" (.num 1), .stderr "f" (.num 2)] := by
    intro x y e h
    simp at h
  have sh : SolutionShape md.indexes.toTyper gy gu := by rw [a4]; exact a9
  have st : Stable (stateRows md.indexes.toTyper gy) := by rw [a4]; exact a10
  have hC : covArr trLib.la tsLyap md.indexes.toTyper md.statespace.space gy gu ⟨2, 2, tsSig 1 2⟩ = .ok C := by
    rw [a4, a6]; exact hC
  have hC' : covArr trLib.la tsLyap md'.indexes.toTyper md'.statespace.space gy gu ⟨2, 2, tsSig 4 8⟩ = .ok C' := by
    rw [b4, b6]; exact hC'
  have ht := C185_covariances_partial whRead trLib charOk_rat ts_differ tr_file ts_file tr_written ts_written a1 b1 a2 b2
    (ρ := noValues) .nil rfl rfl (ts_plain _ _) (ts_plain _ _) (ts_sets _ _) (ts_sets _ _) (by norm_num) ts_times roots
    (ratLyap_exact _) sh st a3 b3 (show 2 = (trFile.names "varexo").length from rfl) hC hC'
  exact ⟨md, md₁, md', md₁', gy, gu, gy, gu, C, C', lang, lang', name, name', _, _, _, _, ts_differ, a1, b1, a2, b2, .nil, rfl, rfl,
    ts_plain _ _, ts_plain _ _, ts_times, roots, ratLyap_exact _, sh, st, a3, b3, hC, hC', ht, of_decide_eq_true c⟩

end Pynare

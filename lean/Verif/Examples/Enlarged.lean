import Verif.Props.Enlarged
import Verif.Examples.WholeOrderRun
/-!
# The first file of `Examples/WholeOrder.lean` without its variable `w`, for the example of C174
-/

namespace Pynare

/-- the file -/
def enText : String :=
  "var z x ; varexo e f ; model ; x = 0.5 * x ( - 1 ) + ( e + 2 * f ) ; z ( + 1 ) = 2 * z ; end ; " ++
  "shocks ; var e ; stderr 1 ; var f ; stderr 2 ; end ;"
/-- its tokens -/
def enToks : List (Tok ℚ) := (wordsOf enText.toList).map ratTok
/-- what it contains -/
def enFile : ModelFile ℚ where
  decls := [("z", "var"), ("x", "var"), ("e", "varexo"), ("f", "varexo")]
  params := []
  args := []
  stmts := [
    .eqn (.var "x") (.bin .add (.bin .mul (.num (1 / 2)) (.pvar "x" (-1)))
      (.bin .add (.var "e") (.bin .mul (.num 2) (.var "f")))) none,
    .eqn (.pvar "z" 1) (.bin .mul (.num 2) (.var "z")) none]
  actions := ⟨none, none, none, some ⟨[], [.stderr "e" (.num 1), .stderr "f" (.num 2)]⟩⟩

theorem en_file : FileOf ratPC enToks enFile :=
  fileOf_check (noCall_of_check _ (by decide +kernel)) (by decide +kernel) (by decide +kernel)

theorem en_written : Written ratCfg enToks (exText enText) [] := by
  have := written_spaced charOk_rat ((wordsOf enText.toList).map fun w => (ratTok w, w)) (by
    intro p hp
    obtain ⟨w, hw, rfl⟩ := List.mem_map.mp hp
    have h : ((wordsOf enText.toList).all fun w => spelled ratCfg (ratTok w) w) = true := by decide +kernel
    exact List.all_eq_true.mp h w hw)
  simpa [List.map_map, Function.comp_def, enToks, exText] using this

theorem en_params : PlainParams enFile := by
  refine ⟨fun x h => ?_, fun pre x e post h => ?_⟩
  · simp [ModelFile.DeclaredAs, enFile] at h
  · simp [enFile] at h

theorem en_equations : PlainEquations enFile := by
  constructor
  · intro l r h x hx
    simp only [enFile, equations, List.mem_cons, List.not_mem_nil, or_false, Prod.mk.injEq] at h
    rcases h with ⟨rfl, rfl⟩ | ⟨rfl, rfl⟩ <;>
      simp [Expr.vars] at hx <;> simp [ModelFile.DeclaredAs, enFile] <;> tauto
  · intro l r h x o hx
    simp only [enFile, equations, List.mem_cons, List.not_mem_nil, or_false, Prod.mk.injEq] at h
    rcases h with ⟨rfl, rfl⟩ | ⟨rfl, rfl⟩ <;>
      simp [Expr.pvars] at hx <;> simp [ModelFile.DeclaredAs, enFile] <;> tauto

/-- the table -/
def enT : Llx := match buildLlx [[0, 1], [0, -1]] with
  | .ok t => t
  | .error _ => ⟨⟨0, fun _ _ => none⟩, 0⟩
/-- the jacobian -/
def enRows : List (List ℚ) := [[-(1/2), 0, 1, 0, -1, -2], [0, -2, 0, 1, 0, 0]]

/-- what is left, once the model is as in C149 -/
theorem run_solved₂ {lib : Libs ℚ} (hopt : lib.opt = zeroMin) {file : ModelFile ℚ} {toks : List (Tok ℚ)} {text : List Char}
    {o : Outline ℚ} {m : MState ℚ Unit Unit} (h1 : createOutline ratOps .ok file = .ok o)
    (h2 : fromOutline whRead.env o "dynare" "m" = .ok m) (hf : FileOf ratPC toks file) (hw : Written ratCfg toks text [])
    (hv : file.params = []) (hp : PlainParams file) (he : PlainEquations file) (hn : m.endog.length = 2) {J gy gu : Arr ℚ}
    {s : Space ℚ} {q : QZ ℚ} {ev : Nat → Option ℂ} {endo exo : List String} {es : List (Expr ℚ)}
    (hm : SolvedModel (Rat.castHom ℂ) ratOps (fun _ => true) lib.ad lib.la odσ endo exo es [0, 0] m.indexes J gy gu s q ev)
    (e1 : m.endogNames = endo) (e2 : m.stochNames = exo) (e3 : m.scope = odσ) (e4 : m.exprs.exprs = es)
    (hst : callAll m.steady [0, 0] = .ok (List.replicate m.steady.length 0))
    (hi : m.indexes.n = 2) {sg : Sig ℚ} (hsg : defineSigma id m.stoch = .ok sg) :
    ∃ md md' : MState ℚ (ModelSpace ℚ) (Arr ℚ × Arr ℚ), md.steady = m.steady ∧
      ReadFrom (whRead.first lib) text file noValues md ∧ md.solve (whRead.env.first lib) = (md', .ok (gy, gu)) ∧
      PassesCheck (Rat.castHom ℂ) lib.la md ∧ md.indexes = m.indexes ∧ md.statespace.steady = [0, 0] ∧
      md.statespace.space = s := by
  obtain ⟨-, _, _, _, _, _, _, _, _, _, hb⟩ := fromOutline_inv h2
  obtain ⟨hfr, -⟩ := create_fresh hb
  obtain ⟨fs, hfs, hJ⟩ := hm.jacobian
  have hd := hfr.dynamic
  rw [e1, e2, e3, e4] at hd
  obtain rfl : fs = m.dynamic := Except.ok.inj (hfs.symm.trans hd)
  have hl : m.stoch.length = exo.length := by rw [← e2, MState.stochNames, List.length_map]
  have hss : modelValues lib.opt "dynare" ⟨callAll m.steady, startValues lib.nan m.endog⟩ = .ok [0, 0] := by
    have h3 : (startValues lib.nan m.endog).length = 2 := by simp [startValues, hn]
    rw [hopt, zero_steady (by rw [h3]; exact hst), h3]
    rfl
  have hsp : modelSpace lib m.endog m.stoch.length m.indexes m.steady m.dynamic =
      .ok ⟨m.indexes, exo.length, m.dynamic, [0, 0], J, s⟩ := by
    unfold modelSpace
    rw [hss]
    simp only [bind, Except.bind]
    rw [if_neg (show ¬ ([0, 0] : List ℚ).length ≠ m.indexes.n by rw [hi]; simp), hl, hJ]
    simp only [hm.space]
  obtain ⟨md, md', a1, a2, a3, a4, a5⟩ := run_first h1 h2 hf hw hv hp he hsp hsg (gy := gy) (gu := gu) hm.solved
  refine ⟨md, md', a3, a4, a5, ⟨?_, q, ev, ?_, hm.eigen, hm.noUnit⟩, a2, by rw [a1], by rw [a1]⟩
  · rw [a1, a2]; exact hm.verified
  · rw [a1]; exact hm.decomposed

/-- a linear equation, differentiated -/
theorem en_row {f : List ℚ → Except Err ℚ} {p g : List ℚ} (hp : p.length = 6) (hg : g.length = 6)
    (hf : ∀ a0 a1 a2 a3 a4 a5 : ℚ, f [a0, a1, a2, a3, a4, a5] = .ok (vecEntry g 0 * a0 + vecEntry g 1 * a1 +
      vecEntry g 2 * a2 + vecEntry g 3 * a3 + vecEntry g 4 * a4 + vecEntry g 5 * a5)) :
    g.length = 6 ∧ IsDerivAt f p (vecEntry g) := by
  refine ⟨hg, ?_⟩
  have := lin_deriv f p hp (vecEntry g) (by
    intro x hx
    match x, hx with
    | [a0, a1, a2, a3, a4, a5], _ =>
      rw [hf]
      simp [sumTo, vecEntry])
  have e : (List.range 6).map (vecEntry g) = g := by
    match g, hg with
    | [a0, a1, a2, a3, a4, a5], _ => rfl
  rwa [e] at this

theorem en_plain : PlainModel odσ ["z", "x"] ["e", "f"] [odX, odZ] where
  distinct := by decide
  shocks := by decide
  square := rfl
  form := by
    intro e he
    simp only [List.mem_cons, List.not_mem_nil, or_false] at he
    rcases he with rfl | rfl
    · exact ⟨_, _, rfl⟩
    · exact ⟨_, _, rfl⟩
  noCmp := by
    intro e he
    simp only [List.mem_cons, List.not_mem_nil, or_false] at he
    rcases he with rfl | rfl <;> rfl
  current := by
    intro x hx
    simp only [List.mem_cons, List.not_mem_nil, or_false] at hx
    rcases hx with rfl | rfl
    · refine ⟨odZ, by simp, .inl ⟨rfl, ?_⟩⟩
      rw [show odZ.vars = ["z"] from rfl]
      simp
    · refine ⟨odX, by simp, .inl ⟨rfl, ?_⟩⟩
      rw [show odX.vars = ["x", "e", "f"] from rfl]
      simp
  std := by
    intro x _ q e he hq
    simp only [List.mem_cons, List.not_mem_nil, or_false] at he
    rcases hq with ⟨h, -⟩ | hq
    · exact .inr (.inl h)
    · rcases he with rfl | rfl
      · rw [show odX.pvars = [("x", -1)] from rfl] at hq
        exact .inl (Prod.mk.inj (List.mem_singleton.mp hq)).2
      · rw [show odZ.pvars = [("z", 1)] from rfl] at hq
        exact .inr (.inr (Prod.mk.inj (List.mem_singleton.mp hq)).2)
  names := by
    intro e he x hx
    refine .inr ?_
    simp only [List.mem_cons, List.not_mem_nil, or_false] at he
    rcases he with rfl | rfl
    · rw [show odX.vars = ["x", "e", "f"] from rfl] at hx
      simp only [List.mem_cons, List.not_mem_nil, or_false] at hx ⊢
      tauto
    · rw [show odZ.vars = ["z"] from rfl] at hx
      simp only [List.mem_cons, List.not_mem_nil, or_false] at hx ⊢
      tauto
  offsets := by
    intro e he x o hx
    simp only [List.mem_cons, List.not_mem_nil, or_false] at he
    rcases he with rfl | rfl
    · rw [show odX.pvars = [("x", -1)] from rfl] at hx
      obtain ⟨rfl, rfl⟩ := Prod.mk.inj (List.mem_singleton.mp hx)
      simp
    · rw [show odZ.pvars = [("z", 1)] from rfl] at hx
      obtain ⟨rfl, rfl⟩ := Prod.mk.inj (List.mem_singleton.mp hx)
      simp

theorem en_jacobian : JacobianOf ratOps (fun _ => true) idealAd odσ ["z", "x"] ["e", "f"] [odX, odZ] [0, 0] enT
    (rowsArr 6 enRows) where
  plain := en_plain
  table := rfl
  jacobian := by
    have htp : enT.places = [(0, 1), (1, 0), (1, 1), (2, 0)] := by decide
    have hv : dynVars ["z", "x"] ["e", "f"] enT.toTyper = ["xm1", "z", "x", "zp1", "e", "f"] := by
      unfold dynVars; rw [htp]; rfl
    have hp : linPoint enT.toTyper 2 ([0, 0] : List ℚ) = [0, 0, 0, 0, 0, 0] := by unfold linPoint; rw [htp]; rfl
    refine ⟨_, by simp [dynamicFuncs, dynamicFunc, hv, subTree, dynMaybe, odX, odZ, odσ, modelSignature, offsetName, bind, Except.bind]; rfl, ?_⟩
    unfold modelJacobian
    rw [show (["e", "f"] : List String).length = 2 from rfl, hp]
    refine idealAd_rows rfl (.cons (en_row rfl rfl ?_) (.cons (en_row rfl rfl ?_) .nil))
    · intro a0 a1 a2 a3 a4 a5
      refine (show _ = Except.ok (a2 - (2⁻¹ * a0 + (a4 + 2 * a5))) from rfl).trans ?_
      simp [vecEntry]
      ring
    · intro a0 a1 a2 a3 a4 a5
      refine (show _ = Except.ok (a3 - 2 * a1) from rfl).trans ?_
      simp [vecEntry]
      ring

theorem en_solved : ∃ (s : Space ℚ) (gy gu : Arr ℚ),
    SolvedModel (Rat.castHom ℂ) ratOps (fun _ => true) idealAd (ratLa 1 (sbQz (1/2) 2)) odσ ["z", "x"] ["e", "f"] [odX, odZ]
      [0, 0] enT (rowsArr 6 enRows) gy gu s (sbQz (1/2) 2) (sbEv (1/2) 2) := by
  obtain ⟨s, hs, h⟩ := ok_of_check (x := Space.create (ratLa 1 (sbQz (1/2) 2)) enT.toTyper (rowsArr 6 enRows))
    (p := fun s => qzB (sbQz (1/2) 2) s.rhs s.lhs && okAnd (s.verify (ratLa 1 (sbQz (1/2) 2)) enT.toTyper) (fun _ => true) &&
      okAnd (solveFirstOrder (ratLa 1 (sbQz (1/2) 2)) enT 2 s) fun _ => true) (by decide +kernel)
  simp only [Bool.and_eq_true] at h
  obtain ⟨⟨h1, h2⟩, h3⟩ := h
  obtain ⟨⟨⟩, hv, -⟩ := ok_of_check h2
  obtain ⟨⟨gy, gu⟩, hg, -⟩ := ok_of_check h3
  refine ⟨s, gy, gu, ⟨en_jacobian, hs, hg, hv, ?_, sb_eigen _ _ (by norm_num), ?_⟩⟩
  · show (if qzB _ _ _ then _ else _) = _
    rw [if_pos h1]
  · exact sb_noUnit (by rw [abs_of_pos (by norm_num)]; norm_num) (by norm_num)

/-- what is made from the file -/
theorem en_read : ∃ (o : Outline ℚ) (m : MState ℚ Unit Unit), createOutline ratOps .ok enFile = .ok o ∧
    fromOutline whRead.env o "dynare" "m" = .ok m ∧ m.endog.length = 2 ∧
    m.stoch = [⟨"e", "", some 1, none, none⟩, ⟨"f", "", some 2, none, none⟩] ∧
    m.indexes = enT ∧ m.endogNames = ["z", "x"] ∧ m.stochNames = ["e", "f"] ∧ m.scope = odσ ∧
    m.exprs.exprs = [odX, odZ] ∧
    ∃ f₁ f₂, m.steady = [f₁, f₂] ∧ ∀ z x : ℚ,
      f₁ [z, x] = .ok (x - (1 / 2 * x + (0 + 2 * 0))) ∧ f₂ [z, x] = .ok (z - 2 * z) :=
  ⟨_, _, rfl, rfl, rfl, rfl, rfl, rfl, rfl, rfl, rfl, _, _, rfl, fun _ _ => ⟨rfl, rfl⟩⟩

/-- the libraries -/
noncomputable def enLib : Libs ℚ := ⟨ratLa 1 (sbQz (1/2) 2), triQz, idealAd, zeroMin, 0⟩

theorem en_vals : FileVals ratOps enFile noValues noValues := by
  refine ⟨.nil, ?_⟩
  have : enFile.paramVals noValues = (noValues : String → Option ℚ) := by
    funext x
    simp [ModelFile.paramVals, noValues]
  rw [this]
  exact .nil

theorem en_posed : WellPosed enFile := by
  constructor
  · intro x h
    have : x = "z" ∨ x = "x" := by simpa [ModelFile.DeclaredAs, enFile] using h
    rcases this with rfl | rfl
    · exact ⟨_, _, .tail _ (.head _), by simp [Expr.vars]⟩
    · exact ⟨_, _, .head _, by simp [Expr.vars]⟩
  · rfl

theorem en_more : ∃ (md md' : MState ℚ (ModelSpace ℚ) (Arr ℚ × Arr ℚ)) (gy gu : Arr ℚ),
    ReadFrom (whRead.first enLib) (exText enText) enFile noValues md ∧
    md.solve (whRead.env.first enLib) = (md', .ok (gy, gu)) ∧ PassesCheck (Rat.castHom ℂ) enLib.la md ∧
    OneRest ratOps enFile noValues (fun _ => 0) ∧
    md.indexes = enT ∧ md.statespace.steady = [0, 0] ∧
    ∃ s, Space.create (ratLa 1 (sbQz (1/2) 2)) enT.toTyper (rowsArr 6 enRows) = .ok s ∧
      solveFirstOrder (ratLa 1 (sbQz (1/2) 2)) enT 2 s = .ok (gy, gu) ∧ md.statespace.space = s := by
  obtain ⟨o, m, h1, h2, h3, h4, h5, h6, h7, h8, h9, f₁, f₂, hf, hfv⟩ := en_read
  obtain ⟨s, gy, gu, hm⟩ := en_solved
  obtain ⟨md, md', a1, a2, a3, a4, a5, a6, a7⟩ := run_solved₂ (lib := enLib) rfl h1 h2 en_file en_written rfl en_params
    en_equations h3 (by rw [h5]; exact hm) h6 h7 h8 h9 (by
      obtain ⟨k1, k2⟩ := hfv 0 0
      rw [hf]; simp [callAll, k1, k2, bind, Except.bind]) (by rw [h5]; rfl) (sg := sigmaDiag m.stoch) (by rw [h4]; rfl)
  refine ⟨md, md', gy, gu, a2, a3, a4, ?_, a5.trans h5, a6, s, hm.space, hm.solved, a7⟩
  obtain ⟨σ, pss, tf⟩ := text_facts (r := whRead.first enLib) (lib := enLib) rfl a2
  obtain rfl : σ = noValues := exec_unique tf.vals.model en_vals.model
  rw [hf] at a1
  intro ys hl
  match ys, hl with
  | [z, x], hl =>
    obtain ⟨k1, k2⟩ := hfv z x
    have g1 := tf.rest (fun _ _ => rfl) en_params en_equations (i := 0) rfl (by rw [a1]; rfl) hl 0
    have g2 := tf.rest (fun _ _ => rfl) en_params en_equations (i := 1) rfl (by rw [a1]; rfl) hl 0
    rw [k1] at g1
    rw [k2] at g2
    constructor
    · intro h
      have e1 := Except.ok.inj (g1.mpr (h _ _ (by simp [enFile, equations])))
      have e2 := Except.ok.inj (g2.mpr (h _ _ (by simp [enFile, equations])))
      obtain rfl : z = 0 := by linarith
      obtain rfl : x = 0 := by linarith
      rfl
    · intro h l r hlr
      have h' : [z, x] = [0, 0] := h
      simp only [List.cons.injEq, and_true] at h'
      obtain ⟨rfl, rfl⟩ := h'
      simp only [enFile, equations, List.mem_cons, List.not_mem_nil, or_false, Prod.mk.injEq] at hlr
      rcases hlr with ⟨rfl, rfl⟩ | ⟨rfl, rfl⟩
      · exact g1.mp (by norm_num)
      · exact g2.mp (by norm_num)

theorem en_first : ∃ (md md' : MState ℚ (ModelSpace ℚ) (Arr ℚ × Arr ℚ)) (gy gu : Arr ℚ),
    ReadFrom (whRead.first enLib) (exText enText) enFile noValues md ∧
    md.solve (whRead.env.first enLib) = (md', .ok (gy, gu)) ∧ PassesCheck (Rat.castHom ℂ) enLib.la md ∧
    OneRest ratOps enFile noValues fun _ => 0 := by
  obtain ⟨md, md', gy, gu, h1, h2, h3, h4, -⟩ := en_more
  exact ⟨md, md', gy, gu, h1, h2, h3, h4⟩

theorem en_enlarges : Enlarges ofFile noValues enFile noValues := by
  have hu : ∀ x, UsedIn enFile x → x = "x" ∨ x = "e" ∨ x = "f" ∨ x = "z" := by
    rintro x ⟨l, r, hlr, hx⟩
    simp only [enFile, equations, List.mem_cons, List.not_mem_nil, or_false, Prod.mk.injEq] at hlr
    rcases hlr with ⟨rfl, rfl⟩ | ⟨rfl, rfl⟩ <;> simp [Expr.vars, Expr.pvars] at hx <;> tauto
  refine ⟨by decide, by decide, ?_, fun _ _ => rfl, fun x h => ?_⟩
  · intro p hp
    exact .tail _ hp
  · rcases hu x h with rfl | rfl | rfl | rfl <;> decide

/-- the hypotheses of `C174_enlarged_partial` are met by the two files, of which the larger has one more variable -/
example : ∃ (md md' mw mw' : MState ℚ (ModelSpace ℚ) (Arr ℚ × Arr ℚ)) (gy gu gy' gu' : Arr ℚ),
    ofLib.la.Exact ∧ enLib.la.Exact ∧ ofLib.ad.Exact ∧ enLib.ad.Exact ∧ FindsMinimum ofLib.opt ∧ FindsMinimum enLib.opt ∧
    (∀ a b, whRead.env.ops.bin .sub a b = .ok (a - b)) ∧ WellPosed ofFile ∧ WellPosed enFile ∧
    FileVals whRead.env.ops ofFile noValues noValues ∧ FileVals whRead.env.ops enFile noValues noValues ∧
    Enlarges ofFile noValues enFile noValues ∧ "w" ∈ ofFile.names "var" ∧ "w" ∉ enFile.names "var" ∧
    OneRest whRead.env.ops ofFile noValues (fun _ => 0) ∧ OneRest whRead.env.ops enFile noValues (fun _ => 0) ∧
    ReadFrom (whRead.first ofLib) (exText ofText) ofFile noValues md ∧
    ReadFrom (whRead.first enLib) (exText enText) enFile noValues md' ∧
    md.solve (whRead.env.first ofLib) = (mw, .ok (gy, gu)) ∧ md'.solve (whRead.env.first enLib) = (mw', .ok (gy', gu')) ∧
    PassesCheck (Rat.castHom ℂ) ofLib.la md ∧ PassesCheck (Rat.castHom ℂ) enLib.la md' := by
  obtain ⟨md, mw, gy, gu, a1, a2, a3, a4⟩ := of_first
  obtain ⟨md', mw', gy', gu', b1, b2, b3, b4⟩ := en_first
  exact ⟨md, md', mw, mw', gy, gu, gy', gu', ratLa_exact _ _, ratLa_exact _ _, idealAd_exact, idealAd_exact, zeroMin_finds,
    zeroMin_finds, fun _ _ => rfl, of_posed, en_posed, of_vals, en_vals, en_enlarges, by decide, by decide, a4, b4, a1, b1,
    a2, b2, a3, b3⟩

end Pynare

import Verif.Props.Restated
import Verif.Examples.Enlarged
/-!
# The file of `Examples/Enlarged.lean` with `0 - x - x*x*x` in the place of `x`, for the example of C175
-/

namespace Pynare

/-- `0 - x - x*x*x` in the place of `x` -/
def trW (x : String) (e : Expr ℚ) : Expr ℚ :=
  if x = "x" then .bin .sub (.bin .sub (.num 0) e) (.bin .mul (.bin .mul e e) e) else e

/-- the file -/
def trText : String :=
  "var z x ; varexo e f ; model ; 0 - x - x * x * x = 0.5 * ( 0 - x ( - 1 ) - x ( - 1 ) * x ( - 1 ) * x ( - 1 ) ) + ( e + 2 * f ) ; z ( + 1 ) = 2 * z ; end ; " ++
  "shocks ; var e ; stderr 1 ; var f ; stderr 2 ; end ;"
/-- its tokens -/
def trToks : List (Tok ℚ) := (wordsOf trText.toList).map ratTok
/-- what it contains -/
def trFile : ModelFile ℚ where
  decls := [("z", "var"), ("x", "var"), ("e", "varexo"), ("f", "varexo")]
  params := []
  args := []
  stmts := [
    .eqn (.bin .sub (.bin .sub (.num 0) (.var "x")) (.bin .mul (.bin .mul (.var "x") (.var "x")) (.var "x")))
      (.bin .add (.bin .mul (.num (1 / 2))
        (.bin .sub (.bin .sub (.num 0) (.pvar "x" (-1))) (.bin .mul (.bin .mul (.pvar "x" (-1)) (.pvar "x" (-1))) (.pvar "x" (-1)))))
      (.bin .add (.var "e") (.bin .mul (.num 2) (.var "f")))) none,
    .eqn (.pvar "z" 1) (.bin .mul (.num 2) (.var "z")) none]
  actions := ⟨none, none, none, some ⟨[], [.stderr "e" (.num 1), .stderr "f" (.num 2)]⟩⟩

theorem tr_file : FileOf ratPC trToks trFile :=
  fileOf_check (noCall_of_check _ (by decide +kernel)) (by decide +kernel) (by decide +kernel)

theorem tr_written : Written ratCfg trToks (exText trText) [] := by
  have := written_spaced charOk_rat ((wordsOf trText.toList).map fun w => (ratTok w, w)) (by
    intro p hp
    obtain ⟨w, hw, rfl⟩ := List.mem_map.mp hp
    have h : ((wordsOf trText.toList).all fun w => spelled ratCfg (ratTok w) w) = true := by decide +kernel
    exact List.all_eq_true.mp h w hw)
  simpa [List.map_map, Function.comp_def, trToks, exText] using this

theorem tr_params : PlainParams trFile := by
  refine ⟨fun x h => ?_, fun pre x e post h => ?_⟩
  · simp [ModelFile.DeclaredAs, trFile] at h
  · simp [trFile] at h

theorem tr_equations : PlainEquations trFile := by
  constructor
  · intro l r h x hx
    simp only [trFile, equations, List.mem_cons, List.not_mem_nil, or_false, Prod.mk.injEq] at h
    rcases h with ⟨rfl, rfl⟩ | ⟨rfl, rfl⟩ <;>
      simp [Expr.vars] at hx <;> simp [ModelFile.DeclaredAs, trFile] <;> tauto
  · intro l r h x o hx
    simp only [trFile, equations, List.mem_cons, List.not_mem_nil, or_false, Prod.mk.injEq] at h
    rcases h with ⟨rfl, rfl⟩ | ⟨rfl, rfl⟩ <;>
      simp [Expr.pvars] at hx <;> simp [ModelFile.DeclaredAs, trFile] <;> tauto

/-- the first equation -/
def trX : Expr ℚ := .bin .sub (.bin .sub (.bin .sub (.num 0) (.var "x")) (.bin .mul (.bin .mul (.var "x") (.var "x")) (.var "x")))
  (.bin .add (.bin .mul (.num (1 / 2)) (.bin .sub (.bin .sub (.num 0) (.pvar "x" (-1))) (.bin .mul (.bin .mul (.pvar "x" (-1)) (.pvar "x" (-1))) (.pvar "x" (-1)))))
    (.bin .add (.var "e") (.bin .mul (.num 2) (.var "f"))))
/-- the decomposition -/
def trQz : QZ ℚ := { sbQz (1/2) 2 with Q := listArr [[-1, 0], [0, 1]] 2 }
/-- the jacobian -/
def trRows : List (List ℚ) := [[1 / 2, 0, -1, 0, -1, -2], [0, -2, 0, 1, 0, 0]]

theorem tr_plain : PlainModel odσ ["z", "x"] ["e", "f"] [trX, odZ] where
  distinct := by decide
  shocks := by decide
  square := rfl
  form := by
    intro e he
    simp only [List.mem_cons, List.not_mem_nil, or_false] at he
    rcases he with rfl | rfl
    · exact ⟨_, _, rfl⟩
    · exact ⟨_, _, rfl⟩
  noCmp := by
    intro e he
    simp only [List.mem_cons, List.not_mem_nil, or_false] at he
    rcases he with rfl | rfl <;> rfl
  current := by
    intro x hx
    simp only [List.mem_cons, List.not_mem_nil, or_false] at hx
    rcases hx with rfl | rfl
    · refine ⟨odZ, by simp, .inl ⟨rfl, ?_⟩⟩
      rw [show odZ.vars = ["z"] from rfl]
      simp
    · refine ⟨trX, by simp, .inl ⟨rfl, ?_⟩⟩
      rw [show trX.vars = ["x", "x", "x", "x", "e", "f"] from rfl]
      simp
  std := by
    intro x _ q e he hq
    simp only [List.mem_cons, List.not_mem_nil, or_false] at he
    rcases hq with ⟨h, -⟩ | hq
    · exact .inr (.inl h)
    · rcases he with rfl | rfl
      · rw [show trX.pvars = [("x", -1), ("x", -1), ("x", -1), ("x", -1)] from rfl] at hq
        simp at hq
        exact .inl hq.2
      · rw [show odZ.pvars = [("z", 1)] from rfl] at hq
        exact .inr (.inr (Prod.mk.inj (List.mem_singleton.mp hq)).2)
  names := by
    intro e he x hx
    refine .inr ?_
    simp only [List.mem_cons, List.not_mem_nil, or_false] at he
    rcases he with rfl | rfl
    · rw [show trX.vars = ["x", "x", "x", "x", "e", "f"] from rfl] at hx
      simp only [List.mem_cons, List.not_mem_nil, or_false] at hx ⊢
      tauto
    · rw [show odZ.vars = ["z"] from rfl] at hx
      simp only [List.mem_cons, List.not_mem_nil, or_false] at hx ⊢
      tauto
  offsets := by
    intro e he x o hx
    simp only [List.mem_cons, List.not_mem_nil, or_false] at he
    rcases he with rfl | rfl
    · rw [show trX.pvars = [("x", -1), ("x", -1), ("x", -1), ("x", -1)] from rfl] at hx
      simp at hx
      obtain ⟨rfl, rfl⟩ := hx
      simp
    · rw [show odZ.pvars = [("z", 1)] from rfl] at hx
      obtain ⟨rfl, rfl⟩ := Prod.mk.inj (List.mem_singleton.mp hx)
      simp

/-- the derivative of the first equation -/
theorem tr_deriv {f : List ℚ → Except Err ℚ} (hf : ∀ a0 a1 a2 a3 a4 a5 : ℚ, f [a0, a1, a2, a3, a4, a5] =
      .ok (1 / 2 * a0 - a2 - a2 * a2 * a2 + 1 / 2 * (a0 * a0 * a0) - a4 - 2 * a5)) :
    IsDerivAt f [0, 0, 0, 0, 0, 0] (vecEntry [1 / 2, 0, -1, 0, -1, -2]) := by
  refine ⟨0, by rw [hf]; norm_num, fun ε hε => ⟨min 1 (ε / 2), lt_min one_pos (by positivity), fun r hr hrd x hx => ?_⟩⟩
  obtain ⟨hl, hx⟩ := hx
  match x, hl with
  | [a0, a1, a2, a3, a4, a5], _ =>
    refine ⟨_, hf _ _ _ _ _ _, ?_⟩
    have h0 : |a0| ≤ r := by simpa [vecEntry] using hx 0 (by norm_num)
    have h2 : |a2| ≤ r := by simpa [vecEntry] using hx 2 (by norm_num)
    have cube : ∀ b : ℚ, |b| ≤ r → |b * b * b| ≤ r * r * r := by
      intro b hb
      rw [abs_mul, abs_mul]
      have := abs_nonneg b
      gcongr
    have e : 1 / 2 * a0 - a2 - a2 * a2 * a2 + 1 / 2 * (a0 * a0 * a0) - a4 - 2 * a5 - 0 -
        (sumTo [(0 : ℚ), 0, 0, 0, 0, 0].length fun k => vecEntry [1 / 2, 0, -1, 0, -1, -2] k *
          (vecEntry [a0, a1, a2, a3, a4, a5] k - vecEntry [0, 0, 0, 0, 0, 0] k)) =
        1 / 2 * (a0 * a0 * a0) - a2 * a2 * a2 := by
      simp [sumTo, vecEntry]
      ring
    rw [e]
    have k1 := abs_sub (1 / 2 * (a0 * a0 * a0)) (a2 * a2 * a2)
    rw [abs_mul (1 / 2), abs_of_pos (show (0 : ℚ) < 1 / 2 by norm_num)] at k1
    have k2 := cube a2 h2
    have k3 := cube a0 h0
    have r1 : r ≤ 1 := hrd.trans (min_le_left _ _)
    have r2 : r ≤ ε / 2 := hrd.trans (min_le_right _ _)
    have k4 : r * r * r ≤ ε / 2 * r := by
      have : r * r ≤ ε / 2 := by nlinarith
      exact mul_le_mul_of_nonneg_right this hr
    have k5 : 0 ≤ ε * r := by positivity
    linarith

theorem tr_jacobian : JacobianOf ratOps (fun _ => true) idealAd odσ ["z", "x"] ["e", "f"] [trX, odZ] [0, 0] enT
    (rowsArr 6 trRows) where
  plain := tr_plain
  table := rfl
  jacobian := by
    have htp : enT.places = [(0, 1), (1, 0), (1, 1), (2, 0)] := by decide
    have hv : dynVars ["z", "x"] ["e", "f"] enT.toTyper = ["xm1", "z", "x", "zp1", "e", "f"] := by
      unfold dynVars; rw [htp]; rfl
    have hp : linPoint enT.toTyper 2 ([0, 0] : List ℚ) = [0, 0, 0, 0, 0, 0] := by unfold linPoint; rw [htp]; rfl
    refine ⟨_, by simp [dynamicFuncs, dynamicFunc, hv, subTree, dynMaybe, trX, odZ, odσ, modelSignature, offsetName, bind, Except.bind]; rfl, ?_⟩
    unfold modelJacobian
    rw [show (["e", "f"] : List String).length = 2 from rfl, hp]
    refine idealAd_rows rfl (.cons ⟨rfl, ?_⟩ (.cons (en_row rfl rfl ?_) .nil))
    · refine tr_deriv fun a0 a1 a2 a3 a4 a5 => ?_
      exact (show _ = Except.ok ((0 - a2 - a2 * a2 * a2) - (2⁻¹ * (0 - a0 - a0 * a0 * a0) + (a4 + 2 * a5))) from rfl).trans
        (by congr 1; ring)
    · intro a0 a1 a2 a3 a4 a5
      refine (show _ = Except.ok (a3 - 2 * a1) from rfl).trans ?_
      simp [vecEntry]
      ring

theorem tr_eigen : trQz.Eigen (Rat.castHom ℂ) (sbEv (1/2) 2) :=
  have h := sb_eigen (1/2) 2 (by norm_num)
  ⟨h.infinite, h.big, h.gt1, h.sorted, h.blocks⟩

theorem tr_solved : ∃ (s : Space ℚ) (gy gu : Arr ℚ),
    SolvedModel (Rat.castHom ℂ) ratOps (fun _ => true) idealAd (ratLa 1 trQz) odσ ["z", "x"] ["e", "f"] [trX, odZ]
      [0, 0] enT (rowsArr 6 trRows) gy gu s trQz (sbEv (1/2) 2) := by
  obtain ⟨s, hs, h⟩ := ok_of_check (x := Space.create (ratLa 1 trQz) enT.toTyper (rowsArr 6 trRows))
    (p := fun s => qzB trQz s.rhs s.lhs && okAnd (s.verify (ratLa 1 trQz) enT.toTyper) (fun _ => true) &&
      okAnd (solveFirstOrder (ratLa 1 trQz) enT 2 s) fun _ => true) (by decide +kernel)
  simp only [Bool.and_eq_true] at h
  obtain ⟨⟨h1, h2⟩, h3⟩ := h
  obtain ⟨⟨⟩, hv, -⟩ := ok_of_check h2
  obtain ⟨⟨gy, gu⟩, hg, -⟩ := ok_of_check h3
  refine ⟨s, gy, gu, ⟨tr_jacobian, hs, hg, hv, ?_, tr_eigen, ?_⟩⟩
  · show (if qzB _ _ _ then _ else _) = _
    rw [if_pos h1]
  · exact sb_noUnit (by rw [abs_of_pos (by norm_num)]; norm_num) (by norm_num)

/-- what is made from the file -/
theorem tr_read : ∃ (o : Outline ℚ) (m : MState ℚ Unit Unit), createOutline ratOps .ok trFile = .ok o ∧
    fromOutline whRead.env o "dynare" "m" = .ok m ∧ m.endog.length = 2 ∧
    m.stoch = [⟨"e", "", some 1, none, none⟩, ⟨"f", "", some 2, none, none⟩] ∧
    m.indexes = enT ∧ m.endogNames = ["z", "x"] ∧ m.stochNames = ["e", "f"] ∧ m.scope = odσ ∧
    m.exprs.exprs = [trX, odZ] ∧
    ∃ f₁ f₂, m.steady = [f₁, f₂] ∧ ∀ z x : ℚ,
      f₁ [z, x] = .ok (0 - x - x * x * x - (1 / 2 * (0 - x - x * x * x) + (0 + 2 * 0))) ∧ f₂ [z, x] = .ok (z - 2 * z) :=
  ⟨_, _, rfl, rfl, rfl, rfl, rfl, rfl, rfl, rfl, rfl, _, _, rfl, fun _ _ => ⟨rfl, rfl⟩⟩

/-- the libraries -/
noncomputable def trLib : Libs ℚ := ⟨ratLa 1 trQz, triQz, idealAd, zeroMin, 0⟩

theorem tr_vals : FileVals ratOps trFile noValues noValues := by
  refine ⟨.nil, ?_⟩
  have : trFile.paramVals noValues = (noValues : String → Option ℚ) := by
    funext x
    simp [ModelFile.paramVals, noValues]
  rw [this]
  exact .nil

theorem tr_posed : WellPosed trFile := by
  constructor
  · intro x h
    have : x = "z" ∨ x = "x" := by simpa [ModelFile.DeclaredAs, trFile] using h
    rcases this with rfl | rfl
    · exact ⟨_, _, .tail _ (.head _), by simp [Expr.vars]⟩
    · exact ⟨_, _, .head _, by simp [Expr.vars]⟩
  · rfl

theorem tr_more : ∃ (md md' : MState ℚ (ModelSpace ℚ) (Arr ℚ × Arr ℚ)) (gy gu : Arr ℚ),
    ReadFrom (whRead.first trLib) (exText trText) trFile noValues md ∧
    md.solve (whRead.env.first trLib) = (md', .ok (gy, gu)) ∧ PassesCheck (Rat.castHom ℂ) trLib.la md ∧
    OneRest ratOps trFile noValues (fun _ => 0) ∧
    md.indexes = enT ∧ md.statespace.steady = [0, 0] ∧
    ∃ s, Space.create (ratLa 1 trQz) enT.toTyper (rowsArr 6 trRows) = .ok s ∧
      solveFirstOrder (ratLa 1 trQz) enT 2 s = .ok (gy, gu) ∧ md.statespace.space = s := by
  obtain ⟨o, m, h1, h2, h3, h4, h5, h6, h7, h8, h9, f₁, f₂, hf, hfv⟩ := tr_read
  obtain ⟨s, gy, gu, hm⟩ := tr_solved
  obtain ⟨md, md', a1, a2, a3, a4, a5, a6, a7⟩ := run_solved₂ (lib := trLib) rfl h1 h2 tr_file tr_written rfl tr_params
    tr_equations h3 (by rw [h5]; exact hm) h6 h7 h8 h9 (by
      obtain ⟨k1, k2⟩ := hfv 0 0
      rw [hf]; simp [callAll, k1, k2, bind, Except.bind]) (by rw [h5]; rfl) (sg := sigmaDiag m.stoch) (by rw [h4]; rfl)
  refine ⟨md, md', gy, gu, a2, a3, a4, ?_, a5.trans h5, a6, s, hm.space, hm.solved, a7⟩
  obtain ⟨σ, pss, tf⟩ := text_facts (r := whRead.first trLib) (lib := trLib) rfl a2
  obtain rfl : σ = noValues := exec_unique tf.vals.model tr_vals.model
  rw [hf] at a1
  intro ys hl
  match ys, hl with
  | [z, x], hl =>
    obtain ⟨k1, k2⟩ := hfv z x
    have g1 := tf.rest (fun _ _ => rfl) tr_params tr_equations (i := 0) rfl (by rw [a1]; rfl) hl 0
    have g2 := tf.rest (fun _ _ => rfl) tr_params tr_equations (i := 1) rfl (by rw [a1]; rfl) hl 0
    rw [k1] at g1
    rw [k2] at g2
    constructor
    · intro h
      have e1 := Except.ok.inj (g1.mpr (h _ _ (by simp [trFile, equations])))
      have e2 := Except.ok.inj (g2.mpr (h _ _ (by simp [trFile, equations])))
      obtain rfl : z = 0 := by linarith
      obtain rfl : x = 0 := by
        have : x * (1 + x * x) = 0 := by linarith
        rcases mul_eq_zero.mp this with h | h
        · exact h
        · nlinarith [mul_self_nonneg x]
      rfl
    · intro h l r hlr
      have h' : [z, x] = [0, 0] := h
      simp only [List.cons.injEq, and_true] at h'
      obtain ⟨rfl, rfl⟩ := h'
      simp only [trFile, equations, List.mem_cons, List.not_mem_nil, or_false, Prod.mk.injEq] at hlr
      rcases hlr with ⟨rfl, rfl⟩ | ⟨rfl, rfl⟩
      · exact g1.mp (by norm_num)
      · exact g2.mp (by norm_num)

theorem tr_first : ∃ (md md' : MState ℚ (ModelSpace ℚ) (Arr ℚ × Arr ℚ)) (gy gu : Arr ℚ),
    ReadFrom (whRead.first trLib) (exText trText) trFile noValues md ∧
    md.solve (whRead.env.first trLib) = (md', .ok (gy, gu)) ∧ PassesCheck (Rat.castHom ℂ) trLib.la md ∧
    OneRest ratOps trFile noValues fun _ => 0 := by
  obtain ⟨md, md', gy, gu, h1, h2, h3, h4, -⟩ := tr_more
  exact ⟨md, md', gy, gu, h1, h2, h3, h4⟩

/-- the function -/
def trT (x : String) (v : ℚ) : ℚ := if x = "x" then 0 - v - v * v * v else v

theorem tr_computes : Computes ratOps trW trT := by
  intro P Q hP hQ x e v hv
  unfold trW at hv
  split at hv
  · rename_i hx
    cases hv with
    | bin h1 h2 h3 =>
      cases h1 with
      | bin g1 g2 g3 =>
        cases h2 with
        | bin f1 f2 f3 =>
          cases f1 with
          | bin d1 d2 d3 =>
            obtain rfl := pEvals_unique hP hQ d1 g2
            obtain rfl := pEvals_unique hP hQ d2 d1
            obtain rfl := pEvals_unique hP hQ f2 d1
            cases g1
            refine ⟨_, d1, ?_⟩
            cases d3
            cases f3
            cases g3
            cases h3
            simp [trT, hx]
  · rename_i hx
    exact ⟨v, hv, by simp [trT, hx]⟩

theorem tr_in : WrittenIn trW noValues trFile enFile := by
  refine ⟨rfl, rfl, ?_, rfl⟩
  intro x hx
  have : x = "z" ∨ x = "x" := by simpa [ModelFile.names, enFile] using hx
  rcases this with rfl | rfl <;> exact ⟨by decide, rfl⟩

theorem tr_slope : ∀ x ∈ enFile.names "var", HasSlope (trT x) 0 (if x = "x" then -1 else 1) ∧
    (if x = "x" then (-1 : ℚ) else 1) ≠ 0 := by
  intro x hx
  have : x = "z" ∨ x = "x" := by simpa [ModelFile.names, enFile] using hx
  rcases this with rfl | rfl
  · exact ⟨slope_self 0, by decide⟩
  · refine ⟨fun ε hε => ⟨min 1 ε, lt_min one_pos hε, fun h hh => ?_⟩, by decide⟩
    have e : trT "x" (0 + h) - trT "x" 0 - (if "x" = "x" then -1 else 1) * h = -(h * h * h) := by
      simp [trT]
      ring
    rw [e, abs_neg, abs_mul, abs_mul]
    have h1 : |h| ≤ 1 := hh.trans (min_le_left _ _)
    have h2 : |h| ≤ ε := hh.trans (min_le_right _ _)
    have h3 := abs_nonneg h
    refine mul_le_mul_of_nonneg_right ?_ h3
    nlinarith

/-- the hypotheses of `C175_written_partial`, and with them those of the two theorems before it, are met by the two files -/
example : ∃ (md md' mw mw' : MState ℚ (ModelSpace ℚ) (Arr ℚ × Arr ℚ)) (gy gu gy' gu' : Arr ℚ),
    trLib.la.Exact ∧ enLib.la.Exact ∧ trLib.ad.Exact ∧ enLib.ad.Exact ∧ FindsMinimum trLib.opt ∧ FindsMinimum enLib.opt ∧
    (∀ a b, whRead.env.ops.bin .sub a b = .ok (a - b)) ∧ WellPosed trFile ∧ WellPosed enFile ∧
    FileVals whRead.env.ops trFile noValues noValues ∧ FileVals whRead.env.ops enFile noValues noValues ∧
    WrittenIn trW noValues trFile enFile ∧ Computes whRead.env.ops trW trT ∧
    (∀ x ∈ enFile.names "var", HasSlope (trT x) 0 (if x = "x" then -1 else 1) ∧ (if x = "x" then (-1 : ℚ) else 1) ≠ 0) ∧
    OneRest whRead.env.ops trFile noValues (fun _ => 0) ∧ OneRest whRead.env.ops enFile noValues (fun x => trT x 0) ∧
    ReadFrom (whRead.first trLib) (exText trText) trFile noValues md ∧
    ReadFrom (whRead.first enLib) (exText enText) enFile noValues md' ∧
    md.solve (whRead.env.first trLib) = (mw, .ok (gy, gu)) ∧ md'.solve (whRead.env.first enLib) = (mw', .ok (gy', gu')) ∧
    PassesCheck (Rat.castHom ℂ) trLib.la md ∧ PassesCheck (Rat.castHom ℂ) enLib.la md' ∧
    RestatedNear whRead.env.ops trFile noValues enFile noValues (fun _ => 0) trT (fun _ v => v) := by
  obtain ⟨md, mw, gy, gu, a1, a2, a3, a4⟩ := tr_first
  obtain ⟨md', mw', gy', gu', b1, b2, b3, b4⟩ := en_first
  have e : (fun x => trT x 0) = fun _ => 0 := by
    funext x
    simp [trT]
  exact ⟨md, md', mw, mw', gy, gu, gy', gu', ratLa_exact _ _, ratLa_exact _ _, idealAd_exact, idealAd_exact, zeroMin_finds,
    zeroMin_finds, fun _ _ => rfl, tr_posed, en_posed, tr_vals, en_vals, tr_in, tr_computes, tr_slope, a4, by rw [e]; exact b4,
    a1, b1, a2, b2, a3, b3, tr_in.restated tr_computes _⟩

end Pynare

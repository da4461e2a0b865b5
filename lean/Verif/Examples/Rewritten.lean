import Verif.Props.Rewritten
import Verif.Examples.WholeOrderRun
/-!
# The first file of `Examples/WholeOrder.lean` with the sides of two equations exchanged, for the example of C167
-/

namespace Pynare

/-- the file -/
def rwText : String :=
  "var z x w ; varexo e f ; model ; z + x = w ; x = 0.5 * x ( - 1 ) + ( e + 2 * f ) ; 2 * z = z ( + 1 ) ; end ; " ++
  "shocks ; var e ; stderr 1 ; var f ; stderr 2 ; end ;"
/-- its tokens -/
def rwToks : List (Tok ℚ) := (wordsOf rwText.toList).map ratTok
/-- what it contains -/
def rwFile : ModelFile ℚ where
  decls := [("z", "var"), ("x", "var"), ("w", "var"), ("e", "varexo"), ("f", "varexo")]
  params := []
  args := []
  stmts := [
    .eqn (.bin .add (.var "z") (.var "x")) (.var "w") none,
    .eqn (.var "x") (.bin .add (.bin .mul (.num (1 / 2)) (.pvar "x" (-1)))
      (.bin .add (.var "e") (.bin .mul (.num 2) (.var "f")))) none,
    .eqn (.bin .mul (.num 2) (.var "z")) (.pvar "z" 1) none]
  actions := ⟨none, none, none, some ⟨[], [.stderr "e" (.num 1), .stderr "f" (.num 2)]⟩⟩

theorem rw_file : FileOf ratPC rwToks rwFile :=
  fileOf_check (noCall_of_check _ (by decide +kernel)) (by decide +kernel) (by decide +kernel)

theorem rw_written : Written ratCfg rwToks (exText rwText) [] := by
  have := written_spaced charOk_rat ((wordsOf rwText.toList).map fun w => (ratTok w, w)) (by
    intro p hp
    obtain ⟨w, hw, rfl⟩ := List.mem_map.mp hp
    have h : ((wordsOf rwText.toList).all fun w => spelled ratCfg (ratTok w) w) = true := by decide +kernel
    exact List.all_eq_true.mp h w hw)
  simpa [List.map_map, Function.comp_def, rwToks, exText] using this

theorem rw_exchanged : SidesExchanged ofFile rwFile :=
  ⟨rfl, rfl, rfl, .cons (.inr rfl) (.cons (.inl rfl) (.cons (.inr rfl) .nil))⟩

theorem rw_params : PlainParams rwFile := by
  refine ⟨fun x h => ?_, fun pre x e post h => ?_⟩
  · simp [ModelFile.DeclaredAs, rwFile] at h
  · simp [rwFile] at h

theorem rw_equations : PlainEquations rwFile := by
  constructor
  · intro l r h x hx
    simp only [rwFile, equations, List.mem_cons, List.not_mem_nil, or_false, Prod.mk.injEq] at h
    rcases h with ⟨rfl, rfl⟩ | ⟨rfl, rfl⟩ | ⟨rfl, rfl⟩ <;>
      simp [Expr.vars] at hx <;> simp [ModelFile.DeclaredAs, rwFile] <;> tauto
  · intro l r h x o hx
    simp only [rwFile, equations, List.mem_cons, List.not_mem_nil, or_false, Prod.mk.injEq] at h
    rcases h with ⟨rfl, rfl⟩ | ⟨rfl, rfl⟩ | ⟨rfl, rfl⟩ <;>
      simp [Expr.pvars] at hx <;> simp [ModelFile.DeclaredAs, rwFile] <;> tauto

/-- `z + x = w` -/
def rwW : Expr ℚ := .bin .sub (.bin .add (.var "z") (.var "x")) (.var "w")
/-- `2*z = z(+1)` -/
def rwZ : Expr ℚ := .bin .sub (.bin .mul (.num 2) (.var "z")) (.pvar "z" 1)
/-- the jacobian -/
def rwRows : List (List ℚ) := [[0, 1, 1, -1, 0, 0, 0], [-(1/2), 0, 1, 0, 0, -1, -2], [0, 2, 0, 0, -1, 0, 0]]
/-- the decomposition -/
def rwQz : QZ ℚ := { sbQz (1/2) 2 with Q := listArr [[1, 0], [0, -1]] 2 }

theorem rw_plain : PlainModel odσ ["z", "x", "w"] ["e", "f"] [rwW, odX, rwZ] where
  distinct := by decide
  shocks := by decide
  square := rfl
  form := by
    intro e he
    simp only [List.mem_cons, List.not_mem_nil, or_false] at he
    rcases he with rfl | rfl | rfl
    · exact ⟨_, _, rfl⟩
    · exact ⟨_, _, rfl⟩
    · exact ⟨_, _, rfl⟩
  noCmp := by
    intro e he
    simp only [List.mem_cons, List.not_mem_nil, or_false] at he
    rcases he with rfl | rfl | rfl <;> rfl
  current := by
    intro x hx
    refine ⟨rwW, by simp, .inl ⟨rfl, ?_⟩⟩
    rw [show rwW.vars = ["z", "x", "w"] from rfl]
    simp only [List.mem_cons, List.not_mem_nil, or_false] at hx ⊢
    tauto
  std := by
    intro x _ q e he hq
    simp only [List.mem_cons, List.not_mem_nil, or_false] at he
    rcases hq with ⟨h, -⟩ | hq
    · exact .inr (.inl h)
    · rcases he with rfl | rfl | rfl
      · cases hq
      · rw [show odX.pvars = [("x", -1)] from rfl] at hq
        exact .inl (Prod.mk.inj (List.mem_singleton.mp hq)).2
      · rw [show rwZ.pvars = [("z", 1)] from rfl] at hq
        exact .inr (.inr (Prod.mk.inj (List.mem_singleton.mp hq)).2)
  names := by
    intro e he x hx
    refine .inr ?_
    simp only [List.mem_cons, List.not_mem_nil, or_false] at he
    rcases he with rfl | rfl | rfl
    · rw [show rwW.vars = ["z", "x", "w"] from rfl] at hx
      simp only [List.mem_cons, List.not_mem_nil, or_false] at hx ⊢
      tauto
    · rw [show odX.vars = ["x", "e", "f"] from rfl] at hx
      simp only [List.mem_cons, List.not_mem_nil, or_false] at hx ⊢
      tauto
    · rw [show rwZ.vars = ["z"] from rfl] at hx
      simp only [List.mem_cons, List.not_mem_nil, or_false] at hx ⊢
      tauto
  offsets := by
    intro e he x o hx
    simp only [List.mem_cons, List.not_mem_nil, or_false] at he
    rcases he with rfl | rfl | rfl
    · cases hx
    · rw [show odX.pvars = [("x", -1)] from rfl] at hx
      obtain ⟨rfl, rfl⟩ := Prod.mk.inj (List.mem_singleton.mp hx)
      simp
    · rw [show rwZ.pvars = [("z", 1)] from rfl] at hx
      obtain ⟨rfl, rfl⟩ := Prod.mk.inj (List.mem_singleton.mp hx)
      simp

theorem rw_jacobian : JacobianOf ratOps (fun _ => true) idealAd odσ ["z", "x", "w"] ["e", "f"] [rwW, odX, rwZ] [0, 0, 0] exT
    (rowsArr 7 rwRows) where
  plain := rw_plain
  table := rfl
  jacobian := by
    have htp : exT.places = [(0, 1), (1, 0), (1, 1), (1, 2), (2, 0)] := by decide
    have hv : dynVars ["z", "x", "w"] ["e", "f"] exT.toTyper = ["xm1", "z", "x", "w", "zp1", "e", "f"] := by
      unfold dynVars; rw [htp]; rfl
    have hp : linPoint exT.toTyper 2 ([0, 0, 0] : List ℚ) = [0, 0, 0, 0, 0, 0, 0] := by unfold linPoint; rw [htp]; rfl
    refine ⟨_, by simp [dynamicFuncs, dynamicFunc, hv, subTree, dynMaybe, rwW, odX, rwZ, odσ, modelSignature, offsetName, bind, Except.bind]; rfl, ?_⟩
    unfold modelJacobian
    rw [show (["e", "f"] : List String).length = 2 from rfl, hp]
    refine idealAd_rows rfl (.cons (od_row rfl rfl ?_) (.cons (od_row rfl rfl ?_) (.cons (od_row rfl rfl ?_) .nil)))
    · intro a0 a1 a2 a3 a4 a5 a6
      refine (show _ = Except.ok ((a1 + a2) - a3) from rfl).trans ?_
      simp [vecEntry]
      ring
    · intro a0 a1 a2 a3 a4 a5 a6
      refine (show _ = Except.ok (a2 - (2⁻¹ * a0 + (a5 + 2 * a6))) from rfl).trans ?_
      simp [vecEntry]
      ring
    · intro a0 a1 a2 a3 a4 a5 a6
      refine (show _ = Except.ok (2 * a1 - a4) from rfl).trans ?_
      simp [vecEntry]
      ring

theorem rw_eigen : rwQz.Eigen (Rat.castHom ℂ) (sbEv (1/2) 2) :=
  have h := sb_eigen (1/2) 2 (by norm_num)
  ⟨h.infinite, h.big, h.gt1, h.sorted, h.blocks⟩

theorem rw_solved : ∃ (s : Space ℚ) (gy gu : Arr ℚ),
    SolvedModel (Rat.castHom ℂ) ratOps (fun _ => true) idealAd (ratLa 1 rwQz) odσ ["z", "x", "w"] ["e", "f"] [rwW, odX, rwZ]
      [0, 0, 0] exT (rowsArr 7 rwRows) gy gu s rwQz (sbEv (1/2) 2) := by
  obtain ⟨s, hs, h⟩ := ok_of_check (x := Space.create (ratLa 1 rwQz) exT.toTyper (rowsArr 7 rwRows))
    (p := fun s => qzB rwQz s.rhs s.lhs && okAnd (s.verify (ratLa 1 rwQz) exT.toTyper) (fun _ => true) &&
      okAnd (solveFirstOrder (ratLa 1 rwQz) exT 2 s) fun _ => true) (by decide +kernel)
  simp only [Bool.and_eq_true] at h
  obtain ⟨⟨h1, h2⟩, h3⟩ := h
  obtain ⟨⟨⟩, hv, -⟩ := ok_of_check h2
  obtain ⟨⟨gy, gu⟩, hg, -⟩ := ok_of_check h3
  refine ⟨s, gy, gu, ⟨rw_jacobian, hs, hg, hv, ?_, rw_eigen, ?_⟩⟩
  · show (if qzB _ _ _ then _ else _) = _
    rw [if_pos h1]
  · exact sb_noUnit (by rw [abs_of_pos (by norm_num)]; norm_num) (by norm_num)

/-- what is made from the file -/
theorem rw_read : ∃ (o : Outline ℚ) (m : MState ℚ Unit Unit), createOutline ratOps .ok rwFile = .ok o ∧
    fromOutline whRead.env o "dynare" "m" = .ok m ∧ m.endog.length = 3 ∧
    m.stoch = [⟨"e", "", some 1, none, none⟩, ⟨"f", "", some 2, none, none⟩] ∧
    m.indexes = exT ∧ m.endogNames = ["z", "x", "w"] ∧ m.stochNames = ["e", "f"] ∧ m.scope = odσ ∧
    m.exprs.exprs = [rwW, odX, rwZ] ∧
    ∃ f₁ f₂ f₃, m.steady = [f₁, f₂, f₃] ∧ ∀ z x w : ℚ, f₁ [z, x, w] = .ok ((z + x) - w) ∧
      f₂ [z, x, w] = .ok (x - (1 / 2 * x + (0 + 2 * 0))) ∧ f₃ [z, x, w] = .ok (2 * z - z) :=
  ⟨_, _, rfl, rfl, rfl, rfl, rfl, rfl, rfl, rfl, rfl, _, _, _, rfl, fun _ _ _ => ⟨rfl, rfl, rfl⟩⟩

/-- the libraries -/
noncomputable def rwLib : Libs ℚ := ⟨ratLa 1 rwQz, triQz, idealAd, zeroMin, 0⟩

theorem rw_first : ∃ (md md' : MState ℚ (ModelSpace ℚ) (Arr ℚ × Arr ℚ)) (gy gu : Arr ℚ),
    ReadFrom (whRead.first rwLib) (exText rwText) rwFile noValues md ∧
    md.solve (whRead.env.first rwLib) = (md', .ok (gy, gu)) ∧ PassesCheck (Rat.castHom ℂ) rwLib.la md := by
  obtain ⟨o, m, h1, h2, h3, h4, h5, h6, h7, h8, h9, f₁, f₂, f₃, hf, hfv⟩ := rw_read
  obtain ⟨s, gy, gu, hm⟩ := rw_solved
  obtain ⟨md, md', a1, a2, a3, a4⟩ := run_solved (lib := rwLib) rfl h1 h2 rw_file rw_written rfl rw_params rw_equations h3
    (by rw [h5]; exact hm) h6 h7 h8 h9 (by
      obtain ⟨k1, k2, k3⟩ := hfv 0 0 0
      rw [hf]; simp [callAll, k1, k2, k3, bind, Except.bind]) (by rw [h5]; rfl) (sg := sigmaDiag m.stoch) (by rw [h4]; rfl)
  exact ⟨md, md', gy, gu, a2, a3, a4⟩

/-- the hypotheses of `C167_exchanged_partial`, and with them those of the other two theorems, are met by the two files -/
example : ∃ (md md' mw mw' : MState ℚ (ModelSpace ℚ) (Arr ℚ × Arr ℚ)) (gy gu gy' gu' : Arr ℚ),
    ofLib.la.Exact ∧ rwLib.la.Exact ∧ ofLib.ad.Exact ∧ rwLib.ad.Exact ∧ FindsMinimum ofLib.opt ∧ FindsMinimum rwLib.opt ∧
    (∀ a b, whRead.env.ops.bin .sub a b = .ok (a - b)) ∧
    SidesExchanged ofFile rwFile ∧ equations ofFile.stmts ≠ equations rwFile.stmts ∧ WellPosed ofFile ∧ WellPosed rwFile ∧
    FileVals whRead.env.ops ofFile noValues noValues ∧ FileVals whRead.env.ops rwFile noValues noValues ∧
    OneRest whRead.env.ops ofFile noValues (fun _ => 0) ∧ OneRest whRead.env.ops rwFile noValues (fun _ => 0) ∧
    ReadFrom (whRead.first ofLib) (exText ofText) ofFile noValues md ∧
    ReadFrom (whRead.first rwLib) (exText rwText) rwFile noValues md' ∧
    md.solve (whRead.env.first ofLib) = (mw, .ok (gy, gu)) ∧ md'.solve (whRead.env.first rwLib) = (mw', .ok (gy', gu')) ∧
    PassesCheck (Rat.castHom ℂ) ofLib.la md ∧ PassesCheck (Rat.castHom ℂ) rwLib.la md' ∧
    ImpliesNear whRead.env.ops ofFile noValues rwFile noValues (fun _ => 0) ∧
    ImpliesNear whRead.env.ops rwFile noValues ofFile noValues (fun _ => 0) := by
  obtain ⟨md, mw, gy, gu, a1, a2, a3, a4⟩ := of_first
  obtain ⟨md', mw', gy', gu', b1, b2, b3⟩ := rw_first
  refine ⟨md, md', mw, mw', gy, gu, gy', gu', ratLa_exact _ _, ratLa_exact _ _, idealAd_exact, idealAd_exact, zeroMin_finds,
    zeroMin_finds, fun _ _ => rfl, rw_exchanged, ?_, of_posed, rw_exchanged.posed of_posed, of_vals, rw_exchanged.vals of_vals,
    a4, rw_exchanged.rest a4, a1, b1, a2, b2, a3, b3, rw_exchanged.implies _ _, rw_exchanged.symm.implies _ _⟩
  intro h
  simp [ofFile, rwFile, equations] at h

end Pynare

import Verif.Props.FileSolvable
import Verif.Props.Solvable
import Verif.Examples.WholeRun
/-!
# A file that meets the hypotheses of C165
-/

namespace Pynare

/-- the file -/
def fsText : String :=
  "var x w ; varexo e ; model ; x = 0.5 * x ( - 1 ) + e ; w ( + 1 ) = 2 * w ; end ; shocks ; var e ; stderr 1 ; end ;"
/-- its tokens -/
def fsToks : List (Tok ℚ) := (wordsOf fsText.toList).map ratTok
/-- what it contains -/
def fsFile : ModelFile ℚ where
  decls := [("x", "var"), ("w", "var"), ("e", "varexo")]
  params := []
  args := []
  stmts := [
    .eqn (.var "x") (.bin .add (.bin .mul (.num (1 / 2)) (.pvar "x" (-1))) (.var "e")) none,
    .eqn (.pvar "w" 1) (.bin .mul (.num 2) (.var "w")) none]
  actions := ⟨none, none, none, some ⟨[], [.stderr "e" (.num 1)]⟩⟩

theorem fs_file : FileOf ratPC fsToks fsFile :=
  fileOf_check (noCall_of_check _ (by decide +kernel)) (by decide +kernel) (by decide +kernel)

theorem fs_written : Written ratCfg fsToks (exText fsText) [] := by
  have := written_spaced charOk_rat ((wordsOf fsText.toList).map fun w => (ratTok w, w)) (by
    intro p hp
    obtain ⟨w, hw, rfl⟩ := List.mem_map.mp hp
    have h : ((wordsOf fsText.toList).all fun w => spelled ratCfg (ratTok w) w) = true := by decide +kernel
    exact List.all_eq_true.mp h w hw)
  simpa [List.map_map, Function.comp_def, fsToks, exText] using this

theorem fs_params : PlainParams fsFile := by
  refine ⟨fun x h => ?_, fun pre x e post h => ?_⟩
  · simp [ModelFile.DeclaredAs, fsFile] at h
  · simp [fsFile] at h

theorem fs_equations : PlainEquations fsFile := by
  constructor
  · intro l r h x hx
    simp only [fsFile, equations, List.mem_cons, List.not_mem_nil, or_false,
      Prod.mk.injEq] at h
    rcases h with ⟨rfl, rfl⟩ | ⟨rfl, rfl⟩ <;>
      simp [Expr.vars] at hx <;> simp [ModelFile.DeclaredAs, fsFile] <;> tauto
  · intro l r h x o hx
    simp only [fsFile, equations, List.mem_cons, List.not_mem_nil, or_false,
      Prod.mk.injEq] at h
    rcases h with ⟨rfl, rfl⟩ | ⟨rfl, rfl⟩ <;>
      simp [Expr.pvars] at hx <;> simp [ModelFile.DeclaredAs, fsFile] <;> tauto

theorem fs_vals : FileVals ratOps fsFile noValues noValues := by
  refine ⟨.nil, ?_⟩
  have : fsFile.paramVals noValues = (noValues : String → Option ℚ) := by
    funext x
    simp [ModelFile.paramVals, noValues]
  rw [this]
  exact .nil

theorem fs_declared {x k : String} (h : fsFile.DeclaredAs x k) :
    (x = "x" ∧ k = "var") ∨ (x = "w" ∧ k = "var") ∨ (x = "e" ∧ k = "varexo") := by
  simpa [ModelFile.DeclaredAs, fsFile] using h

theorem fs_posed : WellPosed fsFile := by
  constructor
  · intro x h
    rcases fs_declared h with ⟨rfl, -⟩ | ⟨rfl, -⟩ | ⟨-, h⟩
    · exact ⟨_, _, .head _, by simp [Expr.vars]⟩
    · exact ⟨_, _, .tail _ (.head _), by simp [Expr.vars]⟩
    · simp at h
  · rfl

theorem fs_readable : Readable ratOps .ok (fun _ => true) fsFile noValues noValues where
  accepted := (verify_iff fsFile (by decide)).mp (by decide +kernel)
  kinds x k h := by
    rcases fs_declared h with ⟨_, rfl⟩ | ⟨_, rfl⟩ | ⟨_, rfl⟩ <;> simp
  vals := fs_vals
  params := fs_params
  plain := fs_equations
  occurs x h := by
    rcases fs_declared h with ⟨rfl, -⟩ | ⟨rfl, -⟩ | ⟨-, h⟩
    · exact ⟨_, _, 0, .head _, .inl (.inl ⟨rfl, by simp [Expr.vars]⟩)⟩
    · exact ⟨_, _, 0, .tail _ (.head _), .inr (.inl ⟨rfl, by simp [Expr.vars]⟩)⟩
    · simp at h
  bounds b hb := by simp [fsFile] at hb
  hist h := absurd rfl h
  shocks b hb s hs := by
    simp only [fsFile, Option.some.injEq] at hb
    subst hb
    simp at hs
    subst hs
    refine ⟨⟨1, 1, .num, rfl⟩, ?_⟩
    intro x hx
    simp [ModelFile.DeclaredAs, fsFile] at hx
  legal x := ⟨fun _ => ⟨rfl, rfl, rfl⟩, fun _ => rfl⟩
  apart x y hx hy := by
    have hx : x = "x" ∨ x = "w" := by
      rcases fs_declared hx with ⟨rfl, -⟩ | ⟨rfl, -⟩ | ⟨-, h⟩ <;> simp_all
    have hy : y = "x" ∨ y = "w" ∨ y = "e" := by
      rcases hy with hy | hy <;> rcases fs_declared hy with ⟨rfl, -⟩ | ⟨rfl, -⟩ | ⟨rfl, -⟩ <;> simp
    rcases hx with rfl | rfl <;> rcases hy with rfl | rfl | rfl <;> decide

open Classical in
/-- a minimiser that finds a smallest point if there is one -/
noncomputable def pickMin : Minimizer ℚ := fun _ obj x0 =>
  if h : ∃ x w, x.length = x0.length ∧ obj x = .ok w ∧ ∀ y v, y.length = x0.length → obj y = .ok v → w ≤ v then
    .ok ⟨h.choose, true⟩
  else .error .valueError

theorem pickMin_finds : FindsMinimum pickMin ∧ FindsIfAny pickMin := by
  constructor
  · intro a obj x0 r h
    unfold pickMin at h
    split at h
    · rename_i he
      cases h
      obtain ⟨w, h1, h2⟩ := he.choose_spec
      exact ⟨h1, w, h2⟩
    · cases h
  · intro a obj x0 h
    exact ⟨_, dif_pos h⟩

/-- libraries for the file -/
noncomputable def fsLib : Libs ℚ := ⟨fullLa (diagQz [1/2, 2]), triQz, idealAd, pickMin, 0⟩

theorem fs_jacobian : JacobianOf ratOps (fun _ => true) fsLib.ad noValues (fsFile.names "var") (fsFile.names "varexo")
    ((equations fsFile.stmts).map fun p => .bin .sub p.1 p.2) ((fsFile.names "var").map fun _ => 0) svT svJ := by
  obtain ⟨g₁, g₂, hd, hg⟩ : ∃ g₁ g₂, dynamicFuncs ratOps (fun _ => true) (fsFile.names "var") (fsFile.names "varexo")
      svT.toTyper noValues ((equations fsFile.stmts).map fun p => .bin .sub p.1 p.2) = .ok [g₁, g₂] ∧
      ∀ xm x w wp e : ℚ, g₁ [xm, x, w, wp, e] = .ok (x - (1 / 2 * xm + e)) ∧ g₂ [xm, x, w, wp, e] = .ok (wp - 2 * w) :=
    ⟨_, _, rfl, fun _ _ _ _ _ => ⟨rfl, rfl⟩⟩
  have h1 : IsQuad 5 (vecEntry [-1 / 2, 1, 0, 0, -1]) (fun _ => 0) g₁ := by
    refine ⟨fun _ _ _ _ => rfl, fun x hx => ?_⟩
    match x, hx with
    | [a, b, c, d, e], _ =>
      rw [(hg a b c d e).1]
      congr 1
      simp [quadVal, sumTo, vecEntry]
      ring
  have h2 : IsQuad 5 (vecEntry [0, 0, -2, 1, 0]) (fun _ => 0) g₂ := by
    refine ⟨fun _ _ _ _ => rfl, fun x hx => ?_⟩
    match x, hx with
    | [a, b, c, d, e], _ =>
      rw [(hg a b c d e).2]
      congr 1
      simp [quadVal, sumTo, vecEntry]
      ring
  have a1 := IsQuad.grad (p := List.replicate 5 (0 : ℚ)) h1
  have a2 := IsQuad.grad (p := List.replicate 5 (0 : ℚ)) h2
  rw [show (List.range (List.replicate 5 (0 : ℚ)).length).map (quadGrad (List.replicate 5 (0 : ℚ)).length
    (vecEntry [-1 / 2, 1, 0, 0, -1]) (fun _ => 0) (List.replicate 5 0)) =
    ([-1 / 2, 1, 0, 0, -1] : List ℚ) by decide +kernel] at a1
  rw [show (List.range (List.replicate 5 (0 : ℚ)).length).map (quadGrad (List.replicate 5 (0 : ℚ)).length
    (vecEntry [0, 0, -2, 1, 0]) (fun _ => 0) (List.replicate 5 0)) =
    ([0, 0, -2, 1, 0] : List ℚ) by decide +kernel] at a2
  refine ⟨⟨by decide, by decide, rfl, ?_, ?_, ?_, ?_, ?_, ?_⟩, rfl, _, hd, ?_⟩
  · intro e he
    obtain ⟨p, -, rfl⟩ := List.mem_map.mp he
    exact ⟨_, _, rfl⟩
  · intro e he
    simp only [fsFile, equations, List.map_cons, List.map_nil, List.mem_cons,
      List.not_mem_nil, or_false] at he
    rcases he with rfl | rfl <;> rfl
  · intro x hx
    have hx : x = "x" ∨ x = "w" := by simpa [ModelFile.names, fsFile] using hx
    rcases hx with rfl | rfl
    · exact ⟨_, .head _, .inl ⟨rfl, by simp [Expr.vars]⟩⟩
    · exact ⟨_, .tail _ (.head _), .inl ⟨rfl, by simp [Expr.vars]⟩⟩
  · intro x hx q e he ho
    simp only [fsFile, equations, List.map_cons, List.map_nil, List.mem_cons,
      List.not_mem_nil, or_false] at he
    rcases he with rfl | rfl <;> simp [OccursAt, Expr.vars, Expr.pvars] at ho <;> omega
  · intro e he x hx
    simp only [fsFile, equations, List.map_cons, List.map_nil, List.mem_cons,
      List.not_mem_nil, or_false] at he
    rcases he with rfl | rfl <;> simp [Expr.vars] at hx <;> simp [ModelFile.names, fsFile] <;> tauto
  · intro e he x o hx
    simp only [fsFile, equations, List.map_cons, List.map_nil, List.mem_cons,
      List.not_mem_nil, or_false] at he
    rcases he with rfl | rfl <;> simp [Expr.pvars] at hx <;> simp [ModelFile.names, fsFile] <;> tauto
  · unfold modelJacobian jacobianArray
    rw [show linPoint svT.toTyper (fsFile.names "varexo").length ((fsFile.names "var").map fun _ => (0 : ℚ)) =
      List.replicate 5 0 by decide +kernel]
    have a1 : idealAd.grad g₁ (List.replicate 5 0) = _ := a1
    simp only [fsLib, List.map_cons, List.map_nil, assignRows, a1, a2, bind, Except.bind]
    rfl

/-- zero is the only point of rest -/
theorem fs_rest : OneRest ratOps fsFile noValues fun _ => 0 := by
  obtain ⟨o, md, h1, h2, f₁, f₂, hst, hsv⟩ : ∃ (o : Outline ℚ) (md : MState ℚ Unit Unit),
      createOutline ratOps .ok fsFile = .ok o ∧ fromOutline whRead.env o "dynare" "m" = .ok md ∧
      ∃ f₁ f₂, md.steady = [f₁, f₂] ∧ ∀ x w : ℚ, f₁ [x, w] = .ok (x - (1 / 2 * x + 0)) ∧ f₂ [x, w] = .ok (w - 2 * w) :=
    ⟨_, _, rfl, rfl, _, _, rfl, fun _ _ => ⟨rfl, rfl⟩⟩
  have hread : ReadFrom whRead (exText fsText) fsFile noValues md :=
    ⟨charOk_rat, ⟨_, fs_file, fs_written⟩, ⟨"dynare", "m", by
      rw [fromText_run (r := whRead) charOk_rat fs_file fs_written h1, h2]; rfl⟩, .nil, fs_params, fs_equations⟩
  obtain ⟨σ, pss, tb, -, -⟩ := text_base hread
  obtain rfl : σ = noValues := exec_unique tb.vals.model fs_vals.model
  intro ys hl
  match ys, hl with
  | [x, w], hl =>
    obtain ⟨k1, k2⟩ := hsv x w
    have g1 := tb.rest (fun _ _ => rfl) fs_params fs_equations (i := 0) rfl (by rw [hst]; rfl) hl 0
    have g2 := tb.rest (fun _ _ => rfl) fs_params fs_equations (i := 1) rfl (by rw [hst]; rfl) hl 0
    rw [k1] at g1
    rw [k2] at g2
    constructor
    · intro h
      have e1 := Except.ok.inj (g1.mpr (h _ _ (by simp [fsFile, equations])))
      have e2 := Except.ok.inj (g2.mpr (h _ _ (by simp [fsFile, equations])))
      obtain rfl : x = 0 := by linarith
      obtain rfl : w = 0 := by linarith
      rfl
    · intro h l r hlr
      have h' : [x, w] = [0, 0] := h
      simp only [List.cons.injEq, and_true] at h'
      obtain ⟨rfl, rfl⟩ := h'
      simp only [fsFile, equations, List.mem_cons, List.not_mem_nil, or_false, Prod.mk.injEq] at hlr
      rcases hlr with ⟨rfl, rfl⟩ | ⟨rfl, rfl⟩
      · exact g1.mp (by norm_num)
      · exact g2.mp (by norm_num)

/-- the hypotheses of `C165_solved_iff_partial` are met by the file, and it is solved -/
example : fsLib.la.Exact ∧ fsLib.la.RankExact ∧ fsLib.la.Inverts ∧ fsLib.ad.Exact ∧ FindsMinimum fsLib.opt ∧
    FindsIfAny fsLib.opt ∧ (∀ a b, whRead.env.ops.bin .sub a b = .ok (a - b)) ∧ CharOk whRead.cfg ∧
    FileOf whRead.pc fsToks fsFile ∧ Written whRead.cfg fsToks (exText fsText) [] ∧
    Readable whRead.env.ops whRead.sq whRead.env.okName fsFile noValues noValues ∧ WellPosed fsFile ∧
    0 < (fsFile.names "varexo").length ∧ CorrelatedHaveVariance fsFile ∧
    OneRest whRead.env.ops fsFile noValues (fun _ => 0) ∧
    JacobianOf whRead.env.ops whRead.env.okName fsLib.ad noValues (fsFile.names "var") (fsFile.names "varexo")
      ((equations fsFile.stmts).map fun p => .bin .sub p.1 p.2) ((fsFile.names "var").map fun _ => 0) svT svJ ∧
    fsLib.la.Answers (Rat.castHom ℂ) svT svJ ∧
    OneBoundedFilePath (Rat.castHom ℂ) whRead.env.ops fsFile noValues ((fsFile.names "var").map fun _ => 0) ∧
    SupportedFile fsFile ∧
    ∃ md md' g, fromText (whRead.first fsLib) "dynare" "m" (exText fsText) = .ok md ∧
      md.solve (whRead.env.first fsLib) = (md', .ok g) := by
  obtain ⟨o, md₀, pss, h1, tb, i1, i2, -, -⟩ :=
    read_skeleton (whRead.first fsLib) fsLib rfl charOk_rat fs_file fs_written fs_readable "m"
  have hrest := fs_rest
  have hcv : CorrelatedHaveVariance fsFile := by
    intro b hb x y e he
    simp only [fsFile, Option.some.injEq] at hb
    subst hb
    simp at he
  have hsup : SupportedFile fsFile := by
    refine ⟨⟨"w", by simp [ModelFile.DeclaredAs, fsFile], _, _, .tail _ (.head _), .inl (by simp [Expr.pvars])⟩,
      .inl ⟨"x", by simp [ModelFile.DeclaredAs, fsFile], ⟨_, _, .head _, .inr (by simp [Expr.pvars])⟩, ?_⟩⟩
    rintro ⟨l, r, h, hx⟩
    simp only [fsFile, equations, List.mem_cons, List.not_mem_nil, or_false,
      Prod.mk.injEq] at h
    rcases h with ⟨rfl, rfl⟩ | ⟨rfl, rfl⟩ <;> simp [Expr.pvars] at hx
  have hone : OneBoundedFilePath (Rat.castHom ℂ) whRead.env.ops fsFile noValues ((fsFile.names "var").map fun _ => 0) := by
    have hi : md₀.indexes = svT := Except.ok.inj (i1.symm.trans fs_jacobian.table)
    obtain ⟨fs, j1, hJ⟩ := fs_jacobian.jacobian
    have hone := sv_facts.2
    rw [← hi] at j1 hJ hone
    obtain rfl : fs = md₀.dynamic := Except.ok.inj (j1.symm.trans i2)
    exact (oneBounded_file _ rfl (tb.solves_iff (fun _ _ => rfl) fs_equations fs_posed idealAd_exact hJ
      ((hrest _ (by simp)).mpr rfl))).mpr hone
  exact ⟨fullLa_exact _, fun _ => rfl, fullLa_inverts _, idealAd_exact, pickMin_finds.1, pickMin_finds.2, fun _ _ => rfl,
    charOk_rat, fs_file, fs_written, fs_readable, fs_posed, by decide, hcv, hrest, fs_jacobian, sv_facts.1, hone, hsup,
    (C165_solved_iff_partial (Rat.castHom ℂ) whRead fsLib (fullLa_exact _) (fun _ => rfl) (fullLa_inverts _) idealAd_exact
      pickMin_finds.1 pickMin_finds.2 (fun _ _ => rfl) charOk_rat fs_file fs_written fs_readable fs_posed (by decide) hcv
      hrest fs_jacobian sv_facts.1 hone "m").mpr hsup⟩

end Pynare

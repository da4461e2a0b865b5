import Verif.Examples.FileSolvable
/-!
# A file that meets the hypotheses of C166
-/

namespace Pynare

/-- the file -/
def ftText : String :=
  "var x z w ; varexo e f ; model ; x = 0.5 * x ( - 1 ) + z ( - 1 ) * z ( - 1 ) + e ; z = 0.25 * z ( - 1 ) + f ; " ++
  "w ( + 1 ) = 2 * w ; end ; shocks ; var e ; stderr 1 ; var f ; stderr 2 ; end ;"
/-- its tokens -/
def ftToks : List (Tok ℚ) := (wordsOf ftText.toList).map ratTok
/-- what it contains -/
def ftFile : ModelFile ℚ where
  decls := [("x", "var"), ("z", "var"), ("w", "var"), ("e", "varexo"), ("f", "varexo")]
  params := []
  args := []
  stmts := [
    .eqn (.var "x") (.bin .add (.bin .add (.bin .mul (.num (1 / 2)) (.pvar "x" (-1)))
      (.bin .mul (.pvar "z" (-1)) (.pvar "z" (-1)))) (.var "e")) none,
    .eqn (.var "z") (.bin .add (.bin .mul (.num (1 / 4)) (.pvar "z" (-1))) (.var "f")) none,
    .eqn (.pvar "w" 1) (.bin .mul (.num 2) (.var "w")) none]
  actions := ⟨none, none, none, some ⟨[], [.stderr "e" (.num 1), .stderr "f" (.num 2)]⟩⟩

theorem ft_file : FileOf ratPC ftToks ftFile :=
  fileOf_check (noCall_of_check _ (by decide +kernel)) (by decide +kernel) (by decide +kernel)

theorem ft_written : Written ratCfg ftToks (exText ftText) [] := by
  have := written_spaced charOk_rat ((wordsOf ftText.toList).map fun w => (ratTok w, w)) (by
    intro p hp
    obtain ⟨w, hw, rfl⟩ := List.mem_map.mp hp
    have h : ((wordsOf ftText.toList).all fun w => spelled ratCfg (ratTok w) w) = true := by decide +kernel
    exact List.all_eq_true.mp h w hw)
  simpa [List.map_map, Function.comp_def, ftToks, exText] using this

theorem ft_params : PlainParams ftFile := by
  refine ⟨fun x h => ?_, fun pre x e post h => ?_⟩
  · simp [ModelFile.DeclaredAs, ftFile] at h
  · simp [ftFile] at h

theorem ft_equations : PlainEquations ftFile := by
  constructor
  · intro l r h x hx
    simp only [ftFile, equations, List.mem_cons, List.not_mem_nil, or_false,
      Prod.mk.injEq] at h
    rcases h with ⟨rfl, rfl⟩ | ⟨rfl, rfl⟩ | ⟨rfl, rfl⟩ <;>
      simp [Expr.vars] at hx <;> simp [ModelFile.DeclaredAs, ftFile] <;> tauto
  · intro l r h x o hx
    simp only [ftFile, equations, List.mem_cons, List.not_mem_nil, or_false,
      Prod.mk.injEq] at h
    rcases h with ⟨rfl, rfl⟩ | ⟨rfl, rfl⟩ | ⟨rfl, rfl⟩ <;>
      simp [Expr.pvars] at hx <;> simp [ModelFile.DeclaredAs, ftFile] <;> tauto

theorem ft_vals : FileVals ratOps ftFile noValues noValues := by
  refine ⟨.nil, ?_⟩
  have : ftFile.paramVals noValues = (noValues : String → Option ℚ) := by
    funext x
    simp [ModelFile.paramVals, noValues]
  rw [this]
  exact .nil

theorem ft_declared {x k : String} (h : ftFile.DeclaredAs x k) :
    (x = "x" ∧ k = "var") ∨ (x = "z" ∧ k = "var") ∨ (x = "w" ∧ k = "var") ∨ (x = "e" ∧ k = "varexo") ∨
      (x = "f" ∧ k = "varexo") := by
  simpa [ModelFile.DeclaredAs, ftFile] using h

theorem ft_posed : WellPosed ftFile := by
  constructor
  · intro x h
    rcases ft_declared h with ⟨rfl, -⟩ | ⟨rfl, -⟩ | ⟨rfl, -⟩ | ⟨-, h⟩ | ⟨-, h⟩
    · exact ⟨_, _, .head _, by simp [Expr.vars]⟩
    · exact ⟨_, _, .tail _ (.head _), by simp [Expr.vars]⟩
    · exact ⟨_, _, .tail _ (.tail _ (.head _)), by simp [Expr.vars]⟩
    · simp at h
    · simp at h
  · rfl

theorem ft_readable : Readable ratOps .ok (fun _ => true) ftFile noValues noValues where
  accepted := (verify_iff ftFile (by decide)).mp (by decide +kernel)
  kinds x k h := by
    rcases ft_declared h with ⟨_, rfl⟩ | ⟨_, rfl⟩ | ⟨_, rfl⟩ | ⟨_, rfl⟩ | ⟨_, rfl⟩ <;> simp
  vals := ft_vals
  params := ft_params
  plain := ft_equations
  occurs x h := by
    rcases ft_declared h with ⟨rfl, -⟩ | ⟨rfl, -⟩ | ⟨rfl, -⟩ | ⟨-, h⟩ | ⟨-, h⟩
    · exact ⟨_, _, 0, .head _, .inl (.inl ⟨rfl, by simp [Expr.vars]⟩)⟩
    · exact ⟨_, _, 0, .tail _ (.head _), .inl (.inl ⟨rfl, by simp [Expr.vars]⟩)⟩
    · exact ⟨_, _, 0, .tail _ (.tail _ (.head _)), .inr (.inl ⟨rfl, by simp [Expr.vars]⟩)⟩
    · simp at h
    · simp at h
  bounds b hb := by simp [ftFile] at hb
  hist h := absurd rfl h
  shocks b hb s hs := by
    simp only [ftFile, Option.some.injEq] at hb
    subst hb
    simp at hs
    have hd : ∀ x, ¬ ftFile.DeclaredAs x "varexo_det" := fun x hx => by
      simp [ModelFile.DeclaredAs, ftFile] at hx
    rcases hs with rfl | rfl
    · exact ⟨⟨1, 1, .num, rfl⟩, fun x hx => absurd hx (hd x)⟩
    · exact ⟨⟨2, 2, .num, rfl⟩, fun x hx => absurd hx (hd x)⟩
  legal x := ⟨fun _ => ⟨rfl, rfl, rfl⟩, fun _ => rfl⟩
  apart x y hx hy := by
    have hx : x = "x" ∨ x = "z" ∨ x = "w" := by
      rcases ft_declared hx with ⟨rfl, -⟩ | ⟨rfl, -⟩ | ⟨rfl, -⟩ | ⟨-, h⟩ | ⟨-, h⟩ <;> simp_all
    have hy : y = "x" ∨ y = "z" ∨ y = "w" ∨ y = "e" ∨ y = "f" := by
      rcases hy with hy | hy <;>
        rcases ft_declared hy with ⟨rfl, -⟩ | ⟨rfl, -⟩ | ⟨rfl, -⟩ | ⟨rfl, -⟩ | ⟨rfl, -⟩ <;> simp
    rcases hx with rfl | rfl | rfl <;> rcases hy with rfl | rfl | rfl | rfl | rfl <;> decide

/-- libraries for the file -/
noncomputable def ftLib : Libs ℚ := ⟨xpFull, triQz, idealAd, pickMin, 0⟩

/-- the second derivatives of the first equation -/
def ftD : Nat → ℚ := fun j => if j = 9 then -2 else 0

theorem ft_functions : ∃ g₁ g₂ g₃, dynamicFuncs ratOps (fun _ => true) (ftFile.names "var") (ftFile.names "varexo")
      so2T.toTyper noValues ((equations ftFile.stmts).map fun p => .bin .sub p.1 p.2) = .ok [g₁, g₂, g₃] ∧
    IsQuad 8 (vecEntry [-1 / 2, 0, 1, 0, 0, 0, -1, 0]) ftD g₁ ∧
    IsQuad 8 (vecEntry [0, -1 / 4, 0, 1, 0, 0, 0, -1]) (fun _ => 0) g₂ ∧
    IsQuad 8 (vecEntry [0, 0, 0, 0, -2, 1, 0, 0]) (fun _ => 0) g₃ := by
  obtain ⟨g₁, g₂, g₃, hd, hg⟩ : ∃ g₁ g₂ g₃, dynamicFuncs ratOps (fun _ => true) (ftFile.names "var")
      (ftFile.names "varexo") so2T.toTyper noValues ((equations ftFile.stmts).map fun p => .bin .sub p.1 p.2) =
        .ok [g₁, g₂, g₃] ∧
      ∀ xm zm x z w wp e f : ℚ, g₁ [xm, zm, x, z, w, wp, e, f] = .ok (x - (1 / 2 * xm + zm * zm + e)) ∧
        g₂ [xm, zm, x, z, w, wp, e, f] = .ok (z - (1 / 4 * zm + f)) ∧
        g₃ [xm, zm, x, z, w, wp, e, f] = .ok (wp - 2 * w) :=
    ⟨_, _, _, rfl, fun _ _ _ _ _ _ _ _ => ⟨rfl, rfl, rfl⟩⟩
  refine ⟨g₁, g₂, g₃, hd, ⟨by decide +kernel, fun x hx => ?_⟩, ⟨fun _ _ _ _ => rfl, fun x hx => ?_⟩,
    ⟨fun _ _ _ _ => rfl, fun x hx => ?_⟩⟩
  all_goals
    match x, hx with
    | [xm, zm, x, z, w, wp, e, f], _ =>
      obtain ⟨h1, h2, h3⟩ := hg xm zm x z w wp e f
      first | rw [h1] | rw [h2] | rw [h3]
      congr 1
      simp [quadVal, sumTo, vecEntry, ftD]
      ring

theorem ft_derivs {g₁ g₂ g₃ : ResFun ℚ} (h1 : IsQuad 8 (vecEntry [-1 / 2, 0, 1, 0, 0, 0, -1, 0]) ftD g₁)
    (h2 : IsQuad 8 (vecEntry [0, -1 / 4, 0, 1, 0, 0, 0, -1]) (fun _ => 0) g₂)
    (h3 : IsQuad 8 (vecEntry [0, 0, 0, 0, -2, 1, 0, 0]) (fun _ => 0) g₃) :
    modelJacobian idealAd so2T.toTyper 2 [g₁, g₂, g₃] [0, 0, 0] = .ok xpJ ∧
    ∃ H, modelHessian idealAd so2T.toTyper 2 [g₁, g₂, g₃] [0, 0, 0] = .ok H := by
  have hl : (List.replicate 8 (0 : ℚ)).length = 8 := rfl
  have a1 := IsQuad.grad (p := List.replicate 8 (0 : ℚ)) (by rw [hl]; exact h1)
  have a2 := IsQuad.grad (p := List.replicate 8 (0 : ℚ)) (by rw [hl]; exact h2)
  have a3 := IsQuad.grad (p := List.replicate 8 (0 : ℚ)) (by rw [hl]; exact h3)
  have b1 := IsQuad.jacobian (p := List.replicate 8 (0 : ℚ)) (by rw [hl]; exact h1)
  have b2 := IsQuad.jacobian (p := List.replicate 8 (0 : ℚ)) (by rw [hl]; exact h2)
  have b3 := IsQuad.jacobian (p := List.replicate 8 (0 : ℚ)) (by rw [hl]; exact h3)
  rw [hl] at a1 a2 a3 b1 b2 b3
  rw [show (List.range 8).map (quadGrad 8 (vecEntry [-1 / 2, 0, 1, 0, 0, 0, -1, 0]) ftD (List.replicate 8 0)) =
    ([-1 / 2, 0, 1, 0, 0, 0, -1, 0] : List ℚ) by decide +kernel] at a1
  rw [show (List.range 8).map (quadGrad 8 (vecEntry [0, -1 / 4, 0, 1, 0, 0, 0, -1]) (fun _ => 0) (List.replicate 8 0)) =
    ([0, -1 / 4, 0, 1, 0, 0, 0, -1] : List ℚ) by decide +kernel] at a2
  rw [show (List.range 8).map (quadGrad 8 (vecEntry [0, 0, 0, 0, -2, 1, 0, 0]) (fun _ => 0) (List.replicate 8 0)) =
    ([0, 0, 0, 0, -2, 1, 0, 0] : List ℚ) by decide +kernel] at a3
  have c1 : (hessRows 8 ftD).flatten = (List.range 64).map ftD := by decide +kernel
  have c2 : (hessRows 8 fun _ => (0 : ℚ)).flatten = List.replicate 64 0 := by decide +kernel
  constructor
  · unfold modelJacobian jacobianArray
    rw [wh_lin]
    simp only [List.map_cons, List.map_nil, assignRows, a1, a2, a3, bind, Except.bind]
    rfl
  · refine ⟨rowsArr 64 [(List.range 64).map ftD, List.replicate 64 0, List.replicate 64 0], ?_⟩
    unfold modelHessian hessianArray
    rw [wh_lin]
    simp only [List.map_cons, List.map_nil, assignRows, b1, b2, b3, bind, Except.bind, c1, c2]
    rfl

theorem ft_jacobian : JacobianOf ratOps (fun _ => true) ftLib.ad noValues (ftFile.names "var") (ftFile.names "varexo")
    ((equations ftFile.stmts).map fun p => .bin .sub p.1 p.2) ((ftFile.names "var").map fun _ => 0) so2T xpJ := by
  obtain ⟨g₁, g₂, g₃, hd, q1, q2, q3⟩ := ft_functions
  refine ⟨⟨by decide, by decide, rfl, ?_, ?_, ?_, ?_, ?_, ?_⟩, rfl, _, hd, (ft_derivs q1 q2 q3).1⟩
  · intro e he
    obtain ⟨p, -, rfl⟩ := List.mem_map.mp he
    exact ⟨_, _, rfl⟩
  · intro e he
    simp only [ftFile, equations, List.map_cons, List.map_nil, List.mem_cons, List.not_mem_nil, or_false] at he
    rcases he with rfl | rfl | rfl <;> rfl
  · intro x hx
    have hx : x = "x" ∨ x = "z" ∨ x = "w" := by simpa [ModelFile.names, ftFile] using hx
    rcases hx with rfl | rfl | rfl
    · exact ⟨_, .head _, .inl ⟨rfl, by simp [Expr.vars]⟩⟩
    · exact ⟨_, .tail _ (.head _), .inl ⟨rfl, by simp [Expr.vars]⟩⟩
    · exact ⟨_, .tail _ (.tail _ (.head _)), .inl ⟨rfl, by simp [Expr.vars]⟩⟩
  · intro x hx q e he ho
    simp only [ftFile, equations, List.map_cons, List.map_nil, List.mem_cons, List.not_mem_nil, or_false] at he
    rcases he with rfl | rfl | rfl <;> simp [OccursAt, Expr.vars, Expr.pvars] at ho <;> omega
  · intro e he x hx
    simp only [ftFile, equations, List.map_cons, List.map_nil, List.mem_cons, List.not_mem_nil, or_false] at he
    rcases he with rfl | rfl | rfl <;> simp [Expr.vars] at hx <;> simp [ModelFile.names, ftFile] <;> tauto
  · intro e he x o hx
    simp only [ftFile, equations, List.map_cons, List.map_nil, List.mem_cons, List.not_mem_nil, or_false] at he
    rcases he with rfl | rfl | rfl <;> simp [Expr.pvars] at hx <;> simp [ModelFile.names, ftFile] <;> tauto

/-- zero is the only point of rest -/
theorem ft_rest : OneRest ratOps ftFile noValues fun _ => 0 := by
  obtain ⟨o, md, h1, h2, f₁, f₂, f₃, hst, hsv⟩ : ∃ (o : Outline ℚ) (md : MState ℚ Unit Unit),
      createOutline ratOps .ok ftFile = .ok o ∧ fromOutline whRead.env o "dynare" "m" = .ok md ∧
      ∃ f₁ f₂ f₃, md.steady = [f₁, f₂, f₃] ∧ ∀ x z w : ℚ, f₁ [x, z, w] = .ok (x - (1 / 2 * x + z * z + 0)) ∧
        f₂ [x, z, w] = .ok (z - (1 / 4 * z + 0)) ∧ f₃ [x, z, w] = .ok (w - 2 * w) :=
    ⟨_, _, rfl, rfl, _, _, _, rfl, fun _ _ _ => ⟨rfl, rfl, rfl⟩⟩
  have hread : ReadFrom whRead (exText ftText) ftFile noValues md :=
    ⟨charOk_rat, ⟨_, ft_file, ft_written⟩, ⟨"dynare", "m", by
      rw [fromText_run (r := whRead) charOk_rat ft_file ft_written h1, h2]; rfl⟩, .nil, ft_params, ft_equations⟩
  obtain ⟨σ, pss, tb, -, -⟩ := text_base hread
  obtain rfl : σ = noValues := exec_unique tb.vals.model ft_vals.model
  intro ys hl
  match ys, hl with
  | [x, z, w], hl =>
    obtain ⟨k1, k2, k3⟩ := hsv x z w
    have g1 := tb.rest (fun _ _ => rfl) ft_params ft_equations (i := 0) rfl (by rw [hst]; rfl) hl 0
    have g2 := tb.rest (fun _ _ => rfl) ft_params ft_equations (i := 1) rfl (by rw [hst]; rfl) hl 0
    have g3 := tb.rest (fun _ _ => rfl) ft_params ft_equations (i := 2) rfl (by rw [hst]; rfl) hl 0
    rw [k1] at g1
    rw [k2] at g2
    rw [k3] at g3
    constructor
    · intro h
      have e1 := Except.ok.inj (g1.mpr (h _ _ (by simp [ftFile, equations])))
      have e2 := Except.ok.inj (g2.mpr (h _ _ (by simp [ftFile, equations])))
      have e3 := Except.ok.inj (g3.mpr (h _ _ (by simp [ftFile, equations])))
      obtain rfl : z = 0 := by linarith
      obtain rfl : x = 0 := by linarith
      obtain rfl : w = 0 := by linarith
      rfl
    · intro h l r hlr
      have h' : [x, z, w] = [0, 0, 0] := h
      simp only [List.cons.injEq, and_true] at h'
      obtain ⟨rfl, rfl, rfl⟩ := h'
      simp only [ftFile, equations, List.mem_cons, List.not_mem_nil, or_false, Prod.mk.injEq] at hlr
      rcases hlr with ⟨rfl, rfl⟩ | ⟨rfl, rfl⟩ | ⟨rfl, rfl⟩
      · exact g1.mp (by norm_num)
      · exact g2.mp (by norm_num)
      · exact g3.mp (by norm_num)

theorem ft_used (x : String) (p : Int) : UsedAt ftFile x p ↔ (x = "x" ∧ p = -1) ∨ (x = "z" ∧ p = -1) ∨ (x = "w" ∧ p = 1) := by
  constructor
  · rintro ⟨l, r, h, hx⟩
    simp only [ftFile, equations, List.mem_cons, List.not_mem_nil, or_false, Prod.mk.injEq] at h
    rcases h with ⟨rfl, rfl⟩ | ⟨rfl, rfl⟩ | ⟨rfl, rfl⟩ <;> simp [Expr.pvars] at hx <;> tauto
  · rintro (⟨rfl, rfl⟩ | ⟨rfl, rfl⟩ | ⟨rfl, rfl⟩)
    · exact ⟨_, _, .head _, .inr (by simp [Expr.pvars])⟩
    · exact ⟨_, _, .tail _ (.head _), .inr (by simp [Expr.pvars])⟩
    · exact ⟨_, _, .tail _ (.tail _ (.head _)), .inl (by simp [Expr.pvars])⟩

/-- the hypotheses of `C166_solved_iff_partial` are met by the file, and it is solved -/
example : ∃ H, ftLib.la.Exact ∧ ftLib.la.RankExact ∧ ftLib.la.Inverts ∧ GQZExact ftLib.qz ∧ ftLib.ad.Exact ∧
    FindsMinimum ftLib.opt ∧ FindsIfAny ftLib.opt ∧ (∀ a b, whRead.env.ops.bin .sub a b = .ok (a - b)) ∧
    CharOk whRead.cfg ∧ FileOf whRead.pc ftToks ftFile ∧ Written whRead.cfg ftToks (exText ftText) [] ∧
    Readable whRead.env.ops whRead.sq whRead.env.okName ftFile noValues noValues ∧ WellPosed ftFile ∧
    0 < (ftFile.names "varexo").length ∧ CorrelatedHaveVariance ftFile ∧
    OneRest whRead.env.ops ftFile noValues (fun _ => 0) ∧
    JacobianOf whRead.env.ops whRead.env.okName ftLib.ad noValues (ftFile.names "var") (ftFile.names "varexo")
      ((equations ftFile.stmts).map fun p => .bin .sub p.1 p.2) ((ftFile.names "var").map fun _ => 0) so2T xpJ ∧
    (∃ fs, dynamicFuncs whRead.env.ops whRead.env.okName (ftFile.names "var") (ftFile.names "varexo") so2T.toTyper
        noValues ((equations ftFile.stmts).map fun p => .bin .sub p.1 p.2) = .ok fs ∧
      modelHessian ftLib.ad so2T.toTyper (ftFile.names "varexo").length fs ((ftFile.names "var").map fun _ => 0) = .ok H) ∧
    ftLib.la.Answers (Rat.castHom ℂ) so2T xpJ ∧
    (∀ s gy gu, Space.create ftLib.la so2T.toTyper xpJ = .ok s →
      solveFirstOrder ftLib.la so2T (ftFile.names "varexo").length s = .ok (gy, gu) →
      AnswersSecond ftLib.qz so2T.toTyper xpJ gy) ∧
    OneBoundedFilePath (Rat.castHom ℂ) whRead.env.ops ftFile noValues ((ftFile.names "var").map fun _ => 0) ∧
    (SupportedFile ftFile ∧ SupportedShape (ftFile.names "var").length (countUsed ftFile (-1)) (countUsed ftFile 1)
      (ftFile.names "varexo").length) ∧
    ∃ md md' g, fromText (whRead.second ftLib (1 / 2)) "dynare" "m" (exText ftText) = .ok md ∧
      md.solve (whRead.env.second ftLib (1 / 2)) = (md', .ok g) := by
  obtain ⟨o, md₀, pss, h1, tb, i1, i2, -, -⟩ :=
    read_skeleton (whRead.second ftLib (1 / 2)) ftLib rfl charOk_rat ft_file ft_written ft_readable "m"
  obtain ⟨x1, x2, x3, x4, -, -, -, -, -, x5, x6, x7, -⟩ := xp_meets
  have hrest := ft_rest
  have hcv : CorrelatedHaveVariance ftFile := by
    intro b hb x y e he
    simp only [ftFile, Option.some.injEq] at hb
    subst hb
    simp at he
  have hsup : SupportedFile ftFile := by
    refine ⟨⟨"w", by simp [ModelFile.DeclaredAs, ftFile], (ft_used _ _).mpr (by simp)⟩,
      .inl ⟨"x", by simp [ModelFile.DeclaredAs, ftFile], (ft_used _ _).mpr (by simp), ?_⟩⟩
    rw [ft_used]
    simp
  have hshape : SupportedShape (ftFile.names "var").length (countUsed ftFile (-1)) (countUsed ftFile 1)
      (ftFile.names "varexo").length := by
    have e1 : countUsed ftFile (-1) = 2 := by
      unfold countUsed
      rw [show ftFile.names "var" = ["x", "z", "w"] from rfl]
      simp [ft_used]
    have e2 : countUsed ftFile 1 = 1 := by
      unfold countUsed
      rw [show ftFile.names "var" = ["x", "z", "w"] from rfl]
      simp [ft_used]
    rw [e1, e2]
    unfold SupportedShape
    decide
  have hone : OneBoundedFilePath (Rat.castHom ℂ) whRead.env.ops ftFile noValues ((ftFile.names "var").map fun _ => 0) := by
    have hi : md₀.indexes = so2T := Except.ok.inj (i1.symm.trans ft_jacobian.table)
    obtain ⟨fs, j1, hJ⟩ := ft_jacobian.jacobian
    have hone := x7
    rw [← hi] at j1 hJ hone
    obtain rfl : fs = md₀.dynamic := Except.ok.inj (j1.symm.trans i2)
    exact (oneBounded_file _ rfl (tb.solves_iff (fun _ _ => rfl) ft_equations ft_posed idealAd_exact hJ
      ((hrest _ (by simp)).mpr rfl))).mpr hone
  obtain ⟨H, hH⟩ : ∃ H, ∃ fs, dynamicFuncs whRead.env.ops whRead.env.okName (ftFile.names "var") (ftFile.names "varexo")
        so2T.toTyper noValues ((equations ftFile.stmts).map fun p => .bin .sub p.1 p.2) = .ok fs ∧
      modelHessian ftLib.ad so2T.toTyper (ftFile.names "varexo").length fs ((ftFile.names "var").map fun _ => 0) = .ok H := by
    obtain ⟨g₁, g₂, g₃, hd, q1, q2, q3⟩ := ft_functions
    obtain ⟨H, hH⟩ := (ft_derivs q1 q2 q3).2
    exact ⟨H, _, hd, hH⟩
  exact ⟨H, x1, x2, x3, x4, idealAd_exact, pickMin_finds.1, pickMin_finds.2, fun _ _ => rfl,
    charOk_rat, ft_file, ft_written, ft_readable, ft_posed, by decide, hcv, hrest, ft_jacobian, hH, x5, x6, hone,
    ⟨hsup, hshape⟩,
    (C166_solved_iff_partial (Rat.castHom ℂ) whRead ftLib (1 / 2) x1 x2 x3 x4 idealAd_exact
      pickMin_finds.1 pickMin_finds.2 (fun _ _ => rfl) charOk_rat ft_file ft_written ft_readable ft_posed (by decide) hcv
      hrest ft_jacobian hH x5 x6 hone "m").mpr ⟨hsup, hshape⟩⟩

end Pynare

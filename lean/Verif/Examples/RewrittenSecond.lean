import Verif.Props.RewrittenSecond
import Verif.Examples.WholeOrderSecond
/-!
# Two files with equivalent equations, for C169

The third equation of the second file is `g + g^2 = 0`, where `g = 0` is that of the first, with
`g = w(+1) - 2*w - e1`.
-/

namespace Pynare

/-- the first file -/
def rsText : String :=
  "var x z w ; varexo e1 e2 ; model ; x = 0.5 * x ( - 1 ) + x ( - 1 ) * x ( - 1 ) + e1 ; " ++
  "z = 0.25 * z ( - 1 ) + e2 ; w ( + 1 ) = 2 * w + e1 ; end ; " ++
  "shocks ; var e1 ; stderr 1 ; var e2 ; stderr 0.25 ; end ;"
/-- the second file -/
def rsText' : String :=
  "var x z w ; varexo e1 e2 ; model ; x = 0.5 * x ( - 1 ) + x ( - 1 ) * x ( - 1 ) + e1 ; " ++
  "z = 0.25 * z ( - 1 ) + e2 ; " ++
  "w ( + 1 ) + ( w ( + 1 ) - 2 * w - e1 ) * ( w ( + 1 ) - 2 * w - e1 ) = 2 * w + e1 ; end ; " ++
  "shocks ; var e1 ; stderr 1 ; var e2 ; stderr 0.25 ; end ;"
/-- the left side of the third equation of the second file -/
def rsLeft : Expr ℚ := .bin .add (.pvar "w" 1)
  (.bin .mul (.bin .sub (.bin .sub (.pvar "w" 1) (.bin .mul (.num 2) (.var "w"))) (.var "e1"))
    (.bin .sub (.bin .sub (.pvar "w" 1) (.bin .mul (.num 2) (.var "w"))) (.var "e1")))
/-- the right side of the third equation -/
def rsRight : Expr ℚ := .bin .add (.bin .mul (.num 2) (.var "w")) (.var "e1")

/-- a file with a given third equation -/
def rsFileOf (l : Expr ℚ) : ModelFile ℚ where
  decls := [("x", "var"), ("z", "var"), ("w", "var"), ("e1", "varexo"), ("e2", "varexo")]
  params := []
  args := []
  stmts := [
    .eqn (.var "x") (.bin .add (.bin .add (.bin .mul (.num (1 / 2)) (.pvar "x" (-1)))
      (.bin .mul (.pvar "x" (-1)) (.pvar "x" (-1)))) (.var "e1")) none,
    .eqn (.var "z") (.bin .add (.bin .mul (.num (1 / 4)) (.pvar "z" (-1))) (.var "e2")) none,
    .eqn l rsRight none]
  actions := ⟨none, none, none, some ⟨[], [.stderr "e1" (.num 1), .stderr "e2" (.num (1 / 4))]⟩⟩

/-- what the first file contains -/
def rsFile : ModelFile ℚ := rsFileOf (.pvar "w" 1)
/-- what the second file contains -/
def rsFile' : ModelFile ℚ := rsFileOf rsLeft

theorem rs_file : FileOf ratPC ((wordsOf rsText.toList).map ratTok) rsFile :=
  fileOf_check (noCall_of_check _ (by decide +kernel)) (by decide +kernel) (by decide +kernel)

theorem rs_file' : FileOf ratPC ((wordsOf rsText'.toList).map ratTok) rsFile' :=
  fileOf_check (noCall_of_check _ (by decide +kernel)) (by decide +kernel) (by decide +kernel)

theorem rs_written : Written ratCfg ((wordsOf rsText.toList).map ratTok) (exText rsText) [] := by
  have := written_spaced charOk_rat ((wordsOf rsText.toList).map fun w => (ratTok w, w)) (by
    intro p hp
    obtain ⟨w, hw, rfl⟩ := List.mem_map.mp hp
    have h : ((wordsOf rsText.toList).all fun w => spelled ratCfg (ratTok w) w) = true := by decide +kernel
    exact List.all_eq_true.mp h w hw)
  simpa [List.map_map, Function.comp_def, exText] using this

theorem rs_written' : Written ratCfg ((wordsOf rsText'.toList).map ratTok) (exText rsText') [] := by
  have := written_spaced charOk_rat ((wordsOf rsText'.toList).map fun w => (ratTok w, w)) (by
    intro p hp
    obtain ⟨w, hw, rfl⟩ := List.mem_map.mp hp
    have h : ((wordsOf rsText'.toList).all fun w => spelled ratCfg (ratTok w) w) = true := by decide +kernel
    exact List.all_eq_true.mp h w hw)
  simpa [List.map_map, Function.comp_def, exText] using this

theorem rs_params (l : Expr ℚ) : PlainParams (rsFileOf l) := by
  refine ⟨fun x h => ?_, fun pre x e post h => ?_⟩
  · simp [ModelFile.DeclaredAs, rsFileOf] at h
  · simp [rsFileOf] at h

theorem rs_posed (l : Expr ℚ) : WellPosed (rsFileOf l) := by
  constructor
  · intro x h
    simp only [ModelFile.DeclaredAs, rsFileOf, List.mem_cons, List.not_mem_nil, or_false, Prod.mk.injEq] at h
    rcases h with ⟨rfl, -⟩ | ⟨rfl, -⟩ | ⟨rfl, -⟩ | ⟨-, h⟩ | ⟨-, h⟩
    · exact ⟨_, _, .head _, .inl (by simp [Expr.vars])⟩
    · exact ⟨_, _, .tail _ (.head _), .inl (by simp [Expr.vars])⟩
    · exact ⟨_, _, .tail _ (.tail _ (.head _)), .inr (by simp [Expr.vars, rsRight])⟩
    · simp at h
    · simp at h
  · rfl

theorem rs_vals (l : Expr ℚ) : FileVals ratOps (rsFileOf l) noValues noValues := by
  refine ⟨.nil, ?_⟩
  have : (rsFileOf l).paramVals noValues = (noValues : String → Option ℚ) := by
    funext x
    simp [ModelFile.paramVals, noValues]
  rw [this]
  exact .nil

theorem rs_equations {l : Expr ℚ} (hl : ∀ x ∈ l.vars, x = "w" ∨ x = "e1") (hp : ∀ p ∈ l.pvars, p = ("w", 1)) :
    PlainEquations (rsFileOf l) := by
  constructor
  · intro l' r h x hx
    simp only [rsFileOf, equations, List.mem_cons, List.not_mem_nil, or_false, Prod.mk.injEq] at h
    rcases h with ⟨rfl, rfl⟩ | ⟨rfl, rfl⟩ | ⟨rfl, rfl⟩
    · simp [Expr.vars] at hx
      simp [ModelFile.DeclaredAs, rsFileOf]
      tauto
    · simp [Expr.vars] at hx
      simp [ModelFile.DeclaredAs, rsFileOf]
      tauto
    · have : x = "w" ∨ x = "e1" := by
        rcases hx with hx | hx
        · exact hl x hx
        · simpa [Expr.vars, rsRight] using hx
      simp [ModelFile.DeclaredAs, rsFileOf]
      tauto
  · intro l' r h x o hx
    simp only [rsFileOf, equations, List.mem_cons, List.not_mem_nil, or_false, Prod.mk.injEq] at h
    rcases h with ⟨rfl, rfl⟩ | ⟨rfl, rfl⟩ | ⟨rfl, rfl⟩
    · simp [Expr.pvars] at hx
      simp [ModelFile.DeclaredAs, rsFileOf]
      tauto
    · simp [Expr.pvars] at hx
      simp [ModelFile.DeclaredAs, rsFileOf]
      tauto
    · have : (x, o) = ("w", 1) := by
        rcases hx with hx | hx
        · exact hp _ hx
        · simp [Expr.pvars, rsRight] at hx
      cases this
      simp [ModelFile.DeclaredAs, rsFileOf]

theorem rs_left : (∀ x ∈ rsLeft.vars, x = "w" ∨ x = "e1") ∧ ∀ p ∈ rsLeft.pvars, p = ("w", 1) := by
  simp [rsLeft, Expr.vars, Expr.pvars]

/-- the third equation with a given left side -/
def rsW (l : Expr ℚ) : Expr ℚ := .bin .sub l rsRight

theorem rs_plain {l : Expr ℚ} (hc : (rsW l).hasCmp = false) (hl : ∀ x ∈ l.vars, x = "w" ∨ x = "e1")
    (hp : ∀ p ∈ l.pvars, p = ("w", 1)) : PlainModel odσ ["x", "z", "w"] ["e1", "e2"] [xqX, xqZ, rsW l] where
  distinct := by decide
  shocks := by decide
  square := rfl
  form := by
    intro e he
    simp only [List.mem_cons, List.not_mem_nil, or_false] at he
    rcases he with rfl | rfl | rfl
    · exact ⟨_, _, rfl⟩
    · exact ⟨_, _, rfl⟩
    · exact ⟨_, _, rfl⟩
  noCmp := by
    intro e he
    simp only [List.mem_cons, List.not_mem_nil, or_false] at he
    rcases he with rfl | rfl | rfl
    · rfl
    · rfl
    · exact hc
  current := by
    intro x hx
    simp only [List.mem_cons, List.not_mem_nil, or_false] at hx
    rcases hx with rfl | rfl | rfl
    · exact ⟨xqX, by simp, .inl ⟨rfl, by decide⟩⟩
    · exact ⟨xqZ, by simp, .inl ⟨rfl, by decide⟩⟩
    · exact ⟨rsW l, by simp, .inl ⟨rfl, by simp [rsW, rsRight, Expr.vars]⟩⟩
  std := by
    intro x _ q e he hq
    simp only [List.mem_cons, List.not_mem_nil, or_false] at he
    rcases hq with ⟨h, -⟩ | hq
    · exact .inr (.inl h)
    · rcases he with rfl | rfl | rfl
      · rw [show xqX.pvars = [("x", -1), ("x", -1), ("x", -1)] from rfl] at hq
        simp at hq
        exact .inl hq.2
      · rw [show xqZ.pvars = [("z", -1)] from rfl] at hq
        simp at hq
        exact .inl hq.2
      · simp [rsW, rsRight, Expr.pvars] at hq
        exact .inr (.inr (Prod.mk.inj (hp _ hq)).2)
  names := by
    intro e he x hx
    refine .inr ?_
    simp only [List.mem_cons, List.not_mem_nil, or_false] at he
    rcases he with rfl | rfl | rfl
    · rw [show xqX.vars = ["x", "e1"] from rfl] at hx
      simp only [List.mem_cons, List.not_mem_nil, or_false] at hx ⊢
      tauto
    · rw [show xqZ.vars = ["z", "e2"] from rfl] at hx
      simp only [List.mem_cons, List.not_mem_nil, or_false] at hx ⊢
      tauto
    · have : x = "w" ∨ x = "e1" := by
        simp [rsW, rsRight, Expr.vars] at hx
        rcases hx with hx | hx | hx
        · exact hl x hx
        · exact .inl hx
        · exact .inr hx
      simp only [List.mem_cons, List.not_mem_nil, or_false]
      tauto
  offsets := by
    intro e he x o hx
    simp only [List.mem_cons, List.not_mem_nil, or_false] at he
    rcases he with rfl | rfl | rfl
    · rw [show xqX.pvars = [("x", -1), ("x", -1), ("x", -1)] from rfl] at hx
      simp at hx
      obtain ⟨rfl, rfl⟩ := hx
      simp
    · rw [show xqZ.pvars = [("z", -1)] from rfl] at hx
      simp at hx
      obtain ⟨rfl, rfl⟩ := hx
      simp
    · simp [rsW, rsRight, Expr.pvars] at hx
      cases hp _ hx
      simp

/-- the second derivatives of the first equation -/
def rsD₁ : Nat → ℚ := fun m => if m = 0 then -2 else 0
/-- the gradient of the third equation -/
def rsG : List ℚ := [0, 0, 0, 0, -2, 1, -1, 0]
/-- the second derivatives of the third equation of the second file -/
def rsD₃ : Nat → ℚ := fun m => 2 * (vecEntry rsG (m / 8) * vecEntry rsG (m % 8))

theorem rs_row {f : List ℚ → Except Err ℚ} {g : List ℚ} {h : Nat → ℚ} (hg : g.length = 8)
    (hf : ∀ x : List ℚ, x.length = 8 → f x = quadFun 8 (vecEntry g) h x) :
    g.length = 8 ∧ IsDerivAt f [0, 0, 0, 0, 0, 0, 0, 0] (vecEntry g) := by
  refine ⟨hg, isDeriv_fun hf ?_⟩
  refine isDeriv_congr (isTaylor_isDeriv (quadFun_taylor (vecEntry g) _ [0, 0, 0, 0, 0, 0, 0, 0])) ?_
  intro k hk
  unfold quadGrad
  have : ∀ l, vecEntry ([0, 0, 0, 0, 0, 0, 0, 0] : List ℚ) l = 0 := by
    intro l
    unfold vecEntry
    by_cases hl : l < 8
    · interval_cases l <;> rfl
    · rw [List.getElem?_eq_none (by simpa using hl)]; rfl
  rw [sumTo_eq, Finset.sum_eq_zero fun l _ => by rw [this, mul_zero], add_zero]

theorem rs_hess {f : List ℚ → Except Err ℚ} {g hh : List ℚ} {h : Nat → ℚ}
    (hf : ∀ x : List ℚ, x.length = 8 → f x = quadFun 8 (vecEntry g) h x)
    (h1 : (quadHess 8 h).flatten = hh) (h2 : hh.length = 8 ^ 2) :
    ∃ g h : Nat → ℚ, (∀ x : List ℚ, x.length = 8 → f x = quadFun 8 g h x) ∧ (quadHess 8 h).flatten = hh ∧
      hh.length = 8 ^ 2 := ⟨_, _, hf, h1, h2⟩

/-- the jacobian -/
def rsRows : List (List ℚ) := [[-(1/2), 0, 1, 0, 0, 0, -1, 0], [0, -(1/4), 0, 1, 0, 0, 0, -1], rsG]

/-- the second derivatives -/
def rsHess (h : Nat → ℚ) : List (List ℚ) :=
  [(quadHess 8 rsD₁).flatten, (quadHess 8 fun _ => (0 : ℚ)).flatten, (quadHess 8 h).flatten]

/-- the first two equations and a third -/
theorem rs_quad {f₁ f₂ : List ℚ → Except Err ℚ}
    (h : ∀ xm zm x z w wp e1 e2 : ℚ, f₁ [xm, zm, x, z, w, wp, e1, e2] = .ok (x - (1 / 2 * xm + xm * xm + e1)) ∧
      f₂ [xm, zm, x, z, w, wp, e1, e2] = .ok (z - (1 / 4 * zm + e2))) :
    (∀ x : List ℚ, x.length = 8 → f₁ x = quadFun 8 (vecEntry [-(1/2), 0, 1, 0, 0, 0, -1, 0]) rsD₁ x) ∧
    (∀ x : List ℚ, x.length = 8 → f₂ x = quadFun 8 (vecEntry [0, -(1/4), 0, 1, 0, 0, 0, -1]) (fun _ => 0) x) := by
  constructor <;> intro x hx <;> match x, hx with
  | [a0, a1, a2, a3, a4, a5, a6, a7], hx =>
    first | rw [(h a0 a1 a2 a3 a4 a5 a6 a7).1] | rw [(h a0 a1 a2 a3 a4 a5 a6 a7).2]
    unfold quadFun
    rw [if_pos hx]
    congr 1
    simp [quadVal, sumTo, vecEntry, rsD₁]
    ring

theorem rs_third {f : List ℚ → Except Err ℚ}
    (h : ∀ xm zm x z w wp e1 e2 : ℚ, f [xm, zm, x, z, w, wp, e1, e2] = .ok (wp - (2 * w + e1))) :
    ∀ x : List ℚ, x.length = 8 → f x = quadFun 8 (vecEntry rsG) (fun _ => 0) x := by
  intro x hx
  match x, hx with
  | [a0, a1, a2, a3, a4, a5, a6, a7], hx =>
    rw [h]
    unfold quadFun
    rw [if_pos hx]
    congr 1
    simp [quadVal, sumTo, vecEntry, rsG]
    ring

theorem rs_third' {f : List ℚ → Except Err ℚ}
    (h : ∀ xm zm x z w wp e1 e2 : ℚ, f [xm, zm, x, z, w, wp, e1, e2] =
      .ok ((wp + (wp - 2 * w - e1) * (wp - 2 * w - e1)) - (2 * w + e1))) :
    ∀ x : List ℚ, x.length = 8 → f x = quadFun 8 (vecEntry rsG) rsD₃ x := by
  intro x hx
  match x, hx with
  | [a0, a1, a2, a3, a4, a5, a6, a7], hx =>
    rw [h]
    unfold quadFun
    rw [if_pos hx]
    congr 1
    simp [quadVal, sumTo, vecEntry, rsG, rsD₃]
    ring

/-- the derivatives, from the functions -/
theorem rs_derivs {l : Expr ℚ} (hpl : PlainModel odσ ["x", "z", "w"] ["e1", "e2"] [xqX, xqZ, rsW l])
    {D : Nat → ℚ} {f₁ f₂ f₃ : ResFun ℚ} (htab : modelLlx ["x", "z", "w"] [xqX, xqZ, rsW l] = .ok xqT)
    (hfs : dynamicFuncs ratOps (fun _ => true) ["x", "z", "w"] ["e1", "e2"] xqT.toTyper odσ [xqX, xqZ, rsW l] =
      .ok [f₁, f₂, f₃])
    (q1 : ∀ x : List ℚ, x.length = 8 → f₁ x = quadFun 8 (vecEntry [-(1/2), 0, 1, 0, 0, 0, -1, 0]) rsD₁ x)
    (q2 : ∀ x : List ℚ, x.length = 8 → f₂ x = quadFun 8 (vecEntry [0, -(1/4), 0, 1, 0, 0, 0, -1]) (fun _ => 0) x)
    (q3 : ∀ x : List ℚ, x.length = 8 → f₃ x = quadFun 8 (vecEntry rsG) D x) :
    JacobianOf ratOps (fun _ => true) idealAd odσ ["x", "z", "w"] ["e1", "e2"] [xqX, xqZ, rsW l] [0, 0, 0] xqT
      (rowsArr 8 rsRows) ∧
    ∃ fs, dynamicFuncs ratOps (fun _ => true) ["x", "z", "w"] ["e1", "e2"] xqT.toTyper odσ [xqX, xqZ, rsW l] = .ok fs ∧
      modelHessian idealAd xqT.toTyper 2 fs [0, 0, 0] = .ok (rowsArr (8 ^ 2) (rsHess D)) := by
  have htp : xqT.places = [(0, 0), (0, 1), (1, 0), (1, 1), (1, 2), (2, 2)] := by decide
  have hp : linPoint xqT.toTyper 2 ([0, 0, 0] : List ℚ) = [0, 0, 0, 0, 0, 0, 0, 0] := by unfold linPoint; rw [htp]; rfl
  have hlen : ∀ h : Nat → ℚ, (quadHess 8 h).flatten.length = 8 ^ 2 := fun _ => rfl
  refine ⟨⟨hpl, htab, _, hfs, ?_⟩, _, hfs, ?_⟩
  · unfold modelJacobian
    rw [show (["e1", "e2"] : List String).length = 2 from rfl, hp]
    exact idealAd_rows rfl (.cons (rs_row rfl q1) (.cons (rs_row rfl q2) (.cons (rs_row rfl q3) .nil)))
  · unfold modelHessian
    rw [hp]
    exact idealAd_hessian rfl (.cons (rs_hess q1 rfl (hlen _)) (.cons (rs_hess q2 rfl (hlen _))
      (.cons (rs_hess q3 rfl (hlen _)) .nil)))

theorem rs_now {m : ModelFile ℚ} {ym y yp u : String → ℚ} {x : String} {v : ℚ}
    (hx : x ∉ m.names "varexo") (h : NameNow noValues (m.names "var") (m.names "varexo") (named m ym y yp u) x v) :
    v = y x := by
  cases h with
  | param h => cases h
  | endog _ h => exact byName_get h
  | shock _ h => exact absurd (List.mem_of_getElem? h) hx

theorem rs_shock {m : ModelFile ℚ} {ym y yp u : String → ℚ} {x : String} {v : ℚ}
    (hx : x ∉ m.names "var") (h : NameNow noValues (m.names "var") (m.names "varexo") (named m ym y yp u) x v) :
    v = u x := by
  cases h with
  | param h => cases h
  | endog _ h => exact absurd (List.mem_of_getElem? h) hx
  | shock _ h => exact byName_get h

theorem rs_after {m : ModelFile ℚ} {ym y yp u : String → ℚ} {x : String} {v : ℚ}
    (h : NameAt (m.names "var") (named m ym y yp u) x 1 v) : v = yp x := by
  cases h with
  | after h => exact byName_get h

/-- the right side of the third equation -/
theorem rs_right {l : Expr ℚ} {ym y yp u : String → ℚ} {v : ℚ} :
    SideValue ratOps (rsFileOf l) noValues (named (rsFileOf l) ym y yp u) rsRight v ↔ v = 2 * y "w" + u "e1" := by
  have hv : (rsFileOf l).names "var" = ["x", "z", "w"] := rfl
  have hx : (rsFileOf l).names "varexo" = ["e1", "e2"] := rfl
  constructor
  · intro h
    cases h with
    | bin h1 h2 h3 =>
      cases h1 with
      | bin h1 h4 h5 =>
        cases h1
        cases h2 with
        | var h2 =>
        cases h4 with
        | var h4 =>
        cases rs_now (show "w" ∉ ["e1", "e2"] by decide) h4
        cases rs_shock (show "e1" ∉ ["x", "z", "w"] by decide) h2
        cases h5
        cases h3
        rfl
  · rintro rfl
    exact .bin (.bin .num (.var (.endog (c := 2) rfl rfl)) rfl) (.var (.shock (j := 0) rfl rfl)) rfl

/-- the left side of the third equation of the second file -/
theorem rs_leftValue {l : Expr ℚ} {ym y yp u : String → ℚ} {v : ℚ} :
    SideValue ratOps (rsFileOf l) noValues (named (rsFileOf l) ym y yp u) rsLeft v ↔
      v = yp "w" + (yp "w" - 2 * y "w" - u "e1") * (yp "w" - 2 * y "w" - u "e1") := by
  have inner : ∀ {v}, SideValue ratOps (rsFileOf l) noValues (named (rsFileOf l) ym y yp u)
      (.bin .sub (.bin .sub (.pvar "w" 1) (.bin .mul (.num 2) (.var "w"))) (.var "e1")) v →
      v = yp "w" - 2 * y "w" - u "e1" := by
    intro v h
    cases h with
    | bin h1 h2 h3 =>
    cases h1 with
    | bin h4 h5 h6 =>
    cases h5 with
    | bin h7 h8 h9 =>
    cases h7
    cases h2 with
    | var h2 =>
    cases h4 with
    | pvar h4 =>
    cases h8 with
    | var h8 =>
    cases rs_now (show "w" ∉ ["e1", "e2"] by decide) h8
    cases rs_shock (show "e1" ∉ ["x", "z", "w"] by decide) h2
    cases rs_after h4
    cases h9
    cases h6
    cases h3
    rfl
  constructor
  · intro h
    cases h with
    | bin h1 h2 h3 =>
    cases h1 with
    | pvar h1 =>
    cases h2 with
    | bin h4 h5 h6 =>
    cases rs_after h1
    cases inner h4
    cases inner h5
    cases h6
    cases h3
    rfl
  · rintro rfl
    have i : SideValue ratOps (rsFileOf l) noValues (named (rsFileOf l) ym y yp u)
      (.bin .sub (.bin .sub (.pvar "w" 1) (.bin .mul (.num 2) (.var "w"))) (.var "e1")) (yp "w" - 2 * y "w" - u "e1") :=
      .bin (.bin (.pvar (.after (c := 2) rfl)) (.bin .num (.var (.endog (c := 2) rfl rfl)) rfl) rfl)
        (.var (.shock (j := 0) rfl rfl)) rfl
    exact .bin (.pvar (.after (c := 2) rfl)) (.bin i i rfl) rfl

theorem rs_leadValue {l : Expr ℚ} {ym y yp u : String → ℚ} {v : ℚ} :
    SideValue ratOps (rsFileOf l) noValues (named (rsFileOf l) ym y yp u) (.pvar "w" 1) v ↔ v = yp "w" := by
  constructor
  · intro h
    cases h with
    | pvar h => exact rs_after h
  · rintro rfl
    exact .pvar (.after (c := 2) rfl)

theorem rs_near {ym y yp u : String → ℚ} (h : ∀ x ∈ ["x", "z", "w"], |ym x - 0| ≤ 1/16 ∧ |y x - 0| ≤ 1/16 ∧ |yp x - 0| ≤ 1/16)
    (hu : ∀ x ∈ ["e1", "e2"], |u x| ≤ 1/16) : |yp "w" - 2 * y "w" - u "e1"| ≤ 1/2 := by
  obtain ⟨-, h2, h3⟩ := h "w" (by simp)
  have h4 := hu "e1" (by simp)
  rw [sub_zero] at h2 h3
  rw [abs_le] at *
  constructor <;> linarith [h2.1, h2.2, h3.1, h3.2, h4.1, h4.2]

theorem rs_implies : ImpliesNear ratOps rsFile noValues rsFile' noValues fun _ => 0 := by
  refine ⟨2, 1/16, by norm_num, fun ym y yp u hy hu η h => ?_⟩
  have hn := rs_near hy hu
  intro l r hl
  simp only [rsFile', rsFileOf, equations, List.mem_cons, List.not_mem_nil, or_false, Prod.mk.injEq] at hl
  rcases hl with ⟨rfl, rfl⟩ | ⟨rfl, rfl⟩ | ⟨rfl, rfl⟩
  · obtain ⟨w, hw, hb⟩ := h _ _ (.head _)
    exact ⟨w, hw, by linarith [abs_nonneg w]⟩
  · obtain ⟨w, hw, hb⟩ := h _ _ (.tail _ (.head _))
    exact ⟨w, hw, by linarith [abs_nonneg w]⟩
  · obtain ⟨w, ⟨a, b, ha, hb', rfl⟩, hb⟩ := h _ _ (.tail _ (.tail _ (.head _)))
    cases rs_leadValue.mp ha
    cases rs_right.mp hb'
    refine ⟨_, ⟨_, _, rs_leftValue.mpr rfl, rs_right.mpr rfl, rfl⟩, ?_⟩
    generalize hg : yp "w" - 2 * y "w" - u "e1" = g at hn ⊢
    rw [show yp "w" - (2 * y "w" + u "e1") = g by rw [← hg]; ring] at hb
    rw [show yp "w" + g * g - (2 * y "w" + u "e1") = g + g * g by rw [← hg]; ring]
    calc |g + g * g| ≤ |g| + |g * g| := abs_add_le _ _
      _ = |g| + |g| * |g| := by rw [abs_mul]
      _ ≤ 2 * η := by nlinarith [abs_nonneg g]

theorem rs_implies' : ImpliesNear ratOps rsFile' noValues rsFile noValues fun _ => 0 := by
  refine ⟨2, 1/16, by norm_num, fun ym y yp u hy hu η h => ?_⟩
  have hn := rs_near hy hu
  intro l r hl
  simp only [rsFile, rsFileOf, equations, List.mem_cons, List.not_mem_nil, or_false, Prod.mk.injEq] at hl
  rcases hl with ⟨rfl, rfl⟩ | ⟨rfl, rfl⟩ | ⟨rfl, rfl⟩
  · obtain ⟨w, hw, hb⟩ := h _ _ (.head _)
    exact ⟨w, hw, by linarith [abs_nonneg w]⟩
  · obtain ⟨w, hw, hb⟩ := h _ _ (.tail _ (.head _))
    exact ⟨w, hw, by linarith [abs_nonneg w]⟩
  · obtain ⟨w, ⟨a, b, ha, hb', rfl⟩, hb⟩ := h _ _ (.tail _ (.tail _ (.head _)))
    cases rs_leftValue.mp ha
    cases rs_right.mp hb'
    refine ⟨_, ⟨_, _, rs_leadValue.mpr rfl, rs_right.mpr rfl, rfl⟩, ?_⟩
    generalize hg : yp "w" - 2 * y "w" - u "e1" = g at hn hb
    rw [show yp "w" + g * g - (2 * y "w" + u "e1") = g + g * g by rw [← hg]; ring] at hb
    rw [show yp "w" - (2 * y "w" + u "e1") = g by rw [← hg]; ring]
    have h1 : |g| ≤ |g + g * g| + |g * g| := by
      have := abs_sub (g + g * g) (g * g)
      rwa [add_sub_cancel_right] at this
    rw [abs_mul] at h1
    nlinarith [abs_nonneg g]

/-- what is made from the file -/
theorem rs_read : ∃ (o : Outline ℚ) (m : MState ℚ Unit Unit), createOutline ratOps .ok rsFile = .ok o ∧
    fromOutline whRead.env o "dynare" "m" = .ok m ∧ m.endog.length = 3 ∧
    m.stoch = [⟨"e1", "", some 1, none, none⟩, ⟨"e2", "", some (1 / 4), none, none⟩] ∧
    m.indexes = xqT ∧ m.endogNames = ["x", "z", "w"] ∧ m.stochNames = ["e1", "e2"] ∧ m.scope = odσ ∧
    m.exprs.exprs = [xqX, xqZ, rsW (.pvar "w" 1)] ∧
    (∃ f₁ f₂ f₃, m.steady = [f₁, f₂, f₃] ∧ ∀ x z w : ℚ, f₁ [x, z, w] = .ok (x - (1 / 2 * x + x * x + 0)) ∧
      f₂ [x, z, w] = .ok (z - (1 / 4 * z + 0)) ∧ f₃ [x, z, w] = .ok (w - (2 * w + 0))) ∧
    ∃ g₁ g₂ g₃, m.dynamic = [g₁, g₂, g₃] ∧ ∀ xm zm x z w wp e1 e2,
      g₁ [xm, zm, x, z, w, wp, e1, e2] = .ok (x - (1 / 2 * xm + xm * xm + e1)) ∧
      g₂ [xm, zm, x, z, w, wp, e1, e2] = .ok (z - (1 / 4 * zm + e2)) ∧
      g₃ [xm, zm, x, z, w, wp, e1, e2] = .ok (wp - (2 * w + e1)) :=
  ⟨_, _, rfl, rfl, rfl, rfl, rfl, rfl, rfl, rfl, rfl, ⟨_, _, _, rfl, fun _ _ _ => ⟨rfl, rfl, rfl⟩⟩,
    _, _, _, rfl, fun _ _ _ _ _ _ _ _ => ⟨rfl, rfl, rfl⟩⟩

/-- what is made from the file -/
theorem rs_read' : ∃ (o : Outline ℚ) (m : MState ℚ Unit Unit), createOutline ratOps .ok rsFile' = .ok o ∧
    fromOutline whRead.env o "dynare" "m" = .ok m ∧ m.endog.length = 3 ∧
    m.stoch = [⟨"e1", "", some 1, none, none⟩, ⟨"e2", "", some (1 / 4), none, none⟩] ∧
    m.indexes = xqT ∧ m.endogNames = ["x", "z", "w"] ∧ m.stochNames = ["e1", "e2"] ∧ m.scope = odσ ∧
    m.exprs.exprs = [xqX, xqZ, rsW rsLeft] ∧
    (∃ f₁ f₂ f₃, m.steady = [f₁, f₂, f₃] ∧ ∀ x z w : ℚ, f₁ [x, z, w] = .ok (x - (1 / 2 * x + x * x + 0)) ∧
      f₂ [x, z, w] = .ok (z - (1 / 4 * z + 0)) ∧ f₃ [x, z, w] = .ok ((w + (w - 2 * w - 0) * (w - 2 * w - 0)) - (2 * w + 0))) ∧
    ∃ g₁ g₂ g₃, m.dynamic = [g₁, g₂, g₃] ∧ ∀ xm zm x z w wp e1 e2,
      g₁ [xm, zm, x, z, w, wp, e1, e2] = .ok (x - (1 / 2 * xm + xm * xm + e1)) ∧
      g₂ [xm, zm, x, z, w, wp, e1, e2] = .ok (z - (1 / 4 * zm + e2)) ∧
      g₃ [xm, zm, x, z, w, wp, e1, e2] = .ok ((wp + (wp - 2 * w - e1) * (wp - 2 * w - e1)) - (2 * w + e1)) :=
  ⟨_, _, rfl, rfl, rfl, rfl, rfl, rfl, rfl, rfl, rfl, ⟨_, _, _, rfl, fun _ _ _ => ⟨rfl, rfl, rfl⟩⟩,
    _, _, _, rfl, fun _ _ _ _ _ _ _ _ => ⟨rfl, rfl, rfl⟩⟩

/-- a function with this quadratic form is differentiated twice exactly -/
theorem rs_exact {f : List ℚ → Except Err ℚ} {g h : Nat → ℚ} (hs : ∀ k < 8, ∀ l < 8, h (k * 8 + l) = h (l * 8 + k))
    (hf : ∀ x : List ℚ, x.length = 8 → f x = quadFun 8 g h x) {p : List ℚ} (hp : p.length = 8) :
    idealAd.SecondExactAt f p :=
  IsQuad.second (n := 8) (g := g) (h := h) ⟨hs, fun x hx => by rw [hf x hx, quadFun, if_pos hx]⟩ hp

theorem rs_first : ∃ (md md' : MState ℚ (ModelSpace ℚ) ((Arr ℚ × Arr ℚ) × SecondNd ℚ)) (gy gu : Arr ℚ) (so : SecondNd ℚ),
    ReadFrom (whRead.second oqLib (1 / 2)) (exText rsText) rsFile noValues md ∧
    (∀ f ∈ md.dynamic,
      oqLib.ad.SecondExactAt f (linPoint md.indexes.toTyper (rsFile.names "varexo").length md.statespace.steady)) ∧
    md.solve (whRead.env.second oqLib (1 / 2)) = (md', .ok ((gy, gu), so)) ∧ md.statespace.steady = [0, 0, 0] ∧
    PassesCheck (Rat.castHom ℂ) oqLib.la md ∧ md.indexes = xqT ∧ (List.range 3).map (so.del2.to2.e · 0) = [0, 0, 0] := by
  obtain ⟨o, m, h1, h2, h3, h4, h5, h6, h7, h8, h9, ⟨f₁, f₂, f₃, hf, hfv⟩, g₁, g₂, g₃, hg, hgv⟩ := rs_read
  obtain ⟨q1, q2⟩ := rs_quad fun a0 a1 a2 a3 a4 a5 a6 a7 =>
    ⟨(hgv a0 a1 a2 a3 a4 a5 a6 a7).1, (hgv a0 a1 a2 a3 a4 a5 a6 a7).2.1⟩
  have q3 := rs_third fun a0 a1 a2 a3 a4 a5 a6 a7 => (hgv a0 a1 a2 a3 a4 a5 a6 a7).2.2
  obtain ⟨-, _, _, _, _, _, _, _, _, _, hb⟩ := fromOutline_inv h2
  have hd := (create_fresh hb).1.dynamic
  rw [h5, h6, h7, h8, h9, hg] at hd
  obtain ⟨s, gy, gu, so, hm, hp⟩ := xq_second (ls := [1/2, 1/4, 2])
    (sigma := ⟨2, 2, sigmaDiag [⟨"e1", "", some 1, none, none⟩, ⟨"e2", "", some (1 / 4), none, none⟩]⟩) rfl
    (rs_derivs (rs_plain rfl (by simp [Expr.vars]) (by simp [Expr.pvars])) rfl hd q1 q2 q3)
    (by unfold SymmetricHessian; decide +kernel) (by decide +kernel) (by
      intro i j hij hj
      have hj : j < 3 := hj
      interval_cases j <;> interval_cases i <;> norm_num [abs_lt]) (by
      simp only [List.mem_cons, List.not_mem_nil, or_false, forall_eq_or_imp, forall_eq]
      norm_num [abs_lt])
    (fun so _ _ => decide ((List.range 3).map ((so.stored (1 / 2)).del2.to2.e · 0) = [0, 0, 0])) (by decide +kernel)
  obtain ⟨md, md', a1, a2, a3, a4, a5, a6, -⟩ := run_second (lib := oqLib) rfl h1 h2 rs_file rs_written rfl (rs_params _)
    (rs_equations (by simp [Expr.vars]) (by simp [Expr.pvars])) h3 (sg := sigmaDiag m.stoch) (by rw [h5, h4]; exact hm)
    h6 h7 h8 h9 (by
      obtain ⟨k1, k2, k3⟩ := hfv 0 0 0
      rw [hf]; simp [callAll, k1, k2, k3, bind, Except.bind]) (by rw [h5]; rfl) (by rw [h4]; rfl)
  refine ⟨md, md', gy, gu, _, a4, ?_, a5, a3, a6, a2.trans h5, of_decide_eq_true hp⟩
  have hlen : (linPoint md.indexes.toTyper (rsFile.names "varexo").length md.statespace.steady).length = 8 := by
    rw [a2, a3, h5]; decide +kernel
  rw [a1, hg]
  intro f hf
  simp only [List.mem_cons, List.not_mem_nil, or_false] at hf
  rcases hf with rfl | rfl | rfl
  · exact rs_exact (by decide +kernel) q1 hlen
  · exact rs_exact (fun _ _ _ _ => rfl) q2 hlen
  · exact rs_exact (fun _ _ _ _ => rfl) q3 hlen

theorem rs_second : ∃ (md md' : MState ℚ (ModelSpace ℚ) ((Arr ℚ × Arr ℚ) × SecondNd ℚ)) (gy gu : Arr ℚ) (so : SecondNd ℚ),
    ReadFrom (whRead.second oqLib (1 / 2)) (exText rsText') rsFile' noValues md ∧
    (∀ f ∈ md.dynamic,
      oqLib.ad.SecondExactAt f (linPoint md.indexes.toTyper (rsFile'.names "varexo").length md.statespace.steady)) ∧
    md.solve (whRead.env.second oqLib (1 / 2)) = (md', .ok ((gy, gu), so)) ∧ md.statespace.steady = [0, 0, 0] ∧
    PassesCheck (Rat.castHom ℂ) oqLib.la md ∧ md.indexes = xqT ∧ (List.range 3).map (so.del2.to2.e · 0) = [0, 0, 1 / 4] := by
  obtain ⟨o, m, h1, h2, h3, h4, h5, h6, h7, h8, h9, ⟨f₁, f₂, f₃, hf, hfv⟩, g₁, g₂, g₃, hg, hgv⟩ := rs_read'
  obtain ⟨q1, q2⟩ := rs_quad fun a0 a1 a2 a3 a4 a5 a6 a7 =>
    ⟨(hgv a0 a1 a2 a3 a4 a5 a6 a7).1, (hgv a0 a1 a2 a3 a4 a5 a6 a7).2.1⟩
  have q3 := rs_third' fun a0 a1 a2 a3 a4 a5 a6 a7 => (hgv a0 a1 a2 a3 a4 a5 a6 a7).2.2
  obtain ⟨-, _, _, _, _, _, _, _, _, _, hb⟩ := fromOutline_inv h2
  have hd := (create_fresh hb).1.dynamic
  rw [h5, h6, h7, h8, h9, hg] at hd
  obtain ⟨s, gy, gu, so, hm, hp⟩ := xq_second (ls := [1/2, 1/4, 2])
    (sigma := ⟨2, 2, sigmaDiag [⟨"e1", "", some 1, none, none⟩, ⟨"e2", "", some (1 / 4), none, none⟩]⟩) rfl
    (rs_derivs (rs_plain rfl rs_left.1 rs_left.2) rfl hd q1 q2 q3)
    (by unfold SymmetricHessian; decide +kernel) (by decide +kernel) (by
      intro i j hij hj
      have hj : j < 3 := hj
      interval_cases j <;> interval_cases i <;> norm_num [abs_lt]) (by
      simp only [List.mem_cons, List.not_mem_nil, or_false, forall_eq_or_imp, forall_eq]
      norm_num [abs_lt])
    (fun so _ _ => decide ((List.range 3).map ((so.stored (1 / 2)).del2.to2.e · 0) = [0, 0, 1 / 4])) (by decide +kernel)
  obtain ⟨md, md', a1, a2, a3, a4, a5, a6, -⟩ := run_second (lib := oqLib) rfl h1 h2 rs_file' rs_written' rfl (rs_params _)
    (rs_equations rs_left.1 rs_left.2) h3 (sg := sigmaDiag m.stoch) (by rw [h5, h4]; exact hm)
    h6 h7 h8 h9 (by
      obtain ⟨k1, k2, k3⟩ := hfv 0 0 0
      rw [hf]; simp [callAll, k1, k2, k3, bind, Except.bind]) (by rw [h5]; rfl) (by rw [h4]; rfl)
  refine ⟨md, md', gy, gu, _, a4, ?_, a5, a3, a6, a2.trans h5, of_decide_eq_true hp⟩
  have hlen : (linPoint md.indexes.toTyper (rsFile'.names "varexo").length md.statespace.steady).length = 8 := by
    rw [a2, a3, h5]; decide +kernel
  rw [a1, hg]
  intro f hf
  simp only [List.mem_cons, List.not_mem_nil, or_false] at hf
  rcases hf with rfl | rfl | rfl
  · exact rs_exact (by decide +kernel) q1 hlen
  · exact rs_exact (fun _ _ _ _ => rfl) q2 hlen
  · exact rs_exact (by decide +kernel) q3 hlen

end Pynare

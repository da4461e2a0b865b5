import Verif.Props.WholeOrder
import Verif.Examples.WholeRun
import Verif.Examples.Order
/-!
# The model of `Examples/Order.lean` as two files, for the example of C161
-/

namespace Pynare

/-- the model -/
def ofText : String :=
  "var z x w ; varexo e f ; model ; w = z + x ; x = 0.5 * x ( - 1 ) + ( e + 2 * f ) ; z ( + 1 ) = 2 * z ; end ; " ++
  "shocks ; var e ; stderr 1 ; var f ; stderr 2 ; end ;"
/-- its tokens -/
def ofToks : List (Tok ℚ) := (wordsOf ofText.toList).map ratTok
/-- what it contains -/
def ofFile : ModelFile ℚ where
  decls := [("z", "var"), ("x", "var"), ("w", "var"), ("e", "varexo"), ("f", "varexo")]
  params := []
  args := []
  stmts := [
    .eqn (.var "w") (.bin .add (.var "z") (.var "x")) none,
    .eqn (.var "x") (.bin .add (.bin .mul (.num (1 / 2)) (.pvar "x" (-1)))
      (.bin .add (.var "e") (.bin .mul (.num 2) (.var "f")))) none,
    .eqn (.pvar "z" 1) (.bin .mul (.num 2) (.var "z")) none]
  actions := ⟨none, none, none, some ⟨[], [.stderr "e" (.num 1), .stderr "f" (.num 2)]⟩⟩

/-- the model in another order -/
def ofText' : String :=
  "var x z w ; varexo f e ; model ; w = z + x ; z ( + 1 ) = 2 * z ; x = 0.5 * x ( - 1 ) + ( e + 2 * f ) ; end ; " ++
  "shocks ; var e ; stderr 1 ; var f ; stderr 2 ; end ;"
/-- its tokens -/
def ofToks' : List (Tok ℚ) := (wordsOf ofText'.toList).map ratTok
/-- what it contains -/
def ofFile' : ModelFile ℚ where
  decls := [("x", "var"), ("z", "var"), ("w", "var"), ("f", "varexo"), ("e", "varexo")]
  params := []
  args := []
  stmts := [
    .eqn (.var "w") (.bin .add (.var "z") (.var "x")) none,
    .eqn (.pvar "z" 1) (.bin .mul (.num 2) (.var "z")) none,
    .eqn (.var "x") (.bin .add (.bin .mul (.num (1 / 2)) (.pvar "x" (-1)))
      (.bin .add (.var "e") (.bin .mul (.num 2) (.var "f")))) none]
  actions := ⟨none, none, none, some ⟨[], [.stderr "e" (.num 1), .stderr "f" (.num 2)]⟩⟩

theorem of_file : FileOf ratPC ofToks ofFile :=
  fileOf_check (noCall_of_check _ (by decide +kernel)) (by decide +kernel) (by decide +kernel)

theorem of_file' : FileOf ratPC ofToks' ofFile' :=
  fileOf_check (noCall_of_check _ (by decide +kernel)) (by decide +kernel) (by decide +kernel)

theorem of_written : Written ratCfg ofToks (exText ofText) [] := by
  have := written_spaced charOk_rat ((wordsOf ofText.toList).map fun w => (ratTok w, w)) (by
    intro p hp
    obtain ⟨w, hw, rfl⟩ := List.mem_map.mp hp
    have h : ((wordsOf ofText.toList).all fun w => spelled ratCfg (ratTok w) w) = true := by decide +kernel
    exact List.all_eq_true.mp h w hw)
  simpa [List.map_map, Function.comp_def, ofToks, exText] using this

theorem of_written' : Written ratCfg ofToks' (exText ofText') [] := by
  have := written_spaced charOk_rat ((wordsOf ofText'.toList).map fun w => (ratTok w, w)) (by
    intro p hp
    obtain ⟨w, hw, rfl⟩ := List.mem_map.mp hp
    have h : ((wordsOf ofText'.toList).all fun w => spelled ratCfg (ratTok w) w) = true := by decide +kernel
    exact List.all_eq_true.mp h w hw)
  simpa [List.map_map, Function.comp_def, ofToks', exText] using this

theorem of_reordered : Reordered ofFile ofFile' := by
  refine ⟨?_, rfl, rfl, ?_⟩
  · exact (List.Perm.swap ..).trans (.cons _ (.cons _ (.cons _ (.swap ..))))
  · exact .cons _ (.swap ..)

theorem of_params : PlainParams ofFile := by
  refine ⟨fun x h => ?_, fun pre x e post h => ?_⟩
  · simp [ModelFile.DeclaredAs, ofFile] at h
  · simp [ofFile] at h

theorem of_equations : PlainEquations ofFile := by
  constructor
  · intro l r h x hx
    simp only [ofFile, equations, List.filterMap_cons, List.filterMap_nil, List.mem_cons, List.not_mem_nil, or_false,
      Prod.mk.injEq] at h
    rcases h with ⟨rfl, rfl⟩ | ⟨rfl, rfl⟩ | ⟨rfl, rfl⟩ <;>
      simp [Expr.vars] at hx <;> simp [ModelFile.DeclaredAs, ofFile] <;> tauto
  · intro l r h x o hx
    simp only [ofFile, equations, List.filterMap_cons, List.filterMap_nil, List.mem_cons, List.not_mem_nil, or_false,
      Prod.mk.injEq] at h
    rcases h with ⟨rfl, rfl⟩ | ⟨rfl, rfl⟩ | ⟨rfl, rfl⟩ <;>
      simp [Expr.pvars] at hx <;> simp [ModelFile.DeclaredAs, ofFile] <;> tauto

theorem of_posed : WellPosed ofFile := by
  constructor
  · intro x h
    refine ⟨_, _, .head _, ?_⟩
    simp only [ModelFile.DeclaredAs, ofFile, List.mem_cons, List.not_mem_nil, or_false, Prod.mk.injEq] at h
    rcases h with ⟨rfl, -⟩ | ⟨rfl, -⟩ | ⟨rfl, -⟩ | ⟨-, h⟩ | ⟨-, h⟩
    · simp [Expr.vars]
    · simp [Expr.vars]
    · simp [Expr.vars]
    · simp at h
    · simp at h
  · rfl

theorem Reordered.plainEquations {V : Type} {m m' : ModelFile V} (h : Reordered m m') (hp : PlainEquations m) :
    PlainEquations m' := by
  constructor
  · intro l r hlr x hx
    rcases hp.vars l r (h.equations.mem_iff.mp hlr) x hx with h1 | h1 | h1 | h1
    · exact .inl (h.decls.mem_iff.mpr h1)
    · exact .inr (.inl (h.decls.mem_iff.mpr h1))
    · exact .inr (.inr (.inl (h.decls.mem_iff.mpr h1)))
    · exact .inr (.inr (.inr (by rw [h.locals]; exact h1)))
  · intro l r hlr x o hx
    obtain ⟨a, b⟩ := hp.pvars l r (h.equations.mem_iff.mp hlr) x o hx
    exact ⟨h.decls.mem_iff.mpr a, b⟩

theorem of_params' : PlainParams ofFile' := by
  refine ⟨fun x h => ?_, fun pre x e post h => ?_⟩
  · simp [ModelFile.DeclaredAs, ofFile'] at h
  · simp [ofFile'] at h

/-- what is made from the first file -/
theorem of_read : ∃ (o : Outline ℚ) (m : MState ℚ Unit Unit), createOutline ratOps .ok ofFile = .ok o ∧
    fromOutline whRead.env o "dynare" "m" = .ok m ∧ m.endog.length = 3 ∧
    m.stoch = [⟨"e", "", some 1, none, none⟩, ⟨"f", "", some 2, none, none⟩] ∧
    m.indexes = exT ∧ m.endogNames = ["z", "x", "w"] ∧ m.stochNames = ["e", "f"] ∧ m.scope = odσ ∧
    m.exprs.exprs = [odW, odX, odZ] ∧
    ∃ f₁ f₂ f₃, m.steady = [f₁, f₂, f₃] ∧ ∀ z x w : ℚ, f₁ [z, x, w] = .ok (w - (z + x)) ∧
      f₂ [z, x, w] = .ok (x - (1 / 2 * x + (0 + 2 * 0))) ∧ f₃ [z, x, w] = .ok (z - 2 * z) :=
  ⟨_, _, rfl, rfl, rfl, rfl, rfl, rfl, rfl, rfl, rfl, _, _, _, rfl, fun _ _ _ => ⟨rfl, rfl, rfl⟩⟩

/-- what is made from the second file -/
theorem of_read' : ∃ (o : Outline ℚ) (m : MState ℚ Unit Unit), createOutline ratOps .ok ofFile' = .ok o ∧
    fromOutline whRead.env o "dynare" "m" = .ok m ∧ m.endog.length = 3 ∧
    m.stoch = [⟨"f", "", some 2, none, none⟩, ⟨"e", "", some 1, none, none⟩] ∧
    m.indexes = odT' ∧ m.endogNames = ["x", "z", "w"] ∧ m.stochNames = ["f", "e"] ∧ m.scope = odσ ∧
    m.exprs.exprs = [odW, odZ, odX] ∧
    ∃ f₁ f₂ f₃, m.steady = [f₁, f₂, f₃] ∧ ∀ x z w : ℚ, f₁ [x, z, w] = .ok (w - (z + x)) ∧
      f₂ [x, z, w] = .ok (z - 2 * z) ∧ f₃ [x, z, w] = .ok (x - (1 / 2 * x + (0 + 2 * 0))) :=
  ⟨_, _, rfl, rfl, rfl, rfl, rfl, rfl, rfl, rfl, rfl, _, _, _, rfl, fun _ _ _ => ⟨rfl, rfl, rfl⟩⟩

end Pynare

import Verif.Props.Start
import Verif.Examples.Enlarged
/-!
# A file with many steady states, for the example of C179
-/

namespace Pynare

/-- the file -/
def suText : String :=
  "var z x ; varexo e f ; model ; x = x ( - 1 ) + ( e + 2 * f ) ; z ( + 1 ) = 2 * z ; end ; " ++
  "initval ; x = 3 ; end ; shocks ; var e ; stderr 1 ; var f ; stderr 2 ; end ;"
/-- its tokens -/
def suToks : List (Tok ℚ) := (wordsOf suText.toList).map ratTok
/-- what it contains -/
def suFile : ModelFile ℚ where
  decls := [("z", "var"), ("x", "var"), ("e", "varexo"), ("f", "varexo")]
  params := []
  args := []
  stmts := [
    .eqn (.var "x") (.bin .add (.pvar "x" (-1)) (.bin .add (.var "e") (.bin .mul (.num 2) (.var "f")))) none,
    .eqn (.pvar "z" 1) (.bin .mul (.num 2) (.var "z")) none]
  actions := ⟨some ⟨[], [("x", .num 3)]⟩, none, none, some ⟨[], [.stderr "e" (.num 1), .stderr "f" (.num 2)]⟩⟩

theorem su_file : FileOf ratPC suToks suFile :=
  fileOf_check (noCall_of_check _ (by decide +kernel)) (by decide +kernel) (by decide +kernel)

theorem su_written : Written ratCfg suToks (exText suText) [] := by
  have := written_spaced charOk_rat ((wordsOf suText.toList).map fun w => (ratTok w, w)) (by
    intro p hp
    obtain ⟨w, hw, rfl⟩ := List.mem_map.mp hp
    have h : ((wordsOf suText.toList).all fun w => spelled ratCfg (ratTok w) w) = true := by decide +kernel
    exact List.all_eq_true.mp h w hw)
  simpa [List.map_map, Function.comp_def, suToks, exText] using this

theorem su_params : PlainParams suFile := by
  refine ⟨fun x h => ?_, fun pre x e post h => ?_⟩
  · simp [ModelFile.DeclaredAs, suFile] at h
  · simp [suFile] at h

theorem su_equations : PlainEquations suFile := by
  constructor
  · intro l r h x hx
    simp only [suFile, equations, List.mem_cons, List.not_mem_nil, or_false, Prod.mk.injEq] at h
    rcases h with ⟨rfl, rfl⟩ | ⟨rfl, rfl⟩ <;>
      simp [Expr.vars] at hx <;> simp [ModelFile.DeclaredAs, suFile] <;> tauto
  · intro l r h x o hx
    simp only [suFile, equations, List.mem_cons, List.not_mem_nil, or_false, Prod.mk.injEq] at h
    rcases h with ⟨rfl, rfl⟩ | ⟨rfl, rfl⟩ <;>
      simp [Expr.pvars] at hx <;> simp [ModelFile.DeclaredAs, suFile] <;> tauto

theorem su_vals : FileVals ratOps suFile noValues noValues := by
  refine ⟨.nil, ?_⟩
  have : suFile.paramVals noValues = (noValues : String → Option ℚ) := by
    funext x
    simp [ModelFile.paramVals, noValues]
  rw [this]
  exact .nil

/-- what is made from the file -/
theorem su_read : ∃ (o : Outline ℚ) (m : MState ℚ Unit Unit), createOutline ratOps .ok suFile = .ok o ∧
    fromOutline whRead.env o "dynare" "m" = .ok m ∧ m.stoch.length = 2 ∧ startValues 0 m.endog = [0, 3] ∧
    m.indexes = enT ∧ (∃ f₁ f₂, m.steady = [f₁, f₂] ∧ ∀ z x : ℚ,
      f₁ [z, x] = .ok (x - (x + (0 + 2 * 0))) ∧ f₂ [z, x] = .ok (z - 2 * z)) ∧
    ∃ f₁ f₂, m.dynamic = [f₁, f₂] ∧ ∀ a0 a1 a2 a3 a4 a5 : ℚ,
      f₁ [a0, a1, a2, a3, a4, a5] = .ok (a2 - (a0 + (a4 + 2 * a5))) ∧ f₂ [a0, a1, a2, a3, a4, a5] = .ok (a3 - 2 * a1) :=
  ⟨_, _, rfl, rfl, rfl, rfl, rfl, ⟨_, _, rfl, fun _ _ => ⟨rfl, rfl⟩⟩, _, _, rfl, fun _ _ _ _ _ _ => ⟨rfl, rfl⟩⟩

/-- a minimiser that only knows when there is nothing to do -/
def stayMin : Minimizer ℚ := fun _ f st => match f st with
  | .ok v => if v = 0 then .ok ⟨st, true⟩ else .ok ⟨st, false⟩
  | .error e => .error e

theorem stayMin_stays : StaysAtZero stayMin := by
  intro f st h _
  exact ⟨true, by simp [stayMin, h]⟩

/-- the libraries -/
noncomputable def suLib : Libs ℚ := ⟨ratLa 1 (sbQz 1 2), triQz, idealAd, stayMin, 0⟩

/-- the rows of the jacobian -/
def suRows : List (List ℚ) := [[-1, 0, 1, 0, -1, -2], [0, -2, 0, 1, 0, 0]]

/-- the hypotheses of `C179_kept`, and with them those of `C179_start`, are met by the file, and there are other values at
which its equations hold -/
example : ∃ md : MState ℚ (ModelSpace ℚ) (Arr ℚ × Arr ℚ),
    ReadFrom (whRead.first suLib) (exText suText) suFile noValues md ∧ StaysAtZero suLib.opt ∧
    FileVals whRead.env.ops suFile noValues noValues ∧ (∀ a b, whRead.env.ops.bin .sub a b = .ok (a - b)) ∧
    (∀ x ∈ suFile.names "var", GivenInitial whRead.env.ops suFile noValues x (if x = "x" then 3 else 0) ∨
      NoBounds suFile x ∧ (if x = "x" then 3 else 0 : ℚ) = 0) ∧
    ∀ c : ℚ, ∀ l r, (l, r) ∈ equations suFile.stmts →
      GapIs whRead.env.ops suFile noValues (levelsAt ((suFile.names "var").map fun x => if x = "x" then c else 0) noDev) l r 0 := by
  obtain ⟨o, m, h1, h2, h3, h4, h5, ⟨f₁, f₂, hf, hfv⟩, g₁, g₂, hg, hgv⟩ := su_read
  obtain ⟨s, hs, -⟩ := ok_of_check (x := Space.create (ratLa 1 (sbQz 1 2)) enT.toTyper (rowsArr 6 suRows))
    (p := fun _ => true) (by decide +kernel)
  have hst : callAll m.steady [0, 3] = .ok [0, 0] := by
    obtain ⟨k1, k2⟩ := hfv 0 3
    rw [hf]; simp [callAll, k1, k2, bind, Except.bind]
  have hJ : modelJacobian idealAd enT.toTyper 2 m.dynamic [0, 3] = .ok (rowsArr 6 suRows) := by
    have htp : enT.places = [(0, 1), (1, 0), (1, 1), (2, 0)] := by decide
    have hp : linPoint enT.toTyper 2 ([0, 3] : List ℚ) = [3, 0, 3, 0, 0, 0] := by unfold linPoint; rw [htp]; rfl
    unfold modelJacobian
    rw [hp, hg]
    refine idealAd_rows rfl (.cons (en_row rfl rfl ?_) (.cons (en_row rfl rfl ?_) .nil))
    · intro a0 a1 a2 a3 a4 a5
      rw [(hgv a0 a1 a2 a3 a4 a5).1]
      simp [vecEntry]
      ring
    · intro a0 a1 a2 a3 a4 a5
      rw [(hgv a0 a1 a2 a3 a4 a5).2]
      simp [vecEntry]
      ring
  have hsp : modelSpace suLib m.endog m.stoch.length m.indexes m.steady m.dynamic =
      .ok ⟨enT, 2, m.dynamic, [0, 3], rowsArr 6 suRows, s⟩ := by
    have hss : modelValues stayMin "dynare" ⟨callAll m.steady, startValues 0 m.endog⟩ = .ok [0, 3] := by
      have : leastSquares ⟨callAll m.steady, [0, 3]⟩ [0, 3] = .ok 0 := by
        simp [leastSquares, hst, bind, Except.bind]
      simp [modelValues, SteadyObj.values, SteadyObj.compute, selectAlgo, runAlgo, stayMin, h4, this]
    unfold modelSpace
    rw [show modelValues suLib.opt "dynare" ⟨callAll m.steady, startValues suLib.nan m.endog⟩ = .ok [0, 3] from hss]
    simp only [bind, Except.bind]
    rw [h5, h3, if_neg (by decide)]
    rw [show modelJacobian suLib.ad enT.toTyper 2 m.dynamic [0, 3] = _ from hJ]
    simp only
    rw [show Space.create suLib.la enT.toTyper (rowsArr 6 suRows) = _ from hs]
  have hm := fromOutline_space (env := whRead.env) (env' := whRead.env.first suLib) rfl rfl h2 hsp
  obtain ⟨md, hmm, hmd⟩ : ∃ md, fromOutline (whRead.first suLib).env o "dynare" "m" = .ok md ∧ md.steady = m.steady :=
    ⟨_, hm, rfl⟩
  have hr : ReadFrom (whRead.first suLib) (exText suText) suFile noValues md := by
    refine ⟨charOk_rat, ⟨_, su_file, su_written⟩, ⟨"dynare", "m", ?_⟩, .nil, su_params, su_equations⟩
    rw [fromText_run (r := whRead.first suLib) charOk_rat su_file su_written h1, hmm]
    rfl
  refine ⟨md, hr, stayMin_stays, su_vals, fun _ _ => rfl, ?_, ?_⟩
  · intro x hx
    have : x = "z" ∨ x = "x" := by simpa [suFile, ModelFile.names] using hx
    rcases this with rfl | rfl
    · refine .inr ⟨⟨fun e he => ?_, fun e he => ?_, rfl⟩, rfl⟩
      · simp [suFile, blockVals] at he
      · simp [suFile, blockVals] at he
    · exact .inl ⟨[], .num 3, [], rfl, fun _ h => by simp at h, .num⟩
  · obtain ⟨σ, pss, tf⟩ := text_facts (r := whRead.first suLib) (lib := suLib) rfl hr
    obtain rfl : σ = noValues := exec_unique tf.vals.model su_vals.model
    rw [hf] at hmd
    intro c l r hlr
    obtain ⟨k1, k2⟩ := hfv 0 c
    have g1 := tf.rest (fun _ _ => rfl) su_params su_equations (i := 0) rfl (by rw [hmd]; rfl) (ss := [0, c]) rfl 0
    have g2 := tf.rest (fun _ _ => rfl) su_params su_equations (i := 1) rfl (by rw [hmd]; rfl) (ss := [0, c]) rfl 0
    rw [k1] at g1
    rw [k2] at g2
    simp only [suFile, equations, List.mem_cons, List.not_mem_nil, or_false, Prod.mk.injEq] at hlr
    rcases hlr with ⟨rfl, rfl⟩ | ⟨rfl, rfl⟩
    · exact g1.mp (by norm_num)
    · exact g2.mp (by norm_num)

end Pynare

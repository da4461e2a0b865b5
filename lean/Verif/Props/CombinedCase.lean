import Verif.Examples.Combined
import Verif.Props.RewrittenRisk
/-!
# C170: a case that meets the hypotheses
-/

namespace Pynare

/-- The hypotheses of `C170_exchanged_partial`, and with them those of `C170_combined_partial`, are met by two files of which
one has the sides of an equation and the order of the statements about the shocks of the other exchanged.  The correction
for risk is not zero for them. -/
example : ∃ (r : ReadEnv ℚ Unit Unit) (lib lib' : Libs ℚ) (text text' : List Char) (m m' : ModelFile ℚ)
    (md md₁ md' md₁' : MState ℚ (ModelSpace ℚ) ((Arr ℚ × Arr ℚ) × SecondNd ℚ)) (gy gu gy' gu' : Arr ℚ)
    (so so' : SecondNd ℚ) (b b' : Shocks ℚ) (a : String → ℚ),
    lib.la.Exact ∧ lib'.la.Exact ∧ lib.ad.Exact ∧ lib'.ad.Exact ∧ GQZExact lib.qz ∧ GQZExact lib'.qz ∧
    (∀ a b, r.env.ops.bin .sub a b = .ok (a - b)) ∧ SidesExchanged m m' ∧ equations m.stmts ≠ equations m'.stmts ∧
    WellPosed m ∧ FileVals r.env.ops m noValues noValues ∧
    ReadFrom (r.second lib (1 / 2)) text m noValues md ∧ ReadFrom (r.second lib' (1 / 2)) text' m' noValues md' ∧
    (∀ f ∈ md.dynamic,
      lib.ad.SecondExactAt f (linPoint md.indexes.toTyper (m.names "varexo").length md.statespace.steady)) ∧
    (∀ f ∈ md'.dynamic,
      lib'.ad.SecondExactAt f (linPoint md'.indexes.toTyper (m.names "varexo").length md'.statespace.steady)) ∧
    m.actions.shocks = some b ∧ m'.actions.shocks = some b' ∧ b'.shocks.Perm b.shocks ∧
    PlainShocks (m.names "varexo") b.shocks ∧
    (∀ s ∈ b.shocks, ∀ x, s.isVarOf x → ∃ v, SetsVar r.env.ops r.sq noValues s x v) ∧
    (∀ x y e, Shock.corr x y e ∈ b.shocks ∨ Shock.cov x y e ∈ b.shocks → ∃ v, Evals r.env.ops noValues e v) ∧
    md.solve (r.env.second lib (1 / 2)) = (md₁, .ok ((gy, gu), so)) ∧
    md'.solve (r.env.second lib' (1 / 2)) = (md₁', .ok ((gy', gu'), so')) ∧
    PassesCheck (Rat.castHom ℂ) lib.la md ∧ PassesCheck (Rat.castHom ℂ) lib'.la md' ∧
    md.statespace.steady = (m.names "var").map a ∧ md'.statespace.steady = (m.names "var").map a ∧
    (∀ l r', (l, r') ∈ equations m.stmts → GapIs r.env.ops m noValues (levelsAt ((m.names "var").map a) noDev) l r' 0) ∧
    CombinesNear r.env.ops m noValues m' noValues a ∧ CombinesNear r.env.ops m' noValues m noValues a ∧
    (List.range 3).map (so.del2.to2.e · 0) ≠ [0, 0, 0] := by
  obtain ⟨md, md₁, gy, gu, so, a1, a2, a3, a4, a5, a6, a7⟩ := rs_second
  obtain ⟨md', md₁', gy', gu', so', b1, b2, b3, b4, b5, b6, b7⟩ := cb_second
  refine ⟨whRead, oqLib, cbLib, _, _, rsFile', cbFile, md, md₁, md', md₁', gy, gu, gy', gu', so, so', _, _, fun _ => 0,
    xqLa_exact _, cbLa_exact, idealAd_exact, idealAd_exact, triQz_exact, triQz_exact, fun _ _ => rfl, cb_exchanged, ?_,
    rs_posed _, rs_vals _, a1, b1, a2, b2, rfl, rfl, List.Perm.swap _ _ _, oq_shocks, ?_, ?_, a3, b3, a5, b5, a4, b4,
    rs_implies.rest rs_rest, cb_exchanged.combines _ _, cb_exchanged.symm.combines _ _, ?_⟩
  · intro h
    simp [rsFile', rsFileOf, cbFile, equations, rsLeft, rsRight] at h
  · intro s hs x hx
    simp only [List.mem_cons, List.not_mem_nil, or_false] at hs
    rcases hs with rfl | rfl <;> (obtain rfl := hx; exact ⟨_, .stderr .num rfl⟩)
  · intro x y e h
    simp only [List.mem_cons, List.not_mem_nil, or_false] at h
    rcases h with (h | h) | (h | h) <;> cases h
  · rw [a7]
    norm_num

end Pynare

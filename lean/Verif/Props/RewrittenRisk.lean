import Verif.Examples.RewrittenSecond
/-!
# C169: equivalent equations can have different corrections for risk
-/

namespace Pynare

theorem rs_steady (l : Expr ℚ) : ([0, 0, 0] : List ℚ) = ((rsFileOf l).names "var").map fun _ => 0 := rfl

theorem rs_rest : ∀ l r, (l, r) ∈ equations rsFile.stmts →
    GapIs ratOps rsFile noValues (levelsAt ((rsFile.names "var").map fun _ => (0 : ℚ)) noDev) l r 0 := by
  intro l r h
  simp only [rsFile, rsFileOf, equations, List.mem_cons, List.not_mem_nil, or_false, Prod.mk.injEq] at h
  have e : ∀ c, vecEntry ((rsFile.names "var").map fun _ => (0 : ℚ)) c + 0 = 0 := by
    intro c
    rw [add_zero]
    show vecEntry [0, 0, 0] c = 0
    unfold vecEntry
    by_cases hl : c < 3
    · interval_cases c <;> rfl
    · rw [List.getElem?_eq_none (by simpa using hl)]; rfl
  have now : ∀ {x : String} {c : Nat}, (rsFile.names "var")[c]? = some x → NameNow noValues (rsFile.names "var")
      (rsFile.names "varexo") (levelsAt ((rsFile.names "var").map fun _ => (0 : ℚ)) noDev) x 0 := fun {x c} hc => by
    have := NameNow.endog (V := ℚ) (σ := noValues) (exo := rsFile.names "varexo")
      (L := levelsAt ((rsFile.names "var").map fun _ => (0 : ℚ)) noDev) rfl hc
    rwa [show (levelsAt ((rsFile.names "var").map fun _ => (0 : ℚ)) noDev).now c = 0 from e c] at this
  have sh : ∀ {x : String} {j : Nat}, (rsFile.names "varexo")[j]? = some x → NameNow noValues (rsFile.names "var")
      (rsFile.names "varexo") (levelsAt ((rsFile.names "var").map fun _ => (0 : ℚ)) noDev) x 0 := fun hj =>
    .shock (L := levelsAt ((rsFile.names "var").map fun _ => (0 : ℚ)) noDev) rfl hj
  have bef : ∀ {x : String} {c : Nat}, (rsFile.names "var")[c]? = some x → NameAt (rsFile.names "var")
      (levelsAt ((rsFile.names "var").map fun _ => (0 : ℚ)) noDev) x (-1) 0 := fun {x c} hc => by
    have := NameAt.before (V := ℚ) (L := levelsAt ((rsFile.names "var").map fun _ => (0 : ℚ)) noDev) hc
    rwa [show (levelsAt ((rsFile.names "var").map fun _ => (0 : ℚ)) noDev).before c = 0 from e c] at this
  have aft : ∀ {x : String} {c : Nat}, (rsFile.names "var")[c]? = some x → NameAt (rsFile.names "var")
      (levelsAt ((rsFile.names "var").map fun _ => (0 : ℚ)) noDev) x 1 0 := fun {x c} hc => by
    have := NameAt.after (V := ℚ) (L := levelsAt ((rsFile.names "var").map fun _ => (0 : ℚ)) noDev) hc
    rwa [show (levelsAt ((rsFile.names "var").map fun _ => (0 : ℚ)) noDev).after c = 0 from e c] at this
  rcases h with ⟨rfl, rfl⟩ | ⟨rfl, rfl⟩ | ⟨rfl, rfl⟩
  · exact ⟨0, 0, .var (now (c := 0) rfl), .bin (.bin (.bin .num (.pvar (bef (c := 0) rfl)) rfl)
      (.bin (.pvar (bef (c := 0) rfl)) (.pvar (bef (c := 0) rfl)) rfl) rfl) (.var (sh (j := 0) rfl)) (by simp [ratOps]),
      by norm_num⟩
  · exact ⟨0, 0, .var (now (c := 1) rfl), .bin (.bin .num (.pvar (bef (c := 1) rfl)) rfl) (.var (sh (j := 1) rfl))
      (by simp [ratOps]), by norm_num⟩
  · exact ⟨0, 0, .pvar (aft (c := 2) rfl), .bin (.bin .num (.var (now (c := 2) rfl)) rfl) (.var (sh (j := 0) rfl))
      (by simp [ratOps]), by norm_num⟩

/-- **C169**, why the correction for risk is left out: the two files below meet all hypotheses of
`C169_rewritten_partial` (so this is also its example), their equations imply each other, and yet the constants for risk
in the solutions returned for them differ.  With all variables at the steady state and no shocks the solution of the first
keeps them there, while that of the second does not.  The expectation of `g + g^2` is not zero where that of `g` is. -/
theorem C169_risk_differs : ∃ (r : ReadEnv ℚ Unit Unit) (lib : Libs ℚ) (text text' : List Char) (m m' : ModelFile ℚ)
    (md md₁ md' md₁' : MState ℚ (ModelSpace ℚ) ((Arr ℚ × Arr ℚ) × SecondNd ℚ)) (gy gu gy' gu' : Arr ℚ)
    (so so' : SecondNd ℚ) (b b' : Shocks ℚ) (a : String → ℚ),
    lib.la.Exact ∧ lib.ad.Exact ∧ GQZExact lib.qz ∧ (∀ a b, r.env.ops.bin .sub a b = .ok (a - b)) ∧
    WellPosed m ∧ WellPosed m' ∧ FileVals r.env.ops m noValues noValues ∧ FileVals r.env.ops m' noValues noValues ∧
    ReadFrom (r.second lib (1 / 2)) text m noValues md ∧ ReadFrom (r.second lib (1 / 2)) text' m' noValues md' ∧
    (∀ f ∈ md.dynamic,
      lib.ad.SecondExactAt f (linPoint md.indexes.toTyper (m.names "varexo").length md.statespace.steady)) ∧
    (∀ f ∈ md'.dynamic,
      lib.ad.SecondExactAt f (linPoint md'.indexes.toTyper (m'.names "varexo").length md'.statespace.steady)) ∧
    m.actions.shocks = some b ∧ m'.actions.shocks = some b' ∧ b = b' ∧ PlainShocks (m.names "varexo") b.shocks ∧
    PlainShocks (m'.names "varexo") b'.shocks ∧
    (∀ s ∈ b.shocks, ∀ x, s.isVarOf x → ∃ v, SetsVar r.env.ops r.sq noValues s x v) ∧
    (∀ x y e, Shock.corr x y e ∈ b.shocks ∨ Shock.cov x y e ∈ b.shocks → ∃ v, Evals r.env.ops noValues e v) ∧
    md.solve (r.env.second lib (1 / 2)) = (md₁, .ok ((gy, gu), so)) ∧
    md'.solve (r.env.second lib (1 / 2)) = (md₁', .ok ((gy', gu'), so')) ∧
    PassesCheck (Rat.castHom ℂ) lib.la md ∧ PassesCheck (Rat.castHom ℂ) lib.la md' ∧ m.names "var" = m'.names "var" ∧
    m.names "varexo" = m'.names "varexo" ∧ md.statespace.steady = (m.names "var").map a ∧
    md'.statespace.steady = (m'.names "var").map a ∧
    (∀ l r', (l, r') ∈ equations m.stmts → GapIs r.env.ops m noValues (levelsAt ((m.names "var").map a) noDev) l r' 0) ∧
    ImpliesNear r.env.ops m noValues m' noValues a ∧ ImpliesNear r.env.ops m' noValues m noValues a ∧
    FollowsRisk md.indexes.toTyper (m.names "varexo").length so gy gu 1 (fun _ => 0) (fun _ => 0) (fun _ => 0) ∧
    ¬ FollowsRisk md'.indexes.toTyper (m'.names "varexo").length so' gy' gu' 1 (fun _ => 0) (fun _ => 0) (fun _ => 0) := by
  obtain ⟨md, md₁, gy, gu, so, a1, a2, a3, a4, a5, a6, a7⟩ := rs_first
  obtain ⟨md', md₁', gy', gu', so', b1, b2, b3, b4, b5, b6, b7⟩ := rs_second
  have hst : ∀ b, stateVals xqT.toTyper (fun _ => (0 : ℚ)) b = 0 := by
    intro b
    rfl
  have hdr : xqT.toTyper.drOrder = [0, 1, 2] := by decide
  have del : ∀ {so : SecondNd ℚ} {gy gu : Arr ℚ}, FollowsRisk xqT.toTyper 2 so gy gu 1 (fun _ => 0) (fun _ => 0) (fun _ => 0) ↔
      ∀ i < 3, so.del2.to2.e i 0 = 0 := by
    intro so gy gu
    have hq : ∀ (G : Arr ℚ) (i na nb : Nat) (x y : Nat → ℚ), (∀ k, x k = 0) → quadForm G i na x nb y = 0 := by
      intro G i na nb x y hx
      unfold quadForm
      simp [hx, sumTo_eq]
    constructor
    · intro h i hi
      have := h i i (by rw [hdr]; interval_cases i <;> rfl)
      simp only [hst, hq _ _ _ _ _ _ hst, hq _ _ _ _ (fun _ => (0 : ℚ)) _ (fun _ => rfl), mul_zero, sumTo_eq,
        Finset.sum_const_zero, zero_add, one_mul] at this
      exact this.symm
    · intro h i c hc
      have hi : i < 3 := by
        by_contra hi
        rw [hdr, List.getElem?_eq_none (by simpa using hi)] at hc
        cases hc
      simp only [hst, hq _ _ _ _ _ _ hst, hq _ _ _ _ (fun _ => (0 : ℚ)) _ (fun _ => rfl), mul_zero, sumTo_eq,
        Finset.sum_const_zero, zero_add, one_mul]
      exact (h i hi).symm
  refine ⟨whRead, oqLib, _, _, rsFile, rsFile', md, md₁, md', md₁', gy, gu, gy', gu', so, so', _, _, fun _ => 0,
    xqLa_exact _, idealAd_exact, triQz_exact, fun _ _ => rfl, rs_posed _, rs_posed _, rs_vals _, rs_vals _, a1, b1, a2, b2,
    rfl, rfl, rfl, oq_shocks, oq_shocks, ?_, ?_, a3, b3, a5, b5, rfl, rfl, a4, b4, rs_rest, rs_implies, rs_implies', ?_, ?_⟩
  · intro s hs x hx
    simp only [List.mem_cons, List.not_mem_nil, or_false] at hs
    rcases hs with rfl | rfl <;> (obtain rfl := hx; exact ⟨_, .stderr .num rfl⟩)
  · intro x y e h
    simp only [List.mem_cons, List.not_mem_nil, or_false] at h
    rcases h with (h | h) | (h | h) <;> cases h
  · rw [a6]
    refine del.mpr fun i hi => ?_
    have := congrArg (fun l => l[i]?) a7
    interval_cases i <;> simpa using this
  · rw [b6]
    intro h
    have h2 := del.mp h 2 (by decide)
    have := congrArg (fun l => l[2]?) b7
    simp at this
    rw [h2] at this
    norm_num at this

#print axioms C169_risk_differs

end Pynare

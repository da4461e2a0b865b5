import Verif.Examples.RewrittenSecond
import Verif.Props.RiskSums
/-!
# The second file of `Examples/RewrittenSecond.lean` with other shocks, for the examples of C188
-/

namespace Pynare

/-- the file with given statements about the shocks -/
def rkText (a b : String) : String :=
  "var x z w ; varexo e1 e2 ; model ; x = 0.5 * x ( - 1 ) + x ( - 1 ) * x ( - 1 ) + e1 ; " ++
  "z = 0.25 * z ( - 1 ) + e2 ; " ++
  "w ( + 1 ) + ( w ( + 1 ) - 2 * w - e1 ) * ( w ( + 1 ) - 2 * w - e1 ) = 2 * w + e1 ; end ; " ++
  "shocks ; var e1 ; stderr " ++ a ++ " ; var e2 ; stderr " ++ b ++ " ; end ;"
/-- what it contains -/
def rkFile (a b : ℚ) : ModelFile ℚ :=
  { rsFile' with actions := ⟨none, none, none, some ⟨[], [.stderr "e1" (.num a), .stderr "e2" (.num b)]⟩⟩ }
/-- the covariances -/
def rkSig (a b : ℚ) : Sig ℚ := sigmaDiag [⟨"e1", "", some a, none, none⟩, ⟨"e2", "", some b, none, none⟩]

theorem rk_differ (a b a' b' : ℚ) : DifferInShocks (rkFile a b) (rkFile a' b') := ⟨rfl, rfl, rfl, rfl, rfl, rfl⟩

theorem rk_params (a b : ℚ) : PlainParams (rkFile a b) := ⟨(rs_params rsLeft).all, (rs_params rsLeft).last⟩

theorem rk_equations (a b : ℚ) : PlainEquations (rkFile a b) :=
  ⟨(rs_equations rs_left.1 rs_left.2).vars, (rs_equations rs_left.1 rs_left.2).pvars⟩

/-- what is made from the file -/
def RkRead (a b : ℚ) : Prop := ∃ (o : Outline ℚ) (m : MState ℚ Unit Unit), createOutline ratOps .ok (rkFile a b) = .ok o ∧
    fromOutline whRead.env o "dynare" "m" = .ok m ∧ m.endog.length = 3 ∧
    m.stoch = [⟨"e1", "", some a, none, none⟩, ⟨"e2", "", some b, none, none⟩] ∧
    m.indexes = xqT ∧ m.endogNames = ["x", "z", "w"] ∧ m.stochNames = ["e1", "e2"] ∧ m.scope = odσ ∧
    m.exprs.exprs = [xqX, xqZ, rsW rsLeft] ∧
    (∃ f₁ f₂ f₃, m.steady = [f₁, f₂, f₃] ∧ ∀ x z w : ℚ, f₁ [x, z, w] = .ok (x - (1 / 2 * x + x * x + 0)) ∧
      f₂ [x, z, w] = .ok (z - (1 / 4 * z + 0)) ∧ f₃ [x, z, w] = .ok ((w + (w - 2 * w - 0) * (w - 2 * w - 0)) - (2 * w + 0))) ∧
    ∃ g₁ g₂ g₃, m.dynamic = [g₁, g₂, g₃] ∧ ∀ xm zm x z w wp e1 e2,
      g₁ [xm, zm, x, z, w, wp, e1, e2] = .ok (x - (1 / 2 * xm + xm * xm + e1)) ∧
      g₂ [xm, zm, x, z, w, wp, e1, e2] = .ok (z - (1 / 4 * zm + e2)) ∧
      g₃ [xm, zm, x, z, w, wp, e1, e2] = .ok ((wp + (wp - 2 * w - e1) * (wp - 2 * w - e1)) - (2 * w + e1))

/-- the second derivatives are symmetric -/
theorem rk_symmetric : SymmetricHessian xqT 2 (rowsArr (8 ^ 2) (rsHess rsD₃)) := by
  unfold SymmetricHessian; decide +kernel

/-- a file of this form is read and solved, if the steps for these covariances succeed -/
theorem rk_solved {a b d : ℚ} {ta tb : String}
    (hr : RkRead a b) (hf : FileOf ratPC ((wordsOf (rkText ta tb).toList).map ratTok) (rkFile a b))
    (hw : Written ratCfg ((wordsOf (rkText ta tb).toList).map ratTok) (exText (rkText ta tb)) [])
    (hs : ∀ j < 2, ∀ k < 2, rkSig a b j k = rkSig a b k j)
    (hc : okAnd (xqAll [1/2, 1/4, 2] xqT (rowsArr 8 rsRows) (rowsArr (8 ^ 2) (rsHess rsD₃)) ⟨2, 2, rkSig a b⟩)
      (fun r => qzB (diagQz [1/2, 1/4, 2]) r.1.rhs r.1.lhs &&
        okAnd (r.1.verify (xqLa [1/2, 1/4, 2]) xqT.toTyper) (fun _ => true) &&
        decide ((List.range 3).map ((r.2.2.2.stored (1 / 2)).del2.to2.e · 0) = [0, 0, d])) = true) :
    ∃ (md : MState ℚ (ModelSpace ℚ) ((Arr ℚ × Arr ℚ) × SecondNd ℚ)) (gy gu : Arr ℚ) (so : SecondNd ℚ),
      SolvedToSecond whRead oqLib (1 / 2) (rkFile a b) md gy gu so (rkSig a b) ∧ md.stoch.length = 2 ∧
      (List.range 3).map (so.del2.to2.e · 0) = [0, 0, d] := by
  obtain ⟨o, m, h1, h2, h3, h4, h5, h6, h7, h8, h9, ⟨f₁, f₂, f₃, hst, hfv⟩, g₁, g₂, g₃, hg, hgv⟩ := hr
  obtain ⟨q1, q2⟩ := rs_quad fun a0 a1 a2 a3 a4 a5 a6 a7 =>
    ⟨(hgv a0 a1 a2 a3 a4 a5 a6 a7).1, (hgv a0 a1 a2 a3 a4 a5 a6 a7).2.1⟩
  have q3 := rs_third' fun a0 a1 a2 a3 a4 a5 a6 a7 => (hgv a0 a1 a2 a3 a4 a5 a6 a7).2.2
  obtain ⟨-, _, _, _, _, _, _, _, _, _, hb⟩ := fromOutline_inv h2
  have hd := (create_fresh hb).1.dynamic
  rw [h5, h6, h7, h8, h9, hg] at hd
  obtain ⟨s, gy, gu, so, hm, hp⟩ := xq_second (ls := [1/2, 1/4, 2]) (sigma := ⟨2, 2, rkSig a b⟩) rfl
    (rs_derivs (rs_plain rfl rs_left.1 rs_left.2) rfl hd q1 q2 q3) rk_symmetric ⟨rfl, rfl, hs⟩ (by
      intro i j hij hj
      have hj : j < 3 := hj
      interval_cases j <;> interval_cases i <;> norm_num [abs_lt]) (by
      simp only [List.mem_cons, List.not_mem_nil, or_false, forall_eq_or_imp, forall_eq]
      norm_num [abs_lt])
    (fun so _ _ => decide ((List.range 3).map ((so.stored (1 / 2)).del2.to2.e · 0) = [0, 0, d])) hc
  obtain ⟨md, md', a1, a2, a3, a4, a5, a6, a7, a8⟩ := run_second (lib := oqLib) rfl h1 h2 hf hw rfl (rk_params a b)
    (rk_equations a b) h3 (sg := rkSig a b) (by rw [h5]; exact hm) h6 h7 h8 h9 (by
      obtain ⟨k1, k2, k3⟩ := hfv 0 0 0
      rw [hst]; simp [callAll, k1, k2, k3, bind, Except.bind]) (by rw [h5]; rfl) (by rw [h4]; rfl)
  obtain ⟨lang, name, hmade⟩ := a4.made
  exact ⟨md, gy, gu, _, ⟨⟨_, _, lang, name, hf, hw, hmade⟩, ⟨md', a5⟩, a7⟩, by rw [a8, h4]; rfl, of_decide_eq_true hp⟩

theorem rk_read_one : RkRead 1 (1/4) :=
  ⟨_, _, rfl, rfl, rfl, rfl, rfl, rfl, rfl, rfl, rfl, ⟨_, _, _, rfl, fun _ _ _ => ⟨rfl, rfl, rfl⟩⟩,
    _, _, _, rfl, fun _ _ _ _ _ _ _ _ => ⟨rfl, rfl, rfl⟩⟩

/-- the first file -/
theorem rk_one : ∃ (md : MState ℚ (ModelSpace ℚ) ((Arr ℚ × Arr ℚ) × SecondNd ℚ)) (gy gu : Arr ℚ) (so : SecondNd ℚ),
    SolvedToSecond whRead oqLib (1 / 2) (rkFile 1 (1/4)) md gy gu so (rkSig 1 (1/4)) ∧ md.stoch.length = 2 ∧
    (List.range 3).map (so.del2.to2.e · 0) = [0, 0, 1/4] := by
  refine rk_solved (ta := "1") (tb := "0.25") rk_read_one
    (fileOf_check (noCall_of_check _ (by decide +kernel)) (by decide +kernel) (by decide +kernel)) ?_ (by decide +kernel)
    (by decide +kernel)
  have := written_spaced charOk_rat ((wordsOf (rkText "1" "0.25").toList).map fun w => (ratTok w, w)) (by
    intro p hp
    obtain ⟨w, hw, rfl⟩ := List.mem_map.mp hp
    have h : ((wordsOf (rkText "1" "0.25").toList).all fun w => spelled ratCfg (ratTok w) w) = true := by decide +kernel
    exact List.all_eq_true.mp h w hw)
  simpa [List.map_map, Function.comp_def, exText] using this

theorem rk_read_two : RkRead 2 3 :=
  ⟨_, _, rfl, rfl, rfl, rfl, rfl, rfl, rfl, rfl, rfl, ⟨_, _, _, rfl, fun _ _ _ => ⟨rfl, rfl, rfl⟩⟩,
    _, _, _, rfl, fun _ _ _ _ _ _ _ _ => ⟨rfl, rfl, rfl⟩⟩

/-- the second -/
theorem rk_two : ∃ (md : MState ℚ (ModelSpace ℚ) ((Arr ℚ × Arr ℚ) × SecondNd ℚ)) (gy gu : Arr ℚ) (so : SecondNd ℚ),
    SolvedToSecond whRead oqLib (1 / 2) (rkFile 2 3) md gy gu so (rkSig 2 3) ∧ md.stoch.length = 2 ∧
    (List.range 3).map (so.del2.to2.e · 0) = [0, 0, 1/2] := by
  refine rk_solved (ta := "2") (tb := "3") rk_read_two
    (fileOf_check (noCall_of_check _ (by decide +kernel)) (by decide +kernel) (by decide +kernel)) ?_ (by decide +kernel)
    (by decide +kernel)
  have := written_spaced charOk_rat ((wordsOf (rkText "2" "3").toList).map fun w => (ratTok w, w)) (by
    intro p hp
    obtain ⟨w, hw, rfl⟩ := List.mem_map.mp hp
    have h : ((wordsOf (rkText "2" "3").toList).all fun w => spelled ratCfg (ratTok w) w) = true := by decide +kernel
    exact List.all_eq_true.mp h w hw)
  simpa [List.map_map, Function.comp_def, exText] using this

theorem rk_read_three : RkRead 6 4 :=
  ⟨_, _, rfl, rfl, rfl, rfl, rfl, rfl, rfl, rfl, rfl, ⟨_, _, _, rfl, fun _ _ _ => ⟨rfl, rfl, rfl⟩⟩,
    _, _, _, rfl, fun _ _ _ _ _ _ _ _ => ⟨rfl, rfl, rfl⟩⟩

/-- the third, whose covariances are four times those of the first plus those of the second -/
theorem rk_three : ∃ (md : MState ℚ (ModelSpace ℚ) ((Arr ℚ × Arr ℚ) × SecondNd ℚ)) (gy gu : Arr ℚ) (so : SecondNd ℚ),
    SolvedToSecond whRead oqLib (1 / 2) (rkFile 6 4) md gy gu so (rkSig 6 4) ∧ md.stoch.length = 2 ∧
    (List.range 3).map (so.del2.to2.e · 0) = [0, 0, 3/2] := by
  refine rk_solved (ta := "6") (tb := "4") rk_read_three
    (fileOf_check (noCall_of_check _ (by decide +kernel)) (by decide +kernel) (by decide +kernel)) ?_ (by decide +kernel)
    (by decide +kernel)
  have := written_spaced charOk_rat ((wordsOf (rkText "6" "4").toList).map fun w => (ratTok w, w)) (by
    intro p hp
    obtain ⟨w, hw, rfl⟩ := List.mem_map.mp hp
    have h : ((wordsOf (rkText "6" "4").toList).all fun w => spelled ratCfg (ratTok w) w) = true := by decide +kernel
    exact List.all_eq_true.mp h w hw)
  simpa [List.map_map, Function.comp_def, exText] using this

theorem rk_read_zero : RkRead 0 0 :=
  ⟨_, _, rfl, rfl, rfl, rfl, rfl, rfl, rfl, rfl, rfl, ⟨_, _, _, rfl, fun _ _ _ => ⟨rfl, rfl, rfl⟩⟩,
    _, _, _, rfl, fun _ _ _ _ _ _ _ _ => ⟨rfl, rfl, rfl⟩⟩

/-- a file without risk -/
theorem rk_zero : ∃ (md : MState ℚ (ModelSpace ℚ) ((Arr ℚ × Arr ℚ) × SecondNd ℚ)) (gy gu : Arr ℚ) (so : SecondNd ℚ),
    SolvedToSecond whRead oqLib (1 / 2) (rkFile 0 0) md gy gu so (rkSig 0 0) ∧ md.stoch.length = 2 ∧
    (List.range 3).map (so.del2.to2.e · 0) = [0, 0, 0] := by
  refine rk_solved (ta := "0") (tb := "0") rk_read_zero
    (fileOf_check (noCall_of_check _ (by decide +kernel)) (by decide +kernel) (by decide +kernel)) ?_ (by decide +kernel)
    (by decide +kernel)
  have := written_spaced charOk_rat ((wordsOf (rkText "0" "0").toList).map fun w => (ratTok w, w)) (by
    intro p hp
    obtain ⟨w, hw, rfl⟩ := List.mem_map.mp hp
    have h : ((wordsOf (rkText "0" "0").toList).all fun w => spelled ratCfg (ratTok w) w) = true := by decide +kernel
    exact List.all_eq_true.mp h w hw)
  simpa [List.map_map, Function.comp_def, exText] using this

/-- the hypotheses of `C188_sums` are met by the three files; the corrections for risk are not zero -/
example : ∃ (md md' md'' : MState ℚ (ModelSpace ℚ) ((Arr ℚ × Arr ℚ) × SecondNd ℚ)) (gy gu gy' gu' gy'' gu'' : Arr ℚ)
    (so so' so'' : SecondNd ℚ), CharOk whRead.cfg ∧ oqLib.la.Exact ∧ DifferInShocks (rkFile 1 (1/4)) (rkFile 2 3) ∧
    DifferInShocks (rkFile 1 (1/4)) (rkFile 6 4) ∧
    SolvedToSecond whRead oqLib (1 / 2) (rkFile 1 (1/4)) md gy gu so (rkSig 1 (1/4)) ∧
    SolvedToSecond whRead oqLib (1 / 2) (rkFile 2 3) md' gy' gu' so' (rkSig 2 3) ∧
    SolvedToSecond whRead oqLib (1 / 2) (rkFile 6 4) md'' gy'' gu'' so'' (rkSig 6 4) ∧
    (∀ i < md.stoch.length, ∀ j < md.stoch.length, rkSig 6 4 i j = 4 * rkSig 1 (1/4) i j + 1 * rkSig 2 3 i j) ∧
    (List.range 3).map (so.del2.to2.e · 0) = [0, 0, 1/4] ∧ (List.range 3).map (so'.del2.to2.e · 0) = [0, 0, 1/2] ∧
    (List.range 3).map (so''.del2.to2.e · 0) = [0, 0, 3/2] := by
  obtain ⟨md, gy, gu, so, h, hn, hv⟩ := rk_one
  obtain ⟨md', gy', gu', so', h', -, hv'⟩ := rk_two
  obtain ⟨md'', gy'', gu'', so'', h'', -, hv''⟩ := rk_three
  refine ⟨md, md', md'', gy, gu, gy', gu', gy'', gu'', so, so', so'', charOk_rat, xqLa_exact _, rk_differ _ _ _ _,
    rk_differ _ _ _ _, h, h', h'', ?_, hv, hv', hv''⟩
  rw [hn]
  decide +kernel

/-- the hypotheses of `C188_none` are met -/
example : ∃ (md : MState ℚ (ModelSpace ℚ) ((Arr ℚ × Arr ℚ) × SecondNd ℚ)) (gy gu : Arr ℚ) (so : SecondNd ℚ),
    CharOk whRead.cfg ∧ oqLib.la.Exact ∧ SolvedToSecond whRead oqLib (1 / 2) (rkFile 0 0) md gy gu so (rkSig 0 0) ∧
    (∀ i < md.stoch.length, ∀ j < md.stoch.length, rkSig 0 0 i j = 0) ∧
    (List.range 3).map (so.del2.to2.e · 0) = [0, 0, 0] := by
  obtain ⟨md, gy, gu, so, h, hn, hv⟩ := rk_zero
  refine ⟨md, gy, gu, so, charOk_rat, xqLa_exact _, h, ?_, hv⟩
  rw [hn]
  decide +kernel

end Pynare

import Verif.Props.RestatedMoments
import Verif.Examples.Stats
import Verif.Examples.Restated
/-!
# The hypotheses of C180 are met by the two files of `Examples/Restated.lean`
-/

namespace Pynare

/-- covariances of correlated shocks -/
def rmSigma : Arr ℚ := listArr [[4, 1], [1, 1]] 2
/-- a solver that knows the variance of the state of the example -/
def rmLyap : Lyap ℚ := ratLyap [listArr [[16]] 1]
/-- the square roots the example needs -/
def rmSq (v : ℚ) : Option ℚ := if v = 16 then some 4 else if v = 0 then some 0 else none

/-- the hypotheses of `C180_correlation_partial` that are not those of `C175_restated_partial` are met by the two files, with
correlated shocks, and the variance of `x` is not zero -/
example : ∃ (md md' mw mw' : MState ℚ (ModelSpace ℚ) (Arr ℚ × Arr ℚ)) (gy gu gy' gu' C C' : Arr ℚ) (R R' : Arr (Option ℚ)),
    ReadFrom (whRead.first trLib) (exText trText) trFile noValues md ∧
    ReadFrom (whRead.first enLib) (exText enText) enFile noValues md' ∧
    OneRest whRead.env.ops trFile noValues (fun _ => 0) ∧ OneRest whRead.env.ops enFile noValues (fun x => trT x 0) ∧
    md.solve (whRead.env.first trLib) = (mw, .ok (gy, gu)) ∧ md'.solve (whRead.env.first enLib) = (mw', .ok (gy', gu')) ∧
    PassesCheck (Complex.ofRealHom.comp (Rat.castHom ℝ)) trLib.la md ∧
    PassesCheck (Complex.ofRealHom.comp (Rat.castHom ℝ)) enLib.la md' ∧
    RestatedNear whRead.env.ops trFile noValues enFile noValues (fun _ => 0) trT (fun _ v => v) ∧
    (∀ x ∈ enFile.names "var", HasSlope (trT x) 0 (if x = "x" then -1 else 1)) ∧
    LyapExact rmLyap ∧ (∀ i j, rmSigma.e i j = rmSigma.e j i) ∧ rmSigma.e 0 1 ≠ 0 ∧
    ScaledSquare (fun _ => 1) (trFile.names "varexo") (enFile.names "varexo") rmSigma rmSigma ∧
    covArr trLib.la rmLyap md.indexes.toTyper md.statespace.space gy gu rmSigma = .ok C ∧
    covArr enLib.la rmLyap md'.indexes.toTyper md'.statespace.space gy' gu' rmSigma = .ok C' ∧
    (∀ c < (trFile.names "var").length, RootOf rmSq (C.e c c)) ∧ (∀ c < (enFile.names "var").length, RootOf rmSq (C'.e c c)) ∧
    corrArr trLib.la rmLyap rmSq md.indexes.toTyper md.statespace.space gy gu rmSigma = .ok R ∧
    corrArr enLib.la rmLyap rmSq md'.indexes.toTyper md'.statespace.space gy' gu' rmSigma = .ok R' ∧
    C.e 1 1 = 16 ∧ R.e 1 1 = some 1 := by
  obtain ⟨md, mw, gy, gu, a1, a2, a3, a4, a5, a6, s, a7, a8, a9⟩ := tr_more
  obtain ⟨md', mw', gy', gu', b1, b2, b3, b4, b5, b6, s', b7, b8, b9⟩ := en_more
  have e : (fun x => trT x 0) = fun _ => 0 := by
    funext x
    simp [trT]
  have cast : (Complex.ofRealHom.comp (Rat.castHom ℝ) : ℚ →+* ℂ) = Rat.castHom ℂ := Subsingleton.elim _ _
  obtain ⟨_, hr, c⟩ := ok_of_check (x := Space.create (ratLa 1 trQz) enT.toTyper (rowsArr 6 trRows)) (p := fun s =>
    okAnd (solveFirstOrder (ratLa 1 trQz) enT 2 s) fun g =>
    okAnd (covArr (ratLa 1 trQz) rmLyap enT.toTyper s g.1 g.2 rmSigma) fun C =>
    okAnd (corrArr (ratLa 1 trQz) rmLyap rmSq enT.toTyper s g.1 g.2 rmSigma) fun R =>
      decide (C.e 0 0 = 0 ∧ C.e 1 1 = 16 ∧ R.e 1 1 = some 1)) (by decide +kernel)
  obtain ⟨_, hr', c'⟩ := ok_of_check (x := Space.create (ratLa 1 (sbQz (1/2) 2)) enT.toTyper (rowsArr 6 enRows)) (p := fun s =>
    okAnd (solveFirstOrder (ratLa 1 (sbQz (1/2) 2)) enT 2 s) fun g =>
    okAnd (covArr (ratLa 1 (sbQz (1/2) 2)) rmLyap enT.toTyper s g.1 g.2 rmSigma) fun C =>
    okAnd (corrArr (ratLa 1 (sbQz (1/2) 2)) rmLyap rmSq enT.toTyper s g.1 g.2 rmSigma) fun _ =>
      decide (C.e 0 0 = 0 ∧ C.e 1 1 = 16)) (by decide +kernel)
  obtain rfl := Except.ok.inj (a7.symm.trans hr)
  obtain rfl := Except.ok.inj (b7.symm.trans hr')
  obtain ⟨_, hg, c⟩ := ok_of_check c
  obtain ⟨_, hg', c'⟩ := ok_of_check c'
  obtain rfl := Except.ok.inj (a8.symm.trans hg)
  obtain rfl := Except.ok.inj (b8.symm.trans hg')
  obtain ⟨C, hC, c⟩ := ok_of_check c
  obtain ⟨C', hC', c'⟩ := ok_of_check c'
  obtain ⟨R, hR, c⟩ := ok_of_check c
  obtain ⟨R', hR', c'⟩ := ok_of_check c'
  obtain ⟨c1, c2, c3⟩ := of_decide_eq_true c
  obtain ⟨d1, d2⟩ := of_decide_eq_true c'
  have roots : ∀ {C : Arr ℚ}, C.e 0 0 = 0 → C.e 1 1 = 16 → ∀ c < 2, RootOf rmSq (C.e c c) := by
    intro C h0 h1 c hc
    interval_cases c
    · rw [h0]; exact ⟨0, by decide, le_refl _, by norm_num⟩
    · rw [h1]; exact ⟨4, by decide, by norm_num, by norm_num⟩
  refine ⟨md, md', mw, mw', gy, gu, gy', gu', C, C', R, R', a1, b1, a4, by rw [e]; exact b4, a2, b2, by rw [cast]; exact a3,
    by rw [cast]; exact b3, tr_in.restated tr_computes _, fun x hx => (tr_slope x hx).1, ratLyap_exact _, ?_, by decide, ?_,
    by rw [a5, a9]; exact hC, by rw [b5, b9]; exact hC', roots c1 c2, roots d1 d2, by rw [a5, a9]; exact hR,
    by rw [b5, b9]; exact hR', c2, c3⟩
  · intro i j
    match i, j with
    | 0, 0 => rfl
    | 0, 1 => rfl
    | 1, 0 => rfl
    | 1, 1 => rfl
    | 0, j + 2 => rfl
    | 1, j + 2 => rfl
    | i + 2, 0 => rfl
    | i + 2, 1 => rfl
    | i + 2, j + 2 => rfl
  · have hn : (enFile.names "varexo").Nodup := by decide
    have ee : trFile.names "varexo" = enFile.names "varexo" := rfl
    intro i i' j j' x y hi hi' hj hj'
    rw [ee] at hi hj
    rw [Layouts.nodup_get hn hi hi', Layouts.nodup_get hn hj hj', one_mul, one_mul]

end Pynare

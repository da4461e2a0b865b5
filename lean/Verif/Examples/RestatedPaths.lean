import Verif.Props.RestatedPaths
import Verif.Props.Order
import Verif.Examples.Restated
/-!
# The hypotheses of C178 are met by the two files of `Examples/Restated.lean`
-/

namespace Pynare

/-- the factors of the example -/
def rpChol : Chol ℚ := listChol [listArr [[1, 0], [0, 2]] 2]
/-- the covariance matrix of the example -/
def rpSigma : Arr ℚ := listArr [[1, 0], [0, 4]] 2

/-- the hypotheses of `C178_impulse_partial` that are not those of `C175_restated_partial` are met by the two files, and the
response of `x` in the period of the shock is not zero -/
example : ∃ (md md' mw mw' : MState ℚ (ModelSpace ℚ) (Arr ℚ × Arr ℚ)) (gy gu gy' gu' p p' : Arr ℚ),
    ReadFrom (whRead.first trLib) (exText trText) trFile noValues md ∧
    ReadFrom (whRead.first enLib) (exText enText) enFile noValues md' ∧
    OneRest whRead.env.ops trFile noValues (fun _ => 0) ∧ OneRest whRead.env.ops enFile noValues (fun x => trT x 0) ∧
    md.solve (whRead.env.first trLib) = (mw, .ok (gy, gu)) ∧ md'.solve (whRead.env.first enLib) = (mw', .ok (gy', gu')) ∧
    PassesCheck (Rat.castHom ℂ) trLib.la md ∧ PassesCheck (Rat.castHom ℂ) enLib.la md' ∧
    enFile.names "var" ⊆ trFile.names "var" ∧ (enFile.names "varexo").Perm (trFile.names "varexo") ∧
    RestatedNear whRead.env.ops trFile noValues enFile noValues (fun _ => 0) trT (fun _ v => v) ∧
    CholUpper rpChol ∧ rpSigma.r = (trFile.names "varexo").length ∧ rpSigma.r = (enFile.names "varexo").length ∧
    SameSquare (trFile.names "varexo") (enFile.names "varexo") rpSigma rpSigma ∧ Uncorrelated rpSigma ∧
    (trFile.names "varexo")[1]? = some "f" ∧ (enFile.names "varexo")[1]? = some "f" ∧
    impulseResponse rpChol (1/2) md.indexes.toTyper (.first gy gu) md.statespace.steady rpSigma 3 1 1 = .ok p ∧
    impulseResponse rpChol (1/2) md'.indexes.toTyper (.first gy' gu') md'.statespace.steady rpSigma 3 1 1 = .ok p' ∧
    p.e 2 1 = -2 ∧ p'.e 2 1 = 2 := by
  obtain ⟨md, mw, gy, gu, a1, a2, a3, a4, a5, a6, s, a7, a8, -⟩ := tr_more
  obtain ⟨md', mw', gy', gu', b1, b2, b3, b4, b5, b6, s', b7, b8, -⟩ := en_more
  have e : (fun x => trT x 0) = fun _ => 0 := by
    funext x
    simp [trT]
  obtain ⟨_, hr, c⟩ := ok_of_check (x := Space.create (ratLa 1 trQz) enT.toTyper (rowsArr 6 trRows)) (p := fun s =>
    okAnd (solveFirstOrder (ratLa 1 trQz) enT 2 s) fun g =>
    okAnd (impulseResponse rpChol (1/2) enT.toTyper (.first g.1 g.2) [0, 0] rpSigma 3 1 1) fun p => decide (p.e 2 1 = -2))
    (by decide +kernel)
  obtain ⟨_, hr', c'⟩ := ok_of_check (x := Space.create (ratLa 1 (sbQz (1/2) 2)) enT.toTyper (rowsArr 6 enRows)) (p := fun s =>
    okAnd (solveFirstOrder (ratLa 1 (sbQz (1/2) 2)) enT 2 s) fun g =>
    okAnd (impulseResponse rpChol (1/2) enT.toTyper (.first g.1 g.2) [0, 0] rpSigma 3 1 1) fun p => decide (p.e 2 1 = 2))
    (by decide +kernel)
  obtain rfl := Except.ok.inj (a7.symm.trans hr)
  obtain rfl := Except.ok.inj (b7.symm.trans hr')
  obtain ⟨_, hg, c⟩ := ok_of_check c
  obtain ⟨_, hg', c'⟩ := ok_of_check c'
  obtain rfl := Except.ok.inj (a8.symm.trans hg)
  obtain rfl := Except.ok.inj (b8.symm.trans hg')
  obtain ⟨p, hp, c⟩ := ok_of_check c
  obtain ⟨p', hp', c'⟩ := ok_of_check c'
  refine ⟨md, md', mw, mw', gy, gu, gy', gu', p, p', a1, b1, a4, by rw [e]; exact b4, a2, b2, a3, b3, fun _ h => h, .refl _,
    tr_in.restated tr_computes _, listChol_upper _, rfl, rfl, ?_, ?_, rfl, rfl, by rw [a5, a6]; exact hp,
    by rw [b5, b6]; exact hp', of_decide_eq_true c, of_decide_eq_true c'⟩
  · have hn : (enFile.names "varexo").Nodup := by decide
    have ee : trFile.names "varexo" = enFile.names "varexo" := rfl
    intro i i' j j' x y hi hi' hj hj'
    rw [ee] at hi hj
    rw [Layouts.nodup_get hn hi hi', Layouts.nodup_get hn hj hj']
  · intro i hi j hj hij
    have hi : i < 2 := hi
    have hj : j < 2 := hj
    interval_cases i <;> interval_cases j <;> first | rfl | exact absurd rfl hij

end Pynare

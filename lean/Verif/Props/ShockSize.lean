import Verif.Spec.Certainty
import Verif.Props.Order
import Verif.Props.Impulse
import Verif.Lemmas.Build
/-!
# C184: simulations and impulse responses with other standard deviations of the shocks
-/

namespace Pynare

set_option linter.unusedSectionVars false

variable {V : Type} [Field V] [LinearOrder V] [IsStrictOrderedRing V] {chol : Chol V} {half : V} {t : Typer}
  {gy gu sigma sigma' : Arr V} {ys : List V} {k : V}

/-- the factor of a multiple of a matrix -/
theorem chol_multiple (hch : CholUpper chol) (hk : 0 < k) {u u' : Arr V} (hs : sigma.Times (k * k) sigma')
    (h : chol sigma = .ok u) (h' : chol sigma' = .ok u') : ∀ i < sigma.r, ∀ j < sigma.r, u'.e i j = k * u.e i j := by
  obtain ⟨s1, s2, s3⟩ := hs
  obtain ⟨-, -, hc, -⟩ := hch.exact sigma u h
  intro i
  induction i using Nat.strong_induction_on with
  | _ i ih =>
    intro hi
    have step : ∀ j < sigma.r, u'.e i i * u'.e i j = k * k * (u.e i i * u.e i j) := by
      intro j hj
      have a := chol_step hch h hi hj
      have b := chol_step hch h' (i := i) (j := j) (by omega) (by omega)
      rw [s3 i hi j (by omega), ← a] at b
      have e : (sumTo i fun l => u'.e l i * u'.e l j) = k * k * sumTo i fun l => u.e l i * u.e l j := by
        rw [sumTo_eq, sumTo_eq, Finset.mul_sum]
        refine Finset.sum_congr rfl fun l hl => ?_
        rw [Finset.mem_range] at hl
        rw [ih l hl (by omega) i hi, ih l hl (by omega) j hj]
        ring
      rw [e, mul_add] at b
      exact add_left_cancel b
    have pos := hch.positive sigma u h i hi
    have pos' := hch.positive sigma' u' h' i (by omega)
    have diag : u'.e i i = k * u.e i i :=
      (mul_self_inj pos'.le (mul_pos hk pos).le).mp (by rw [step i hi]; ring)
    intro j hj
    have := step j hj
    rw [diag] at this
    have hne : k * u.e i i ≠ 0 := (mul_pos hk pos).ne'
    exact mul_left_cancel₀ hne (by rw [this]; ring)

/-- **C184, simulations.**  If all covariances of the shocks are those of standard deviations `k` times as large, every path
simulated to first order from the same draws deviates from the steady state `k` times as much. -/
theorem C184_simulations (hch : CholUpper chol) (hk : 0 < k) (hs : sigma.Times (k * k) sigma') {given p p' : Arr V}
    (h : simulate chol half t (.first gy gu) ys sigma given none = .ok p)
    (h' : simulate chol half t (.first gy gu) ys sigma' given none = .ok p') :
    p'.r = p.r ∧ p'.c = p.c ∧ ∀ i < p.r, ∀ c, dev ys p' i c = k * dev ys p i c := by
  unfold simulate simulShocks at h h'
  obtain ⟨sh, h1, h⟩ := Except.bind_eq_ok h
  obtain ⟨u, hu, h1⟩ := Except.bind_eq_ok h1
  obtain ⟨sh', h1', h'⟩ := Except.bind_eq_ok h'
  obtain ⟨u', hu', h1'⟩ := Except.bind_eq_ok h1'
  obtain ⟨d1, d2, d3, d4⟩ := dot_entry h1
  obtain ⟨d1', d2', d3', d4'⟩ := dot_entry h1'
  obtain ⟨e1, e2, -⟩ := hch.exact sigma u hu
  obtain ⟨e1', e2', -⟩ := hch.exact sigma' u' hu'
  have hr := hs.1
  obtain ⟨q, hq, q1, q2, q3⟩ := C50_superposition t gy gu ys ys ys ys sh sh sh' p p k 0 h h ⟨rfl, by omega⟩ ⟨rfl, by omega⟩
    (fun i _ j hj => by
      rw [d4, d4', sumTo_eq, sumTo_eq, zero_mul, add_zero, Finset.mul_sum]
      refine Finset.sum_congr rfl fun l hl => ?_
      rw [Finset.mem_range] at hl
      rw [chol_multiple hch hk hs hu hu' l (by omega) j (by omega)]
      ring) rfl (fun c _ => by ring)
  obtain rfl := Except.ok.inj (h'.symm.trans hq)
  exact ⟨q1, q2, fun i hi c => by rw [q3 i hi c]; ring⟩

/-- **C184, impulse responses.**  The response to a shock of a given number of standard deviations is `k` times as large. -/
theorem C184_impulse (hch : CholUpper chol) (hk : 0 < k) (hs : sigma.Times (k * k) sigma') {stoch : List String}
    {exog : ImpulseArg} {periods : Nat} {size : V} {p p' : Arr V}
    (h : impulseNamed chol half t (.first gy gu) ys sigma stoch exog periods size = .ok p)
    (h' : impulseNamed chol half t (.first gy gu) ys sigma' stoch exog periods size = .ok p') : p.Times k p' := by
  unfold impulseNamed at h h'
  obtain ⟨idx, h1, k1⟩ := Except.bind_eq_ok h
  obtain ⟨g, h2, k2⟩ := Except.bind_eq_ok k1
  obtain ⟨q, h3, k3⟩ := Except.bind_eq_ok k2
  rw [h1, exc_bind, h2, exc_bind] at h'
  obtain ⟨q', h3', k3'⟩ := Except.bind_eq_ok h'
  obtain rfl := Except.ok.inj k3
  obtain rfl := Except.ok.inj k3'
  obtain ⟨a, b, c⟩ := C184_simulations hch hk hs h3 h3'
  exact ⟨a, b, fun i hi j _ => c i hi j⟩

/-- covariances of the example: standard deviations three times those of `smSigma` -/
def szSigma : Arr ℚ := listArr [[36, 18], [18, 90]] 2
/-- the factors of both matrices -/
def szChol : Chol ℚ := listChol [smU, listArr [[6, 3], [0, 9]] 2]

theorem sz_times : smSigma.Times (3 * 3) szSigma := by
  refine ⟨rfl, rfl, fun i hi j hj => ?_⟩
  have hi : i < 2 := hi
  have hj : j < 2 := hj
  interval_cases i <;> interval_cases j <;> decide +kernel

example : ∃ p p', simulate szChol (1/2) smT (.first smGy smGu) smYs smSigma (listArr [[1, 0], [2, 1], [0, 1]] 2) none = .ok p ∧
    simulate szChol (1/2) smT (.first smGy smGu) smYs szSigma (listArr [[1, 0], [2, 1], [0, 1]] 2) none = .ok p' ∧
    dev smYs p 1 0 ≠ 0 ∧ dev smYs p' 1 0 = 3 * dev smYs p 1 0 := by
  obtain ⟨p, h, e⟩ := ok_of_check
    (x := simulate szChol (1/2) smT (.first smGy smGu) smYs smSigma (listArr [[1, 0], [2, 1], [0, 1]] 2) none)
    (p := fun p => decide (dev smYs p 1 0 ≠ 0 ∧ 1 < p.r)) (by decide +kernel)
  obtain ⟨p', h', -⟩ := ok_of_check
    (x := simulate szChol (1/2) smT (.first smGy smGu) smYs szSigma (listArr [[1, 0], [2, 1], [0, 1]] 2) none)
    (p := fun _ => true) (by decide +kernel)
  have e := of_decide_eq_true e
  exact ⟨p, p', h, h', e.1, (C184_simulations (listChol_upper _) (by norm_num) sz_times h h').2.2 1 e.2 0⟩

example : ∃ p p', impulseNamed szChol (1/2) smT (.first smGy smGu) smYs smSigma ["e", "u"] (.one "u") 4 1 = .ok p ∧
    impulseNamed szChol (1/2) smT (.first smGy smGu) smYs szSigma ["e", "u"] (.one "u") 4 1 = .ok p' ∧
    p.e 1 0 = 3 ∧ p'.e 1 0 = 9 ∧ p.Times 3 p' := by
  obtain ⟨p, h, e⟩ := ok_of_check
    (x := impulseNamed szChol (1/2) smT (.first smGy smGu) smYs smSigma ["e", "u"] (.one "u") 4 1)
    (p := fun p => decide (p.e 1 0 = 3)) (by decide +kernel)
  obtain ⟨p', h', e'⟩ := ok_of_check
    (x := impulseNamed szChol (1/2) smT (.first smGy smGu) smYs szSigma ["e", "u"] (.one "u") 4 1)
    (p := fun p => decide (p.e 1 0 = 9)) (by decide +kernel)
  exact ⟨p, p', h, h', of_decide_eq_true e, of_decide_eq_true e', C184_impulse (listChol_upper _) (by norm_num) sz_times h h'⟩

#print axioms C184_simulations
#print axioms C184_impulse

end Pynare

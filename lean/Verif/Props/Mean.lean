import Verif.Lemmas.Mean
import Verif.Examples.SecondOrder
import Verif.Examples.Stats
import Mathlib.Algebra.Algebra.Pi
import Mathlib.LinearAlgebra.BilinearMap
/-!
# C89: the mean of the variables
-/

namespace Pynare

open Matrix

set_option linter.unusedSectionVars false

section
variable {V : Type} [Field V] [LinearOrder V] [IsStrictOrderedRing V] {R : Type} [CommRing R] [Algebra V R]

/-- the states of a first-order process have mean zero -/
theorem FirstStep.states {t : Typer} (hp : t.drOrder.Perm (List.range t.n)) {nExog : Nat} {gy gu : Arr V}
    (hst : Stable (stateRows t gy)) {E : R →ₗ[V] V} {x u y : Nat → R} (hu : ShockMean nExog E u)
    (h : FirstStep t nExog gy gu E x u y) : ∀ b < t.nBackward, E (x b) = 0 := by
  have row : ∀ b < t.nBackward, t.drOrder[stRow t b]? = some (t.drOrder[stRow t b]?.getD 0) := by
    intro b hb
    rw [drState_row hp hb]; rfl
  intro b hb
  refine stable_fixed (x := fun b => E (x b)) hst (fun i hi => ?_) hb
  rw [← h.mean i hi, show stateVals t y i = _ from h.policy _ _ (row i hi), map_add, E_combine, E_combine,
    sumTo_congr (n := nExog) (g := fun _ => 0) (fun k hk => by rw [hu.zero k hk, mul_zero])]
  simp [sumTo_eq]

/-- and so have all variables -/
theorem FirstStep.all {t : Typer} (hp : t.drOrder.Perm (List.range t.n)) {nExog : Nat} {gy gu : Arr V}
    (hst : Stable (stateRows t gy)) {E : R →ₗ[V] V} {x u y : Nat → R} (hu : ShockMean nExog E u)
    (h : FirstStep t nExog gy gu E x u y) {i c : Nat} (hc : t.drOrder[i]? = some c) : E (y c) = 0 := by
  rw [h.policy i c hc, map_add, E_combine, E_combine,
    sumTo_congr (n := nExog) (g := fun _ => 0) (fun k hk => by rw [hu.zero k hk, mul_zero]),
    sumTo_congr (g := fun _ => 0) (fun k hk => by rw [h.states hp hst hu k hk, mul_zero])]
  simp [sumTo_eq]

/-- **C89**, first order: the reported mean is the mean of every stationary process that follows the
first-order solution. -/
theorem C89_first (la : LinAlg V) (lyap : Lyap V) (half : V) (t : Typer) (s : Space V) (gy gu sigma : Arr V)
    (sh : SolutionShape t gy gu) (hst : Stable (stateRows t gy)) (sol : SecondNd V) (ss : Nat → V) (E : R →ₗ[V] V)
    (x u y : Nat → R) (hu : ShockMean gu.c E u) (h1 : FirstStep t gu.c gy gu E x u y) :
    ∃ e, mean la lyap half 1 t s gy gu sigma sol ss = .ok (.vec t.n e) ∧
      ∀ c < t.n, e c = E (ss c • 1 + y c) := by
  refine ⟨ss, rfl, fun c hc => ?_⟩
  obtain ⟨i, -, hi⟩ := (C30_inverse t sh.perm).2.1 c hc
  rw [map_add, map_smul, hu.one, h1.all sh.perm hst hu hi]
  simp

/-- **C89**, other orders: a mean is never reported for a solution of an order other than one or two, whatever the
linear algebra returns. -/
theorem C89_other_orders (la : LinAlg V) (lyap : Lyap V) (half : V) (order : Nat) (t : Typer) (s : Space V)
    (gy gu sigma : Arr V) (sol : SecondNd V) (ss : Nat → V) (e : Nd V)
    (h : mean la lyap half order t s gy gu sigma sol ss = .ok e) : order = 1 ∨ order = 2 := by
  unfold mean at h
  split at h
  · exact .inl ‹_›
  · split at h
    · exact .inr ‹_›
    · cases h

/-- the second moments of the states are those reported -/
theorem SecondStep.stateVar {t : Typer} {nExog : Nat} {gy gu sigma : Arr V}
    (sh : SolutionShape t gy gu) (hne : gu.c = nExog) (hst : Stable (stateRows t gy)) {sol : SecondNd V} {E : R →ₗ[V] V}
    {x w u y z : Nat → R} (h1 : FirstStep t nExog gy gu E x u y)
    (h2 : SecondStep t nExog gy sigma sol E x w u y z) {Y : Arr V}
    (hY : Y.toM t.nBackward t.nBackward = aM t gy * Y.toM t.nBackward t.nBackward * (aM t gy)ᵀ +
      bM t gu.c gu * sigma.toM gu.c gu.c * (bM t gu.c gu)ᵀ) :
    ∀ a < t.nBackward, ∀ b < t.nBackward, E (x a * x b) = Y.e a b := by
  subst hne
  let M : Matrix (Fin t.nBackward) (Fin t.nBackward) V := Matrix.of fun a b => E (x a * x b)
  have hM : M = aM t gy * M * (aM t gy)ᵀ + bM t gu.c gu * sigma.toM gu.c gu.c * (bM t gu.c gu)ᵀ := by
    let cov : R →ₗ[V] R →ₗ[V] V := LinearMap.mk₂ V (fun a b => E (a * b))
      (fun a b c => by rw [add_mul, map_add]) (fun r a b => by rw [smul_mul_assoc, map_smul])
      (fun a b c => by rw [mul_add, map_add]) (fun r a b => by rw [mul_smul_comm, map_smul])
    have hy : (fun b : Fin t.nBackward => stateVals t y b) = fun b =>
        act (aM t gy) (fun j : Fin t.nBackward => x j) b + act (bM t gu.c gu) (fun l : Fin gu.c => u l) b := by
      funext b
      have row : t.drOrder[stRow t b]? = some (t.drOrder[stRow t b]?.getD 0) := by rw [drState_row sh.perm b.2]; rfl
      rw [show stateVals t y b = _ from h1.policy _ _ row, toM_sum, toM_sum]
      rfl
    have e1 : M = covM cov (fun b : Fin t.nBackward => stateVals t y b) fun b : Fin t.nBackward => stateVals t y b := by
      ext a b
      exact (h2.moments a a.2 b b.2).symm
    have e2 : covM cov (fun j : Fin t.nBackward => x j) (fun l : Fin gu.c => u l) = 0 := by
      ext a k; exact h2.apart a a.2 k k.2
    have e3 : covM cov (fun l : Fin gu.c => u l) (fun j : Fin t.nBackward => x j) = 0 := by
      ext k a
      show E (u k * x a) = 0
      rw [mul_comm]; exact h2.apart a a.2 k k.2
    have e4 : covM cov (fun l : Fin gu.c => u l) (fun l : Fin gu.c => u l) = sigma.toM gu.c gu.c := by
      ext k l; exact h2.shocks k k.2 l l.2
    have e5 : covM cov (fun j : Fin t.nBackward => x j) (fun j : Fin t.nBackward => x j) = M := rfl
    refine e1.trans ?_
    rw [hy, covM_add_left, covM_add_right, covM_add_right]
    simp only [covM_act_left, covM_act_right, e2, e3, e4, e5, Matrix.mul_zero, Matrix.zero_mul, add_zero, zero_add,
      Matrix.mul_assoc]
  have := lyapunov_unique (stable_vanish hst) hM hY
  intro a ha b hb
  exact congrFun (congrFun this ⟨a, ha⟩) ⟨b, hb⟩

/-- **C89**, second order, partial.  The property says that the reported mean is that of every stationary
process that follows the second-order solution.  In fact it departs from the steady state by exactly half as
much: the arrays of the solution object contain the factor one half already. -/
theorem C89_half_partial (la : LinAlg V) (ex : la.Exact) (qz : Arr V → Arr V → Except Err (GQZ V))
    (hqz : GQZExact qz) (lyap : Lyap V) (ly : LyapExact lyap) (half : V) (hhalf : 2 * half = 1)
    (pss : List (List Int)) (t : Llx) (ht : buildLlx pss = .ok t) (hcur : ∀ c < t.n, t.has 1 c = true)
    (hstate : t.state ≠ []) (nExog : Nat) (J H sigma gy gu : Arr V) (hgy : gy.r = t.n ∧ gy.c = t.nBackward)
    (hgu : gu.r = t.n ∧ gu.c = nExog) (hH : H.r = t.n) (hsig : sigma.r = nExog ∧ sigma.c = nExog)
    (hst : Stable (stateRows t.toTyper gy)) (sol : SecondNd V)
    (h : solveSecondOrder la qz half t.toTyper nExog J H sigma (Nd.mat gy).squeeze (Nd.mat gu).squeeze = .ok sol)
    (s : Space V) (ss : Nat → V) (m : Nd V)
    (hm : mean la lyap half 2 t.toTyper s gy gu sigma (sol.stored half) ss = .ok m)
    (E : R →ₗ[V] V) (x w u y z : Nat → R) (hu : ShockMean nExog E u)
    (h1 : FirstStep t.toTyper nExog gy gu E x u y)
    (h2 : SecondStep t.toTyper nExog gy sigma (sol.stored half) E x w u y z) :
    ∃ e, m = .vec t.n e ∧ ∀ c < t.n, 2 * (e c - ss c) = E (ss c • 1 + y c + z c) - ss c := by
  obtain ⟨hgu1, rfl⟩ := hgu
  obtain ⟨P⟩ := secondParts ex hqz ht hcur hstate hgy ⟨hgu1, rfl⟩ hH hsig h
  have g := P.g
  have hp := g.perm
  have hnb : t.nBackward = t.nT := (C31_sizes t.toTyper).2.2.2.1
  have isX := P.isX.map (half * ·)
  have isW := P.isW.map (half * ·)
  have isd := P.isd
  rw [← hnb] at isX
  obtain ⟨Y, q, e, hY, hq, he, hme⟩ := meanSecond_ok ex ly hp hgy.1 hgy.2 hgu1 P.n1 (sol := sol.stored half)
    isX isW isd hm
  obtain ⟨-, -, -, -, hL⟩ := stateVar_spec ly hp hgy.1 hgy.2 hgu1 P.n1 hY
  have hxx := h2.stateVar ⟨hp, hgy.1, hgy.2, hgu1⟩ rfl hst h1 hL
  -- the mean of the second-order part
  have hz : ∀ i c, t.drOrder[i]? = some c → E (z c) = (sumTo t.nBackward fun a => gy.e i a * E (w a)) + 2 * q i := by
    intro i c hc
    have hi : i < t.n := by
      have := (List.getElem?_eq_some_iff.mp hc).1
      rw [hp.length_eq] at this
      simpa using this
    have tX := isX.to2.2.2 i hi
    have tW := isW.to2.2.2 i hi
    have td := isd.to2.2.2 i hi 0 (by omega)
    rw [h2.policy i c hc, map_add, map_add, map_add, map_add, E_combine, E_quad, E_quad, E_quad, map_smul, hu.one, hq i hi]
    have a1 : (sumTo t.nBackward fun a => sumTo t.nBackward fun b =>
        (sol.stored half).ghxx.to2.e i (a * t.nBackward + b) * E (x a * x b)) =
        sumTo t.nBackward fun a => sumTo t.nBackward fun b => half * P.X.e i (a * t.nBackward + b) * Y.e a b := by
      refine sumTo_congr fun a ha => sumTo_congr fun b hb => ?_
      rw [hxx a ha b hb]
      congr 1
      exact tX _ (mul_add_lt ha hb)
    have a2 : (sumTo t.nBackward fun a => sumTo gu.c fun b =>
        (sol.stored half).ghxu.to2.e i (a * gu.c + b) * E (x a * u b)) = 0 := by
      rw [sumTo_congr (g := fun _ => 0) fun a ha => ?_]
      · simp [sumTo_eq]
      · rw [sumTo_congr (g := fun _ => 0) fun b hb => by rw [h2.apart a ha b hb, mul_zero]]
        simp [sumTo_eq]
    have a3 : (sumTo gu.c fun a => sumTo gu.c fun b =>
        (sol.stored half).ghuu.to2.e i (a * gu.c + b) * E (u a * u b)) =
        sumTo gu.c fun a => sumTo gu.c fun b => half * P.W i (a * gu.c + b) * sigma.e a b := by
      refine sumTo_congr fun a ha => sumTo_congr fun b hb => ?_
      rw [h2.shocks a ha b hb]
      congr 1
      exact (tW _ (mul_add_lt ha hb))
    rw [a1, a2, a3]
    have td : (sol.stored half).del2.to2.e i 0 = half * P.d i := td
    rw [td, smul_eq_mul]
    linear_combination (-(half * P.d i) - (sumTo t.nBackward fun a => sumTo t.nBackward fun b =>
      half * P.X.e i (a * t.nBackward + b) * Y.e a b) - sumTo gu.c fun a => sumTo gu.c fun b =>
        half * P.W i (a * gu.c + b) * sigma.e a b) * hhalf
  -- the mean of the states
  have hw : ∀ b < t.nBackward, E (w b) = 2 * e b := by
    intro b hb
    have := stable_fixed (x := fun b => E (w b) - 2 * e b) hst (fun i hi => ?_) hb
    · exact sub_eq_zero.mp this
    · have row : t.drOrder[stRow t.toTyper i]? = some (t.drOrder[stRow t.toTyper i]?.getD 0) := by
        rw [drState_row hp hi]; rfl
      have e1 := hz _ _ row
      rw [show E (z (t.drOrder[stRow t.toTyper i]?.getD 0)) = E (w i) from h2.mean i hi] at e1
      have e2 : (sumTo t.nBackward fun k => gy.e (stRow t.toTyper i) k * (E (w k) - 2 * e k)) =
          1 * (sumTo t.nBackward fun k => gy.e (stRow t.toTyper i) k * E (w k)) +
            (-2) * sumTo t.nBackward fun k => gy.e (stRow t.toTyper i) k * e k := by
        rw [← sumTo_linear]
        exact sumTo_congr fun k _ => by ring
      rw [e2]
      linear_combination e1 - 2 * he i hi
  cases m with
  | num a => exact hme.elim
  | mat a => exact absurd rfl hme.1
  | vec n f =>
    obtain ⟨-, rfl, hf⟩ := hme
    refine ⟨f, rfl, fun c hc => ?_⟩
    obtain ⟨i, hi1, hi2⟩ := (C30_inverse t.toTyper hp).2.1 c hc
    have hdc : dcRow t.toTyper c = i := by unfold dcRow; rw [hi1]; rfl
    rw [hf c hc]
    dsimp only
    rw [map_add, map_add, map_smul, hu.one, h1.all hp hst hu hi2, hz i c hi2, hdc, smul_eq_mul]
    have e3 : (sumTo t.nBackward fun a => gy.e i a * E (w a)) = 2 * sumTo t.nBackward fun a => gy.e i a * e a := by
      rw [sumTo_eq, sumTo_eq, Finset.mul_sum, ← sumTo_eq, ← sumTo_eq]
      exact sumTo_congr fun a ha => by rw [hw a ha]; ring
    rw [e3]
    ring

end

/-! ### examples -/

/-- a state space with two explosive roots -/
def so1Space : Space ℚ := ⟨Arr.zeros 0 0, Arr.zeros 0 0, Arr.zeros 0 0,
  ⟨[stab, expl, expl], Arr.zeros 0 0, Arr.zeros 0 0, Arr.zeros 0 0, Arr.zeros 0 0, Arr.zeros 0 0, Arr.zeros 0 0⟩⟩

/-- the state returns to the steady state -/
theorem so1_stable : Stable (stateRows so1T.toTyper so1Gy) := by
  refine stable_of_weights (fun _ => 1) (ρ := 1/2) (fun _ _ => by norm_num) (by norm_num) (by norm_num) ?_
  intro i hi
  have hi : i < 1 := hi
  interval_cases i
  decide +kernel

/-- six outcomes: the state is -4, 4 or 0 with probabilities 1/6, 1/6 and 2/3, the shock is -2 or 2 -/
abbrev Outcome := Fin 3 × Bool

/-- the expectation -/
def so1E : (Outcome → ℚ) →ₗ[ℚ] ℚ where
  toFun f := (f (0, false) + f (0, true) + f (1, false) + f (1, true) + 4 * (f (2, false) + f (2, true))) / 12
  map_add' f g := by simp only [Pi.add_apply]; ring
  map_smul' r f := by simp only [Pi.smul_apply, smul_eq_mul, RingHom.id_apply]; ring

/-- last period's state -/
def so1x : Nat → Outcome → ℚ := fun _ o => if o.1 = 0 then -4 else if o.1 = 1 then 4 else 0
/-- the shock -/
def so1u : Nat → Outcome → ℚ := fun _ o => if o.2 then 2 else -2
/-- the second-order part of last period's state -/
def so1w : Nat → Outcome → ℚ := fun _ _ => 32/3
/-- this period's variables, to first order -/
def so1y : Nat → Outcome → ℚ := fun c o =>
  (sumTo 1 fun a => so1Gy.e c a * so1x a o) + sumTo 1 fun k => so1Gu.e c k * so1u k o

/-- this period's variables, to second order -/
def so1z (s : SecondNd ℚ) : Nat → Outcome → ℚ := fun c =>
  (sumTo 1 fun a => so1Gy.e c a • so1w a) + quadRandom s.ghxx.to2 c 1 so1x 1 so1x + quadRandom s.ghxu.to2 c 1 so1x 1 so1u +
    quadRandom s.ghuu.to2 c 1 so1u 1 so1u + s.del2.to2.e c 0 • 1

theorem so1_order : so1T.drOrder = [0, 1, 2] := by decide +kernel

theorem so1_pos {i c : Nat} (h : so1T.drOrder[i]? = some c) : c = i := by
  rw [so1_order] at h
  match i with
  | 0 => exact (Option.some.inj h).symm
  | 1 => exact (Option.some.inj h).symm
  | 2 => exact (Option.some.inj h).symm
  | i + 3 => simp at h

theorem so1_shocks : ShockMean 1 so1E so1u :=
  ⟨by decide +kernel, fun k _ => by simp [so1E, so1u]⟩

theorem so1_state {α : Type} (y : Nat → α) {b : Nat} (hb : b < so1T.nBackward) : stateVals so1T.toTyper y b = y 0 := by
  have hb : b < 1 := hb
  interval_cases b
  unfold stateVals
  congr 1

theorem so1_first : FirstStep so1T.toTyper 1 so1Gy so1Gu so1E so1x so1u so1y where
  policy i c h := by
    rw [so1_pos h]
    funext o
    show so1y i o = _
    simp [so1y, sumTo, show so1T.nBackward = 1 from rfl]
  mean b hb := by
    rw [so1_state _ hb]
    show so1E (so1y 0) = so1E (so1x 0)
    decide +kernel

/-- the coefficients of the state and the reported means -/
theorem so1_mean : ∃ (s : SecondNd ℚ) (m : Nd ℚ), so1S = .ok s ∧
    mean soLa (ratLyap [listArr [[16/3]] 1]) (1/2) 2 so1T.toTyper so1Space so1Gy so1Gu so1Sigma (s.stored (1/2))
      (fun _ => 0) = .ok m ∧
    m.to2.e 0 0 = 16/3 ∧ (s.stored (1/2)).ghxx.to2.e 0 0 = 1 ∧ (s.stored (1/2)).ghxu.to2.e 0 0 = 1 ∧
    (s.stored (1/2)).ghuu.to2.e 0 0 = 0 ∧ (s.stored (1/2)).del2.to2.e 0 0 = 0 := by
  obtain ⟨s, hs, h⟩ := ok_of_check (x := so1S)
    (p := fun s => okAnd (mean soLa (ratLyap [listArr [[16/3]] 1]) (1/2) 2 so1T.toTyper so1Space so1Gy so1Gu so1Sigma
      (s.stored (1/2)) (fun _ => 0)) fun m => decide (m.to2.e 0 0 = 16/3 ∧ (s.stored (1/2)).ghxx.to2.e 0 0 = 1 ∧
        (s.stored (1/2)).ghxu.to2.e 0 0 = 1 ∧ (s.stored (1/2)).ghuu.to2.e 0 0 = 0 ∧ (s.stored (1/2)).del2.to2.e 0 0 = 0))
    (by decide +kernel)
  obtain ⟨m, hm, h'⟩ := ok_of_check h
  exact ⟨s, m, hs, hm, of_decide_eq_true h'⟩

theorem so1_second {s : SecondNd ℚ} (h1 : s.ghxx.to2.e 0 0 = 1) (h2 : s.ghxu.to2.e 0 0 = 1)
    (h3 : s.ghuu.to2.e 0 0 = 0) (h4 : s.del2.to2.e 0 0 = 0) :
    SecondStep so1T.toTyper 1 so1Gy so1Sigma s so1E so1x so1w so1u so1y (so1z s) where
  policy i c h := by rw [so1_pos h]; rfl
  shocks k hk l hl := by
    interval_cases k
    interval_cases l
    decide +kernel
  apart a ha k hk := by
    show so1E (so1x 0 * so1u 0) = 0
    decide +kernel
  moments a ha b hb := by
    rw [so1_state _ ha, so1_state _ hb]
    show so1E (so1y 0 * so1y 0) = so1E (so1x 0 * so1x 0)
    decide +kernel
  mean b hb := by
    rw [so1_state _ hb]
    have e : so1z s 0 = fun o => 1/2 * (32/3) + so1x 0 o * so1x 0 o + so1x 0 o * so1u 0 o := by
      funext o
      have g0 : so1Gy.e 0 0 = 1/2 := rfl
      simp [so1z, quadRandom, sumTo, h1, h2, h3, h4, g0, so1w]
    rw [e]
    show so1E _ = so1E (so1w 0)
    decide +kernel

/-- **C89 is false** for second-order solutions.  In the model `x = x(-1)/2 + x(-1)^2 + x(-1)*e + e`, with a
shock of variance four, the reported mean of `x` is 16/3, but that of a stationary process which follows the
second-order solution is 32/3. -/
theorem C89_false : ∃ (s : SecondNd ℚ) (m : Nat → ℚ) (w z : Nat → Outcome → ℚ), so1S = .ok s ∧
    mean soLa (ratLyap [listArr [[16/3]] 1]) (1/2) 2 so1T.toTyper so1Space so1Gy so1Gu so1Sigma (s.stored (1/2))
      (fun _ => 0) = .ok (.vec 3 m) ∧
    ShockMean 1 so1E so1u ∧ FirstStep so1T.toTyper 1 so1Gy so1Gu so1E so1x so1u so1y ∧
    SecondStep so1T.toTyper 1 so1Gy so1Sigma (s.stored (1/2)) so1E so1x w so1u so1y z ∧
    m 0 = 16/3 ∧ so1E ((0 : ℚ) • 1 + so1y 0 + z 0) = 32/3 := by
  obtain ⟨s, m, hs, hm, m0, h1, h2, h3, h4⟩ := so1_mean
  have hz := so1_second h1 h2 h3 h4
  obtain ⟨e, rfl, he⟩ := C89_half_partial soLa soLa_exact triQz triQz_exact _ (ratLyap_exact _) (1/2) (by norm_num)
    [[-1, 0], [0, 1], [0, 1]] so1T rfl (by decide) (by decide) 1 so1J so1H so1Sigma so1Gy so1Gu ⟨rfl, rfl⟩ ⟨rfl, rfl⟩
    rfl ⟨rfl, rfl⟩ so1_stable s hs so1Space (fun _ => 0) m hm so1E so1x so1w so1u so1y (so1z (s.stored (1/2)))
    so1_shocks so1_first hz
  have m0 : e 0 = 16/3 := m0
  refine ⟨s, e, so1w, _, hs, hm, so1_shocks, so1_first, hz, m0, ?_⟩
  have := he 0 (by decide)
  rw [m0] at this
  linarith

/-- the hypotheses of `C89_first` are met as well -/
example : ∃ e, mean soLa (ratLyap []) (1/2) 1 so1T.toTyper so1Space so1Gy so1Gu so1Sigma
      ⟨.num 0, .num 0, .num 0, .num 0⟩ (fun c => (c : ℚ)) = .ok (.vec 3 e) ∧
    ∀ c < 3, e c = so1E ((c : ℚ) • 1 + so1y c) :=
  C89_first soLa _ (1/2) so1T.toTyper so1Space so1Gy so1Gu so1Sigma ⟨by decide +kernel, rfl, rfl, rfl⟩ so1_stable _ _
    so1E so1x so1u so1y so1_shocks so1_first

#print axioms C89_first
#print axioms C89_other_orders
#print axioms C89_half_partial
#print axioms C89_false

end Pynare

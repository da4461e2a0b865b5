import Verif.Lemmas.SecondMain
import Verif.Examples.SecondOrder
import Verif.Props.FirstOrder
/-!
# C85 to C88: the second-order solution
-/

namespace Pynare

variable {V : Type} [CommRing V] [DecidableEq V]

set_option linter.unusedSectionVars false

open Nd (kronEnt)

/-! ### C85: the second-order terms solve the equations to second order -/

/-- **C85.** Whenever `solve` of order two returns, its arrays make the second-order part of every equation
vanish: for all values `ym` of last period's variables and all shocks `u`, half the second derivative of the
equation in the direction in which the first-order solution moves its arguments plus what the second-order
terms of this period and the next contribute is zero.  `s.stored half` are the arrays the solution object
holds. -/
theorem C85_second_order (la : LinAlg V) (ex : la.Exact) (qz : Arr V → Arr V → Except Err (GQZ V))
    (hqz : GQZExact qz) (half : V) (hhalf : 2 * half = 1) (pss : List (List Int)) (t : Llx)
    (ht : buildLlx pss = .ok t) (hcur : ∀ c < t.n, t.has 1 c = true) (hstate : t.state ≠ []) (nExog : Nat)
    (J H sigma gy gu : Arr V) (hgy : gy.r = t.n ∧ gy.c = t.nBackward) (hgu : gu.r = t.n ∧ gu.c = nExog)
    (hH : H.r = t.n) (hsym : SymmetricHessian t nExog H) (hsig : sigma.r = nExog ∧ sigma.c = nExog)
    (s : SecondNd V)
    (h : solveSecondOrder la qz half t.toTyper nExog J H sigma (Nd.mat gy).squeeze (Nd.mat gu).squeeze = .ok s)
    (ym u y yp q q' : Nat → V) (hy : FollowsPolicy t.toTyper nExog gy gu ym u y)
    (hyp : FollowsPolicy t.toTyper nExog gy gu y (fun _ => 0) yp)
    (hq : SecondTerms t.toTyper nExog (s.stored half) ym u q)
    (hq' : NextTerms t.toTyper (s.stored half) gy y q q') :
    ∀ i < t.n, half * curvature t nExog H i ⟨ym, y, yp, u⟩ ⟨ym, y, yp, u⟩ +
      linearised t nExog J i (fun _ => 0) q q' (fun _ => 0) = 0 := by
  obtain ⟨P⟩ := secondParts ex hqz ht hcur hstate hgy hgu hH hsig h
  have g := P.g
  have hnb : t.nBackward = t.nT := (C31_sizes t.toTyper).2.2.2.1
  obtain ⟨n1, n2⟩ := nSum g
  have symH := hess_symm g P.count P.ho P.hh hsym
  have symX := ghxx_symm P.eqX P.uniqX symH
  have tX := (P.isX.map (half * ·)).to2
  have tY := P.isY.to2
  have tW := (P.isW.map (half * ·)).to2
  have hYa : ∀ k, quadForm ⟨t.n, t.nT * nExog, P.Y⟩ k t.nT (stateVals t.toTyper ym) nExog u =
      sumTo t.nT fun a => sumTo nExog fun b => P.Y k (a * nExog + b) * (stateVals t.toTyper ym a * u b) :=
    fun k => rfl
  -- the second-order terms in decision-rule order
  have q1 : ∀ k < t.n, q (t.dr k) = half * quadForm P.X k t.nT (stateVals t.toTyper ym) t.nT (stateVals t.toTyper ym) +
      quadForm ⟨t.n, t.nT * nExog, P.Y⟩ k t.nT (stateVals t.toTyper ym) nExog u +
      half * quadForm ⟨t.n, nExog * nExog, P.W⟩ k nExog u nExog u := by
    intro k hk
    rw [hq k _ (dr_get g hk), hnb]
    congr 1
    · congr 1
      · exact quadForm_scale fun a ha b hb => tX.2.2 k hk _ (mul_add_lt ha hb)
      · exact quadForm_congr (fun a ha b hb => tY.2.2 k hk _ (mul_add_lt ha hb)) (fun _ _ => rfl) fun _ _ => rfl
    · exact quadForm_scale fun a ha b hb => tW.2.2 k hk _ (mul_add_lt ha hb)
  have q2 : ∀ j < t.n, q' (t.dr j) = (sumTo t.nT fun b => gy.e j b * q (t.dr (t.nS + b))) +
      half * quadForm P.X j t.nT (stateVals t.toTyper y) t.nT (stateVals t.toTyper y) := by
    intro j hj
    rw [hq' j _ (dr_get g hj), hnb]
    congr 1
    · exact sumTo_congr fun b hb => by rw [stateVals_eq g q hb]
    · exact quadForm_scale fun a ha b hb => tX.2.2 j hj _ (mul_add_lt ha hb)
  intro i hi
  rw [linearised_AC g P.eA P.eC q2 hi, curvature_stack g P.count P.ho P.hh]
  -- the directions
  have st : ∀ p < t.count + nExog, stackDr t.toTyper ⟨ym, y, yp, u⟩ p =
      (sumTo t.nT fun j => zxEnt t.toTyper gy.e p j * stateVals t.toTyper ym j) +
        sumTo nExog fun k => zuEnt t.toTyper gy.e gu.e p k * u k := fun p hp =>
    stack_policy g hy hyp p (by rw [← P.count]; exact hp)
  have ys : ∀ p < t.nT, stateVals t.toTyper y p =
      (sumTo t.nT fun j => gy.e (t.nS + p) j * stateVals t.toTyper ym j) +
        sumTo nExog fun k => gu.e (t.nS + p) k * u k := fun p hp => by
    rw [stateVals_eq g y hp, follows_dr g hy (by omega)]
  have eH : hessForm P.hess (t.count + nExog) i (stackDr t.toTyper ⟨ym, y, yp, u⟩)
      (stackDr t.toTyper ⟨ym, y, yp, u⟩) = _ :=
    (quadForm_congr (X' := P.hess) (fun _ _ _ _ => rfl) st st).trans (quadForm_add (symH i hi))
  have eX : ∀ k < t.n, quadForm P.X k t.nT (stateVals t.toTyper y) t.nT (stateVals t.toTyper y) = _ := fun k hk =>
    (quadForm_congr (X' := P.X) (fun _ _ _ _ => rfl) ys ys).trans (quadForm_add (symX k hk))
  have c1 := contract (P.eqX i hi) (stateVals t.toTyper ym) (stateVals t.toTyper ym)
  have c2 := contract (P.eqY i hi) (stateVals t.toTyper ym) u
  have c3 := contract (P.eqW i hi) u u
  rw [eH]
  rw [sumTo_congr (f := fun k => P.A.e i k * q (t.dr k)) fun k hk => by rw [q1 k hk],
    sumTo_congr (f := fun k => P.C.e i k * (half * quadForm P.X k t.nT (stateVals t.toTyper y) t.nT
      (stateVals t.toTyper y))) fun k hk => by rw [eX k hk]]
  have lin : ∀ (M : Arr V) (a b c : Nat → V) (x y z : V), (sumTo t.n fun k => M.e i k * (x * a k + y * b k + z * c k)) =
      x * (sumTo t.n fun k => M.e i k * a k) + y * (sumTo t.n fun k => M.e i k * b k) +
        z * sumTo t.n fun k => M.e i k * c k := by
    intro M a b c x y z
    simp only [sumTo_eq, Finset.mul_sum, ← Finset.sum_add_distrib]
    exact Finset.sum_congr rfl fun k _ => by ring
  have l1 := lin P.A (fun k => quadForm P.X k t.nT (stateVals t.toTyper ym) t.nT (stateVals t.toTyper ym))
    (fun k => quadForm ⟨t.n, t.nT * nExog, P.Y⟩ k t.nT (stateVals t.toTyper ym) nExog u)
    (fun k => quadForm ⟨t.n, nExog * nExog, P.W⟩ k nExog u nExog u) half 1 half
  simp only [one_mul] at l1
  rw [l1]
  have l2 := fun (a b c : Nat → V) => lin P.C a b c half 1 half
  have l3 : ∀ (a b c : Nat → V), (sumTo t.n fun k => P.C.e i k * (half * (a k + 2 * b k + c k))) =
      half * (sumTo t.n fun k => P.C.e i k * a k) + (sumTo t.n fun k => P.C.e i k * b k) +
        half * sumTo t.n fun k => P.C.e i k * c k := by
    intro a b c
    have := l2 a b c
    rw [one_mul] at this
    rw [← this]
    refine sumTo_congr fun k _ => ?_
    rw [show half * (a k + 2 * b k + c k) = half * a k + (2 * half) * b k + half * c k by ring, hhalf]
  have l3' := l3
    (fun k => quadForm P.X k t.nT (fun p => sumTo t.nT fun j => gy.e (t.nS + p) j * stateVals t.toTyper ym j) t.nT
      fun p => sumTo t.nT fun j => gy.e (t.nS + p) j * stateVals t.toTyper ym j)
    (fun k => quadForm P.X k t.nT (fun p => sumTo t.nT fun j => gy.e (t.nS + p) j * stateVals t.toTyper ym j) t.nT
      fun p => sumTo nExog fun j => gu.e (t.nS + p) j * u j)
    (fun k => quadForm P.X k t.nT (fun p => sumTo nExog fun j => gu.e (t.nS + p) j * u j) t.nT
      fun p => sumTo nExog fun j => gu.e (t.nS + p) j * u j)
  rw [l3']
  change _ = - quadForm P.hess i (t.count + nExog) _ (t.count + nExog) _ at c1 c2 c3
  change _ + (sumTo t.n fun k => P.C.e i k * quadForm P.X k t.nT _ t.nT _) = _ at c1 c2 c3
  change (sumTo t.n fun k => P.A.e i k * quadForm P.X k t.nT _ t.nT _) + _ = _ at c1
  change (sumTo t.n fun k => P.A.e i k * quadForm ⟨t.n, t.nT * nExog, P.Y⟩ k t.nT _ nExog _) + _ = _ at c2
  change (sumTo t.n fun k => P.A.e i k * quadForm ⟨t.n, nExog * nExog, P.W⟩ k nExog _ nExog _) + _ = _ at c3
  linear_combination half * c1 + c2 + half * c3 + quadForm P.hess i (t.count + nExog)
    (fun p => sumTo t.nT fun a => zxEnt t.toTyper gy.e p a * stateVals t.toTyper ym a) (t.count + nExog)
    (fun p => sumTo nExog fun b => zuEnt t.toTyper gy.e gu.e p b * u b) * hhalf

/-! ### C86: the correction for risk -/

/-- only leads -/
theorem linearised_lead {t : Llx} (g : Groups t.toTyper) (nExog : Nat) (A : Arr V) (i : Nat) (yp : Nat → V) :
    linearised t nExog A i (fun _ => 0) (fun _ => 0) yp (fun _ => 0) =
      sumTo t.nF fun f => A.e i (t.col 2 (t.f0 + f)) * yp (t.dr (t.f0 + f)) := by
  unfold linearised
  rw [rowPart_lag' g, rowPart_lead' g, rowPart_cur' g]
  have z : ∀ (n : Nat) (f : Nat → V), (sumTo n fun k => f k * (0 : V)) = 0 := by
    intro n f; rw [sumTo_eq]; exact Finset.sum_eq_zero fun k _ => by ring
  rw [z, z, z, add_zero, add_zero, add_zero]

theorem sumTo_square (ne : Nat) (f : Nat → V) :
    sumTo (ne * ne) f = sumTo ne fun j => sumTo ne fun k => f (j * ne + k) := by
  have := Nd.sum_kron (A := (⟨1, ne * ne, fun _ m => f m⟩ : Arr V)) (i := 0) (r := ne) (r' := ne)
    (f := fun _ => 1) (g := fun _ => 1)
  simp only [mul_one] at this
  exact this

/-- **C86.** The constant of the second-order solution corrects exactly for risk: if `lead j` is the response
of next period's variables to a unit shock `j`, half the sum over all pairs of shocks of covariance times
second derivative of the equation in these directions plus what the constants of this period and the next
contribute is zero. -/
theorem C86_risk (la : LinAlg V) (ex : la.Exact) (qz : Arr V → Arr V → Except Err (GQZ V))
    (hqz : GQZExact qz) (half : V) (pss : List (List Int)) (t : Llx)
    (ht : buildLlx pss = .ok t) (hcur : ∀ c < t.n, t.has 1 c = true) (hstate : t.state ≠ []) (nExog : Nat)
    (J H sigma gy gu : Arr V) (hgy : gy.r = t.n ∧ gy.c = t.nBackward) (hgu : gu.r = t.n ∧ gu.c = nExog)
    (hH : H.r = t.n) (hsig : sigma.r = nExog ∧ sigma.c = nExog)
    (s : SecondNd V)
    (h : solveSecondOrder la qz half t.toTyper nExog J H sigma (Nd.mat gy).squeeze (Nd.mat gu).squeeze = .ok s)
    (lead : Nat → Nat → V) (hlead : ∀ j < nExog, FollowsPolicy t.toTyper nExog gy gu (fun _ => 0)
      (fun k => if k = j then 1 else 0) (lead j))
    (c e : Nat → V) (hc : RiskTerm t.toTyper (s.stored half) c)
    (he : RiskNext t.toTyper nExog (s.stored half) gy sigma c e) :
    ∀ i < t.n, half * (overShocks nExog sigma fun j k => curvature t nExog H i
        ⟨fun _ => 0, fun _ => 0, lead j, fun _ => 0⟩ ⟨fun _ => 0, fun _ => 0, lead k, fun _ => 0⟩) +
      linearised t nExog J i (fun _ => 0) c e (fun _ => 0) = 0 := by
  obtain ⟨P⟩ := secondParts ex hqz ht hcur hstate hgy hgu hH hsig h
  have g := P.g
  have hnb : t.nBackward = t.nT := (C31_sizes t.toTyper).2.2.2.1
  obtain ⟨n1, n2⟩ := nSum g
  have td := P.isd.to2
  have tW := (P.isW.map (half * ·)).to2
  have c1 : ∀ k < t.n, c (t.dr k) = half * P.d k := by
    intro k hk
    rw [hc k _ (dr_get g hk)]
    exact td.2.2 k hk 0 (by omega)
  have e1 : ∀ k < t.n, e (t.dr k) = half * (P.d k + (sumTo t.nT fun b => gy.e k b * P.d (t.nS + b)) +
      overShocks nExog sigma fun a b => P.W k (a * nExog + b)) := by
    intro k hk
    rw [he k _ (dr_get g hk), c1 k hk, hnb, mul_add, mul_add]
    congr 1
    · congr 1
      simp only [sumTo_eq, Finset.mul_sum]
      refine Finset.sum_congr rfl fun b hb => ?_
      have hb := Finset.mem_range.mp hb
      rw [stateVals_eq g c hb, c1 _ (by omega)]
      ring
    · unfold overShocks
      simp only [sumTo_eq, Finset.mul_sum]
      refine Finset.sum_congr rfl fun a ha => Finset.sum_congr rfl fun b hb => ?_
      have : (s.stored half).ghuu.to2.e k (a * nExog + b) = half * P.W k (a * nExog + b) :=
        tW.2.2 k hk _ (mul_add_lt (Finset.mem_range.mp ha) (Finset.mem_range.mp hb))
      rw [this]
      ring
  have ld : ∀ j < nExog, ∀ k < t.n, lead j (t.dr k) = gu.e k j := by
    intro j hj k hk
    rw [follows_dr g (hlead j hj) hk]
    have z : (sumTo t.nT fun b => gy.e k b * stateVals t.toTyper (fun _ => (0 : V)) b) = 0 := by
      rw [sumTo_eq]; exact Finset.sum_eq_zero fun b _ => by unfold stateVals; ring
    rw [z, zero_add, sumTo_eq, Finset.sum_eq_single j]
    · rw [if_pos rfl, mul_one]
    · intro l _ hl; rw [if_neg hl, mul_zero]
    · intro hnot; exact absurd (Finset.mem_range.mpr hj) hnot
  intro i hi
  have cv : ∀ j < nExog, ∀ k < nExog, curvature t nExog H i
        ⟨fun _ => 0, fun _ => 0, lead j, fun _ => 0⟩ ⟨fun _ => 0, fun _ => 0, lead k, fun _ => 0⟩ =
      sumTo t.nF fun p => sumTo t.nF fun q =>
        H.e i (t.col 2 (t.f0 + p) * (t.count + nExog) + t.col 2 (t.f0 + q)) *
          (gu.e (t.f0 + p) j * gu.e (t.f0 + q) k) := by
    intro j hj k hk
    unfold curvature
    dsimp only
    rw [linearised_lead g]
    refine sumTo_congr fun p hp => ?_
    dsimp only
    rw [linearised_lead g, sumTo_eq, sumTo_eq, Finset.sum_mul]
    refine Finset.sum_congr rfl fun q hq => ?_
    have hq := Finset.mem_range.mp hq
    dsimp only
    rw [ld j hj _ (by omega), ld k hk _ (by omega)]
    ring
  have ln : linearised t nExog J i (fun _ => 0) c e (fun _ => 0) =
      half * ((sumTo t.n fun k => del2Ent t.toTyper J gy.e i k * P.d k) +
        overShocks nExog sigma fun a b => sumTo t.nF fun f => J.e i (t.col 2 (t.f0 + f)) *
          P.W (t.f0 + f) (a * nExog + b)) := by
    unfold linearised
    rw [rowPart_lag' g, rowPart_lead' g, rowPart_cur' g]
    have z : ∀ (n : Nat) (f : Nat → V), (sumTo n fun k => f k * (0 : V)) = 0 := by
      intro n f; rw [sumTo_eq]; exact Finset.sum_eq_zero fun k _ => by ring
    rw [z, z, add_zero, add_zero]
    rw [sumTo_congr (f := fun j => J.e i (t.col 1 j) * c (t.dr j)) fun k hk => by rw [c1 k hk],
      sumTo_congr (f := fun f => J.e i (t.col 2 (t.f0 + f)) * e (t.dr (t.f0 + f))) fun k hk => by
        rw [e1 _ (by omega)]]
    have d1 : (sumTo t.n fun k => del2Ent t.toTyper J gy.e i k * P.d k) =
        (sumTo t.n fun k => J.e i (t.col 1 k) * P.d k) + sumTo t.nF fun f => J.e i (t.col 2 (t.f0 + f)) *
          (P.d (t.f0 + f) + sumTo t.nT fun b => gy.e (t.f0 + f) b * P.d (t.nS + b)) := by
      have s1 : (sumTo t.n fun k => del2Ent t.toTyper J gy.e i k * P.d k) =
          (sumTo t.n fun k => J.e i (t.col 1 k) * P.d k) + sumTo t.nF fun f => J.e i (t.col 2 (t.f0 + f)) *
            ((sumTo t.n fun k => (if k = t.f0 + f then 1 else 0) * P.d k) +
              sumTo t.n fun k => (if t.nS ≤ k ∧ k < t.nS + t.nT then gy.e (t.f0 + f) (k - t.nS) else 0) * P.d k) := by
        unfold del2Ent
        simp only [sumTo_eq, add_mul, Finset.sum_add_distrib, Finset.sum_mul, Finset.mul_sum, mul_add]
        congr 1
        congr 1
        · rw [Finset.sum_comm]
          exact Finset.sum_congr rfl fun f _ => Finset.sum_congr rfl fun k _ => by ring
        · rw [Finset.sum_comm]
          exact Finset.sum_congr rfl fun f _ => Finset.sum_congr rfl fun k _ => by ring
      rw [s1]
      congr 1
      refine sumTo_congr fun f hf => ?_
      congr 2
      · rw [sumTo_eq, Finset.sum_eq_single (t.f0 + f)]
        · rw [if_pos rfl, one_mul]
        · intro l _ hl; rw [if_neg hl, zero_mul]
        · intro hnot; exact absurd (Finset.mem_range.mpr (by omega)) hnot
      · have hn : t.n = t.nS + (t.nT + (t.n - t.nS - t.nT)) := by omega
        rw [hn, sumTo_add, sumTo_add]
        have y1 : (sumTo t.nS fun k => (if t.nS ≤ k ∧ k < t.nS + t.nT then gy.e (t.f0 + f) (k - t.nS) else 0) *
            P.d k) = 0 := by
          rw [sumTo_eq]
          refine Finset.sum_eq_zero fun k hk => ?_
          have hk := Finset.mem_range.mp hk
          rw [if_neg (by omega), zero_mul]
        have y2 : (sumTo (t.n - t.nS - t.nT) fun k => (if t.nS ≤ t.nS + (t.nT + k) ∧
            t.nS + (t.nT + k) < t.nS + t.nT then gy.e (t.f0 + f) (t.nS + (t.nT + k) - t.nS) else 0) *
              P.d (t.nS + (t.nT + k))) = 0 := by
          rw [sumTo_eq]
          refine Finset.sum_eq_zero fun k _ => ?_
          rw [if_neg (by omega), zero_mul]
        rw [y1, y2, zero_add, add_zero]
        refine sumTo_congr fun b hb => ?_
        rw [if_pos (by omega), Nat.add_sub_cancel_left]
    have d2 : (overShocks nExog sigma fun a b => sumTo t.nF fun f => J.e i (t.col 2 (t.f0 + f)) *
          P.W (t.f0 + f) (a * nExog + b)) = sumTo t.nF fun f => J.e i (t.col 2 (t.f0 + f)) *
            overShocks nExog sigma fun a b => P.W (t.f0 + f) (a * nExog + b) := by
      unfold overShocks
      simp only [sumTo_eq, Finset.mul_sum]
      rw [Finset.sum_congr rfl fun a _ => Finset.sum_comm, Finset.sum_comm]
      exact Finset.sum_congr rfl fun f _ => Finset.sum_congr rfl fun a _ => Finset.sum_congr rfl fun b _ => by ring
    rw [d1, d2]
    simp only [sumTo_eq, Finset.mul_sum, mul_add, Finset.sum_add_distrib]
    have sw : ∀ x y z w w' x' y' z' : V, x = x' → y = y' → z = z' → w = w' →
      x + y + z + w = w' + (x' + y') + z' := by intros; subst_vars; ring
    have m : ∀ (n : Nat) (f f' : Nat → V), (∀ k, f k = f' k) → (∑ k ∈ Finset.range n, f k) =
      ∑ k ∈ Finset.range n, f' k := fun n f f' hf => Finset.sum_congr rfl fun k _ => hf k
    refine sw _ _ _ _ _ _ _ _ (m _ _ _ fun k => by ring) (m _ _ _ fun k => m _ _ _ fun l => by ring)
      (m _ _ _ fun k => by ring) (m _ _ _ fun k => by ring)
  rw [ln]
  have eq := P.eqd i hi
  rw [sumTo_square] at eq
  have os : (sumTo nExog fun j => sumTo nExog fun k =>
      ((sumTo t.nF fun f => J.e i (t.col 2 (t.f0 + f)) * P.W (t.f0 + f) (j * nExog + k)) +
        sumTo t.nF fun p => sumTo t.nF fun q =>
          H.e i (t.col 2 (t.f0 + p) * (t.count + nExog) + t.col 2 (t.f0 + q)) *
            (gu.e (t.f0 + p) ((j * nExog + k) / nExog) * gu.e (t.f0 + q) ((j * nExog + k) % nExog))) *
        sigma.e ((j * nExog + k) % nExog) ((j * nExog + k) / nExog)) =
      (overShocks nExog sigma fun a b => sumTo t.nF fun f => J.e i (t.col 2 (t.f0 + f)) *
          P.W (t.f0 + f) (a * nExog + b)) + overShocks nExog sigma fun j k => curvature t nExog H i
        ⟨fun _ => 0, fun _ => 0, lead j, fun _ => 0⟩ ⟨fun _ => 0, fun _ => 0, lead k, fun _ => 0⟩ := by
    unfold overShocks
    rw [sumTo_eq, sumTo_eq nExog, sumTo_eq nExog, ← Finset.sum_add_distrib]
    refine Finset.sum_congr rfl fun j hj => ?_
    rw [sumTo_eq, sumTo_eq nExog, sumTo_eq nExog, ← Finset.sum_add_distrib]
    refine Finset.sum_congr rfl fun k hk => ?_
    have hj := Finset.mem_range.mp hj
    have hk := Finset.mem_range.mp hk
    dsimp only
    rw [cv j hj k hk, Nd.div_add hk, Nd.mod_add hk]
    ring
  rw [os] at eq
  linear_combination half * eq

/-! ### C88: symmetry -/

/-- **C88.** The coefficients of a second-order solution do not depend on the order in which two states, or
two shocks, are taken. -/
theorem C88_symmetric (la : LinAlg V) (ex : la.Exact) (qz : Arr V → Arr V → Except Err (GQZ V))
    (hqz : GQZExact qz) (half : V) (pss : List (List Int)) (t : Llx)
    (ht : buildLlx pss = .ok t) (hcur : ∀ c < t.n, t.has 1 c = true) (hstate : t.state ≠ []) (nExog : Nat)
    (J H sigma gy gu : Arr V) (hgy : gy.r = t.n ∧ gy.c = t.nBackward) (hgu : gu.r = t.n ∧ gu.c = nExog)
    (hH : H.r = t.n) (hsym : SymmetricHessian t nExog H) (hsig : sigma.r = nExog ∧ sigma.c = nExog)
    (s : SecondNd V)
    (h : solveSecondOrder la qz half t.toTyper nExog J H sigma (Nd.mat gy).squeeze (Nd.mat gu).squeeze = .ok s) :
    (∀ i < t.n, ∀ a < t.nBackward, ∀ b < t.nBackward, (s.stored half).ghxx.to2.e i (a * t.nBackward + b) =
      (s.stored half).ghxx.to2.e i (b * t.nBackward + a)) ∧
    ∀ i < t.n, ∀ a < nExog, ∀ b < nExog, (s.stored half).ghuu.to2.e i (a * nExog + b) =
      (s.stored half).ghuu.to2.e i (b * nExog + a) := by
  obtain ⟨P⟩ := secondParts ex hqz ht hcur hstate hgy hgu hH hsig h
  have hnb : t.nBackward = t.nT := (C31_sizes t.toTyper).2.2.2.1
  have symH := hess_symm P.g P.count P.ho P.hh hsym
  have symX := ghxx_symm P.eqX P.uniqX symH
  have tX := (P.isX.map (half * ·)).to2
  have tW := (P.isW.map (half * ·)).to2
  rw [hnb]
  refine ⟨fun i hi a ha b hb => ?_, fun i hi a ha b hb => ?_⟩
  · refine (tX.2.2 i hi _ (mul_add_lt ha hb)).trans (Eq.trans ?_ (tX.2.2 i hi _ (mul_add_lt hb ha)).symm)
    rw [symX i hi a ha b hb]
  · refine (tW.2.2 i hi _ (mul_add_lt ha hb)).trans (Eq.trans ?_ (tW.2.2 i hi _ (mul_add_lt hb ha)).symm)
    rw [ghuu_symm P.eqW P.hA symX symH i hi a ha b hb]

/-! ### C87: which models have a second-order solution -/

/-- **C87, partial.** A second-order solution is returned only for models with at least two variables and
a forward-looking one, with several states unless there are several forward-looking variables, with
several shocks (or none) if there are several states, and, if there is one state and several shocks, with a
number of forward-looking variables other than the number of shocks.  In all other cases an error is raised. -/
theorem C87_refused_partial (la : LinAlg V) (ex : la.Exact) (qz : Arr V → Arr V → Except Err (GQZ V))
    (hqz : GQZExact qz) (half : V) (pss : List (List Int)) (t : Llx)
    (ht : buildLlx pss = .ok t) (hcur : ∀ c < t.n, t.has 1 c = true) (hstate : t.state ≠ []) (nExog : Nat)
    (J H sigma gy gu : Arr V) (hgy : gy.r = t.n ∧ gy.c = t.nBackward) (hgu : gu.r = t.n ∧ gu.c = nExog)
    (hH : H.r = t.n) (hsig : sigma.r = nExog ∧ sigma.c = nExog)
    (bad : t.n = 1 ∨ t.forward = [] ∨ (t.state.length = 1 ∧ t.forward.length = 1) ∨
      (2 ≤ t.state.length ∧ nExog = 1) ∨ (t.state.length = 1 ∧ nExog ≠ 1 ∧ t.forward.length = nExog)) :
    ∃ e, solveSecondOrder la qz half t.toTyper nExog J H sigma (Nd.mat gy).squeeze (Nd.mat gu).squeeze =
      .error e := by
  cases h : solveSecondOrder la qz half t.toTyper nExog J H sigma (Nd.mat gy).squeeze (Nd.mat gu).squeeze with
  | error e => exact ⟨e, rfl⟩
  | ok s =>
    exfalso
    obtain ⟨P⟩ := secondParts ex hqz ht hcur hstate hgy hgu hH hsig h
    obtain ⟨s1, s2, s3, s4⟩ := P.shapes
    obtain ⟨z1, z2, -, z4, z5, -⟩ := C31_sizes t.toTyper
    have eS : t.state.length = t.nT := by rw [← z2, z4]; rfl
    have eF : t.forward.length = t.nF := by rw [← z1, z5]; exact Nat.add_comm _ _
    have := P.n1
    rw [eS, eF] at bad
    rcases bad with b | b | b | b | b
    · exact P.n1 b
    · rw [b] at eF; exact s2 eF.symm
    · omega
    · omega
    · exact s4 b.1 b.2.1 b.2.2

/-- **C87 is false.** A model with a static variable, a state, a forward-looking variable and a shock is
solved to first order, but whatever the second derivatives of its equations and the variance of the shock
are, the second-order solution raises an error. -/
theorem C87_false : ∃ (sp : Space ℚ) (gy gu : Arr ℚ),
    Space.create (exLa 2 stab expl) exT.toTyper (exJ 2) = .ok sp ∧
    solveFirstOrder (exLa 2 stab expl) exT 1 sp = .ok (gy, gu) ∧
    ∀ (la : LinAlg ℚ) (qz : Arr ℚ → Arr ℚ → Except Err (GQZ ℚ)) (H sigma : Arr ℚ), la.Exact → GQZExact qz →
      H.r = 3 → sigma.r = 1 → sigma.c = 1 →
      ∃ e, solveSecondOrder la qz (1/2) exT.toTyper 1 (exJ 2) H sigma (Nd.mat gy).squeeze (Nd.mat gu).squeeze =
        .error e := by
  obtain ⟨sp, hs, h⟩ := ok_of_check (x := Space.create (exLa 2 stab expl) exT.toTyper (exJ 2))
    (p := fun s => okAnd (solveFirstOrder (exLa 2 stab expl) exT 1 s) fun g => decide (g.1.r = 3) &&
        decide (g.1.c = 1) && decide (g.2.r = 3) && decide (g.2.c = 1)) (by decide +kernel)
  obtain ⟨⟨gy, gu⟩, hg, h'⟩ := ok_of_check h
  simp only [Bool.and_eq_true, decide_eq_true_eq] at h'
  refine ⟨sp, gy, gu, hs, hg, fun la qz H sigma ex hqz hH h1 h2 => ?_⟩
  exact C87_refused_partial la ex qz hqz (1/2) [[0, 1], [0, -1], [0]] exT rfl (by decide) (by decide) 1 (exJ 2) H sigma
    gy gu ⟨h'.1.1.1, h'.1.1.2⟩ ⟨h'.1.2, h'.2⟩ hH ⟨h1, h2⟩ (.inr (.inr (.inl (by decide))))

/-! ### examples -/

/-- the hypotheses of C85, C86 and C88 are met by a model with one state, one shock and two forward-looking
variables, for which the solution is not trivial -/
theorem so1_solved : ∃ s : SecondNd ℚ, so1S = .ok s ∧
    (s.stored (1/2)).ghxx.to2.e 0 0 = 1 ∧ (s.stored (1/2)).ghxu.to2.e 1 0 = 20/7 ∧
    (s.stored (1/2)).ghuu.to2.e 1 0 = 32/21 ∧ (s.stored (1/2)).del2.to2.e 2 0 = 29824/2835 := by
  obtain ⟨s, hs, h⟩ := ok_of_check (x := so1S)
    (p := fun s => decide ((s.stored (1/2)).ghxx.to2.e 0 0 = 1 ∧ (s.stored (1/2)).ghxu.to2.e 1 0 = 20/7 ∧
      (s.stored (1/2)).ghuu.to2.e 1 0 = 32/21 ∧ (s.stored (1/2)).del2.to2.e 2 0 = 29824/2835)) (by decide +kernel)
  exact ⟨s, hs, of_decide_eq_true h⟩

example : buildLlx [[-1, 0], [0, 1], [0, 1]] = .ok so1T ∧ (∀ c < so1T.n, so1T.has 1 c = true) ∧
    so1T.state ≠ [] ∧ so1Gy.r = so1T.n ∧ so1Gy.c = so1T.nBackward ∧ so1Gu.r = so1T.n ∧ so1Gu.c = 1 ∧
    so1H.r = so1T.n ∧ so1Sigma.r = 1 ∧ so1Sigma.c = 1 := ⟨rfl, by decide, by decide, by decide⟩

example : SymmetricHessian so1T 1 so1H := by unfold SymmetricHessian; decide +kernel

/-- and by a model with two states, two shocks and a forward-looking variable -/
theorem so2_solved : ∃ s : SecondNd ℚ, so2S = .ok s ∧
    (s.stored (1/2)).ghxx.to2.e 2 0 = 8/7 ∧ (s.stored (1/2)).ghxx.to2.e 0 1 = 1/2 ∧
    (s.stored (1/2)).ghxu.to2.e 1 0 = 1 ∧ (s.stored (1/2)).ghuu.to2.e 0 3 = 4/7 ∧
    (s.stored (1/2)).del2.to2.e 2 0 = 17/14 := by
  obtain ⟨s, hs, h⟩ := ok_of_check (x := so2S)
    (p := fun s => decide ((s.stored (1/2)).ghxx.to2.e 2 0 = 8/7 ∧ (s.stored (1/2)).ghxx.to2.e 0 1 = 1/2 ∧
    (s.stored (1/2)).ghxu.to2.e 1 0 = 1 ∧ (s.stored (1/2)).ghuu.to2.e 0 3 = 4/7 ∧
    (s.stored (1/2)).del2.to2.e 2 0 = 17/14)) (by decide +kernel)
  exact ⟨s, hs, of_decide_eq_true h⟩

example : buildLlx [[-1, 0], [-1, 0], [0, 1]] = .ok so2T ∧ (∀ c < so2T.n, so2T.has 1 c = true) ∧
    so2T.state ≠ [] ∧ so2Gy.r = so2T.n ∧ so2Gy.c = so2T.nBackward ∧ so2Gu.r = so2T.n ∧ so2Gu.c = 2 ∧
    so2H.r = so2T.n ∧ so2Sigma.r = 2 ∧ so2Sigma.c = 2 := ⟨rfl, by decide, by decide, by decide⟩

example : SymmetricHessian so2T 2 so2H := by unfold SymmetricHessian; decide +kernel

#print axioms C85_second_order
#print axioms C86_risk
#print axioms C87_refused_partial
#print axioms C87_false
#print axioms C88_symmetric

end Pynare

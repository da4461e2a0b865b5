import Verif.Lemmas.Risk
import Verif.Props.Linear
/-!
# C162: how well second-order solutions with their correction for risk satisfy the equations on average
-/

namespace Pynare

variable {V : Type} [Field V] [LinearOrder V] [IsStrictOrderedRing V]

set_option linter.unusedSectionVars false

theorem flat_congr {pss : List (List Int)} {t : Llx} (h : buildLlx pss = .ok t) {nExog : Nat} {d d' : Around V}
    {D : Nat → V} (hD : Flat t nExog d D) (h0 : ∀ c < t.n, d'.before c = d.before c)
    (h1 : ∀ c < t.n, d'.now c = d.now c) (h2 : ∀ c < t.n, d'.after c = d.after c)
    (h3 : ∀ k < nExog, d'.shock k = d.shock k) : Flat t nExog d' D := by
  obtain ⟨hn, hc, -, -, -⟩ := buildLlx_spec h
  refine ⟨fun c k hk => ?_, fun c k hk => ?_, fun c k hk => ?_, fun j hj => ?_⟩
  · rw [hD.before c k hk, h0 c (by have := (hc _ _ _ hk).2; omega)]
  · rw [hD.now c k hk, h1 c (by have := (hc _ _ _ hk).2; omega)]
  · rw [hD.after c k hk, h2 c (by have := (hc _ _ _ hk).2; omega)]
  · rw [hD.shock j hj, h3 j hj]

/-- a quadratic form in the shocks -/
theorem quadForm_units {X : Arr V} {i r m : Nat} {v z : Nat → V} :
    quadForm X i r v m z = ∑ j ∈ Finset.range m, z j * quadForm X i r v m (fun k => if k = j then 1 else 0) := by
  unfold quadForm
  simp only [sumTo_eq, Finset.mul_sum]
  conv_rhs => rw [Finset.sum_comm]
  refine Finset.sum_congr rfl fun a _ => ?_
  conv_rhs => rw [Finset.sum_comm]
  refine Finset.sum_congr rfl fun b hb => ?_
  rw [Finset.sum_eq_single b]
  · rw [if_pos rfl]; ring
  · intro j _ hj; rw [if_neg (fun e => hj e.symm)]; ring
  · intro h; exact absurd hb h

/-- the expected second-order part of every equation vanishes -/
theorem risk_terms_zero (la : LinAlg V) (ex : la.Exact) (qz : Arr V → Arr V → Except Err (GQZ V))
    (hqz : GQZExact qz) (pss : List (List Int)) (t : Llx)
    (ht : buildLlx pss = .ok t) (hcur : ∀ c < t.n, t.has 1 c = true) (hstate : t.state ≠ []) (nExog : Nat)
    (J H sigma gy gu : Arr V) (hgy : gy.r = t.n ∧ gy.c = t.nBackward) (hgu : gu.r = t.n ∧ gu.c = nExog)
    (hH : H.r = t.n) (hsym : SymmetricHessian t nExog H) (hsig : sigma.r = nExog ∧ sigma.c = nExog) (so : SecondNd V)
    (hso : solveSecondOrder la qz (1 / 2) t.toTyper nExog J H sigma (Nd.mat gy).squeeze (Nd.mat gu).squeeze = .ok so)
    {N : Nat} {w : Nat → V} {z : Nat → Nat → V} (hd : ShockDist N w z nExog sigma) (s : V) {ym u y1 q cr : Nat → V}
    (f1 : FollowsPolicy t.toTyper nExog gy gu ym u y1) (f3 : SecondTerms t.toTyper nExog (so.stored (1 / 2)) ym u q)
    (hr : RiskTerm t.toTyper (so.stored (1 / 2)) cr) {yp q' : Nat → Nat → V}
    (hz1 : ∀ yp, FollowsPolicy t.toTyper nExog gy gu y1 (fun _ => 0) yp → ∀ i < t.n, linearised t nExog J i ym y1 yp u = 0)
    (f2 : ∀ ω < N, FollowsPolicy t.toTyper nExog gy gu y1 (fun k => s * z ω k) (yp ω))
    (f4 : ∀ ω < N, RiskTerms t.toTyper nExog (so.stored (1 / 2)) gy (fun c => s * s * cr c) y1
      (fun c => q c + s * s * cr c) (fun k => s * z ω k) (q' ω)) :
    ∃ D1 D2 : Nat → Nat → V, (∀ ω < N, Flat t nExog ⟨ym, y1, yp ω, u⟩ (D1 ω)) ∧
      (∀ ω < N, Flat t nExog ⟨fun _ => 0, fun c => q c + s * s * cr c, q' ω, fun _ => 0⟩ (D2 ω)) ∧
      ∀ i < t.n, expect N w (fun ω => rowMap J i (t.count + nExog) (D1 ω) +
        (1 / 2 * rowQuad H i (t.count + nExog) (D1 ω) (D1 ω) + rowMap J i (t.count + nExog) (D2 ω))) = 0 := by
  have g := groups hcur
  have hp := g.perm
  have hdr : ∀ c < t.n, ∃ i : Nat, t.drOrder[i]? = some c := by
    intro c hc
    have := hp.mem_iff.mpr (List.mem_range.mpr hc)
    obtain ⟨i, hi, e⟩ := List.getElem_of_mem this
    exact ⟨i, by rw [List.getElem?_eq_getElem hi, e]⟩
  let S := so.stored (1 / 2 : V)
  let tt := t.toTyper
  let sv : (Nat → V) → Nat → V := stateVals tt
  let unit : Nat → Nat → V := fun j k => if k = j then 1 else 0
  let yp0 := byRow tt fun i => (sumTo t.nBackward fun j => gy.e i j * sv y1 j) + sumTo nExog fun k => gu.e i k * (0 : V)
  let lead : Nat → Nat → V := fun j => byRow tt fun i =>
    (sumTo t.nBackward fun j => gy.e i j * sv (fun _ => 0) j) + sumTo nExog fun k => gu.e i k * unit j k
  let q0 := byRow tt fun i => (sumTo t.nBackward fun b => gy.e i b * sv q b) +
      quadForm S.ghxx.to2 i t.nBackward (sv y1) t.nBackward (sv y1)
  let nn : Nat → Nat → V := fun j => byRow tt fun i => quadForm S.ghxu.to2 i t.nBackward (sv y1) nExog (unit j)
  let e0 : Nat → V := fun c => cr c + byRow tt (fun i => sumTo t.nBackward fun b => gy.e i b * sv cr b) c
  let gg : Nat → Nat → Nat → V := fun j k => byRow tt fun i => S.ghuu.to2.e i (j * nExog + k)
  have hyp0 : FollowsPolicy tt nExog gy gu y1 (fun _ => 0) yp0 := fun i c hi => byRow_eq hp _ hi
  have hlead : ∀ j, FollowsPolicy tt nExog gy gu (fun _ => 0) (unit j) (lead j) := fun j i c hi => byRow_eq hp _ hi
  have hq0 : NextTerms tt S gy y1 q q0 := fun i c hi => byRow_eq hp _ hi
  obtain ⟨P, hP⟩ := flat_exists ht nExog (⟨ym, y1, yp0, u⟩ : Around V)
  obtain ⟨Q0, hQ0⟩ := flat_exists ht nExog (⟨fun _ => 0, q, q0, fun _ => 0⟩ : Around V)
  obtain ⟨C0, hC0⟩ := flat_exists ht nExog (⟨fun _ => 0, cr, e0, fun _ => 0⟩ : Around V)
  have hΛ : ∀ j, ∃ D, Flat t nExog (⟨fun _ => 0, fun _ => 0, lead j, fun _ => 0⟩ : Around V) D :=
    fun j => flat_exists ht nExog _
  choose Λ hΛ using hΛ
  have hΝ : ∀ j, ∃ D, Flat t nExog (⟨fun _ => 0, fun _ => 0, nn j, fun _ => 0⟩ : Around V) D :=
    fun j => flat_exists ht nExog _
  choose Ν hΝ using hΝ
  have hG : ∀ j k, ∃ D, Flat t nExog (⟨fun _ => 0, fun _ => 0, gg j k, fun _ => 0⟩ : Around V) D :=
    fun j k => flat_exists ht nExog _
  choose G hG using hG
  let D1 : Nat → Nat → V := fun ω => P + ∑ j ∈ Finset.range nExog, (s * z ω j) • Λ j
  let D2 : Nat → Nat → V := fun ω => Q0 + (∑ j ∈ Finset.range nExog, (s * z ω j) • Ν j) +
      (s * s) • (C0 + ∑ j ∈ Finset.range nExog, ∑ k ∈ Finset.range nExog, (z ω k * z ω j) • G j k)
  refine ⟨D1, D2, fun ω hω => ?_, fun ω hω => ?_, fun i hi => ?_⟩
  · refine flat_congr ht (flat_add hP (flat_sum (m := nExog) fun j _ => flat_smul (s * z ω j) (hΛ j))) ?_ ?_ ?_ ?_
    · intro c _; simp
    · intro c _; simp
    · intro c hc
      obtain ⟨i, hi⟩ := hdr c hc
      show yp ω c = yp0 c + ∑ j ∈ Finset.range nExog, s * z ω j * lead j c
      have h4 : yp ω c = (sumTo t.nBackward fun b => gy.e i b * sv y1 b) + sumTo nExog fun k => gu.e i k * (s * z ω k) :=
        f2 ω hω i c hi
      have h5 : yp0 c = (sumTo t.nBackward fun b => gy.e i b * sv y1 b) + sumTo nExog fun k => gu.e i k * (0 : V) :=
        hyp0 i c hi
      rw [h4, h5]
      have : ∀ j ∈ Finset.range nExog, s * z ω j * lead j c = gu.e i j * (s * z ω j) := by
        intro j hj
        have h1 : (sumTo t.nBackward fun b => gy.e i b * stateVals tt (fun _ => 0) b) = 0 := by
          rw [sumTo_eq]; exact Finset.sum_eq_zero fun b _ => by simp [stateVals]
        have h2 : (sumTo nExog fun k => gu.e i k * unit j k) = gu.e i j := by
          rw [sumTo_eq, Finset.sum_eq_single j]
          · simp [unit]
          · intro k _ hk; simp [unit, hk]
          · intro h; exact absurd hj h
        have h3 : lead j c = (sumTo t.nBackward fun b => gy.e i b * stateVals tt (fun _ => 0) b) +
          sumTo nExog fun k => gu.e i k * unit j k := hlead j i c hi
        rw [h3, h1, h2]
        ring
      rw [Finset.sum_congr rfl this]
      simp only [sumTo_eq, mul_zero, Finset.sum_const_zero, add_zero]
    · intro k _; simp
  · refine flat_congr ht (flat_add (flat_add hQ0 (flat_sum (m := nExog) fun j _ => flat_smul (s * z ω j) (hΝ j)))
      (flat_smul (s * s) (flat_add hC0 (flat_sum (m := nExog) fun j _ => flat_sum (m := nExog) fun k _ =>
        flat_smul (z ω k * z ω j) (hG j k))))) ?_ ?_ ?_ ?_
    · intro c _; simp
    · intro c _; simp
    · intro c hc
      obtain ⟨i, hi⟩ := hdr c hc
      show q' ω c = q0 c + (∑ j ∈ Finset.range nExog, s * z ω j * nn j c) +
        s * s * (e0 c + ∑ j ∈ Finset.range nExog, ∑ k ∈ Finset.range nExog, z ω k * z ω j * gg j k c)
      rw [f4 ω hω i c hi, show q0 c = _ from byRow_eq hp _ hi]
      have h1 : ∀ j, nn j c = quadForm S.ghxu.to2 i t.nBackward (sv y1) nExog (unit j) := fun j => byRow_eq hp _ hi
      have h2 : ∀ j k, gg j k c = S.ghuu.to2.e i (j * nExog + k) := fun j k => byRow_eq hp _ hi
      have h3 : e0 c = cr c + sumTo t.nBackward fun b => gy.e i b * sv cr b :=
        congrArg (cr c + ·) (byRow_eq hp _ hi)
      simp only [h1, h2, h3]
      have h4 : (sumTo t.nBackward fun b => gy.e i b * stateVals tt (fun c => q c + s * s * cr c) b) =
          (sumTo t.nBackward fun b => gy.e i b * sv q b) + s * s * sumTo t.nBackward fun b => gy.e i b * sv cr b := by
        simp only [sumTo_eq, Finset.mul_sum, ← Finset.sum_add_distrib]
        refine Finset.sum_congr rfl fun b _ => ?_
        show gy.e i b * (sv q b + s * s * sv cr b) = _
        ring
      have h5 : quadForm S.ghuu.to2 i nExog (fun k => s * z ω k) nExog (fun k => s * z ω k) =
          s * s * ∑ j ∈ Finset.range nExog, ∑ k ∈ Finset.range nExog, z ω k * z ω j * S.ghuu.to2.e i (j * nExog + k) := by
        unfold quadForm
        simp only [sumTo_eq, Finset.mul_sum]
        exact Finset.sum_congr rfl fun j _ => Finset.sum_congr rfl fun k _ => by ring
      have h6 := quadForm_units (X := S.ghxu.to2) (i := i) (r := t.nBackward) (v := sv y1) (m := nExog)
        (z := fun k => s * z ω k)
      show (sumTo t.nBackward fun b => gy.e i b * stateVals tt (fun c => q c + s * s * cr c) b) +
        quadForm S.ghxx.to2 i t.nBackward (sv y1) t.nBackward (sv y1) +
        quadForm S.ghxu.to2 i t.nBackward (sv y1) nExog (fun k => s * z ω k) +
        quadForm S.ghuu.to2 i nExog (fun k => s * z ω k) nExog (fun k => s * z ω k) + s * s * cr c = _
      rw [h4, h5, h6]
      ring
    · intro k _; simp
  · have z1 := hz1 yp0 hyp0 i hi
    rw [linearised_flat (d := ⟨ym, y1, yp0, u⟩) ht hP] at z1
    have z2 := C85_second_order la ex qz hqz (1 / 2) (by norm_num) pss t ht hcur hstate nExog J H sigma gy gu
        hgy hgu hH hsym hsig so hso ym u y1 yp0 q q0 f1 hyp0 f3 hq0 i hi
    rw [curvature_flat ht hP hP, linearised_flat (d := ⟨fun _ => 0, q, q0, fun _ => 0⟩) ht hQ0] at z2
    let ee : Nat → V := fun c => e0 c + ∑ j ∈ Finset.range nExog, ∑ k ∈ Finset.range nExog, sigma.e k j * gg j k c
    have hee : RiskNext tt nExog S gy sigma cr ee := by
      intro i c hi
      have h2 : ∀ j k, gg j k c = S.ghuu.to2.e i (j * nExog + k) := fun j k => byRow_eq hp _ hi
      have h3 : e0 c = cr c + sumTo t.nBackward fun b => gy.e i b * sv cr b :=
        congrArg (cr c + ·) (byRow_eq hp _ hi)
      show e0 c + _ = _
      rw [h3]
      simp only [h2, overShocks, sumTo_eq]
      rfl
    have z3 := C86_risk la ex qz hqz (1 / 2) pss t ht hcur hstate nExog J H sigma gy gu hgy hgu hH hsig so hso lead
      (fun j _ => hlead j) cr ee hr hee i hi
    have hE : Flat t nExog ⟨fun _ => 0, cr, ee, fun _ => 0⟩
        (C0 + ∑ j ∈ Finset.range nExog, ∑ k ∈ Finset.range nExog, sigma.e k j • G j k) := by
      refine flat_congr ht (flat_add hC0 (flat_sum (m := nExog) fun j _ => flat_sum (m := nExog) fun k _ =>
        flat_smul (sigma.e k j) (hG j k))) ?_ ?_ ?_ ?_
      · intro c _; simp
      · intro c _; simp
      · intro c _; rfl
      · intro k _; simp
    rw [linearised_flat (d := ⟨fun _ => 0, cr, ee, fun _ => 0⟩) ht hE] at z3
    have z4 : (overShocks nExog sigma fun j k => curvature t nExog H i ⟨fun _ => 0, fun _ => 0, lead j, fun _ => 0⟩
        ⟨fun _ => 0, fun _ => 0, lead k, fun _ => 0⟩) =
        overShocks nExog sigma fun j k => rowQuad H i (t.count + nExog) (Λ j) (Λ k) := by
      congr 1
      funext j k
      exact curvature_flat ht (hΛ j) (hΛ k) H i
    have z5 : (sumTo (t.count + nExog) fun k => J.e i k *
        (C0 + ∑ j ∈ Finset.range nExog, ∑ k ∈ Finset.range nExog, sigma.e k j • G j k) k) =
        rowMap J i (t.count + nExog) C0 + overShocks nExog sigma fun j k => rowMap J i (t.count + nExog) (G j k) := by
      rw [← rowMap_apply]
      simp only [map_add, map_sum, map_smul, smul_eq_mul, overShocks, sumTo_eq]
    rw [z4, z5] at z3
    exact expect_zero (rowMap J i (t.count + nExog)) (rowQuad H i (t.count + nExog)) hd s P Q0 C0 Λ Ν G z1 z2 z3 D1 D2
      (fun _ => rfl) (fun _ => rfl)

/-- **C162.** Let `J` and `H` hold the first and second derivatives of the equations of a model at its steady state,
`gy`, `gu` be the first-order solution and `so` the second-order arrays found from them and the covariances `sigma` of
the shocks.  Then paths that follow the whole second-order solution satisfy the equations on average up to an error that
is small compared with the square of the deviations and of the size of the shocks: if next period's shocks are `s` times
shocks with covariances `sigma`, and the constant for risk is multiplied by `s * s` accordingly, then the average over
next period's shocks of the residual of every equation differs from that at the steady state by at most `ε r²` whenever
deviations, shocks and `s` are no greater than `r ≤ δ`. -/
theorem C162_risk_accuracy (la : LinAlg V) (ex : la.Exact) (qz : Arr V → Arr V → Except Err (GQZ V))
    (hqz : GQZExact qz) (pss : List (List Int)) (t : Llx)
    (hps : ∀ ps ∈ pss, 0 ∈ ps ∧ ∀ p ∈ ps, p = -1 ∨ p = 0 ∨ p = 1) (ht : buildLlx pss = .ok t)
    (nExog : Nat) (fs : List (List V → Except Err V)) (hfs : fs.length = pss.length) (ss : List V)
    (J H sigma : Arr V) (hJ : J.r = pss.length) (hH : H.r = pss.length) (hsym : SymmetricHessian t nExog H)
    (hsig : sigma.r = nExog ∧ sigma.c = nExog)
    (hder : ∀ (i : Nat) f, fs[i]? = some f → IsTaylorAt f (linPoint t.toTyper nExog ss) (J.e i) (H.e i))
    (s : Space V) (gy gu : Arr V) (hc : Space.create la t.toTyper J = .ok s) (hsep : s.parts.Separated)
    (hsol : solveFirstOrder la t nExog s = .ok (gy, gu)) (so : SecondNd V)
    (hso : solveSecondOrder la qz (1 / 2) t.toTyper nExog J H sigma (Nd.mat gy).squeeze (Nd.mat gu).squeeze =
      .ok so) (N : Nat) (w : Nat → V) (z : Nat → Nat → V) (hd : ShockDist N w z nExog sigma) :
    ∃ v₀, dynamicCall t nExog fs (linPoint t.toTyper nExog ss) = .ok v₀ ∧
    ∀ ε > 0, ∃ δ > 0, ∀ r, r ≤ δ → ∀ (σ : V) (ym u y : Nat → V) (yE : Nat → Nat → V),
      |σ| ≤ r → (∀ c < t.n, |ym c| ≤ r) → (∀ k < nExog, |u k| ≤ r) →
      FollowsRisk t.toTyper nExog (so.stored (1 / 2)) gy gu (σ * σ) ym u y →
      (∀ ω < N, FollowsRisk t.toTyper nExog (so.stored (1 / 2)) gy gu (σ * σ) y (fun k => σ * z ω k) (yE ω)) →
      ∀ vec : Nat → List V, (∀ ω < N, Assembled t nExog ss ⟨ym, y, yE ω, u⟩ (vec ω)) →
        ∃ v : Nat → List V, (∀ ω < N, dynamicCall t nExog fs (vec ω) = .ok (v ω) ∧ (v ω).length = v₀.length) ∧
          ∀ i < v₀.length, |expect N w (fun ω => vecEntry (v ω) i) - vecEntry v₀ i| ≤ ε * (r * r) := by
  obtain ⟨hn, hcur, hpos, hst⟩ := solved_facts ex hps ht hc hsol
  have g := groups hcur
  have hp := g.perm
  have hdr : ∀ c < t.n, ∃ i : Nat, t.drOrder[i]? = some c := by
    intro c hc
    have := hp.mem_iff.mpr (List.mem_range.mpr hc)
    obtain ⟨i, hi, e⟩ := List.getElem_of_mem this
    exact ⟨i, by rw [List.getElem?_eq_getElem hi, e]⟩
  obtain ⟨g1, g2, g3, g4, -⟩ := solution_rows ex hcur hst (by omega) hc hsep hsol
  have hstate : t.state ≠ [] := by
    intro h0
    have := (C31_sizes t.toTyper).2.1
    rw [h0] at this
    rw [this] at hpos
    cases hpos
  have hlen := linPoint_length ht nExog ss
  have hcall : ∀ vec : List V, vec.length = t.count + nExog → dynamicCall t nExog fs vec = callAll fs vec := by
    intro vec h; unfold dynamicCall; rw [if_pos h]
  obtain ⟨v₀, hv₀, hl₀, hq₀⟩ := callAll_of (fs := fs) (vec := linPoint t.toTyper nExog ss)
    (Q := fun i v => ∀ f, fs[i]? = some f → f (linPoint t.toTyper nExog ss) = .ok v) (by
      intro i f hf
      obtain ⟨v, hv, -⟩ := hder i f hf
      exact ⟨v, hv, fun f' hf' => by rw [hf] at hf'; cases hf'; exact hv⟩)
  refine ⟨v₀, by rw [hcall _ hlen, hv₀], fun ε hε => ?_⟩
  -- bounds for the constant and the shocks
  let cr : Nat → V := byRow t.toTyper fun i => (so.stored (1 / 2)).del2.to2.e i 0
  have hcr : RiskTerm t.toTyper (so.stored (1 / 2)) cr := fun i c hi => byRow_eq hp _ hi
  obtain ⟨B1, hB1, hB1'⟩ := rowSums t.n (fun c => |cr c|) fun c => abs_nonneg _
  obtain ⟨B2, hB2, hB2'⟩ := rowSums N (fun ω => sumTo nExog fun k => |z ω k|) fun ω => sumTo_abs_nonneg _ _
  have hz : ∀ ω < N, ∀ k < nExog, |z ω k| ≤ B2 := by
    intro ω hω k hk
    refine le_trans ?_ (hB2' ω hω)
    rw [sumTo_eq]
    exact Finset.single_le_sum (f := fun k => |z ω k|) (fun k _ => abs_nonneg _) (Finset.mem_range.mpr hk)
  have hB : 0 ≤ B1 + B2 := add_nonneg hB1 hB2
  obtain ⟨K, hK1, hsplit⟩ := risk_split hp nExog (so.stored (1 / 2)) gy gu hB
  have hK0 : 0 ≤ K := by linarith
  obtain ⟨C, hC0, hC⟩ := rowSums pss.length (fun i => (sumTo (t.count + nExog) fun k => |J.e i k|) * K +
      (sumTo (t.count + nExog) fun a => sumTo (t.count + nExog) fun b => |H.e i (a * (t.count + nExog) + b)|) *
        (4 * (K * K)))
    (fun i => add_nonneg (mul_nonneg (sumTo_abs_nonneg _ _) hK0)
      (mul_nonneg (quadSum_nonneg _ _ _ _) (by positivity)))
  have hKK : 0 < 3 * K * (3 * K) := by positivity
  obtain ⟨δ, hδ, hδ'⟩ := uniform_delta (List.range fs.length)
    (fun i δ => ∀ f, fs[i]? = some f → ∀ w, f (linPoint t.toTyper nExog ss) = .ok w → ∀ r, 0 ≤ r → r ≤ δ →
      ∀ x, Near (linPoint t.toTyper nExog ss) r x → ∃ v, f x = .ok v ∧
        |v - w - (sumTo (linPoint t.toTyper nExog ss).length fun k =>
            J.e i k * (vecEntry x k - vecEntry (linPoint t.toTyper nExog ss) k)) -
          1 / 2 * sumTo (linPoint t.toTyper nExog ss).length fun k =>
            sumTo (linPoint t.toTyper nExog ss).length fun l =>
              H.e i (k * (linPoint t.toTyper nExog ss).length + l) *
                ((vecEntry x k - vecEntry (linPoint t.toTyper nExog ss) k) *
                  (vecEntry x l - vecEntry (linPoint t.toTyper nExog ss) l))| ≤ ε / 2 / (3 * K * (3 * K)) * (r * r))
    (by
      intro i hi
      have hi := List.mem_range.mp hi
      obtain ⟨w, hw, h⟩ := hder i fs[i] (List.getElem?_eq_getElem hi)
      obtain ⟨δ, hδ, h⟩ := h (ε / 2 / (3 * K * (3 * K))) (by positivity)
      refine ⟨δ, hδ, fun f hf w' hw' => ?_⟩
      rw [List.getElem?_eq_getElem hi] at hf
      cases hf
      rw [hw] at hw'
      cases hw'
      exact h)
    (by
      intro i δ δ' _ hle h f hf w hw r h0 hr
      exact h f hf w hw r h0 (hr.trans hle))
  have hC1 : 0 < 2 * (C + 1) := by linarith
  refine ⟨min 1 (min (δ / (3 * K)) (ε / (2 * (C + 1)))), by
    refine lt_min one_pos (lt_min ?_ ?_) <;> positivity, ?_⟩
  intro r hr σ ym u y yE hσ hym hu hy hyE vec hvec
  have hr1 : r ≤ 1 := hr.trans (min_le_left _ _)
  have hrδ : r ≤ δ / (3 * K) := hr.trans ((min_le_right _ _).trans (min_le_left _ _))
  have hrε : r ≤ ε / (2 * (C + 1)) := hr.trans ((min_le_right _ _).trans (min_le_right _ _))
  have hr0 : 0 ≤ r := (abs_nonneg _).trans hσ
  have hrr : r * r ≤ r := by nlinarith
  have hrr0 : 0 ≤ r * r := mul_nonneg hr0 hr0
  have hrrr : r * r * r ≤ r * r := by nlinarith
  have hrrr0 : 0 ≤ r * r * r := mul_nonneg hrr0 hr0
  have hrK : r ≤ K * r := by nlinarith
  have hKr0 : 0 ≤ K * r := mul_nonneg hK0 hr0
  have hKrr : K * (r * r) ≤ K * r := mul_le_mul_of_nonneg_left hrr hK0
  have hKrrr : K * (r * r * r) ≤ K * (r * r) := mul_le_mul_of_nonneg_left hrrr hK0
  have hKrr0 : 0 ≤ K * (r * r) := mul_nonneg hK0 hrr0
  have hKrrr0 : 0 ≤ K * (r * r * r) := mul_nonneg hK0 hrrr0
  have hσσ : |σ * σ| ≤ r * r := by
    rw [abs_mul]; exact mul_le_mul hσ hσ (abs_nonneg _) hr0
  -- the path, by order of magnitude
  let y1 := byRow t.toTyper fun i => (sumTo t.nBackward fun j => gy.e i j * stateVals t.toTyper ym j) +
    sumTo nExog fun k => gu.e i k * u k
  let q := byRow t.toTyper fun i =>
      quadForm (so.stored (1 / 2)).ghxx.to2 i t.nBackward (stateVals t.toTyper ym) t.nBackward (stateVals t.toTyper ym) +
      quadForm (so.stored (1 / 2)).ghxu.to2 i t.nBackward (stateVals t.toTyper ym) nExog u +
      quadForm (so.stored (1 / 2)).ghuu.to2 i nExog u nExog u
  have f1 : FollowsPolicy t.toTyper nExog gy gu ym u y1 := fun i c hi => byRow_eq hp _ hi
  have f3 : SecondTerms t.toTyper nExog (so.stored (1 / 2)) ym u q := fun i c hi => byRow_eq hp _ hi
  have hy' : ∀ c < t.n, y c = y1 c + (q c + σ * σ * cr c) := by
    intro c hc
    obtain ⟨i, hi⟩ := hdr c hc
    rw [hy i c hi, hcr i c hi, f3 i c hi, show y1 c = _ from byRow_eq hp _ hi]
    ring
  obtain ⟨b1, b3, hnext⟩ := hsplit r ym u y1 q (fun c => σ * σ * cr c) hr0 hr1 hym hu (by
    intro c hc
    rw [abs_mul, mul_comm]
    refine mul_le_mul ((hB1' c hc).trans (by linarith)) hσσ (abs_nonneg _) hB) f1 f3
  have hnext' : ∀ ω, ∃ yp q' ρ : Nat → V, ω < N → FollowsPolicy t.toTyper nExog gy gu y1 (fun k => σ * z ω k) yp ∧
      RiskTerms t.toTyper nExog (so.stored (1 / 2)) gy (fun c => σ * σ * cr c) y1 (fun c => q c + σ * σ * cr c)
        (fun k => σ * z ω k) q' ∧ (∀ c < t.n, yE ω c = yp c + q' c + ρ c) ∧
      (∀ c < t.n, |yp c| ≤ K * r) ∧ (∀ c < t.n, |q' c| ≤ K * (r * r)) ∧ ∀ c < t.n, |ρ c| ≤ K * (r * r * r) := by
    intro ω
    by_cases hω : ω < N
    · obtain ⟨yp, q', ρ, a1, a2, a3, a4, a5, a6⟩ := hnext (fun k => σ * z ω k) (by
        intro k hk
        rw [abs_mul, mul_comm]
        exact mul_le_mul ((hz ω hω k hk).trans (by linarith)) hσ (abs_nonneg _) hB)
      refine ⟨yp, q', ρ, fun _ => ⟨a1, a2, ?_, a4, a5, a6⟩⟩
      intro c hc
      obtain ⟨i, hi⟩ := hdr c hc
      have hsv : ∀ b < t.nBackward, stateVals t.toTyper y b = stateVals t.toTyper (fun c => y1 c + (q c + σ * σ * cr c)) b := by
        intro b hb
        have h0 : 0 < t.n := by
          have := nBackward_le t.toTyper
          omega
        refine hy' _ ?_
        generalize (t.permute t.drOrder).state[b]?.getD 0 = j
        cases hj : t.drOrder[j]? with
        | none => simpa using h0
        | some c' => exact List.mem_range.mp (hp.mem_iff.mp (List.mem_of_getElem? hj))
      rw [hyE ω hω i c hi, a3 i c hi, ← hcr i c hi,
        quadForm_congr (X := (so.stored (1 / 2)).ghxx.to2) (fun _ _ _ _ => rfl) hsv hsv,
        quadForm_congr (X := (so.stored (1 / 2)).ghxu.to2) (fun _ _ _ _ => rfl) hsv (fun _ _ => rfl)]
      have : (sumTo t.nBackward fun b => gy.e i b * stateVals t.toTyper y b) = sumTo t.nBackward fun b =>
          gy.e i b * stateVals t.toTyper (fun c => y1 c + (q c + σ * σ * cr c)) b := by
        rw [sumTo_eq, sumTo_eq]
        exact Finset.sum_congr rfl fun b hb => by rw [hsv b (Finset.mem_range.mp hb)]
      rw [this]
    · exact ⟨fun _ => 0, fun _ => 0, fun _ => 0, fun h => absurd h hω⟩
  choose yp q' ρ hnext' using hnext'
  obtain ⟨D1, D2, hD1, hD2, hE⟩ := risk_terms_zero la ex qz hqz pss t ht hcur hstate nExog J H sigma gy gu
    ⟨g1, g2⟩ ⟨g3, g4⟩ (by omega) hsym hsig so hso hd σ f1 f3 hcr (yp := yp) (q' := q')
    (fun yp h i hi => linearised_zero ex hcur hst (by omega) hc hsep hsol f1 h i hi)
    (fun ω hω => (hnext' ω hω).1) (fun ω hω => (hnext' ω hω).2.1)
  have hres : ∀ ω, ∃ v : List V, ω < N → dynamicCall t nExog fs (vec ω) = .ok v ∧ v.length = v₀.length ∧
      ∀ i < v.length, |vecEntry v i - vecEntry v₀ i - (rowMap J i (t.count + nExog) (D1 ω) +
        (1 / 2 * rowQuad H i (t.count + nExog) (D1 ω) (D1 ω) + rowMap J i (t.count + nExog) (D2 ω)))| ≤ ε * (r * r) := by
    intro ω
    by_cases hω : ω < N
    · obtain ⟨-, -, f6, b2, b4, b5⟩ := hnext' ω hω
      have hD := assembled_flat ht (hvec ω hω)
      obtain ⟨D3, hD3⟩ := flat_exists ht nExog (⟨fun _ => 0, fun _ => 0, ρ ω, fun _ => 0⟩ : Around V)
      have hsum : ∀ k < t.count + nExog, argDev t nExog ss (vec ω) k = D1 ω k + D2 ω k + D3 k := by
        refine flat_ext ht hD (flat_add (flat_add (hD1 ω hω) (hD2 ω hω)) hD3) ?_ ?_ ?_ ?_
        · intro c _; simp
        · intro c hc; simp only [add_zero]; exact hy' c hc
        · intro c hc; exact f6 c hc
        · intro k _; simp
      have zz : |(0 : V)| = 0 := abs_zero
      have c1 : ∀ k < t.count + nExog, |D1 ω k| ≤ K * r :=
        flat_le ht (hD1 ω hω) (fun c hc => (hym c hc).trans hrK) b1 b2 (fun k hk => (hu k hk).trans hrK)
      have c2 : ∀ k < t.count + nExog, |D2 ω k| ≤ K * (r * r) :=
        flat_le ht (hD2 ω hω) (fun c hc => by rw [zz]; exact hKrr0) b3 b4 (fun k hk => by rw [zz]; exact hKrr0)
      have c3 : ∀ k < t.count + nExog, |D3 k| ≤ K * (r * r * r) :=
        flat_le ht hD3 (fun c hc => by rw [zz]; exact hKrrr0) (fun c hc => by rw [zz]; exact hKrrr0) b5
          (fun k hk => by rw [zz]; exact hKrrr0)
      have hnear : Near (linPoint t.toTyper nExog ss) (3 * K * r) (vec ω) := by
        refine ⟨by rw [hlen, (hvec ω hω).len], fun k hk => ?_⟩
        have hk' : k < t.count + nExog := by omega
        have := hsum k hk'
        unfold argDev at this
        rw [this]
        refine (abs_add_le _ _).trans ((add_le_add ((abs_add_le _ _).trans (add_le_add (c1 k hk') (c2 k hk')))
          (c3 k hk')).trans ?_)
        linarith
      have hle : 3 * K * r ≤ δ := by
        rw [le_div_iff₀ (by linarith)] at hrδ
        linarith
      obtain ⟨v, hv, hl, hq⟩ := callAll_of (fs := fs) (vec := vec ω)
        (Q := fun i v => |v - vecEntry v₀ i - (rowMap J i (t.count + nExog) (D1 ω) +
          (1 / 2 * rowQuad H i (t.count + nExog) (D1 ω) (D1 ω) + rowMap J i (t.count + nExog) (D2 ω)))| ≤ ε * (r * r)) (by
          intro i f hf
          have hi := (List.getElem?_eq_some_iff.mp hf).1
          have hw : v₀[i]? = some (vecEntry v₀ i) := by
            unfold vecEntry
            rw [List.getElem?_eq_getElem (by omega)]
            rfl
          obtain ⟨v, hv, hb⟩ := hδ' i (List.mem_range.mpr hi) f hf _ (hq₀ i _ hw f hf) _ (by positivity) hle (vec ω) hnear
          refine ⟨v, hv, ?_⟩
          have hrem := quad_remainder' (J := J) (H := H) (i := i) hK0 hr0 hr1 hsum c1 c2 c3
          rw [hlen] at hb
          have hX := (hrem.trans (mul_le_mul_of_nonneg_right (hC i (by omega)) hrrr0))
          have hε' : C * (r * r * r) ≤ ε / 2 * (r * r) := by
            rw [le_div_iff₀ hC1] at hrε
            nlinarith
          have hb' : ε / 2 / (3 * K * (3 * K)) * (3 * K * r * (3 * K * r)) = ε / 2 * (r * r) := by
            field_simp
          rw [hb'] at hb
          have hfin : v - vecEntry v₀ i - (rowMap J i (t.count + nExog) (D1 ω) +
              (1 / 2 * rowQuad H i (t.count + nExog) (D1 ω) (D1 ω) + rowMap J i (t.count + nExog) (D2 ω))) =
              (v - vecEntry v₀ i - (sumTo (t.count + nExog) fun k =>
                J.e i k * (vecEntry (vec ω) k - vecEntry (linPoint t.toTyper nExog ss) k)) -
              1 / 2 * sumTo (t.count + nExog) fun k => sumTo (t.count + nExog) fun l =>
                  H.e i (k * (t.count + nExog) + l) * ((vecEntry (vec ω) k - vecEntry (linPoint t.toTyper nExog ss) k) *
                      (vecEntry (vec ω) l - vecEntry (linPoint t.toTyper nExog ss) l))) +
              ((sumTo (t.count + nExog) fun k => J.e i k * argDev t nExog ss (vec ω) k) +
                1 / 2 * quadForm H i (t.count + nExog) (argDev t nExog ss (vec ω)) (t.count + nExog)
                  (argDev t nExog ss (vec ω)) - ((sumTo (t.count + nExog) fun k => J.e i k * D1 ω k) +
                  (1 / 2 * quadForm H i (t.count + nExog) (D1 ω) (t.count + nExog) (D1 ω) +
                    sumTo (t.count + nExog) fun k => J.e i k * D2 ω k))) := by
            rw [rowMap_apply, rowMap_apply, rowQuad_apply]
            unfold quadForm argDev
            ring
          rw [hfin]
          refine (abs_add_le _ _).trans ((add_le_add hb (hX.trans hε')).trans (le_of_eq ?_))
          ring)
      refine ⟨v, fun _ => ⟨by rw [hcall _ (hvec ω hω).len, hv], by omega, fun i hi => ?_⟩⟩
      exact hq i _ (by unfold vecEntry; rw [List.getElem?_eq_getElem hi]; rfl)
    · exact ⟨[], fun h => absurd h hω⟩
  choose v hv using hres
  refine ⟨v, fun ω hω => ⟨(hv ω hω).1, (hv ω hω).2.1⟩, fun i hi => ?_⟩
  have e1 : expect N w (fun ω => vecEntry (v ω) i) - vecEntry v₀ i =
      expect N w (fun ω => vecEntry (v ω) i - vecEntry v₀ i - (rowMap J i (t.count + nExog) (D1 ω) +
        (1 / 2 * rowQuad H i (t.count + nExog) (D1 ω) (D1 ω) + rowMap J i (t.count + nExog) (D2 ω)))) := by
    have e2 := expect_congr (N := N) (w := w) (f := fun ω => vecEntry (v ω) i)
      (g := fun ω => (vecEntry (v ω) i - vecEntry v₀ i - (rowMap J i (t.count + nExog) (D1 ω) +
        (1 / 2 * rowQuad H i (t.count + nExog) (D1 ω) (D1 ω) + rowMap J i (t.count + nExog) (D2 ω)))) + vecEntry v₀ i +
        (rowMap J i (t.count + nExog) (D1 ω) + (1 / 2 * rowQuad H i (t.count + nExog) (D1 ω) (D1 ω) +
          rowMap J i (t.count + nExog) (D2 ω)))) fun ω _ => by ring
    rw [expect_add, expect_add, expect_const hd, hE i (by omega)] at e2
    rw [e2]
    ring
  rw [e1]
  exact expect_le hd fun ω hω => (hv ω hω).2.2 i (by rw [(hv ω hω).2.1]; exact hi)

/-- **C162, scale.** If all variances and covariances of the shocks are multiplied by `a`, so is the constant for risk;
nothing else in the second-order solution changes. -/
theorem C162_scale (la : LinAlg V) (ex : la.Exact) (qz : Arr V → Arr V → Except Err (GQZ V))
    (hqz : GQZExact qz) (half : V) (pss : List (List Int)) (t : Llx)
    (ht : buildLlx pss = .ok t) (hcur : ∀ c < t.n, t.has 1 c = true) (hstate : t.state ≠ []) (nExog : Nat)
    (J H sigma sigma' gy gu : Arr V) (hgy : gy.r = t.n ∧ gy.c = t.nBackward) (hgu : gu.r = t.n ∧ gu.c = nExog)
    (hH : H.r = t.n) (hsig : sigma.r = nExog ∧ sigma.c = nExog) (hsig' : sigma'.r = nExog ∧ sigma'.c = nExog) (a : V)
    (ha : ∀ j < nExog, ∀ k < nExog, sigma'.e j k = a * sigma.e j k) (so so' : SecondNd V)
    (h : solveSecondOrder la qz half t.toTyper nExog J H sigma (Nd.mat gy).squeeze (Nd.mat gu).squeeze = .ok so)
    (h' : solveSecondOrder la qz half t.toTyper nExog J H sigma' (Nd.mat gy).squeeze (Nd.mat gu).squeeze = .ok so') :
    so'.ghxx = so.ghxx ∧ so'.ghxu = so.ghxu ∧ so'.ghuu = so.ghuu ∧
      ∀ i < t.n, so'.del2.to2.e i 0 = a * so.del2.to2.e i 0 := by
  obtain ⟨P⟩ := secondParts ex hqz ht hcur hstate hgy hgu hH hsig h
  obtain ⟨P'⟩ := secondParts ex hqz ht hcur hstate hgy hgu hH hsig' h'
  have same : so'.ghxx = so.ghxx ∧ so'.ghxu = so.ghxu ∧ so'.ghuu = so.ghuu := by
    unfold solveSecondOrder at h h'
    obtain ⟨order, h1, h⟩ := Except.bind_eq_ok h
    obtain ⟨hess, h2, h⟩ := Except.bind_eq_ok h
    obtain ⟨⟨A, C, D⟩, h3, h⟩ := Except.bind_eq_ok h
    obtain ⟨zx, h4, h⟩ := Except.bind_eq_ok h
    obtain ⟨zu, h5, h⟩ := Except.bind_eq_ok h
    obtain ⟨ghxx, h6, h⟩ := Except.bind_eq_ok h
    obtain ⟨ghxu, h7, h⟩ := Except.bind_eq_ok h
    obtain ⟨ghuu, h8, h⟩ := Except.bind_eq_ok h
    obtain ⟨del2, h9, h⟩ := Except.bind_eq_ok h
    simp only [bind, Except.bind, h1, h2, h3, h4, h5, h6, h7, h8] at h'
    obtain ⟨del2', h10, h'⟩ := Except.bind_eq_ok h'
    rw [← Except.ok.inj h, ← Except.ok.inj h']
    exact ⟨rfl, rfl, rfl⟩
  have hW : ∀ k < t.n, ∀ m < nExog * nExog, P'.W k m = P.W k m := by
    intro k hk m hm
    have h1 := P.isW.to2.2.2 k hk m hm
    have h2 := P'.isW.to2.2.2 k hk m hm
    rw [same.2.2, h1] at h2
    exact h2.symm
  have hd : ∀ k < t.n, P'.d k - a * P.d k = 0 := by
    refine P.uniqd (fun k => P'.d k - a * P.d k) fun i hi => ?_
    have e1 := P.eqd i hi
    have e2 := P'.eqd i hi
    have e3 : (sumTo (nExog * nExog) fun m =>
        ((sumTo t.nF fun f => J.e i (t.col 2 (t.f0 + f)) * P'.W (t.f0 + f) m) +
          sumTo t.nF fun p => sumTo t.nF fun q =>
            H.e i (t.col 2 (t.f0 + p) * (t.count + nExog) + t.col 2 (t.f0 + q)) *
            (gu.e (t.f0 + p) (m / nExog) * gu.e (t.f0 + q) (m % nExog))) * sigma'.e (m % nExog) (m / nExog)) =
        a * sumTo (nExog * nExog) fun m =>
        ((sumTo t.nF fun f => J.e i (t.col 2 (t.f0 + f)) * P.W (t.f0 + f) m) +
          sumTo t.nF fun p => sumTo t.nF fun q =>
            H.e i (t.col 2 (t.f0 + p) * (t.count + nExog) + t.col 2 (t.f0 + q)) *
            (gu.e (t.f0 + p) (m / nExog) * gu.e (t.f0 + q) (m % nExog))) * sigma.e (m % nExog) (m / nExog) := by
      rw [sumTo_eq, sumTo_eq, Finset.mul_sum]
      refine Finset.sum_congr rfl fun m hm => ?_
      have hm := Finset.mem_range.mp hm
      obtain ⟨d1, d2⟩ := div_lt_of_mul hm
      have e4 : (sumTo t.nF fun f => J.e i (t.col 2 (t.f0 + f)) * P'.W (t.f0 + f) m) =
          sumTo t.nF fun f => J.e i (t.col 2 (t.f0 + f)) * P.W (t.f0 + f) m := by
        obtain ⟨n1, n2⟩ := nSum P.g
        exact sumTo_congr fun f hf => by rw [hW (t.f0 + f) (by omega) m hm]
      rw [ha _ d2 _ d1, e4]
      ring
    have e5 : (sumTo t.n fun k => del2Ent t.toTyper J gy.e i k * (P'.d k - a * P.d k)) =
        (sumTo t.n fun k => del2Ent t.toTyper J gy.e i k * P'.d k) -
          a * sumTo t.n fun k => del2Ent t.toTyper J gy.e i k * P.d k := by
      simp only [sumTo_eq, Finset.mul_sum, ← Finset.sum_sub_distrib]
      exact Finset.sum_congr rfl fun k _ => by ring
    rw [e5]
    rw [e3] at e2
    linear_combination e2 - a * e1
  refine ⟨same.1, same.2.1, same.2.2, fun i hi => ?_⟩
  have h1 := P.isd.to2.2.2 i hi 0 (by omega)
  have h2 := P'.isd.to2.2.2 i hi 0 (by omega)
  rw [h1, h2]
  linear_combination half * hd i hi

/-- **C162, as solved.** The same for the solution as it is returned: let the covariances of the shocks be `s * s` times
`sigma`, and `so'` be the second-order solution found with them.  Then paths that follow `so'`, with its constant for
risk, satisfy the equations on average over next period's shocks – which are `s` times shocks with covariances `sigma` –
up to an error that is small compared with the square of the deviations and of `s`. -/
theorem C162_risk_solved (la : LinAlg V) (ex : la.Exact) (qz : Arr V → Arr V → Except Err (GQZ V))
    (hqz : GQZExact qz) (pss : List (List Int)) (t : Llx)
    (hps : ∀ ps ∈ pss, 0 ∈ ps ∧ ∀ p ∈ ps, p = -1 ∨ p = 0 ∨ p = 1) (ht : buildLlx pss = .ok t)
    (nExog : Nat) (fs : List (List V → Except Err V)) (hfs : fs.length = pss.length) (ss : List V)
    (J H sigma : Arr V) (hJ : J.r = pss.length) (hH : H.r = pss.length) (hsym : SymmetricHessian t nExog H)
    (hsig : sigma.r = nExog ∧ sigma.c = nExog)
    (hder : ∀ (i : Nat) f, fs[i]? = some f → IsTaylorAt f (linPoint t.toTyper nExog ss) (J.e i) (H.e i))
    (s : Space V) (gy gu : Arr V) (hc : Space.create la t.toTyper J = .ok s) (hsep : s.parts.Separated)
    (hsol : solveFirstOrder la t nExog s = .ok (gy, gu)) (so : SecondNd V)
    (hso : solveSecondOrder la qz (1 / 2) t.toTyper nExog J H sigma (Nd.mat gy).squeeze (Nd.mat gu).squeeze =
      .ok so) (N : Nat) (w : Nat → V) (z : Nat → Nat → V) (hd : ShockDist N w z nExog sigma) :
    ∃ v₀, dynamicCall t nExog fs (linPoint t.toTyper nExog ss) = .ok v₀ ∧
    ∀ ε > 0, ∃ δ > 0, ∀ r, r ≤ δ → ∀ (σ : V) (sigma' : Arr V) (so' : SecondNd V) (ym u y : Nat → V) (yE : Nat → Nat → V),
      |σ| ≤ r → sigma'.r = nExog → sigma'.c = nExog →
      (∀ j < nExog, ∀ k < nExog, sigma'.e j k = σ * σ * sigma.e j k) →
      solveSecondOrder la qz (1 / 2) t.toTyper nExog J H sigma' (Nd.mat gy).squeeze (Nd.mat gu).squeeze = .ok so' →
      (∀ c < t.n, |ym c| ≤ r) → (∀ k < nExog, |u k| ≤ r) →
      FollowsRisk t.toTyper nExog (so'.stored (1 / 2)) gy gu 1 ym u y →
      (∀ ω < N, FollowsRisk t.toTyper nExog (so'.stored (1 / 2)) gy gu 1 y (fun k => σ * z ω k) (yE ω)) →
      ∀ vec : Nat → List V, (∀ ω < N, Assembled t nExog ss ⟨ym, y, yE ω, u⟩ (vec ω)) →
        ∃ v : Nat → List V, (∀ ω < N, dynamicCall t nExog fs (vec ω) = .ok (v ω) ∧ (v ω).length = v₀.length) ∧
          ∀ i < v₀.length, |expect N w (fun ω => vecEntry (v ω) i) - vecEntry v₀ i| ≤ ε * (r * r) := by
  obtain ⟨hn, hcur, hpos, hst⟩ := solved_facts ex hps ht hc hsol
  obtain ⟨g1, g2, g3, g4, -⟩ := solution_rows ex hcur hst (by omega) hc hsep hsol
  have hstate : t.state ≠ [] := by
    intro h0
    have := (C31_sizes t.toTyper).2.1
    rw [h0] at this
    rw [this] at hpos
    cases hpos
  obtain ⟨v₀, hv₀, h⟩ := C162_risk_accuracy la ex qz hqz pss t hps ht nExog fs hfs ss J H sigma hJ hH hsym hsig hder s gy gu
    hc hsep hsol so hso N w z hd
  refine ⟨v₀, hv₀, fun ε hε => ?_⟩
  obtain ⟨δ, hδ, h⟩ := h ε hε
  refine ⟨δ, hδ, ?_⟩
  intro r hr σ sigma' so' ym u y yE hσ s1 s2 s3 hso' hym hu hy hyE
  obtain ⟨c1, c2, c3, c4⟩ := C162_scale la ex qz hqz (1 / 2) pss t ht hcur hstate nExog J H sigma sigma' gy gu ⟨g1, g2⟩
    ⟨g3, g4⟩ (by omega) hsig ⟨s1, s2⟩ (σ * σ) s3 so so' hso hso'
  have conv : ∀ ym u y : Nat → V, FollowsRisk t.toTyper nExog (so'.stored (1 / 2)) gy gu 1 ym u y →
      FollowsRisk t.toTyper nExog (so.stored (1 / 2)) gy gu (σ * σ) ym u y := by
    intro ym u y h i c hi
    have hin : i < t.n := by
      have := (List.getElem?_eq_some_iff.mp hi).1
      have hl := (groups hcur).perm.length_eq
      rw [List.length_range] at hl
      omega
    have h1 := h i c hi
    simp only [SecondNd.stored, c1, c2, c3, c4 i hin, one_mul] at h1
    exact h1
  exact h r hr σ ym u y yE hσ hym hu (conv _ _ _ hy) fun ω hω => conv _ _ _ (hyE ω hω)

/-! ### the hypotheses are met -/

/-- two independent shocks, each up or down, with the covariances of the example -/
def riskZ (ω k : Nat) : ℚ :=
  if k = 0 then (if ω < 2 then 1 else -1) else if ω = 0 ∨ ω = 2 then 1 / 2 else -1 / 2

theorem riskZ_dist : ShockDist 4 (fun _ => (1 / 4 : ℚ)) riskZ 2 so2Sigma := by
  refine ⟨fun _ _ => by norm_num, by decide +kernel, ?_, ?_⟩
  · decide +kernel
  · decide +kernel

/-- the example of C111 solved with its covariances and with those of shocks a tenth of the size -/
def riskAll : Except Err (Space ℚ × Arr ℚ × Arr ℚ × SecondNd ℚ × SecondNd ℚ) := do
  let s ← Space.create chLa so2T.toTyper so2J
  let (gy, gu) ← solveFirstOrder chLa so2T 2 s
  let so ← solveSecondOrder chLa triQz (1/2) so2T.toTyper 2 so2J so2H so2Sigma (Nd.mat gy).squeeze (Nd.mat gu).squeeze
  let so' ← solveSecondOrder chLa triQz (1/2) so2T.toTyper 2 so2J so2H (listArr [[1/100, 0], [0, 1/400]] 2)
    (Nd.mat gy).squeeze (Nd.mat gu).squeeze
  .ok (s, gy, gu, so, so')

/-- C162 applies to a model with two states, two shocks, a forward-looking variable and products of variables, with a
constant for risk that is not zero -/
example : ∃ (s : Space ℚ) (gy gu : Arr ℚ) (so so' : SecondNd ℚ),
    Space.create chLa so2T.toTyper so2J = .ok s ∧ s.parts.Separated ∧
    solveFirstOrder chLa so2T 2 s = .ok (gy, gu) ∧
    solveSecondOrder chLa triQz (1 / 2) so2T.toTyper 2 so2J so2H so2Sigma (Nd.mat gy).squeeze (Nd.mat gu).squeeze =
      .ok so ∧
    solveSecondOrder chLa triQz (1 / 2) so2T.toTyper 2 so2J so2H (listArr [[1/100, 0], [0, 1/400]] 2)
      (Nd.mat gy).squeeze (Nd.mat gu).squeeze = .ok so' ∧
    so.del2.to2.e 2 0 ≠ 0 ∧ (∀ j < 2, ∀ k < 2, (listArr [[1/100, 0], [0, 1/400]] 2 : Arr ℚ).e j k =
      1 / 10 * (1 / 10) * so2Sigma.e j k) ∧
    chFs.length = 3 ∧ SymmetricHessian so2T 2 so2H ∧ chLa.Exact ∧ GQZExact triQz ∧
    (∀ (i : Nat) f, chFs[i]? = some f → IsTaylorAt f (linPoint so2T.toTyper 2 [0, 0, 0]) (so2J.e i) (so2H.e i)) ∧
    buildLlx [[-1, 0], [-1, 0], [0, 1]] = .ok so2T ∧ ShockDist 4 (fun _ => (1 / 4 : ℚ)) riskZ 2 so2Sigma := by
  obtain ⟨⟨s, gy, gu, so, so'⟩, h0, h⟩ := ok_of_check (x := riskAll)
    (p := fun r => r.1.parts.eigs == [stab, stab, expl] && decide (r.2.2.2.1.del2.to2.e 2 0 ≠ 0)) (by decide +kernel)
  unfold riskAll at h0
  obtain ⟨s, hs, h0⟩ := Except.bind_eq_ok h0
  obtain ⟨⟨gy, gu⟩, hg, h0⟩ := Except.bind_eq_ok h0
  obtain ⟨so, hso, h0⟩ := Except.bind_eq_ok h0
  obtain ⟨so', hso', h0⟩ := Except.bind_eq_ok h0
  have e := Except.ok.inj h0
  simp only [Prod.mk.injEq] at e
  obtain ⟨rfl, rfl, rfl, rfl, rfl⟩ := e
  rw [Bool.and_eq_true, decide_eq_true_eq] at h
  refine ⟨s, gy, gu, so, so', hs, .inl ?_, hg, hso, hso', h.2, by decide +kernel, rfl, ?_, chLa_exact, triQz_exact, chFs_taylor,
    rfl, riskZ_dist⟩
  · have : s.parts.eigs = [stab, stab, expl] := beq_iff_eq.mp h.1
    rw [this]
    exact ⟨expl, by simp, rfl⟩
  · unfold SymmetricHessian; decide +kernel

#print axioms C162_risk_accuracy
#print axioms C162_scale
#print axioms C162_risk_solved

end Pynare

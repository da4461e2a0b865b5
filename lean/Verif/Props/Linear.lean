import Verif.Lemmas.Linear
import Verif.Lemmas.Stats
import Verif.Props.SecondOrder
import Verif.Examples.Linear
/-!
# C110 and C111: how well solutions satisfy the equations themselves
-/

namespace Pynare

variable {V : Type} [Field V] [LinearOrder V] [IsStrictOrderedRing V]

set_option linter.unusedSectionVars false

/-- what is known of a model that has a first-order solution -/
theorem solved_facts {la : LinAlg V} (ex : la.Exact) {pss : List (List Int)} {t : Llx}
    (hps : ∀ ps ∈ pss, 0 ∈ ps ∧ ∀ p ∈ ps, p = -1 ∨ p = 0 ∨ p = 1) (ht : buildLlx pss = .ok t)
    {nExog : Nat} {J : Arr V} {s : Space V} {gy gu : Arr V} (hc : Space.create la t.toTyper J = .ok s)
    (hsol : solveFirstOrder la t nExog s = .ok (gy, gu)) :
    t.n = pss.length ∧ (∀ c < t.n, t.has 1 c = true) ∧ 0 < t.nBackward ∧ t.nStatic = t.static.length := by
  obtain ⟨t', ht', hn, hcell, -⟩ := C28_numbering pss (fun ps h h0 => by
    have := (hps ps h).1; rw [h0] at this; cases this) (fun ps h => (hps ps h).2)
  rw [ht] at ht'
  have := Except.ok.inj ht'
  subst this
  have hcur : ∀ c < t.n, t.has 1 c = true := by
    intro c hcn
    have hc' : c < pss.length := by omega
    exact Option.isSome_iff_exists.mpr ((hcell c pss[c] 0 (List.getElem?_eq_getElem hc') (by omega)).mpr
      (hps _ (List.getElem_mem hc')).1)
  have hpos := (C73_refused la ex t nExog hcur J s gy gu hc hsol).1
  obtain ⟨-, hnb, -, -, -, -⟩ := C31_sizes t.toTyper
  have hst := (C32_static_count_with_lag_partial ht (by
    intro h0; rw [hnb, h0] at hpos; cases hpos)).1
  exact ⟨hn, hcur, hpos, hst⟩

/-! ### C110: the first-order solution and the equations themselves -/

/-- **C110.** Let `J` hold the first derivatives of the equations of a model at its steady state and `gy`, `gu`
be the first-order solution found from them.  Then paths that follow the solution satisfy the equations
themselves up to an error that is small compared with the deviations: for every `ε` there is a `δ` such that
whenever last period's deviations and the shocks are no greater than `r ≤ δ`, calling the model's residual
functions with the levels of last period, this period and – without further shocks – the next period returns
residuals which differ from those at the steady state by at most `ε r`. -/
theorem C110_first_order_accuracy (la : LinAlg V) (ex : la.Exact) (pss : List (List Int)) (t : Llx)
    (hps : ∀ ps ∈ pss, 0 ∈ ps ∧ ∀ p ∈ ps, p = -1 ∨ p = 0 ∨ p = 1) (ht : buildLlx pss = .ok t)
    (nExog : Nat) (fs : List (List V → Except Err V)) (hfs : fs.length = pss.length) (ss : List V)
    (J : Arr V) (hJ : J.r = pss.length)
    (hder : ∀ (i : Nat) f, fs[i]? = some f → IsDerivAt f (linPoint t.toTyper nExog ss) (J.e i))
    (s : Space V) (gy gu : Arr V) (hc : Space.create la t.toTyper J = .ok s) (hsep : s.parts.Separated)
    (hsol : solveFirstOrder la t nExog s = .ok (gy, gu)) :
    ∃ v₀, dynamicCall t nExog fs (linPoint t.toTyper nExog ss) = .ok v₀ ∧
    ∀ ε > 0, ∃ δ > 0, ∀ r, r ≤ δ → ∀ ym u y yE : Nat → V,
      (∀ c < t.n, |ym c| ≤ r) → (∀ k < nExog, |u k| ≤ r) →
      FollowsPolicy t.toTyper nExog gy gu ym u y →
      FollowsPolicy t.toTyper nExog gy gu y (fun _ => 0) yE →
      ∀ vec, Assembled t nExog ss ⟨ym, y, yE, u⟩ vec →
        ∃ v, dynamicCall t nExog fs vec = .ok v ∧ v.length = v₀.length ∧
          ∀ i < v.length, |vecEntry v i - vecEntry v₀ i| ≤ ε * r := by
  obtain ⟨hn, hcur, hpos, hst⟩ := solved_facts ex hps ht hc hsol
  have g := groups hcur
  have hdr : ∀ c < t.n, ∃ i : Nat, t.drOrder[i]? = some c := by
    intro c hc
    have := g.perm.mem_iff.mpr (List.mem_range.mpr hc)
    obtain ⟨i, hi, e⟩ := List.getElem_of_mem this
    exact ⟨i, by rw [List.getElem?_eq_getElem hi, e]⟩
  have hlen := linPoint_length ht nExog ss
  have hcall : ∀ vec : List V, vec.length = t.count + nExog → dynamicCall t nExog fs vec = callAll fs vec := by
    intro vec h; unfold dynamicCall; rw [if_pos h]
  -- the residuals at the steady state
  obtain ⟨v₀, hv₀, hl₀, hq₀⟩ := callAll_of (fs := fs) (vec := linPoint t.toTyper nExog ss)
    (Q := fun i v => ∀ f, fs[i]? = some f → f (linPoint t.toTyper nExog ss) = .ok v) (by
      intro i f hf
      obtain ⟨v, hv, -⟩ := hder i f hf
      exact ⟨v, hv, fun f' hf' => by rw [hf] at hf'; cases hf'; exact hv⟩)
  refine ⟨v₀, by rw [hcall _ hlen, hv₀], fun ε hε => ?_⟩
  obtain ⟨M, hM, hbound⟩ := policy_bound t.toTyper nExog gy gu
  have hK : 0 < (1 + M) * (1 + M) := by positivity
  obtain ⟨δ, hδ, hδ'⟩ := uniform_delta (List.range fs.length)
    (fun i δ => ∀ f, fs[i]? = some f → ∀ w, f (linPoint t.toTyper nExog ss) = .ok w → ∀ r, 0 ≤ r → r ≤ δ →
      ∀ x, Near (linPoint t.toTyper nExog ss) r x → ∃ v, f x = .ok v ∧
        |v - w - sumTo (linPoint t.toTyper nExog ss).length fun k =>
          J.e i k * (vecEntry x k - vecEntry (linPoint t.toTyper nExog ss) k)| ≤ ε / ((1 + M) * (1 + M)) * r)
    (by
      intro i hi
      have hi := List.mem_range.mp hi
      obtain ⟨w, hw, h⟩ := hder i fs[i] (List.getElem?_eq_getElem hi)
      obtain ⟨δ, hδ, h⟩ := h (ε / ((1 + M) * (1 + M))) (by positivity)
      refine ⟨δ, hδ, fun f hf w' hw' => ?_⟩
      rw [List.getElem?_eq_getElem hi] at hf
      cases hf
      rw [hw] at hw'
      cases hw'
      exact h)
    (by
      intro i δ δ' _ hle h f hf w hw r h0 hr
      exact h f hf w hw r h0 (hr.trans hle))
  refine ⟨δ / ((1 + M) * (1 + M)), by positivity, ?_⟩
  intro r hr ym u y yE hym hu hy hyE vec hvec
  have hn0 : 0 < t.n := by have := nBackward_le t.toTyper; omega
  have hr0 : 0 ≤ r := (abs_nonneg _).trans (hym 0 hn0)
  have hMr : 0 ≤ M * r := mul_nonneg hM hr0
  have hMMr : 0 ≤ M * (M * r) := mul_nonneg hM hMr
  have by1 : ∀ c < t.n, |y c| ≤ M * r := fun c hc => by
    obtain ⟨i, hi⟩ := hdr c hc
    exact hbound r ym u y hym hu hy i c hi
  have by2 : ∀ c < t.n, |yE c| ≤ M * (M * r) := fun c hc => by
    obtain ⟨i, hi⟩ := hdr c hc
    refine hbound (M * r) y (fun _ => 0) yE by1 (fun k _ => ?_) hyE i c hi
    rw [abs_zero]; exact hMr
  have hnear : Near (linPoint t.toTyper nExog ss) ((1 + M) * (1 + M) * r) vec := by
    refine assembled_near ht hvec ?_ ?_ ?_ ?_
    · intro c hc; exact (hym c hc).trans (by nlinarith)
    · intro c hc; exact (by1 c hc).trans (by nlinarith)
    · intro c hc; exact (by2 c hc).trans (by nlinarith)
    · intro k hk; exact (hu k hk).trans (by nlinarith)
  have hle : (1 + M) * (1 + M) * r ≤ δ := by
    rw [le_div_iff₀ hK] at hr
    linarith
  obtain ⟨v, hv, hl, hq⟩ := callAll_of (fs := fs) (vec := vec)
    (Q := fun i v => |v - vecEntry v₀ i| ≤ ε * r) (by
      intro i f hf
      have hi := (List.getElem?_eq_some_iff.mp hf).1
      have hw : v₀[i]? = some (vecEntry v₀ i) := by
        unfold vecEntry
        rw [List.getElem?_eq_getElem (by omega)]
        rfl
      obtain ⟨v, hv, hb⟩ := hδ' i (List.mem_range.mpr hi) f hf _ (hq₀ i _ hw f hf) _ (by positivity) hle vec hnear
      refine ⟨v, hv, ?_⟩
      have hz := linearised_zero ex hcur hst (by omega) hc hsep hsol hy hyE i (by omega)
      rw [linearised_flat (d := ⟨ym, y, yE, u⟩) ht (assembled_flat ht hvec)] at hz
      rw [hlen] at hb
      unfold argDev at hz
      rw [hz, sub_zero] at hb
      refine hb.trans (le_of_eq ?_)
      field_simp)
  refine ⟨v, by rw [hcall _ hvec.len, hv], by omega, fun i hi => ?_⟩
  exact hq i _ (by unfold vecEntry; rw [List.getElem?_eq_getElem hi]; rfl)

/-! ### C111: the second-order solution and the equations themselves -/

/-- **C111.** Let `J` and `H` hold the first and second derivatives of the equations of a model at its steady
state, `gy`, `gu` be the first-order solution and `so` the second-order arrays found from them.  Then paths
that follow the second-order solution (without the constant for risk) satisfy the equations themselves up to an
error that is small compared with the square of the deviations. -/
theorem C111_second_order_accuracy (la : LinAlg V) (ex : la.Exact) (qz : Arr V → Arr V → Except Err (GQZ V))
    (hqz : GQZExact qz) (pss : List (List Int)) (t : Llx)
    (hps : ∀ ps ∈ pss, 0 ∈ ps ∧ ∀ p ∈ ps, p = -1 ∨ p = 0 ∨ p = 1) (ht : buildLlx pss = .ok t)
    (nExog : Nat) (fs : List (List V → Except Err V)) (hfs : fs.length = pss.length) (ss : List V)
    (J H sigma : Arr V) (hJ : J.r = pss.length) (hH : H.r = pss.length) (hsym : SymmetricHessian t nExog H)
    (hsig : sigma.r = nExog ∧ sigma.c = nExog)
    (hder : ∀ (i : Nat) f, fs[i]? = some f → IsTaylorAt f (linPoint t.toTyper nExog ss) (J.e i) (H.e i))
    (s : Space V) (gy gu : Arr V) (hc : Space.create la t.toTyper J = .ok s) (hsep : s.parts.Separated)
    (hsol : solveFirstOrder la t nExog s = .ok (gy, gu)) (so : SecondNd V)
    (hso : solveSecondOrder la qz (1 / 2) t.toTyper nExog J H sigma (Nd.mat gy).squeeze (Nd.mat gu).squeeze =
      .ok so) :
    ∃ v₀, dynamicCall t nExog fs (linPoint t.toTyper nExog ss) = .ok v₀ ∧
    ∀ ε > 0, ∃ δ > 0, ∀ r, r ≤ δ → ∀ ym u y yE : Nat → V,
      (∀ c < t.n, |ym c| ≤ r) → (∀ k < nExog, |u k| ≤ r) →
      FollowsSecond t.toTyper nExog (so.stored (1 / 2)) gy gu ym u y →
      FollowsSecond t.toTyper nExog (so.stored (1 / 2)) gy gu y (fun _ => 0) yE →
      ∀ vec, Assembled t nExog ss ⟨ym, y, yE, u⟩ vec →
        ∃ v, dynamicCall t nExog fs vec = .ok v ∧ v.length = v₀.length ∧
          ∀ i < v.length, |vecEntry v i - vecEntry v₀ i| ≤ ε * (r * r) := by
  obtain ⟨hn, hcur, hpos, hst⟩ := solved_facts ex hps ht hc hsol
  have g := groups hcur
  obtain ⟨g1, g2, g3, g4, -⟩ := solution_rows ex hcur hst (by omega) hc hsep hsol
  have hstate : t.state ≠ [] := by
    intro h0
    have := (C31_sizes t.toTyper).2.1
    rw [h0] at this
    rw [this] at hpos
    cases hpos
  have hlen := linPoint_length ht nExog ss
  have hcall : ∀ vec : List V, vec.length = t.count + nExog → dynamicCall t nExog fs vec = callAll fs vec := by
    intro vec h; unfold dynamicCall; rw [if_pos h]
  obtain ⟨v₀, hv₀, hl₀, hq₀⟩ := callAll_of (fs := fs) (vec := linPoint t.toTyper nExog ss)
    (Q := fun i v => ∀ f, fs[i]? = some f → f (linPoint t.toTyper nExog ss) = .ok v) (by
      intro i f hf
      obtain ⟨v, hv, -⟩ := hder i f hf
      exact ⟨v, hv, fun f' hf' => by rw [hf] at hf'; cases hf'; exact hv⟩)
  refine ⟨v₀, by rw [hcall _ hlen, hv₀], fun ε hε => ?_⟩
  obtain ⟨K, hK1, hsplit⟩ := second_split g.perm nExog (so.stored (1 / 2)) gy gu
  have hK0 : 0 ≤ K := by linarith
  -- a bound for the derivatives
  obtain ⟨C, hC0, hC⟩ := rowSums pss.length (fun i => (sumTo (t.count + nExog) fun k => |J.e i k|) * K +
      (sumTo (t.count + nExog) fun a => sumTo (t.count + nExog) fun b => |H.e i (a * (t.count + nExog) + b)|) *
        (4 * (K * K)))
    (fun i => add_nonneg (mul_nonneg (sumTo_abs_nonneg _ _) hK0)
      (mul_nonneg (quadSum_nonneg _ _ _ _) (by positivity)))
  have hKK : 0 < 3 * K * (3 * K) := by positivity
  obtain ⟨δ, hδ, hδ'⟩ := uniform_delta (List.range fs.length)
    (fun i δ => ∀ f, fs[i]? = some f → ∀ w, f (linPoint t.toTyper nExog ss) = .ok w → ∀ r, 0 ≤ r → r ≤ δ →
      ∀ x, Near (linPoint t.toTyper nExog ss) r x → ∃ v, f x = .ok v ∧
        |v - w - (sumTo (linPoint t.toTyper nExog ss).length fun k =>
            J.e i k * (vecEntry x k - vecEntry (linPoint t.toTyper nExog ss) k)) -
          1 / 2 * sumTo (linPoint t.toTyper nExog ss).length fun k =>
            sumTo (linPoint t.toTyper nExog ss).length fun l =>
              H.e i (k * (linPoint t.toTyper nExog ss).length + l) *
                ((vecEntry x k - vecEntry (linPoint t.toTyper nExog ss) k) *
                  (vecEntry x l - vecEntry (linPoint t.toTyper nExog ss) l))| ≤ ε / 2 / (3 * K * (3 * K)) * (r * r))
    (by
      intro i hi
      have hi := List.mem_range.mp hi
      obtain ⟨w, hw, h⟩ := hder i fs[i] (List.getElem?_eq_getElem hi)
      obtain ⟨δ, hδ, h⟩ := h (ε / 2 / (3 * K * (3 * K))) (by positivity)
      refine ⟨δ, hδ, fun f hf w' hw' => ?_⟩
      rw [List.getElem?_eq_getElem hi] at hf
      cases hf
      rw [hw] at hw'
      cases hw'
      exact h)
    (by
      intro i δ δ' _ hle h f hf w hw r h0 hr
      exact h f hf w hw r h0 (hr.trans hle))
  have hC1 : 0 < 2 * (C + 1) := by linarith
  refine ⟨min 1 (min (δ / (3 * K)) (ε / (2 * (C + 1)))), by
    refine lt_min one_pos (lt_min ?_ ?_) <;> positivity, ?_⟩
  intro r hr ym u y yE hym hu hy hyE vec hvec
  have hr1 : r ≤ 1 := hr.trans (min_le_left _ _)
  have hrδ : r ≤ δ / (3 * K) := hr.trans ((min_le_right _ _).trans (min_le_left _ _))
  have hrε : r ≤ ε / (2 * (C + 1)) := hr.trans ((min_le_right _ _).trans (min_le_right _ _))
  have hn0 : 0 < t.n := by have := nBackward_le t.toTyper; omega
  have hr0 : 0 ≤ r := (abs_nonneg _).trans (hym 0 hn0)
  obtain ⟨y1, q, yp, q', ρ, f1, f2, f3, f4, f5, f6, b1, b2, b3, b4, b5⟩ :=
    hsplit r ym u y yE hr0 hr1 hym hu hy hyE
  have hrr : r * r ≤ r := by nlinarith
  have hrr0 : 0 ≤ r * r := mul_nonneg hr0 hr0
  have hrrr : r * r * r ≤ r * r := by nlinarith
  have hrrr0 : 0 ≤ r * r * r := mul_nonneg hrr0 hr0
  have hrK : r ≤ K * r := by nlinarith
  have hKr0 : 0 ≤ K * r := mul_nonneg hK0 hr0
  have hKrr : K * (r * r) ≤ K * r := mul_le_mul_of_nonneg_left hrr hK0
  have hKrrr : K * (r * r * r) ≤ K * (r * r) := mul_le_mul_of_nonneg_left hrrr hK0
  have hKrr0 : 0 ≤ K * (r * r) := mul_nonneg hK0 hrr0
  have hKrrr0 : 0 ≤ K * (r * r * r) := mul_nonneg hK0 hrrr0
  -- the deviations of the arguments, by order of magnitude
  have hD := assembled_flat ht hvec
  obtain ⟨D1, hD1⟩ := flat_exists ht nExog (⟨ym, y1, yp, u⟩ : Around V)
  obtain ⟨D2, hD2⟩ := flat_exists ht nExog (⟨fun _ => 0, q, q', fun _ => 0⟩ : Around V)
  obtain ⟨D3, hD3⟩ := flat_exists ht nExog (⟨fun _ => 0, fun _ => 0, ρ, fun _ => 0⟩ : Around V)
  have hsum : ∀ k < t.count + nExog, argDev t nExog ss vec k = D1 k + D2 k + D3 k := by
    refine flat_ext ht hD (flat_add (flat_add hD1 hD2) hD3) ?_ ?_ ?_ ?_
    · intro c _; simp
    · intro c hc; simp only [add_zero]; exact f5 c hc
    · intro c hc; exact f6 c hc
    · intro k _; simp
  have z : |(0 : V)| = 0 := abs_zero
  have c1 : ∀ k < t.count + nExog, |D1 k| ≤ K * r :=
    flat_le ht hD1 (fun c hc => (hym c hc).trans hrK) b1 b2 (fun k hk => (hu k hk).trans hrK)
  have c2 : ∀ k < t.count + nExog, |D2 k| ≤ K * (r * r) :=
    flat_le ht hD2 (fun c hc => by rw [z]; exact hKrr0) b3 b4 (fun k hk => by rw [z]; exact hKrr0)
  have c3 : ∀ k < t.count + nExog, |D3 k| ≤ K * (r * r * r) :=
    flat_le ht hD3 (fun c hc => by rw [z]; exact hKrrr0) (fun c hc => by rw [z]; exact hKrrr0) b5
      (fun k hk => by rw [z]; exact hKrrr0)
  have hnear : Near (linPoint t.toTyper nExog ss) (3 * K * r) vec := by
    refine ⟨by rw [hlen, hvec.len], fun k hk => ?_⟩
    have hk' : k < t.count + nExog := by omega
    have := hsum k hk'
    unfold argDev at this
    rw [this]
    refine (abs_add_le _ _).trans ((add_le_add ((abs_add_le _ _).trans (add_le_add (c1 k hk') (c2 k hk')))
      (c3 k hk')).trans ?_)
    linarith
  have hle : 3 * K * r ≤ δ := by
    rw [le_div_iff₀ (by linarith)] at hrδ
    linarith
  obtain ⟨v, hv, hl, hq⟩ := callAll_of (fs := fs) (vec := vec)
    (Q := fun i v => |v - vecEntry v₀ i| ≤ ε * (r * r)) (by
      intro i f hf
      have hi := (List.getElem?_eq_some_iff.mp hf).1
      have hin : i < t.n := by omega
      have hw : v₀[i]? = some (vecEntry v₀ i) := by
        unfold vecEntry
        rw [List.getElem?_eq_getElem (by omega)]
        rfl
      obtain ⟨v, hv, hb⟩ := hδ' i (List.mem_range.mpr hi) f hf _ (hq₀ i _ hw f hf) _ (by positivity) hle vec hnear
      refine ⟨v, hv, ?_⟩
      have z1 := linearised_zero ex hcur hst (by omega) hc hsep hsol f1 f2 i hin
      rw [linearised_flat (d := ⟨ym, y1, yp, u⟩) ht hD1] at z1
      have z2 := C85_second_order la ex qz hqz (1 / 2) (by norm_num) pss t ht hcur hstate nExog J H sigma gy gu
        ⟨g1, g2⟩ ⟨g3, g4⟩ (by omega) hsym hsig so hso ym u y1 yp q q' f1 f2 f3 f4 i hin
      rw [curvature_flat ht hD1 hD1, linearised_flat (d := ⟨fun _ => 0, q, q', fun _ => 0⟩) ht hD2] at z2
      have hrem := quad_remainder (J := J) (H := H) (i := i) hK0 hr0 hr1 hsum c1 c2 c3 z1 z2
      rw [hlen] at hb
      have hX := (hrem.trans (mul_le_mul_of_nonneg_right (hC i (by omega)) hrrr0))
      have hε' : C * (r * r * r) ≤ ε / 2 * (r * r) := by
        rw [le_div_iff₀ hC1] at hrε
        nlinarith
      have hb' : ε / 2 / (3 * K * (3 * K)) * (3 * K * r * (3 * K * r)) = ε / 2 * (r * r) := by
        field_simp
      rw [hb'] at hb
      have hfin : v - vecEntry v₀ i = (v - vecEntry v₀ i - (sumTo (t.count + nExog) fun k =>
            J.e i k * (vecEntry vec k - vecEntry (linPoint t.toTyper nExog ss) k)) -
          1 / 2 * sumTo (t.count + nExog) fun k => sumTo (t.count + nExog) fun l =>
              H.e i (k * (t.count + nExog) + l) * ((vecEntry vec k - vecEntry (linPoint t.toTyper nExog ss) k) *
                  (vecEntry vec l - vecEntry (linPoint t.toTyper nExog ss) l))) +
          ((sumTo (t.count + nExog) fun k => J.e i k * argDev t nExog ss vec k) +
            1 / 2 * quadForm H i (t.count + nExog) (argDev t nExog ss vec) (t.count + nExog)
              (argDev t nExog ss vec)) := by
        unfold quadForm argDev
        ring
      rw [hfin]
      refine (abs_add_le _ _).trans ((add_le_add hb (hX.trans hε')).trans (le_of_eq ?_))
      ring)
  refine ⟨v, by rw [hcall _ hvec.len, hv], by omega, fun i hi => ?_⟩
  exact hq i _ (by unfold vecEntry; rw [List.getElem?_eq_getElem hi]; rfl)

/-! ### the hypotheses are met -/

/-- equations with the derivatives of the example: at zero -/
def chFs : List (List ℚ → Except Err ℚ) := (List.range 3).map fun i => quadFun 8 (so2J.e i) (so2H.e i)

theorem chFs_taylor (i : Nat) (f : List ℚ → Except Err ℚ) (hf : chFs[i]? = some f) :
    IsTaylorAt f (linPoint so2T.toTyper 2 [0, 0, 0]) (so2J.e i) (so2H.e i) := by
  have hp : linPoint so2T.toTyper 2 ([0, 0, 0] : List ℚ) = List.replicate 8 0 := by decide +kernel
  have h0 : ∀ k, vecEntry (List.replicate 8 (0 : ℚ)) k = 0 := by
    intro k
    unfold vecEntry
    rw [List.getElem?_replicate]
    split <;> rfl
  have := quadFun_taylor (so2J.e i) (so2H.e i) (List.replicate 8 (0 : ℚ))
  rw [hp]
  have hg : quadGrad (List.replicate 8 (0 : ℚ)).length (so2J.e i) (so2H.e i) (List.replicate 8 (0 : ℚ)) = so2J.e i := by
    funext k
    unfold quadGrad
    simp only [h0, mul_zero, sumTo_eq, Finset.sum_const_zero, add_zero]
  rw [hg] at this
  unfold chFs at hf
  rw [List.getElem?_map] at hf
  obtain ⟨j, hj, rfl⟩ := Option.map_eq_some_iff.mp hf
  have : j = i := by
    rw [List.getElem?_range (by by_contra h; rw [List.getElem?_eq_none (by simpa using h)] at hj; cases hj)] at hj
    simpa using hj.symm
  subst this
  simpa using ‹IsTaylorAt _ _ _ _›

/-- C110 and C111 apply to a model with two states, two shocks, a forward-looking variable and products of
variables -/
example : ∃ (s : Space ℚ) (gy gu : Arr ℚ) (so : SecondNd ℚ),
    Space.create chLa so2T.toTyper so2J = .ok s ∧ s.parts.Separated ∧
    solveFirstOrder chLa so2T 2 s = .ok (gy, gu) ∧
    solveSecondOrder chLa triQz (1 / 2) so2T.toTyper 2 so2J so2H so2Sigma (Nd.mat gy).squeeze (Nd.mat gu).squeeze =
      .ok so ∧ chFs.length = 3 ∧ SymmetricHessian so2T 2 so2H ∧ chLa.Exact ∧ GQZExact triQz ∧
    (∀ (i : Nat) f, chFs[i]? = some f → IsDerivAt f (linPoint so2T.toTyper 2 [0, 0, 0]) (so2J.e i)) ∧
    (∀ (i : Nat) f, chFs[i]? = some f → IsTaylorAt f (linPoint so2T.toTyper 2 [0, 0, 0]) (so2J.e i) (so2H.e i)) ∧
    buildLlx [[-1, 0], [-1, 0], [0, 1]] = .ok so2T := by
  obtain ⟨s, gy, gu, so, h1, h2, h3, h4, -⟩ := ch_solved
  exact ⟨s, gy, gu, so, h1, h2, h3, h4, by simp [chFs], by unfold SymmetricHessian; decide +kernel, chLa_exact,
    triQz_exact, fun i f hf => isTaylor_isDeriv (chFs_taylor i f hf), chFs_taylor, rfl⟩

#print axioms C110_first_order_accuracy
#print axioms C111_second_order_accuracy

end Pynare

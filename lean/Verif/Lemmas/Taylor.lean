import Verif.Lemmas.Linear
import Mathlib.Analysis.Calculus.FDeriv.Symmetric
import Mathlib.Analysis.Calculus.MeanValue
import Mathlib.Topology.Algebra.Module.FiniteDimension
/-!
# Second-order approximation over the real numbers
-/

namespace Pynare

open Filter Topology

section analysis
variable {E : Type*} [NormedAddCommGroup E] [NormedSpace ℝ E]

theorem taylor_two {F : E → ℝ} {F' : E → E →L[ℝ] ℝ} {F'' : E →L[ℝ] E →L[ℝ] ℝ} {x : E}
    (hf : ∀ᶠ y in 𝓝 x, HasFDerivAt F (F' y) y) (hx : HasFDerivAt F' F'' x) {ε : ℝ} (hε : 0 < ε) :
    ∃ δ > 0, ∀ y, ‖y - x‖ ≤ δ →
      |F y - F x - F' x (y - x) - 1 / 2 * F'' (y - x) (y - x)| ≤ ε * (‖y - x‖ * ‖y - x‖) := by
  have hsymm := second_derivative_symmetric_of_eventually_of_real hf hx
  have ho := (hasFDerivAt_iff_isLittleO.mp hx).def hε
  obtain ⟨δ, hδ, hall⟩ := Metric.eventually_nhds_iff_ball.mp (hf.and ho)
  refine ⟨δ / 2, by positivity, fun y hy => ?_⟩
  let φ : E → ℝ := fun z => F z - F' x (z - x) - 1 / 2 * F'' (z - x) (z - x)
  have hsub : ∀ z ∈ Metric.closedBall x ‖y - x‖, z ∈ Metric.ball x δ := by
    intro z hz
    rw [Metric.mem_closedBall] at hz
    rw [Metric.mem_ball]
    linarith
  have hder : ∀ z ∈ Metric.closedBall x ‖y - x‖,
      HasFDerivWithinAt φ (F' z - F' x - F'' (z - x)) (Metric.closedBall x ‖y - x‖) z := by
    intro z hz
    have h1 := (hall z (hsub z hz)).1
    have hid : HasFDerivAt (fun z => z - x) (ContinuousLinearMap.id ℝ E) z := (hasFDerivAt_id z).sub_const x
    have h2 : HasFDerivAt (fun z => F' x (z - x)) (F' x) z := by
      have := (F' x).hasFDerivAt.comp z hid
      rwa [ContinuousLinearMap.comp_id] at this
    have h3 : HasFDerivAt (fun z => F'' (z - x)) F'' z := by
      have := F''.hasFDerivAt.comp z hid
      rwa [ContinuousLinearMap.comp_id] at this
    have h4 := (h3.clm_apply hid).const_mul (1 / 2 : ℝ)
    have h5 := (h1.sub h2).sub h4
    refine (h5.congr_fderiv ?_).hasFDerivWithinAt
    ext w
    simp only [ContinuousLinearMap.sub_apply, ContinuousLinearMap.smul_apply, ContinuousLinearMap.add_apply,
      ContinuousLinearMap.comp_apply, ContinuousLinearMap.id_apply, ContinuousLinearMap.flip_apply, smul_eq_mul]
    rw [hsymm w (z - x)]
    ring
  have hbound : ∀ z ∈ Metric.closedBall x ‖y - x‖, ‖F' z - F' x - F'' (z - x)‖ ≤ ε * ‖y - x‖ := by
    intro z hz
    refine (hall z (hsub z hz)).2.trans (mul_le_mul_of_nonneg_left ?_ hε.le)
    rw [← dist_eq_norm]
    exact Metric.mem_closedBall.mp hz
  have := (convex_closedBall x ‖y - x‖).norm_image_sub_le_of_norm_hasFDerivWithin_le hder hbound
    (Metric.mem_closedBall_self (norm_nonneg _)) (show y ∈ _ by rw [Metric.mem_closedBall, dist_eq_norm])
  simp only [φ, sub_self, map_zero, ContinuousLinearMap.zero_apply, mul_zero, sub_zero, Real.norm_eq_abs] at this
  calc _ = |F y - F' x (y - x) - 1 / 2 * F'' (y - x) (y - x) - F x| := by congr 1; ring
    _ ≤ _ := this
    _ = _ := by ring

end analysis

/-! ### functions of lists -/

/-- the linear form with coefficients `g` -/
noncomputable def linForm (n : Nat) : (Fin n → ℝ) →L[ℝ] (Fin n → ℝ) →L[ℝ] ℝ :=
  LinearMap.toContinuousLinearMap
    { toFun := fun g => LinearMap.toContinuousLinearMap
        { toFun := fun z => ∑ k, g k * z k
          map_add' := fun a b => by simp [mul_add, Finset.sum_add_distrib]
          map_smul' := fun c a => by
            simp only [Pi.smul_apply, smul_eq_mul, RingHom.id_apply, Finset.mul_sum]
            exact Finset.sum_congr rfl fun k _ => by ring }
      map_add' := fun a b => by
        ext z; simp [add_mul, Finset.sum_add_distrib]
      map_smul' := fun c a => by
        ext z; simp [Finset.mul_sum, mul_assoc] }

theorem linForm_apply {n : Nat} (g z : Fin n → ℝ) : linForm n g z = ∑ k, g k * z k := rfl

theorem sumTo_fin {n : Nat} (f : Nat → ℝ) : sumTo n f = ∑ k : Fin n, f k := by
  rw [sumTo_eq, Finset.sum_range]

/-- the vector with the entries of a list -/
noncomputable def realVec (p : List ℝ) : Fin p.length → ℝ := fun k => vecEntry p k

theorem entry_ofFn {n : Nat} (z : Fin n → ℝ) {k : Nat} (hk : k < n) : vecEntry (List.ofFn z) k = z ⟨k, hk⟩ := by
  simp [vecEntry, hk]

theorem entry_ofFn' {n : Nat} (z : Fin n → ℝ) (k : Fin n) : vecEntry (List.ofFn z) k = z k :=
  entry_ofFn z k.2

theorem ofFn_realVec (p : List ℝ) : List.ofFn (realVec p) = p := by
  apply List.ext_getElem
  · simp
  · intro i h1 h2
    simp [realVec, vecEntry, h2]

theorem ofFn_entry {n : Nat} {x : List ℝ} (h : x.length = n) : List.ofFn (fun k : Fin n => vecEntry x k) = x := by
  subst h; exact ofFn_realVec x

theorem near_ofFn {n : Nat} {z : Fin n → ℝ} {w : Fin n → ℝ} {r : ℝ} (h : ‖w - z‖ ≤ r) :
    Near (List.ofFn z) r (List.ofFn w) := by
  refine ⟨by simp, fun k hk => ?_⟩
  have hk : k < n := by simpa using hk
  rw [entry_ofFn z hk, entry_ofFn w hk]
  exact (norm_le_pi_norm (w - z) ⟨k, hk⟩).trans h

/-- the value of a function of lists, as a function of vectors -/
noncomputable def onVec (f : List ℝ → Except Err ℝ) {n : Nat} (z : Fin n → ℝ) : ℝ :=
  match f (List.ofFn z) with
  | .ok v => v
  | .error _ => 0

theorem onVec_ok {f : List ℝ → Except Err ℝ} {n : Nat} {z : Fin n → ℝ} {v : ℝ} (h : f (List.ofFn z) = .ok v) :
    onVec f z = v := by unfold onVec; rw [h]

/-- the entries of the value of a function of lists, as a function of vectors -/
noncomputable def onVec' (G : List ℝ → Except Err (List ℝ)) {n : Nat} (z : Fin n → ℝ) : Fin n → ℝ :=
  match G (List.ofFn z) with
  | .ok g => fun k => vecEntry g k
  | .error _ => 0

theorem onVec'_ok {G : List ℝ → Except Err (List ℝ)} {n : Nat} {z : Fin n → ℝ} {g : List ℝ}
    (h : G (List.ofFn z) = .ok g) : onVec' G z = fun k : Fin n => vecEntry g k := by unfold onVec'; rw [h]

theorem isDeriv_hasFDeriv {f : List ℝ → Except Err ℝ} {n : Nat} {z : Fin n → ℝ} {g : Nat → ℝ}
    (h : IsDerivAt f (List.ofFn z) g) : HasFDerivAt (onVec f) (linForm n fun k => g k) z := by
  obtain ⟨v₀, h0, h⟩ := h
  rw [hasFDerivAt_iff_isLittleO, Asymptotics.isLittleO_iff]
  intro ε hε
  obtain ⟨δ, hδ, h⟩ := h ε hε
  refine Metric.eventually_nhds_iff_ball.mpr ⟨δ, hδ, fun w hw => ?_⟩
  have hw : ‖w - z‖ < δ := by rw [← dist_eq_norm]; exact hw
  obtain ⟨v, h1, h2⟩ := h ‖w - z‖ (norm_nonneg _) hw.le _ (near_ofFn (le_refl _))
  rw [onVec_ok h0, onVec_ok h1, Real.norm_eq_abs, linForm_apply]
  refine le_trans (le_of_eq ?_) h2
  congr 2
  rw [List.length_ofFn, sumTo_fin]
  refine Finset.sum_congr rfl fun k _ => ?_
  rw [entry_ofFn', entry_ofFn', Pi.sub_apply]

theorem isJacobian_hasFDeriv {G : List ℝ → Except Err (List ℝ)} {n : Nat} {z : Fin n → ℝ} {h : List (List ℝ)}
    (hn : h.length = n) (hj : IsJacobianAt G (List.ofFn z) h) (k : Fin n) :
    HasFDerivAt (fun w => onVec' G w k) (linForm n fun l => vecEntry (h[k.val]?.getD []) l) z := by
  obtain ⟨g₀, h0, hl, hj⟩ := hj
  rw [hasFDerivAt_iff_isLittleO, Asymptotics.isLittleO_iff]
  intro ε hε
  obtain ⟨δ, hδ, hj⟩ := hj ε hε
  refine Metric.eventually_nhds_iff_ball.mpr ⟨δ, hδ, fun w hw => ?_⟩
  have hw : ‖w - z‖ < δ := by rw [← dist_eq_norm]; exact hw
  obtain ⟨g, h1, h2⟩ := hj ‖w - z‖ (norm_nonneg _) hw.le _ (near_ofFn (le_refl _))
  have h2 := h2 k (by omega)
  rw [onVec'_ok h0, onVec'_ok h1, Real.norm_eq_abs, linForm_apply]
  refine le_trans (le_of_eq ?_) h2
  congr 2
  rw [List.length_ofFn, sumTo_fin]
  refine Finset.sum_congr rfl fun k _ => ?_
  rw [entry_ofFn', entry_ofFn', Pi.sub_apply]

/-- the quadratic approximation of a function whose derivatives are found by exact differentiation, and the
symmetry of its second derivatives -/
theorem autograd_taylor {ad : Autograd ℝ} (hex : ad.Exact) {f : List ℝ → Except Err ℝ} {p : List ℝ}
    {h : List (List ℝ)} (hj : ad.jacobian (ad.grad f) p = .ok h) :
    ∃ g, ad.grad f p = .ok g ∧ h.length = p.length ∧
      (∀ k < p.length, ∀ l < p.length, vecEntry (h[k]?.getD []) l = vecEntry (h[l]?.getD []) k) ∧
      ∀ H : Nat → ℝ, (∀ k < p.length, ∀ l < p.length, H (k * p.length + l) = vecEntry (h[k]?.getD []) l) →
        IsTaylorAt f p (vecEntry g) H := by
  obtain ⟨hrows, hjac⟩ := hex.jacobian _ _ _ hj
  obtain ⟨g, hg, hl, hj'⟩ := id hjac
  have hgl := (hex.grad f p g hg).1
  have hn : h.length = p.length := by omega
  refine ⟨g, hg, hn, ?_⟩
  -- as functions of vectors
  have hz : List.ofFn (realVec p) = p := ofFn_realVec p
  rw [← hz] at hjac
  let F' : (Fin p.length → ℝ) → (Fin p.length → ℝ) →L[ℝ] ℝ := fun w => linForm p.length (onVec' (ad.grad f) w)
  let Φ' : (Fin p.length → ℝ) →L[ℝ] (Fin p.length → ℝ) :=
    ContinuousLinearMap.pi fun k => linForm p.length fun l => vecEntry (h[k.val]?.getD []) l
  have hΦ : HasFDerivAt (onVec' (ad.grad f)) Φ' (realVec p) :=
    hasFDerivAt_pi'.mpr fun k => isJacobian_hasFDeriv hn hjac k
  have hx : HasFDerivAt F' ((linForm p.length).comp Φ') (realVec p) :=
    (linForm p.length).hasFDerivAt.comp (realVec p) hΦ
  have hf : ∀ᶠ w in 𝓝 (realVec p), HasFDerivAt (onVec f) (F' w) w := by
    obtain ⟨δ, hδ, hj''⟩ := hj' 1 one_pos
    refine Metric.eventually_nhds_iff_ball.mpr ⟨δ, hδ, fun w hw => ?_⟩
    have hw : ‖w - realVec p‖ < δ := by rw [← dist_eq_norm]; exact hw
    have hnear := near_ofFn (le_refl ‖w - realVec p‖)
    rw [hz] at hnear
    obtain ⟨gw, h1, -⟩ := hj'' _ (norm_nonneg _) hw.le _ hnear
    have h2 := isDeriv_hasFDeriv (hex.grad f _ gw h1).2
    show HasFDerivAt (onVec f) (linForm p.length (onVec' (ad.grad f) w)) w
    rw [onVec'_ok h1]
    exact h2
  have hval : ∀ v w : Fin p.length → ℝ, (linForm p.length).comp Φ' v w =
      ∑ k : Fin p.length, (∑ l : Fin p.length, vecEntry (h[k.val]?.getD []) l * v l) * w k := fun v w => rfl
  have hsymm : ∀ k < p.length, ∀ l < p.length, vecEntry (h[k]?.getD []) l = vecEntry (h[l]?.getD []) k := by
    intro k hk l hl
    have := second_derivative_symmetric_of_eventually_of_real hf hx (Pi.single ⟨l, hl⟩ 1) (Pi.single ⟨k, hk⟩ 1)
    rw [hval, hval] at this
    simpa [Pi.single_apply, Finset.sum_ite_eq', mul_ite] using this
  refine ⟨hsymm, fun H hH => ?_⟩
  have hfp : IsDerivAt f p (vecEntry g) := (hex.grad f p g hg).2
  obtain ⟨v₀, hv₀, hd⟩ := hfp
  obtain ⟨δ₁, hδ₁, hd⟩ := hd 1 one_pos
  refine ⟨v₀, hv₀, fun ε hε => ?_⟩
  obtain ⟨δ, hδ, ht⟩ := taylor_two hf hx hε
  refine ⟨min δ δ₁, lt_min hδ hδ₁, fun r hr0 hr x hx' => ?_⟩
  obtain ⟨v, hv, -⟩ := hd r hr0 (hr.trans (min_le_right _ _)) x hx'
  refine ⟨v, hv, ?_⟩
  let w : Fin p.length → ℝ := fun k => vecEntry x k
  have hw : List.ofFn w = x := ofFn_entry hx'.1
  have hnorm : ‖w - realVec p‖ ≤ r := by
    rw [pi_norm_le_iff_of_nonneg hr0]
    intro k
    exact hx'.2 k k.2
  have hT := ht w (hnorm.trans (hr.trans (min_le_left _ _)))
  have e1 : onVec f w = v := onVec_ok (by rw [hw]; exact hv)
  have e2 : onVec f (realVec p) = v₀ := onVec_ok (by rw [hz]; exact hv₀)
  have e3 : F' (realVec p) (w - realVec p) = sumTo p.length fun k => vecEntry g k * (vecEntry x k - vecEntry p k) := by
    show linForm p.length (onVec' (ad.grad f) (realVec p)) (w - realVec p) = _
    rw [onVec'_ok (g := g) (by rw [hz]; exact hg), linForm_apply, sumTo_fin]
    rfl
  have e4 : (linForm p.length).comp Φ' (w - realVec p) (w - realVec p) =
      sumTo p.length fun k => sumTo p.length fun l =>
        H (k * p.length + l) * ((vecEntry x k - vecEntry p k) * (vecEntry x l - vecEntry p l)) := by
    rw [hval, sumTo_fin]
    refine Finset.sum_congr rfl fun k _ => ?_
    rw [sumTo_fin, Finset.sum_mul]
    refine Finset.sum_congr rfl fun l _ => ?_
    rw [hH k k.2 l l.2]
    show vecEntry (h[k.val]?.getD []) l * (vecEntry x l - vecEntry p l) * (vecEntry x k - vecEntry p k) = _
    ring
  rw [e1, e2, e3, e4] at hT
  refine hT.trans (mul_le_mul_of_nonneg_left ?_ hε.le)
  exact mul_le_mul hnorm hnorm (norm_nonneg _) hr0

end Pynare

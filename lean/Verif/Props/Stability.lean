import Verif.Lemmas.Unique
import Verif.Props.Simul
import Verif.Props.Stats
import Verif.Examples.Stability
/-!
# Stability of solved models

Numbers are embedded in the complex numbers by `φ`, as in `Verif.Spec.Stability`; absolute values and
limits are those of the complex numbers.
-/

namespace Pynare

open Filter Topology

variable {V : Type} [Field V]

set_option linter.unusedSectionVars false

/-! ### what the simulations of a solved model follow -/

theorem simulated_follows {φ : V →+* ℂ} {la : LinAlg V} (ex : la.Exact) {t : Llx} {nExog : Nat}
    {J gy gu : Arr V} {s : Space V} {q : QZ V} {ev : Nat → Option ℂ}
    (h : Det φ la t nExog J gy gu s q ev) {ys init : List V} {shocks p : Arr V}
    (hn : shocks.c = nExog) (hp : simulateFirst t.toTyper gy gu ys shocks init = .ok p) :
    p.r = shocks.r ∧ ∀ k, k + 1 < p.r → FollowsPolicy t.toTyper nExog gy gu (dev ys p k)
      (fun j => shocks.e k j) (dev ys p (k + 1)) := by
  obtain ⟨-, -, g3, g4, -⟩ := solution_rows ex h.cur h.static h.square h.space (h.separated ex) h.solved
  obtain ⟨innovs, hi, -⟩ := simulateFirst_ok hp
  obtain ⟨d1, -⟩ := dot_entry hi
  have hs : gu.r ≠ 1 ∨ gu.c = 1 := by
    by_cases h1 : gu.r = 1
    · right
      have : gu.squeezed.tr.r = 1 := by
        unfold Arr.squeezed; rw [if_pos h1]; exact h1
      omega
    · exact .inl h1
  refine ⟨(C49_first_row t.toTyper gy gu ys init shocks p hp).1, ?_⟩
  intro k hk
  rw [← hn]
  exact C49_follows_policy t.toTyper (groups h.cur).perm gy gu ys init shocks p hs hp k hk

/-! ### C143, C144: simulations -/

/-- **C144** (partial: see `Determinate`).  There are `C` and `r < 1` such that for every simulation, however
long, from any initial values that deviate by at most `X` from the steady state and with any shocks of
absolute value at most `B`, row `k` deviates by at most `C (r^k X + B)`: bounded shocks make for bounded
paths, and the initial values are forgotten at a geometric rate. -/
theorem C144_bounded_partial (φ : V →+* ℂ) (la : LinAlg V) (ex : la.Exact) (pss : List (List Int)) (t : Llx)
    (nExog : Nat) (J gy gu : Arr V) (s : Space V) (q : QZ V) (ev : Nat → Option ℂ)
    (h : Determinate φ la pss t nExog J gy gu s q ev) :
    ∃ C r : ℝ, 0 < r ∧ r < 1 ∧ ∀ (ys init : List V) (shocks p : Arr V) (X B : ℝ), 0 ≤ X → 0 ≤ B →
      shocks.c = nExog → simulateFirst t.toTyper gy gu ys shocks init = .ok p →
      (∀ c < pss.length, ‖φ (dev ys p 0 c)‖ ≤ X) →
      (∀ k < p.r, ∀ j < nExog, ‖φ (shocks.e k j)‖ ≤ B) →
      ∀ k < p.r, ∀ c < pss.length, ‖φ (dev ys p k c)‖ ≤ C * (r ^ k * X + B) := by
  obtain ⟨hd, hn⟩ := h.det ex
  obtain ⟨C, r, -, hr, hr1, hb⟩ := hd.bound ex
  refine ⟨C, r, hr, hr1, ?_⟩
  intro ys init shocks p X B hX hB hc hp h0 hu k hk c hcn
  have hf := (simulated_follows ex hd hc hp).2
  exact hb k (fun k => dev ys p k) (fun k j => shocks.e k j) X B hX hB (fun τ hτ => hf τ (by omega))
    (fun c hc => h0 c (by omega)) (fun τ hτ j hj => hu τ (by omega) j hj) c (by omega)

/-- **C143** (partial: see `Determinate`).  There are `C` and `r < 1` such that for every simulation without
shocks, however long, from any initial values that deviate by at most `X` from the steady state, row `k`
deviates by at most `C r^k X`: the variables return to the steady state at a geometric rate. -/
theorem C143_returns_partial (φ : V →+* ℂ) (la : LinAlg V) (ex : la.Exact) (pss : List (List Int)) (t : Llx)
    (nExog : Nat) (J gy gu : Arr V) (s : Space V) (q : QZ V) (ev : Nat → Option ℂ)
    (h : Determinate φ la pss t nExog J gy gu s q ev) :
    ∃ C r : ℝ, 0 < r ∧ r < 1 ∧ ∀ (ys init : List V) (shocks p : Arr V) (X : ℝ), 0 ≤ X →
      shocks.c = nExog → simulateFirst t.toTyper gy gu ys shocks init = .ok p →
      (∀ c < pss.length, ‖φ (dev ys p 0 c)‖ ≤ X) → (∀ k < p.r, ∀ j < nExog, shocks.e k j = 0) →
      ∀ k < p.r, ∀ c < pss.length, ‖φ (dev ys p k c)‖ ≤ C * r ^ k * X := by
  obtain ⟨C, r, hr, hr1, hb⟩ := C144_bounded_partial φ la ex pss t nExog J gy gu s q ev h
  refine ⟨C, r, hr, hr1, ?_⟩
  intro ys init shocks p X hX hc hp h0 hu k hk c hcn
  have := hb ys init shocks p X 0 hX le_rfl hc hp h0
    (fun k hk j hj => by rw [hu k hk j hj, map_zero, norm_zero]) k hk c hcn
  rw [add_zero, ← mul_assoc] at this
  exact this

/-- **C143, in the limit** (partial: see `Determinate`).  Along every path that follows the policy functions,
with any shocks up to some date and none from then on, all variables converge to the steady state. -/
theorem C143_limit_partial (φ : V →+* ℂ) (la : LinAlg V) (ex : la.Exact) (pss : List (List Int)) (t : Llx)
    (nExog : Nat) (J gy gu : Arr V) (s : Space V) (q : QZ V) (ev : Nat → Option ℂ)
    (h : Determinate φ la pss t nExog J gy gu s q ev) (y u : Nat → Nat → V)
    (hy : ∀ τ, FollowsPolicy t.toTyper nExog gy gu (y τ) (u τ) (y (τ + 1))) (T : Nat)
    (hu : ∀ τ, T ≤ τ → ∀ k < nExog, u τ k = 0) :
    ∀ c < pss.length, Tendsto (fun τ => φ (y τ c)) atTop (𝓝 0) := by
  obtain ⟨hd, hn⟩ := h.det ex
  obtain ⟨C, r, -, hr, hr1, hb⟩ := hd.bound ex
  intro c hc
  set X := ∑ c ∈ Finset.range t.n, ‖φ (y T c)‖ with hX
  have hX0 : 0 ≤ X := Finset.sum_nonneg fun _ _ => norm_nonneg _
  have key : ∀ k, ‖φ (y (k + T) c)‖ ≤ C * X * r ^ k := by
    intro k
    have := hb k (fun τ => y (τ + T)) (fun τ => u (τ + T)) X 0 hX0 le_rfl
      (fun τ _ => by
        have := hy (τ + T)
        rwa [show τ + T + 1 = τ + 1 + T by omega] at this)
      (fun c hc => by
        simp only [Nat.zero_add]
        exact Finset.single_le_sum (f := fun c => ‖φ (y T c)‖) (fun _ _ => norm_nonneg _)
          (Finset.mem_range.mpr hc))
      (fun τ _ j hj => by rw [hu (τ + T) (by omega) j hj, map_zero, norm_zero]) c (by omega)
    rw [add_zero] at this
    linarith
  rw [← tendsto_add_atTop_iff_nat T]
  refine squeeze_zero_norm key ?_
  have := (tendsto_pow_atTop_nhds_zero_of_lt_one hr.le hr1).const_mul (C * X)
  simpa using this

/-! ### C142: impulse responses -/

/-- **C142, what does hold** (partial: see `Determinate`; `impulseResponse` itself checks nothing).  There are
`C` and `r < 1` such that for every impulse response, whatever its length, shock and size, row `k` is at
most `C r^k` times the sum of the shocks that hit. -/
theorem C142_dies_out_partial (φ : V →+* ℂ) (la : LinAlg V) (ex : la.Exact) (pss : List (List Int)) (t : Llx)
    (nExog : Nat) (J gy gu : Arr V) (s : Space V) (q : QZ V) (ev : Nat → Option ℂ)
    (h : Determinate φ la pss t nExog J gy gu s q ev) (chol : Chol V) (hch : CholExact chol) :
    ∃ C r : ℝ, 0 < r ∧ r < 1 ∧ ∀ (half : V) (ys : List V) (sigma u p : Arr V) (periods idx : Nat) (size : V),
      sigma.r = nExog → chol sigma = .ok u →
      impulseResponse chol half t.toTyper (.first gy gu) ys sigma periods idx size = .ok p →
      ∀ k < periods, ∀ c < pss.length,
        ‖φ (p.e k c)‖ ≤ C * r ^ k * ∑ j ∈ Finset.range nExog, ‖φ (size * u.e idx j)‖ := by
  obtain ⟨hd, hn⟩ := h.det ex
  obtain ⟨C, r, hC, hr, hr1, hb⟩ := hd.bound ex
  refine ⟨C * C / r, r, hr, hr1, ?_⟩
  intro half ys sigma u p periods idx size hsig hu hp k hk c hcn
  have hz := (C55_first_row_zero chol half t.toTyper gy gu ys sigma p periods idx size hp).2
  obtain ⟨u', shocks, q', hu', -, -, -, s1, s2, s3, s4, hq, p1, -, hdev⟩ := impulse_ok hp
  rw [hu] at hu'
  have := Except.ok.inj hu'
  subst this
  have huc : u.c = nExog := by rw [(hch sigma u hu).2.1, hsig]
  obtain ⟨hr', hf⟩ := simulated_follows ex hd (by omega) hq
  set B := ∑ j ∈ Finset.range nExog, ‖φ (size * u.e idx j)‖ with hB
  have hB0 : 0 ≤ B := Finset.sum_nonneg fun _ _ => norm_nonneg _
  cases k with
  | zero => rw [hz, map_zero, norm_zero]; positivity
  | succ k =>
    have h1 : ∀ c < t.n, ‖φ (dev ys q' 1 c)‖ ≤ C * B := by
      intro c hc
      have := hb 1 (fun k => dev ys q' k) (fun k j => shocks.e k j) 0 B le_rfl hB0
        (fun τ hτ => hf τ (by omega))
        (fun c hc => by rw [hdev, hz, map_zero, norm_zero])
        (fun τ hτ j hj => by
          rw [show τ = 0 by omega, s3]
          exact Finset.single_le_sum (f := fun j => ‖φ (size * u.e idx j)‖) (fun _ _ => norm_nonneg _)
            (Finset.mem_range.mpr hj)) c hc
      simpa using this
    have := hb k (fun k => dev ys q' (k + 1)) (fun k j => shocks.e (k + 1) j) (C * B) 0 (by positivity) le_rfl
      (fun τ hτ => hf (τ + 1) (by omega)) h1
      (fun τ hτ j hj => by rw [s4, map_zero, norm_zero]) c (by omega)
    rw [hdev, add_zero] at this
    refine this.trans (le_of_eq ?_)
    rw [pow_succ]
    field_simp

/-! ### C145: uniqueness -/

theorem FollowsPolicy.congr {t : Typer} {nExog : Nat} {gy gu : Arr V} {ym u u' y : Nat → V}
    (h : FollowsPolicy t nExog gy gu ym u y) (hu : ∀ k < nExog, u k = u' k) :
    FollowsPolicy t nExog gy gu ym u' y := by
  intro i c hi
  rw [h i c hi]
  congr 1
  rw [sumTo_eq, sumTo_eq]
  exact Finset.sum_congr rfl fun k hk => by rw [hu k (Finset.mem_range.mp hk)]

/-- **C145** (partial: see `Determinate`).  Take any path `y` and shocks `u` of which all after the first
date are zero.  The path follows the policy functions in every period if and only if it satisfies the
linearised equations in every period, with next period's values in place of expectations, and is
bounded.  So the solution is the only bounded one, as the check promises. -/
theorem C145_unique_partial (φ : V →+* ℂ) (la : LinAlg V) (ex : la.Exact) (pss : List (List Int)) (t : Llx)
    (nExog : Nat) (J gy gu : Arr V) (s : Space V) (q : QZ V) (ev : Nat → Option ℂ)
    (h : Determinate φ la pss t nExog J gy gu s q ev) (y u : Nat → Nat → V)
    (hu : ∀ τ, 0 < τ → ∀ k < nExog, u τ k = 0) :
    (∀ τ, FollowsPolicy t.toTyper nExog gy gu (y τ) (u τ) (y (τ + 1))) ↔
      (∀ τ, ∀ i < J.r, linearised t nExog J i (y τ) (y (τ + 1)) (y (τ + 2)) (u τ) = 0) ∧
      ∃ B : ℝ, ∀ τ, ∀ c < pss.length, ‖φ (y τ c)‖ ≤ B := by
  obtain ⟨hd, hn⟩ := h.det ex
  have hJ := h.square
  constructor
  · intro hy
    refine ⟨?_, ?_⟩
    · exact C46_policy_partial la ex pss t h.periods h.table J h.square nExog s gy gu h.space (hd.separated ex)
        h.solved y u (fun τ => y (τ + 2)) hy fun τ => (hy (τ + 1)).congr (hu (τ + 1) (by omega))
    · obtain ⟨C, r, hC, hr, hr1, hb⟩ := hd.bound ex
      set X := ∑ c ∈ Finset.range t.n, ‖φ (y 0 c)‖ with hX
      set B := ∑ k ∈ Finset.range nExog, ‖φ (u 0 k)‖ with hB
      have hX0 : 0 ≤ X := Finset.sum_nonneg fun _ _ => norm_nonneg _
      have hB0 : 0 ≤ B := Finset.sum_nonneg fun _ _ => norm_nonneg _
      refine ⟨C * (X + B), fun τ c hc => ?_⟩
      have := hb τ y u X B hX0 hB0 (fun τ _ => hy τ)
        (fun c hc => Finset.single_le_sum (f := fun c => ‖φ (y 0 c)‖) (fun _ _ => norm_nonneg _)
          (Finset.mem_range.mpr hc))
        (fun τ _ j hj => by
          rcases Nat.eq_zero_or_pos τ with rfl | h0
          · exact Finset.single_le_sum (f := fun k => ‖φ (u 0 k)‖) (fun _ _ => norm_nonneg _)
              (Finset.mem_range.mpr hj)
          · rw [hu τ h0 j hj, map_zero, norm_zero]; exact hB0) c (by omega)
      refine this.trans (mul_le_mul_of_nonneg_left ?_ hC)
      have : r ^ τ * X ≤ 1 * X := mul_le_mul_of_nonneg_right (pow_le_one₀ hr.le hr1.le) hX0
      linarith
  · rintro ⟨heq, B, hB⟩
    exact hd.unique ex y u hu (fun τ i hi => heq τ i (by omega)) B fun τ c hc => hB τ c (by omega)

/-- **C145, existence** (partial: see `Determinate`).  From any values and any shock there is such a path. -/
theorem C145_exists_partial (φ : V →+* ℂ) (la : LinAlg V) (ex : la.Exact) (pss : List (List Int)) (t : Llx)
    (nExog : Nat) (J gy gu : Arr V) (s : Space V) (q : QZ V) (ev : Nat → Option ℂ)
    (h : Determinate φ la pss t nExog J gy gu s q ev) (y0 u0 : Nat → V) :
    ∃ y : Nat → Nat → V, y 0 = y0 ∧
      (∀ τ, ∀ i < J.r, linearised t nExog J i (y τ) (y (τ + 1)) (y (τ + 2)) (if τ = 0 then u0 else 0) = 0) ∧
      ∃ B : ℝ, ∀ τ, ∀ c < pss.length, ‖φ (y τ c)‖ ≤ B := by
  obtain ⟨hd, hn⟩ := h.det ex
  obtain ⟨-, g2, -⟩ := solution_rows ex hd.cur hd.static hd.square hd.space (hd.separated ex) hd.solved
  have hp := (groups hd.cur).perm
  let u : Nat → Nat → V := fun τ => if τ = 0 then u0 else 0
  let y : Nat → Nat → V := devFirst t.toTyper gy (fun τ i => sumTo nExog fun k => gu.e i k * u τ k) y0
  refine ⟨y, rfl, ?_⟩
  refine (C145_unique_partial φ la ex pss t nExog J gy gu s q ev h y u ?_).mp fun τ => ?_
  · intro τ h0 k _
    simp [u, show τ ≠ 0 by omega]
  · refine stepFirst_follows hp ?_ fun i _ => rfl
    rw [g2]; exact (drState_length hp).1.symm

/-! ### C146: moments -/

section order
variable [LinearOrder V] [IsStrictOrderedRing V]

/-- a solved model has a solution of the right shape, and without shocks its states return -/
theorem Det.stable {ψ : V →+* ℝ} (hψ : Monotone ψ) {la : LinAlg V} (ex : la.Exact) {t : Llx} {nExog : Nat}
    {J gy gu : Arr V} {s : Space V} {q : QZ V} {ev : Nat → Option ℂ}
    (h : Det (Complex.ofRealHom.comp ψ) la t nExog J gy gu s q ev) :
    SolutionShape t.toTyper gy gu ∧ gu.c = nExog ∧ Stable (stateRows t.toTyper gy) := by
  obtain ⟨g1, g2, g3, g4, -⟩ := solution_rows ex h.cur h.static h.square h.space (h.separated ex) h.solved
  refine ⟨⟨(groups h.cur).perm, g1, g2, g3⟩, g4, ?_⟩
  obtain ⟨C, r, hC, hr, hr1, hb⟩ := h.states ex
  have hinj : Function.Injective ψ := ψ.injective
  have hstrict : StrictMono ψ := hψ.strictMono_of_injective hinj
  intro x ε hε
  set X := ∑ j ∈ Finset.range t.nBackward, ‖(Complex.ofRealHom.comp ψ) (x j)‖ with hX
  have hX0 : 0 ≤ X := Finset.sum_nonneg fun _ _ => norm_nonneg _
  have hlim := (tendsto_pow_atTop_nhds_zero_of_lt_one hr.le hr1).const_mul (C * X)
  rw [mul_zero] at hlim
  have hε' : 0 < ψ ε := by rw [← map_zero ψ]; exact hstrict hε
  obtain ⟨k0, hk0⟩ := eventually_atTop.mp (hlim.eventually_lt_const hε')
  refine ⟨k0, fun k hk i hi => ?_⟩
  have := hb (iterate (stateRows t.toTyper gy) x) (fun _ _ => 0) k
    (fun m _ i _ => by rw [add_zero]; rfl) 0 le_rfl (fun _ _ => by simp) i hi
  have h2 := hk0 k hk
  have h3 : ‖(Complex.ofRealHom.comp ψ) (iterate (stateRows t.toTyper gy) x k i)‖ < ψ ε := by
    refine lt_of_le_of_lt this ?_
    show C * r ^ k * X + C * 0 / (1 - r) < ψ ε
    rw [mul_zero, zero_div, add_zero]
    linarith
  simp only [RingHom.coe_comp, Function.comp_apply, Complex.ofRealHom_eq_coe, Complex.norm_real,
    Real.norm_eq_abs] at h3
  rw [abs_lt] at h3 ⊢
  exact ⟨hstrict.lt_iff_lt.mp (by rw [map_neg]; exact h3.1), hstrict.lt_iff_lt.mp h3.2⟩

/-- **C146** (partial: see `Determinate`).  Let numbers be a subfield of the real numbers (`ψ` is the inclusion).
If the covariances of a solved model are reported, they are those that the variables have in the long
run, in every process that follows the policy functions, wherever it starts; and the matrix is symmetric
and positive semidefinite if that of the shocks is.  So C62 to C65 hold of every such model: that it is
stable is not an assumption. -/
theorem C146_moments_partial (ψ : V →+* ℝ) (hψ : Monotone ψ) (la : LinAlg V) (ex : la.Exact)
    (lyap : Lyap V) (ly : LyapExact lyap) (pss : List (List Int)) (t : Llx)
    (nExog : Nat) (J gy gu sigma C : Arr V) (s : Space V) (q : QZ V) (ev : Nat → Option ℂ)
    (h : Determinate (Complex.ofRealHom.comp ψ) la pss t nExog J gy gu s q ev)
    (hC : covArr la lyap t.toTyper s gy gu sigma = .ok C) :
    (∀ {M : Type} [AddCommGroup M] [Module V M] {cov : M →ₗ[V] M →ₗ[V] V} {y u : Nat → Nat → M},
      LinearProcess t.toTyper nExog gy gu sigma cov y u →
      ∀ c < pss.length, ∀ d < pss.length, LongRun cov y c d (C.e c d)) ∧
    (SymmArr sigma → PosSemi sigma → SymmArr C ∧ PosSemi C) := by
  obtain ⟨hd, hn⟩ := h.det ex
  obtain ⟨sh, hg, hst⟩ := hd.stable hψ ex
  refine ⟨?_, fun hs hpos => C62_psd ly sh hst hs hpos hC⟩
  intro M _ _ cov y u p c hc d hd'
  rw [← hg] at p
  exact C62_limit ly sh hst hC p (by omega) (by omega)

/-- **C146**: that the model passes the check need not be assumed either; no covariances are reported
otherwise. -/
theorem C146_checked (la : LinAlg V) (lyap : Lyap V) (t : Llx) (gy gu sigma C : Arr V) (s : Space V)
    (hC : covArr la lyap t.toTyper s gy gu sigma = .ok C) : s.verify la t.toTyper = .ok () := by
  unfold covArr at hC
  obtain ⟨gyd, -, hC⟩ := Except.bind_eq_ok hC
  obtain ⟨gud, -, hC⟩ := Except.bind_eq_ok hC
  obtain ⟨X, hX, -⟩ := Except.bind_eq_ok hC
  unfold stateVar at hX
  obtain ⟨AB, hAB, -⟩ := Except.bind_eq_ok hX
  unfold kalmanTransition at hAB
  obtain ⟨⟨⟩, hv, -⟩ := Except.bind_eq_ok hAB
  exact hv

end order

/-! ### examples -/

/-- the model with the eigenvalues one half and two meets the hypotheses of C142 to C145 -/
theorem sb_determinate : ∃ (s : Space ℚ) (gy gu : Arr ℚ),
    Determinate (Rat.castHom ℂ) (sbLa (1/2) 2) [[0, 1], [0, -1], [0]] exT 1 (sbJ (1/2) 2) gy gu s
      (sbQz (1/2) 2) (sbEv (1/2) 2) ∧ gy.e 1 0 = 1/2 ∧ gu.e 1 0 = 1 := by
  obtain ⟨s, hs, h⟩ := ok_of_check (x := Space.create (sbLa (1/2) 2) exT.toTyper (sbJ (1/2) 2))
    (p := fun s => qzB (sbQz (1/2) 2) s.rhs s.lhs && okAnd (s.verify (sbLa (1/2) 2) exT.toTyper) (fun _ => true) &&
      okAnd (solveFirstOrder (sbLa (1/2) 2) exT 1 s) fun g => decide (g.1.e 1 0 = 1/2) &&
        decide (g.2.e 1 0 = 1)) (by decide +kernel)
  simp only [Bool.and_eq_true] at h
  obtain ⟨⟨h1, h2⟩, h3⟩ := h
  obtain ⟨⟨⟩, hv, -⟩ := ok_of_check h2
  obtain ⟨⟨gy, gu⟩, hg, h4⟩ := ok_of_check h3
  simp only [Bool.and_eq_true, decide_eq_true_eq] at h4
  refine ⟨s, gy, gu, ⟨by decide, rfl, rfl, hs, hg, hv, ?_, sb_eigen _ _ (by norm_num), ?_⟩, h4.1, h4.2⟩
  · show (if qzB _ _ _ then _ else _) = _
    rw [if_pos h1]
  · exact sb_noUnit (by rw [abs_of_pos (by norm_num)]; norm_num) (by norm_num)

example : (sbLa (1/2) 2).Exact := ratLa_exact _ _

/-- covariances are reported for this model -/
example : ∃ (s : Space ℚ) (gy gu C : Arr ℚ),
    Determinate (Complex.ofRealHom.comp (Rat.castHom ℝ)) (sbLa (1/2) 2) [[0, 1], [0, -1], [0]] exT 1 (sbJ (1/2) 2)
      gy gu s (sbQz (1/2) 2) (sbEv (1/2) 2) ∧ LyapExact (ratLyap [listArr [[4/3]] 1]) ∧
    covArr (sbLa (1/2) 2) (ratLyap [listArr [[4/3]] 1]) exT.toTyper s gy gu (listArr [[1]] 1) = .ok C ∧
    C.e 1 1 = 4/3 := by
  obtain ⟨s, gy, gu, h, -⟩ := sb_determinate
  have hφ : Complex.ofRealHom.comp (Rat.castHom ℝ) = Rat.castHom ℂ := RingHom.ext_rat _ _
  obtain ⟨s', hs', h'⟩ := ok_of_check (x := Space.create (sbLa (1/2) 2) exT.toTyper (sbJ (1/2) 2))
    (p := fun s => okAnd (solveFirstOrder (sbLa (1/2) 2) exT 1 s) fun g =>
      okAnd (covArr (sbLa (1/2) 2) (ratLyap [listArr [[4/3]] 1]) exT.toTyper s g.1 g.2 (listArr [[1]] 1)) fun C =>
        decide (C.e 1 1 = 4/3)) (by decide +kernel)
  rw [h.space] at hs'
  have := Except.ok.inj hs'
  subst this
  obtain ⟨g, hg, h'⟩ := ok_of_check h'
  rw [h.solved] at hg
  have := Except.ok.inj hg
  subst this
  obtain ⟨C, hC, h'⟩ := ok_of_check h'
  exact ⟨s, gy, gu, C, hφ ▸ h, ratLyap_exact _, hC, of_decide_eq_true h'⟩

/-- the factor of a variance of one -/
def oneChol : Chol ℚ := fun s => if sameArr s (listArr [[1]] 1) then .ok (listArr [[1]] 1) else .error .valueError

theorem oneChol_exact : CholExact oneChol := by
  intro s u h
  unfold oneChol at h
  by_cases hs : sameArr s (listArr [[1]] 1) = true
  · rw [if_pos hs] at h
    have := Except.ok.inj h
    subst this
    obtain ⟨h1, h2, h3⟩ := sameArr_spec hs
    have h1 : s.r = 1 := h1
    have h2 : s.c = 1 := h2
    refine ⟨h1.symm, h1.symm, by omega, rfl, h1, h2, ?_⟩
    intro i hi j hj
    have hi : i < 1 := hi
    have hj : j < 1 := hj
    interval_cases i; interval_cases j
    rw [h3 0 (by omega) 0 (by omega)]
    decide +kernel
  · rw [if_neg hs] at h; cases h

theorem simulateFirst_runs {t : Typer} {gy gu : Arr V} {ys init : List V} {shocks innovs : Arr V}
    (h0 : 0 < shocks.r) (hl : init.length = ys.length) (hi : shocks.dot gu.squeezed.tr = .ok innovs)
    (h1 : gu.r * gu.c ≠ 0) (h2 : gy.r * gy.c ≠ 0) (h3 : gy.c = t.drState.length)
    (h4 : gy.r = t.drOrder.length) (h5 : innovs.c = gy.r) :
    ∃ p, simulateFirst t gy gu ys shocks init = .ok p := by
  unfold simulateFirst
  rw [if_neg (by omega), if_neg (by simpa using hl), hi]
  dsimp only [Bind.bind, Except.bind]
  rw [if_neg h1, if_neg h2, if_neg (by simp [h3, h4, h5])]
  exact ⟨_, rfl⟩

/-- the response of the state -/
theorem sb_response {l1 : ℚ} {gy gu : Arr ℚ} (hy : gy.r = 3 ∧ gy.c = 1 ∧ gy.e 1 0 = l1)
    (hu : gu.r = 3 ∧ gu.c = 1 ∧ gu.e 1 0 = 1) (periods : Nat) (h0 : 0 < periods) :
    ∃ p, impulseResponse oneChol (1/2) exT.toTyper (.first gy gu) [0, 0, 0] (listArr [[1]] 1) periods 0 1 = .ok p ∧
      p.r = periods ∧ ∀ k, k + 1 < periods → p.e (k + 1) 1 = l1 ^ k := by
  have hch : oneChol (listArr [[1]] 1) = .ok (listArr [[1]] 1) := by
    unfold oneChol; rw [if_pos (by decide +kernel)]
  have hex : ∃ p, impulseResponse oneChol (1/2) exT.toTyper (.first gy gu) [0, 0, 0] (listArr [[1]] 1) periods 0 1 =
      .ok p := by
    unfold impulseResponse impulseShocks
    rw [if_neg (by simp [listArr]; omega)]
    show ∃ p, (simulate _ _ _ _ _ _ _ _ >>= _) = _
    unfold simulate simulShocks
    rw [hch]
    have hsq : gu.squeezed = gu := by unfold Arr.squeezed; rw [if_neg (by omega)]
    obtain ⟨sh, hsh⟩ : ∃ sh, (⟨periods, (listArr [[1]] 1 : Arr ℚ).r, fun k j => if k = 0 ∧ j = 0 then (1 : ℚ) else 0⟩
        : Arr ℚ).dot (listArr [[1]] 1) = .ok sh := by
      unfold Arr.dot; rw [if_pos rfl]; exact ⟨_, rfl⟩
    obtain ⟨d1, d2, d3, -⟩ := dot_entry hsh
    have d2 : sh.r = periods := d2
    have d3 : sh.c = 1 := d3
    dsimp only [Bind.bind, Except.bind]
    rw [hsh]
    obtain ⟨inn, hinn⟩ : ∃ inn, sh.dot gu.squeezed.tr = .ok inn := by
      unfold Arr.dot
      rw [if_pos (by rw [hsq]; show sh.c = gu.c; omega)]
      exact ⟨_, rfl⟩
    obtain ⟨-, -, e3, -⟩ := dot_entry hinn
    rw [hsq] at e3
    have e3 : inn.c = gu.r := e3
    obtain ⟨p, hp⟩ := simulateFirst_runs (t := exT.toTyper) (ys := ([0, 0, 0] : List ℚ)) (init := [0, 0, 0])
      (gy := gy) (by omega) rfl hinn (by rw [hu.1, hu.2.1]; decide) (by rw [hy.1, hy.2.1]; decide)
      (by rw [hy.2.1]; decide +kernel) (by rw [hy.1]; decide +kernel) (by omega)
    dsimp only
    rw [show (none : Option (List ℚ)).getD [0, 0, 0] = [0, 0, 0] from rfl, hp]
    exact ⟨_, rfl⟩
  obtain ⟨p, hp⟩ := hex
  have hr := (C55_first_row_zero _ _ _ _ _ _ _ _ _ _ _ hp).1
  refine ⟨p, hp, hr, ?_⟩
  obtain ⟨u, hu', h1, h2⟩ := C55_response_partial oneChol (1/2) exT.toTyper (by decide +kernel) gy gu _ _ p
    periods 0 1 (.inr hu.2.1) hp
  rw [hch] at hu'
  have := Except.ok.inj hu'
  subst this
  have ho : exT.drOrder[1]? = some 1 := by decide +kernel
  have hb : exT.nBackward = 1 := by decide +kernel
  have hs : exT.drOrder[(exT.permute exT.drOrder).state[0]?.getD 0]?.getD 0 = 1 := by decide +kernel
  intro k
  induction k with
  | zero =>
    intro hk
    have := h1 (by omega) 1 1 ho
    rw [this, hb]
    simp [sumTo_eq, listArr, hu.2.2]
  | succ k ih =>
    intro hk
    have := h2 k (by omega) 1 1 ho
    rw [this, hb]
    simp only [sumTo_eq, Finset.sum_range_one, mul_zero, Finset.sum_const_zero, add_zero]
    rw [hs, ih (by omega), hy.2.2, pow_succ, mul_comm]

/-- **C142 is false as stated.**  Two models are solved, with exact linear algebra and decompositions that
sort their eigenvalues.

* The first has the eigenvalues -2 and 3: there is no stable path, but as -2 is not greater than one it is
  put among the stable ones, and the model is solved as if it had one explosive eigenvalue.  Its impulse
  responses exceed every bound.  (`verify` refuses the model, but neither solving the model nor computing
  responses calls it.)
* The second has the eigenvalues 1 and 2.  It passes `verify`, but its impulse responses stay at one. -/
theorem C142_false :
    ((sbLa (-2) 3).Exact ∧ CholExact oneChol ∧ buildLlx [[0, 1], [0, -1], [0]] = .ok exT ∧ (sbJ (-2) 3).r = 3 ∧
      (sbQz (-2) 3).Eigen (Rat.castHom ℂ) (sbEv (-2) 3) ∧
      ∃ (s : Space ℚ) (gy gu : Arr ℚ), Space.create (sbLa (-2) 3) exT.toTyper (sbJ (-2) 3) = .ok s ∧
        (sbLa (-2) 3).ordqz s.rhs s.lhs = .ok (sbQz (-2) 3) ∧
        solveFirstOrder (sbLa (-2) 3) exT 1 s = .ok (gy, gu) ∧
        s.verify (sbLa (-2) 3) exT.toTyper = .error .identification ∧
        ∀ M : ℚ, ∃ (periods k : Nat) (p : Arr ℚ), impulseResponse oneChol (1/2) exT.toTyper (.first gy gu) [0, 0, 0]
          (listArr [[1]] 1) periods 0 1 = .ok p ∧ k < p.r ∧ M < |p.e k 1|) ∧
    ((sbLa 1 2).Exact ∧ (sbJ 1 2).r = 3 ∧ (sbQz 1 2).Eigen (Rat.castHom ℂ) (sbEv 1 2) ∧
      ∃ (s : Space ℚ) (gy gu : Arr ℚ), Space.create (sbLa 1 2) exT.toTyper (sbJ 1 2) = .ok s ∧
        (sbLa 1 2).ordqz s.rhs s.lhs = .ok (sbQz 1 2) ∧
        solveFirstOrder (sbLa 1 2) exT 1 s = .ok (gy, gu) ∧ s.verify (sbLa 1 2) exT.toTyper = .ok () ∧
        ∀ periods, 0 < periods → ∃ p, impulseResponse oneChol (1/2) exT.toTyper (.first gy gu) [0, 0, 0]
          (listArr [[1]] 1) periods 0 1 = .ok p ∧ p.r = periods ∧ ∀ k, 0 < k → k < periods → p.e k 1 = 1) := by
  constructor
  · refine ⟨ratLa_exact _ _, oneChol_exact, rfl, rfl, sb_eigen _ _ (by norm_num), ?_⟩
    obtain ⟨s, hs, h⟩ := ok_of_check (x := Space.create (sbLa (-2) 3) exT.toTyper (sbJ (-2) 3))
      (p := fun s => qzB (sbQz (-2) 3) s.rhs s.lhs &&
        decide ((s.parts.eigs.countP fun x => x.big || x.inf) ≠ exT.nForward) &&
        okAnd (solveFirstOrder (sbLa (-2) 3) exT 1 s) fun g => decide (g.1.r = 3 ∧ g.1.c = 1 ∧ g.1.e 1 0 = -2) &&
          decide (g.2.r = 3 ∧ g.2.c = 1 ∧ g.2.e 1 0 = 1)) (by decide +kernel)
    simp only [Bool.and_eq_true] at h
    obtain ⟨⟨h1, h2⟩, h3⟩ := h
    obtain ⟨⟨gy, gu⟩, hg, h4⟩ := ok_of_check h3
    simp only [Bool.and_eq_true, decide_eq_true_eq] at h4
    refine ⟨s, gy, gu, hs, ?_, hg, ?_, ?_⟩
    · show (if qzB _ _ _ then _ else _) = _
      rw [if_pos h1]
    · unfold Space.verify
      rw [if_pos (of_decide_eq_true h2)]
    · intro M
      obtain ⟨k, hk⟩ := pow_unbounded_of_one_lt M (show (1 : ℚ) < 2 by norm_num)
      obtain ⟨p, hp, hr, hpk⟩ := sb_response h4.1 h4.2 (k + 2) (by omega)
      refine ⟨k + 2, k + 1, p, hp, by omega, ?_⟩
      rw [hpk k (by omega), abs_pow, abs_neg, abs_of_pos (by norm_num)]
      exact hk
  · refine ⟨ratLa_exact _ _, rfl, sb_eigen _ _ (by norm_num), ?_⟩
    obtain ⟨s, hs, h⟩ := ok_of_check (x := Space.create (sbLa 1 2) exT.toTyper (sbJ 1 2))
      (p := fun s => qzB (sbQz 1 2) s.rhs s.lhs && okAnd (s.verify (sbLa 1 2) exT.toTyper) (fun _ => true) &&
        okAnd (solveFirstOrder (sbLa 1 2) exT 1 s) fun g => decide (g.1.r = 3 ∧ g.1.c = 1 ∧ g.1.e 1 0 = 1) &&
          decide (g.2.r = 3 ∧ g.2.c = 1 ∧ g.2.e 1 0 = 1)) (by decide +kernel)
    simp only [Bool.and_eq_true] at h
    obtain ⟨⟨h1, h2⟩, h3⟩ := h
    obtain ⟨⟨⟩, hv, -⟩ := ok_of_check h2
    obtain ⟨⟨gy, gu⟩, hg, h4⟩ := ok_of_check h3
    simp only [Bool.and_eq_true, decide_eq_true_eq] at h4
    refine ⟨s, gy, gu, hs, ?_, hg, hv, ?_⟩
    · show (if qzB _ _ _ then _ else _) = _
      rw [if_pos h1]
    · intro periods h0
      obtain ⟨p, hp, hr, hpk⟩ := sb_response h4.1 h4.2 periods h0
      refine ⟨p, hp, hr, ?_⟩
      intro k hk0 hk
      obtain ⟨k, rfl⟩ : ∃ j, k = j + 1 := ⟨k - 1, by omega⟩
      rw [hpk k hk, one_pow]

#print axioms C142_dies_out_partial
#print axioms C142_false
#print axioms C143_returns_partial
#print axioms C143_limit_partial
#print axioms C144_bounded_partial
#print axioms C145_unique_partial
#print axioms C145_exists_partial
#print axioms C146_moments_partial
#print axioms C146_checked

end Pynare

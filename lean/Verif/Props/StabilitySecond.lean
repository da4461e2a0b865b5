import Verif.Props.Stability
import Verif.Examples.StabilitySecond
/-!
# Stability of second-order simulations
-/

namespace Pynare

open Filter Topology

variable {V : Type} [Field V]

set_option linter.unusedSectionVars false

/-! ### what the second order adds -/

theorem double_bound (φ : V →+* ℂ) {n m : Nat} {c : Nat → Nat → V} {a b : Nat → V} {A B : ℝ} (hA : 0 ≤ A)
    (ha : ∀ j < n, ‖φ (a j)‖ ≤ A) (hb : ∀ l < m, ‖φ (b l)‖ ≤ B) :
    ‖φ (sumTo n fun j => sumTo m fun l => c j l * (a j * b l))‖ ≤
      (∑ j ∈ Finset.range n, ∑ l ∈ Finset.range m, ‖φ (c j l)‖) * (A * B) := by
  rw [sumTo_eq, map_sum, Finset.sum_mul]
  refine (norm_sum_le _ _).trans (Finset.sum_le_sum fun j hj => ?_)
  rw [sumTo_eq, map_sum, Finset.sum_mul]
  refine (norm_sum_le _ _).trans (Finset.sum_le_sum fun l hl => ?_)
  rw [map_mul, map_mul, norm_mul, norm_mul]
  exact mul_le_mul_of_nonneg_left (mul_le_mul (ha j (Finset.mem_range.mp hj)) (hb l (Finset.mem_range.mp hl))
    (norm_nonneg _) hA) (norm_nonneg _)

/-- size of the coefficients in row `i` -/
noncomputable def coefSize (φ : V →+* ℂ) (half : V) (gu : Arr V) (so : Second V) (nb ne i : Nat) : ℝ :=
  ‖φ half‖ + (∑ k ∈ Finset.range ne, ‖φ (gu.e i k)‖) +
    ‖φ half‖ * (∑ j ∈ Finset.range nb, ∑ l ∈ Finset.range nb, ‖φ ((so.ghxx.scale half).e i (j * nb + l))‖) +
    ‖φ half‖ * (∑ j ∈ Finset.range ne, ∑ l ∈ Finset.range ne, ‖φ ((so.ghuu.scale half).e i (j * ne + l))‖) +
    ∑ j ∈ Finset.range nb, ∑ l ∈ Finset.range ne, ‖φ (so.ghxu.e i (j * ne + l))‖

theorem coefSize_nonneg (φ : V →+* ℂ) (half : V) (gu : Arr V) (so : Second V) (nb ne i : Nat) :
    0 ≤ coefSize φ half gu so nb ne i := by
  unfold coefSize
  have h : ∀ (a b : Nat) (f : Nat → Nat → V), 0 ≤ ∑ j ∈ Finset.range a, ∑ l ∈ Finset.range b, ‖φ (f j l)‖ :=
    fun a b f => Finset.sum_nonneg fun _ _ => Finset.sum_nonneg fun _ _ => norm_nonneg _
  have h1 : 0 ≤ ∑ k ∈ Finset.range ne, ‖φ (gu.e i k)‖ := Finset.sum_nonneg fun _ _ => norm_nonneg _
  have h2 := h nb nb fun j l => (so.ghxx.scale half).e i (j * nb + l)
  have h3 := h ne ne fun j l => (so.ghuu.scale half).e i (j * ne + l)
  have h4 := h nb ne fun j l => so.ghxu.e i (j * ne + l)
  positivity

theorem taylor2_bound (φ : V →+* ℂ) {half : V} {gy gu : Arr V} {so : Second V} {del2 : Arr V} {nb ne i : Nat} {yss : V}
    {yhat u : List V} (hy : yhat.length = nb) (hu : u.length = ne) {A E : ℝ} (hA0 : 0 ≤ A) (hE0 : 0 ≤ E) (hE1 : E ≤ 1)
    (hA : ∀ j < nb, ‖φ (yhat[j]?.getD 0)‖ ≤ A) (hE : ∀ j < ne, ‖φ (u[j]?.getD 0)‖ ≤ E) (hd : ‖φ (del2.e i 0)‖ ≤ E) :
    ∃ b, taylor2 half gy gu ⟨so.ghxx.scale half, so.ghxu, so.ghuu.scale half, del2.scale half⟩ yss yhat u i - yss =
        (sumTo nb fun j => gy.e i j * yhat[j]?.getD 0) + b ∧
      ‖φ b‖ ≤ coefSize φ half gu so nb ne i * (A ^ 2 + A * E + E) := by
  refine ⟨half * del2.e i 0 + (sumTo ne fun j => gu.e i j * u[j]?.getD 0) +
    half * (sumTo nb fun j => sumTo nb fun l =>
      (so.ghxx.scale half).e i (j * nb + l) * (yhat[j]?.getD 0 * yhat[l]?.getD 0)) +
    half * (sumTo ne fun j => sumTo ne fun l =>
      (so.ghuu.scale half).e i (j * ne + l) * (u[j]?.getD 0 * u[l]?.getD 0)) +
    (sumTo nb fun j => sumTo ne fun l => so.ghxu.e i (j * ne + l) * (yhat[j]?.getD 0 * u[l]?.getD 0)), ?_, ?_⟩
  · unfold taylor2
    rw [hy, hu]
    show yss + half * del2.e i 0 + _ + _ + _ + _ + _ - yss = _
    ring
  · have e1 : ‖φ (half * del2.e i 0)‖ ≤ ‖φ half‖ * E := by
      rw [map_mul, norm_mul]; exact mul_le_mul_of_nonneg_left hd (norm_nonneg _)
    have e2 : ‖φ (sumTo ne fun j => gu.e i j * u[j]?.getD 0)‖ ≤ (∑ k ∈ Finset.range ne, ‖φ (gu.e i k)‖) * E := by
      rw [sumTo_eq, map_sum, Finset.sum_mul]
      refine (norm_sum_le _ _).trans (Finset.sum_le_sum fun k hk => ?_)
      rw [map_mul, norm_mul]
      exact mul_le_mul_of_nonneg_left (hE k (Finset.mem_range.mp hk)) (norm_nonneg _)
    have e3 := mul_le_mul_of_nonneg_left (double_bound φ (c := fun j l => (so.ghxx.scale half).e i (j * nb + l)) hA0 hA hA)
      (norm_nonneg (φ half))
    have e4 := mul_le_mul_of_nonneg_left (double_bound φ (c := fun j l => (so.ghuu.scale half).e i (j * ne + l)) hE0 hE hE)
      (norm_nonneg (φ half))
    have e5 := double_bound φ (c := fun j l => so.ghxu.e i (j * ne + l)) hA0 hA hE
    simp only [map_add]
    refine (norm_add_le _ _).trans (add_le_add (norm_add_le _ _) le_rfl) |>.trans ?_
    refine (add_le_add (add_le_add (norm_add_le _ _) le_rfl) le_rfl).trans ?_
    refine (add_le_add (add_le_add (add_le_add (norm_add_le _ _) le_rfl) le_rfl) le_rfl).trans ?_
    rw [map_mul φ half (sumTo nb _), map_mul φ half (sumTo ne _), norm_mul, norm_mul]
    refine (add_le_add (add_le_add (add_le_add (add_le_add e1 e2) e3) e4) e5).trans ?_
    have h : ∀ (a b : Nat) (f : Nat → Nat → V), 0 ≤ ∑ j ∈ Finset.range a, ∑ l ∈ Finset.range b, ‖φ (f j l)‖ :=
      fun a b f => Finset.sum_nonneg fun _ _ => Finset.sum_nonneg fun _ _ => norm_nonneg _
    have h1 : 0 ≤ ∑ k ∈ Finset.range ne, ‖φ (gu.e i k)‖ := Finset.sum_nonneg fun _ _ => norm_nonneg _
    have h2 := h nb nb fun j l => (so.ghxx.scale half).e i (j * nb + l)
    have h3 := h ne ne fun j l => (so.ghuu.scale half).e i (j * ne + l)
    have h4 := h nb ne fun j l => so.ghxu.e i (j * ne + l)
    have h5 := norm_nonneg (φ half)
    unfold coefSize
    set S1 := ∑ k ∈ Finset.range ne, ‖φ (gu.e i k)‖
    set S2 := ∑ j ∈ Finset.range nb, ∑ l ∈ Finset.range nb, ‖φ ((so.ghxx.scale half).e i (j * nb + l))‖
    set S3 := ∑ j ∈ Finset.range ne, ∑ l ∈ Finset.range ne, ‖φ ((so.ghuu.scale half).e i (j * ne + l))‖
    set S4 := ∑ j ∈ Finset.range nb, ∑ l ∈ Finset.range ne, ‖φ (so.ghxu.e i (j * ne + l))‖
    set H := ‖φ half‖
    have hAE : 0 ≤ A * E := by positivity
    have hEE : E * E ≤ E := by nlinarith
    have k1 : E ≤ A ^ 2 + A * E + E := by nlinarith
    have k2 : A * A ≤ A ^ 2 + A * E + E := by nlinarith
    have k3 : E * E ≤ A ^ 2 + A * E + E := by nlinarith
    have k4 : A * E ≤ A ^ 2 + A * E + E := by nlinarith
    have m1 := mul_le_mul_of_nonneg_left k1 h5
    have m2 := mul_le_mul_of_nonneg_left k1 h1
    have m3 := mul_le_mul_of_nonneg_left k2 (mul_nonneg h5 h2)
    have m4 := mul_le_mul_of_nonneg_left k3 (mul_nonneg h5 h3)
    have m5 := mul_le_mul_of_nonneg_left k4 h4
    nlinarith

/-! ### C147 -/

/-- **C147, what does hold** (partial: for models with several states and several shocks, see C74, that meet
`Determinate`; and only close to the steady state).  There are `K`, `δ > 0` and `r < 1` such that in every
second-order simulation, however long, whose initial deviations are at most `X ≤ δ` and whose shocks and
risk corrections are at most `E ≤ δ`, row `k` deviates by at most `K (r^k X + E)` from the steady state. -/
theorem C147_local_partial (φ : V →+* ℂ) (la : LinAlg V) (ex : la.Exact) (pss : List (List Int)) (t : Llx)
    (nExog : Nat) (J gy gu : Arr V) (s : Space V) (q : QZ V) (ev : Nat → Option ℂ)
    (h : Determinate φ la pss t nExog J gy gu s q ev) (half : V) (so : Second V)
    (hf : so.Fits t.n t.nBackward nExog) (h1 : 1 < t.nBackward) (h2 : 1 < nExog) :
    ∃ K δ r : ℝ, 0 < δ ∧ 0 < r ∧ r < 1 ∧ ∀ (del2 : Arr V) (ys init : List V) (shocks p : Arr V) (X E : ℝ),
      0 ≤ X → X ≤ δ → 0 ≤ E → E ≤ δ → shocks.c = nExog →
      simulateSecond half t.toTyper gy gu (Second.stored half { so with del2 := del2 }) ys shocks init = .ok p →
      (∀ c < pss.length, ‖φ (dev ys p 0 c)‖ ≤ X) → (∀ k < p.r, ∀ j < nExog, ‖φ (shocks.e k j)‖ ≤ E) →
      (∀ i < pss.length, ‖φ (del2.e i 0)‖ ≤ E) →
      ∀ k < p.r, ∀ c < pss.length, ‖φ (dev ys p k c)‖ ≤ K * (r ^ k * X + E) := by
  obtain ⟨hd, hn⟩ := h.det ex
  obtain ⟨C, r, hC, hr, hr1, hb⟩ := hd.states_sum ex
  have g := groups hd.cur
  have hp := g.perm
  obtain ⟨o1, o2, o3⟩ := drState_length hp
  have hdr : ∀ i < t.n, t.drOrder[i]? = some (t.dr i) := by
    intro i hi
    have : i < t.drOrder.length := by omega
    simp [Typer.dr, List.getElem?_eq_getElem this]
  have hdn : ∀ i < t.n, t.dr i < t.n := by
    intro i hi
    have := g.perm.mem_iff.mp (List.mem_of_getElem? (hdr i hi))
    simpa using this
  -- the rows that belong to the states
  obtain ⟨hnf, hnb, hnm, hnb', hnf', _⟩ := C31_sizes t.toTyper
  have gt := g.total
  have hst : ∀ i < t.nBackward, (t.permute t.drOrder).state[i]?.getD 0 < t.n ∧
      t.drState[i]?.getD 0 = t.dr ((t.permute t.drOrder).state[i]?.getD 0) := by
    intro i hi
    have hsi : (t.permute t.drOrder).state[i]? = some (t.static.length + i) := by
      rw [g.state]; simp [show i < t.pureBackward.length + t.mixed.length by omega]
    refine ⟨by rw [hsi]; simp only [Option.getD_some]; omega, ?_⟩
    unfold Typer.drState Typer.dr
    rw [List.getElem?_map, hsi]
    rfl
  set nb := t.nBackward with hnbdef
  set L0 := ∑ i ∈ Finset.range t.n, coefSize φ half gu so nb nExog i with hL0
  have hL00 : 0 ≤ L0 := Finset.sum_nonneg fun _ _ => coefSize_nonneg _ _ _ _ _ _ _
  have hLi : ∀ i < t.n, coefSize φ half gu so nb nExog i ≤ L0 := fun i hi =>
    Finset.single_le_sum (f := coefSize φ half gu so nb nExog) (fun _ _ => coefSize_nonneg _ _ _ _ _ _ _)
      (Finset.mem_range.mpr hi)
  obtain ⟨K, δ, hK, hδ, hδ1, hsm⟩ := small_bound (C := nb * C * nb) (r := r) (ρ := (1 + r) / 2) (L := L0)
    (by positivity) hr (by linarith) (by linarith) (by positivity)
  set ρ := (1 + r) / 2 with hρ
  have hρ0 : 0 < ρ := by rw [hρ]; linarith
  have hρ1 : ρ < 1 := by rw [hρ]; linarith
  set G := ∑ i ∈ Finset.range t.n, ∑ j ∈ Finset.range nb, ‖φ (gy.e i j)‖ with hG
  have hG0 : 0 ≤ G := Finset.sum_nonneg fun _ _ => Finset.sum_nonneg fun _ _ => norm_nonneg _
  refine ⟨1 + (G * K + L0 * (K * (2 * K) + K + 1)) / ρ, δ, ρ, hδ, hρ0, hρ1, ?_⟩
  intro del2 ys init shocks p X E hX hXδ hE hEδ hc hsim h0 hu hdel k hk c hcn
  have hstep := (C53_step_partial half t.toTyper hp gy gu { so with del2 := del2 } ys init shocks p (by rw [hc]; exact hf)
    h1 (by omega) hsim).2
  have hE1 : E ≤ 1 := hEδ.trans hδ1
  -- one step
  set x : Nat → Nat → V := fun k i => dev ys p k (t.drState[i]?.getD 0) with hx
  set a : Nat → ℝ := fun k => ∑ i ∈ Finset.range nb, ‖φ (x k i)‖ with ha
  have ha0 : ∀ k, 0 ≤ a k := fun k => Finset.sum_nonneg fun _ _ => norm_nonneg _
  have one : ∀ k, k + 1 < p.r → ∀ i < t.n, ∃ b, dev ys p (k + 1) (t.dr i) =
      (sumTo nb fun j => gy.e i j * x k j) + b ∧ ‖φ b‖ ≤ L0 * (a k ^ 2 + a k * E + E) := by
    intro k hk i hi
    have hv := hstep k hk i _ (hdr i hi)
    have hyl : (t.drState.map (dev ys p k)).length = nb := by rw [List.length_map, o1]
    have hul : ((List.range shocks.c).map fun j => shocks.e k j).length = nExog := by simp [hc]
    have hyj : ∀ j < nb, (t.drState.map (dev ys p k))[j]?.getD 0 = x k j := by
      intro j hj
      have : j < t.drState.length := by omega
      simp [hx, List.getElem?_map, List.getElem?_eq_getElem this]
    obtain ⟨b, hb1, hb2⟩ := taylor2_bound φ (half := half) (gy := gy) (gu := gu) (so := so) (del2 := del2) (i := i)
      (yss := ys[t.dr i]?.getD 0) hyl hul (ha0 k) hE hE1 (by
        intro j hj
        rw [hyj j hj]
        exact Finset.single_le_sum (f := fun j => ‖φ (x k j)‖) (fun _ _ => norm_nonneg _) (Finset.mem_range.mpr hj))
      (by
        intro j hj
        have : ((List.range shocks.c).map fun j => shocks.e k j)[j]?.getD 0 = shocks.e k j := by
          simp [List.getElem?_range (show j < shocks.c by omega)]
        rw [this]
        exact hu k (by omega) j hj) (hdel i (by omega))
    refine ⟨b, ?_, hb2.trans (mul_le_mul_of_nonneg_right (hLi i hi) ?_)⟩
    · show p.e (k + 1) (t.dr i) - ys[t.dr i]?.getD 0 = _
      rw [hv, hb1]
      congr 1
      rw [sumTo_eq, sumTo_eq]
      exact Finset.sum_congr rfl fun j hj => by rw [hyj j (Finset.mem_range.mp hj)]
    · have := ha0 k; positivity
  choose! b hb1 hb2 using one
  -- the states
  have hx0 : a 0 ≤ nb * X := by
    refine (Finset.sum_le_sum fun i hi => ?_).trans (le_of_eq (by rw [Finset.sum_const, Finset.card_range, nsmul_eq_mul]))
    have hi := Finset.mem_range.mp hi
    show ‖φ (dev ys p 0 (t.drState[i]?.getD 0))‖ ≤ X
    rw [(hst i hi).2]
    exact h0 _ (by have := hdn _ (hst i hi).1; omega)
  have key : ∀ k ≤ p.r - 1, 0 ≤ a k ∧ a k ≤ nb * C * nb * r ^ k * X +
      ∑ m ∈ Finset.range k, nb * C * nb * r ^ (k - 1 - m) * (L0 * (a m ^ 2 + a m * E + E)) := by
    intro k hk'
    refine ⟨ha0 k, ?_⟩
    have := hb x (fun m i => b m ((t.permute t.drOrder).state[i]?.getD 0)) k (by
      intro m hm i hi
      show dev ys p (m + 1) (t.drState[i]?.getD 0) = _
      rw [(hst i hi).2]
      exact hb1 m (by omega) _ (hst i hi).1)
    have h3 : a k ≤ ∑ i ∈ Finset.range nb, (C * r ^ k * (nb * X) +
        ∑ m ∈ Finset.range k, C * r ^ (k - 1 - m) * (nb * (L0 * (a m ^ 2 + a m * E + E)))) := by
      refine Finset.sum_le_sum fun i hi => (this i (Finset.mem_range.mp hi)).trans (add_le_add ?_ ?_)
      · exact mul_le_mul_of_nonneg_left hx0 (by positivity)
      · refine Finset.sum_le_sum fun m hm => mul_le_mul_of_nonneg_left ?_ (by positivity)
        have hm := Finset.mem_range.mp hm
        refine (Finset.sum_le_sum fun j hj => hb2 m (by omega) _ (hst j (Finset.mem_range.mp hj)).1).trans (le_of_eq ?_)
        rw [Finset.sum_const, Finset.card_range, nsmul_eq_mul]
    rw [Finset.sum_const, Finset.card_range, nsmul_eq_mul, mul_add, Finset.mul_sum] at h3
    refine h3.trans (le_of_eq ?_)
    congr 1
    · ring
    · exact Finset.sum_congr rfl fun m _ => by ring
  have hall := hsm (p.r - 1) a X E E hX hXδ hE hEδ hE hEδ key
  have hK1 : 0 ≤ (G * K + L0 * (K * (2 * K) + K + 1)) / ρ := by positivity
  cases k with
  | zero =>
    have := h0 c hcn
    have h4 : 0 ≤ X + E := by linarith
    have := mul_nonneg hK1 h4
    rw [pow_zero, one_mul]
    nlinarith
  | succ k =>
    obtain ⟨i, hi⟩ := (drEnum g (IsEnum.fin t.n)).surj c (by omega)
    have hi2 := i.2
    rw [← hi, hb1 k hk i hi2, map_add]
    refine (norm_add_le _ _).trans ?_
    have hak := hall k (by omega)
    set Y := ρ ^ k * X + E with hY
    have hY0 : 0 ≤ Y := by positivity
    have hY2 : Y ≤ 2 := by
      have : ρ ^ k * X ≤ 1 * X := mul_le_mul_of_nonneg_right (pow_le_one₀ hρ0.le hρ1.le) hX
      linarith
    have e1 : ‖φ (sumTo nb fun j => gy.e i j * x k j)‖ ≤ G * (K * Y) := by
      refine le_trans ?_ (mul_le_mul_of_nonneg_right (Finset.single_le_sum
        (f := fun i => ∑ j ∈ Finset.range nb, ‖φ (gy.e i j)‖)
        (fun _ _ => Finset.sum_nonneg fun _ _ => norm_nonneg _) (Finset.mem_range.mpr hi2)) (by positivity))
      rw [sumTo_eq, map_sum, Finset.sum_mul]
      refine (norm_sum_le _ _).trans (Finset.sum_le_sum fun j hj => ?_)
      rw [map_mul, norm_mul]
      refine mul_le_mul_of_nonneg_left ?_ (norm_nonneg _)
      exact (Finset.single_le_sum (f := fun j => ‖φ (x k j)‖) (fun _ _ => norm_nonneg _) hj).trans hak
    have e2 : L0 * (a k ^ 2 + a k * E + E) ≤ L0 * ((K * (2 * K) + K + 1) * Y) := by
      refine mul_le_mul_of_nonneg_left ?_ hL00
      have f1 : a k ^ 2 ≤ (K * Y) * (K * 2) := by
        rw [sq]
        exact mul_le_mul hak (hak.trans (mul_le_mul_of_nonneg_left hY2 hK)) (ha0 k) (by positivity)
      have f2 : a k * E ≤ (K * Y) * 1 := mul_le_mul hak hE1 hE (by positivity)
      have f3 : E ≤ Y := by rw [hY]; have : 0 ≤ ρ ^ k * X := by positivity
                            linarith
      nlinarith
    refine (add_le_add e1 ((hb2 k hk i hi2).trans e2)).trans ?_
    have e3 : G * (K * Y) + L0 * ((K * (2 * K) + K + 1) * Y) = (G * K + L0 * (K * (2 * K) + K + 1)) * Y := by ring
    rw [e3]
    set W := G * K + L0 * (K * (2 * K) + K + 1) with hW
    have hW0 : 0 ≤ W := by positivity
    have e4 : W * Y ≤ W / ρ * (ρ ^ (k + 1) * X + E) := by
      have : W / ρ * (ρ ^ (k + 1) * X) = W * (ρ ^ k * X) := by rw [pow_succ]; field_simp
      rw [mul_add (W / ρ), this, hY, mul_add]
      have h5 : W ≤ W / ρ := by rw [le_div_iff₀ hρ0]; nlinarith
      have := mul_le_mul_of_nonneg_right h5 hE
      linarith
    have e5 : 0 ≤ ρ ^ (k + 1) * X + E := by positivity
    rw [add_mul 1, one_mul]
    exact e4.trans (le_add_of_nonneg_left e5)

/-- the arrays of a second-order solution, as matrices -/
def SecondNd.arrays (s : SecondNd V) : Second V := ⟨s.ghxx.to2, s.ghxu.to2, s.ghuu.to2, s.del2.to2⟩

theorem xp_solved : ∃ (s : Space ℚ) (gy gu : Arr ℚ) (so : SecondNd ℚ),
    Determinate (Rat.castHom ℂ) xpLa [[-1, 0], [-1, 0], [0, 1]] so2T 2 xpJ gy gu s (diagQz [1/2, 1/4, 2])
      (diagEv [1/2, 1/4, 2]) ∧
    solveSecondOrder xpLa triQz (1/2) so2T.toTyper 2 xpJ xpH so2Sigma (Nd.mat gy).squeeze (Nd.mat gu).squeeze = .ok so ∧
    (gy.c = 2 ∧ gu.c = 2 ∧ gy.e 0 0 = 1/2 ∧ gy.e 0 1 = 0) ∧ so.arrays.Fits 3 2 2 ∧ so.arrays.del2.e 0 0 = 0 ∧
    so.arrays.ghxx.e 0 0 = 2 ∧ so.arrays.ghxx.e 0 1 = 0 ∧ so.arrays.ghxx.e 0 2 = 0 ∧ so.arrays.ghxx.e 0 3 = 0 := by
  obtain ⟨⟨s, gy, gu, so⟩, h0, h⟩ := ok_of_check (x := xpAll)
    (p := fun r => qzB (diagQz [1/2, 1/4, 2]) r.1.rhs r.1.lhs && okAnd (r.1.verify xpLa so2T.toTyper) (fun _ => true) &&
      decide ((r.2.1.c = 2 ∧ r.2.2.1.c = 2 ∧ r.2.1.e 0 0 = 1/2 ∧ r.2.1.e 0 1 = 0) ∧
        (((r.2.2.2.arrays.ghxx.r = 3 ∧ r.2.2.2.arrays.ghxx.c = 2 * 2) ∧
          (r.2.2.2.arrays.ghuu.r = 3 ∧ r.2.2.2.arrays.ghuu.c = 2 * 2) ∧
          (r.2.2.2.arrays.ghxu.r = 3 ∧ r.2.2.2.arrays.ghxu.c = 2 * 2))) ∧ r.2.2.2.arrays.del2.e 0 0 = 0 ∧
        r.2.2.2.arrays.ghxx.e 0 0 = 2 ∧ r.2.2.2.arrays.ghxx.e 0 1 = 0 ∧
        r.2.2.2.arrays.ghxx.e 0 2 = 0 ∧ r.2.2.2.arrays.ghxx.e 0 3 = 0)) (by decide +kernel)
  unfold xpAll at h0
  obtain ⟨s', hs, h0⟩ := Except.bind_eq_ok h0
  obtain ⟨⟨gy', gu'⟩, hg, h0⟩ := Except.bind_eq_ok h0
  obtain ⟨so', hso, h0⟩ := Except.bind_eq_ok h0
  have e := Except.ok.inj h0
  simp only [Prod.mk.injEq] at e
  obtain ⟨rfl, rfl, rfl, rfl⟩ := e
  simp only [Bool.and_eq_true, decide_eq_true_eq] at h
  obtain ⟨⟨h1, h2⟩, h3⟩ := h
  obtain ⟨⟨⟩, hv, -⟩ := ok_of_check h2
  refine ⟨s', gy', gu', so', ⟨by decide, rfl, rfl, hs, hg, hv, ?_, diag_eigen _ ?_, ?_⟩, hso, h3⟩
  · show (if qzB _ _ _ then _ else _) = _
    rw [if_pos h1]
  · intro i j hij hj
    have hj : j < 3 := hj
    interval_cases j <;> interval_cases i <;> norm_num [abs_lt]
  · refine diag_noUnit (ls := [1/2, 1/4, 2]) ?_
    simp only [List.mem_cons, List.not_mem_nil, or_false, forall_eq_or_imp, forall_eq]
    norm_num [abs_lt]

/-- **C147 is false.**  The model `x = x(-1)/2 + x(-1)^2 + e1`, `z = z(-1)/4 + e2`, `w(+1) = 2*w` passes the
check of its eigenvalues and is solved to second order, with linear algebra that is exact.  Still, without
any shock, its second-order simulations from `x = 2` exceed every bound. -/
theorem C147_false : ∃ (s : Space ℚ) (gy gu : Arr ℚ) (so : SecondNd ℚ),
    xpLa.Exact ∧ GQZExact triQz ∧
    Determinate (Rat.castHom ℂ) xpLa [[-1, 0], [-1, 0], [0, 1]] so2T 2 xpJ gy gu s (diagQz [1/2, 1/4, 2])
      (diagEv [1/2, 1/4, 2]) ∧
    solveSecondOrder xpLa triQz (1/2) so2T.toTyper 2 xpJ xpH so2Sigma (Nd.mat gy).squeeze (Nd.mat gu).squeeze = .ok so ∧
    ∀ M : ℚ, ∃ (n : Nat) (p : Arr ℚ), simulateSecond (1/2) so2T.toTyper gy gu (Second.stored (1/2) so.arrays) [0, 0, 0]
      (Arr.zeros (n + 1) 2) [2, 0, 0] = .ok p ∧ p.r = n + 1 ∧ M < p.e n 0 := by
  obtain ⟨s, gy, gu, so, hdet, hso, ⟨g1, g2, g3, g4⟩, hf, hd, x1, y1, y2, y3⟩ := xp_solved
  refine ⟨s, gy, gu, so, xpLa_exact, triQz_exact, hdet, hso, fun M => ?_⟩
  have hp : so2T.drOrder.Perm (List.range so2T.n) := (groups ((hdet.det xpLa_exact).1.cur)).perm
  have grow : ∀ n, ∃ p : Arr ℚ, simulateSecond (1/2) so2T.toTyper gy gu (Second.stored (1/2) so.arrays) [0, 0, 0]
      (Arr.zeros (n + 1) 2) [2, 0, 0] = .ok p ∧ p.r = n + 1 ∧ ∀ k ≤ n, 2 + (k : ℚ) ≤ p.e k 0 := by
    intro n
    obtain ⟨p, hsim⟩ := C74_simulated_partial (1/2 : ℚ) so2T.toTyper hp gy gu (Second.stored (1/2) so.arrays) [0, 0, 0]
      [2, 0, 0] (Arr.zeros (n + 1) 2) (Nat.succ_pos _) rfl g1 g2 hf (by decide) (by show 1 < 2; omega)
    obtain ⟨i1, i2, i3, i4, i5, i6, i7⟩ := simulateSecond_ok hsim
    have hr : p.r = n + 1 := i4
    refine ⟨p, hsim, hr, ?_⟩
    intro k
    induction k with
    | zero =>
      intro _
      rw [i7 0 _ rfl 0]
      norm_num
    | succ k ih =>
      intro hk
      have hx := ih (by omega)
      have hv := (C53_step_partial (1/2 : ℚ) so2T.toTyper hp gy gu so.arrays [0, 0, 0] [2, 0, 0]
        (Arr.zeros (n + 1) 2) p hf (by decide)
        (by show 1 < 2; omega) hsim).2 k (by omega) 0 0 (by decide)
      have hst : so2T.drState = [0, 1] := by decide
      have hsh : ((List.range (Arr.zeros (V := ℚ) (n + 1) 2).c).map fun j => (Arr.zeros (V := ℚ) (n + 1) 2).e k j) =
          [0, 0] := rfl
      rw [hst, hsh] at hv
      have : p.e (k + 1) 0 = 1/2 * p.e k 0 + 1/2 * (p.e k 0 * p.e k 0) := by
        rw [hv]
        simp [taylor2, sumTo, dev, Arr.scale, hd, g3, g4, x1, y1, y2, y3]
      rw [this]
      push_cast
      nlinarith
  obtain ⟨n, hn⟩ := exists_nat_gt M
  obtain ⟨p, h1, h2, h3⟩ := grow n
  exact ⟨n, p, h1, h2, hn.trans_le (by have := h3 n le_rfl; linarith)⟩

/-- the hypotheses of C147 are met, by the same model -/
example : ∃ (s : Space ℚ) (gy gu : Arr ℚ) (so : Second ℚ), xpLa.Exact ∧
    Determinate (Rat.castHom ℂ) xpLa [[-1, 0], [-1, 0], [0, 1]] so2T 2 xpJ gy gu s (diagQz [1/2, 1/4, 2])
      (diagEv [1/2, 1/4, 2]) ∧ so.Fits so2T.n so2T.nBackward 2 ∧ 1 < so2T.nBackward ∧ so.ghxx.e 0 0 = 2 := by
  obtain ⟨s, gy, gu, so, h, -, -, hf, -, hx, -⟩ := xp_solved
  exact ⟨s, gy, gu, so.arrays, xpLa_exact, h, hf, by decide, hx⟩

#print axioms C147_local_partial
#print axioms C147_false

end Pynare

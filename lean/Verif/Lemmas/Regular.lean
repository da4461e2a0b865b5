import Verif.Lemmas.Solvable
import Verif.Lemmas.SecondMain
/-!
# In a determinate model the systems for the second-order terms are regular
-/

namespace Pynare

open Matrix

set_option linter.unusedSectionVars false

variable {V : Type} [Field V]

/-- the array of the system for the second-order terms -/
def sysEnt (t : Typer) (J : Arr V) (G : Nat → Nat → V) (i j : Nat) : V :=
  J.e i (t.col 1 j) + if t.nS ≤ j ∧ j < t.nS + t.nT then
    sumTo t.nF fun f => J.e i (t.col 2 (t.f0 + f)) * G (t.f0 + f) (j - t.nS) else 0

/-- sums over the states -/
theorem sumTo_states {t : Typer} (g : Groups t) (F : Nat → V) :
    (sumTo t.n fun j => if t.nS ≤ j ∧ j < t.nS + t.nT then F j else 0) = sumTo t.nT fun b => F (t.nS + b) := by
  have gt := g.total
  have e : t.n = t.nS + (t.nT + t.pureForward.length) := by unfold Typer.nS Typer.nT; omega
  rw [e, sumTo_plus, sumTo_plus]
  rw [sumTo_eq t.nS, Finset.sum_eq_zero (fun j hj => if_neg (by have := Finset.mem_range.mp hj; omega)), zero_add]
  rw [sumTo_eq t.pureForward.length, Finset.sum_eq_zero (fun j _ => if_neg (by omega)), add_zero]
  exact sumTo_congr fun b hb => if_pos (by omega)

theorem sysEnt_apply {t : Typer} (g : Groups t) (J : Arr V) (G : Nat → Nat → V) (i : Nat) (v : Nat → V) :
    (sumTo t.n fun j => sysEnt t J G i j * v j) = (sumTo t.n fun j => J.e i (t.col 1 j) * v j) +
      sumTo t.nF fun f => J.e i (t.col 2 (t.f0 + f)) * sumTo t.nT fun b => G (t.f0 + f) b * v (t.nS + b) := by
  have e : ∀ j, sysEnt t J G i j * v j = J.e i (t.col 1 j) * v j +
      if t.nS ≤ j ∧ j < t.nS + t.nT then
        (sumTo t.nF fun f => J.e i (t.col 2 (t.f0 + f)) * G (t.f0 + f) (j - t.nS)) * v j else 0 := by
    intro j
    unfold sysEnt
    rw [add_mul, ite_mul, zero_mul]
  simp only [e]
  have e2 : (sumTo t.n fun j => J.e i (t.col 1 j) * v j +
      if t.nS ≤ j ∧ j < t.nS + t.nT then
        (sumTo t.nF fun f => J.e i (t.col 2 (t.f0 + f)) * G (t.f0 + f) (j - t.nS)) * v j else 0) =
      (sumTo t.n fun j => J.e i (t.col 1 j) * v j) +
      sumTo t.n fun j => if t.nS ≤ j ∧ j < t.nS + t.nT then
        (sumTo t.nF fun f => J.e i (t.col 2 (t.f0 + f)) * G (t.f0 + f) (j - t.nS)) * v j else 0 := by
    simp only [sumTo_eq, Finset.sum_add_distrib]
  rw [e2, sumTo_states g]
  congr 1
  simp only [Nat.add_sub_cancel_left, sumTo_eq, Finset.sum_mul, Finset.mul_sum]
  rw [Finset.sum_comm]
  exact Finset.sum_congr rfl fun f _ => Finset.sum_congr rfl fun b _ => mul_assoc _ _ _

section
variable {φ : V →+* ℂ} {la : LinAlg V} (ex : la.Exact) {t : Llx} {nExog : Nat} {J gy gu : Arr V} {s : Space V}
  {q : QZ V} {ev : Nat → Option ℂ} (h : Det φ la t nExog J gy gu s q ev)
include ex h

theorem Det.policy {ym y : Nat → V} (hy : ∀ i < t.n, y (t.dr i) = sumTo t.nT fun b => gy.e i b * ym (t.dr (t.nS + b))) :
    FollowsPolicy t.toTyper nExog gy gu ym (fun _ => 0) y := by
  have g := groups h.cur
  have hnb : t.nBackward = t.nT := (C31_sizes t.toTyper).2.2.2.1
  have hl : t.drOrder.length = t.n := by rw [g.perm.length_eq]; simp
  intro i c hic
  have hi : i < t.n := by have := (List.getElem?_eq_some_iff.mp hic).1; omega
  have hc : c = t.dr i := by simp [Typer.dr, hic]
  rw [hc, hy i hi, hnb, sumTo_eq nExog, Finset.sum_eq_zero (fun _ _ => mul_zero _), add_zero]
  refine sumTo_congr fun b hb => ?_
  have : (t.permute t.drOrder).state[b]?.getD 0 = t.nS + b := by
    rw [g.state]; simp [show b < t.pureBackward.length + t.mixed.length from hb, Typer.nS]
  rw [this]
  rfl

theorem Det.follows {ym y : Nat → V} (hy : FollowsPolicy t.toTyper nExog gy gu ym (fun _ => 0) y) :
    ∀ i < t.n, y (t.dr i) = sumTo t.nT fun b => gy.e i b * ym (t.dr (t.nS + b)) := by
  have g := groups h.cur
  have hnb : t.nBackward = t.nT := (C31_sizes t.toTyper).2.2.2.1
  have hl : t.drOrder.length = t.n := by rw [g.perm.length_eq]; simp
  intro i hi
  have hic : t.drOrder[i]? = some (t.dr i) := by
    have : i < t.drOrder.length := by omega
    simp [Typer.dr, List.getElem?_eq_getElem this]
  rw [hy i _ hic, hnb, sumTo_eq nExog, Finset.sum_eq_zero (fun _ _ => mul_zero _), add_zero]
  refine sumTo_congr fun b hb => ?_
  have : (t.permute t.drOrder).state[b]?.getD 0 = t.nS + b := by
    rw [g.state]; simp [show b < t.pureBackward.length + t.mixed.length from hb, Typer.nS]
  rw [this]
  rfl

/-- the solution annihilates the equations -/
theorem Det.annihilates (x : Nat → V) {i : Nat} (hi : i < t.n) :
    (sumTo t.nF fun f => J.e i (t.col 2 (t.f0 + f)) * sumTo t.nT fun b => gy.e (t.f0 + f) b *
        sumTo t.nT fun b' => gy.e (t.nS + b) b' * x b') +
      (sumTo t.n fun j => J.e i (t.col 1 j) * sumTo t.nT fun b => gy.e j b * x b) +
      (sumTo t.nT fun b => J.e i (t.col 0 (t.nS + b)) * x b) = 0 := by
  have g := groups h.cur
  have gt := g.total
  obtain ⟨ym, hym⟩ := dr_fill g fun i => x (i - t.nS)
  obtain ⟨y, hy⟩ := dr_fill g fun i => sumTo t.nT fun b => gy.e i b * x b
  obtain ⟨yp, hyp⟩ := dr_fill g fun i => sumTo t.nT fun b => gy.e i b *
    sumTo t.nT fun b' => gy.e (t.nS + b) b' * x b'
  have hst : ∀ b < t.nT, t.nS + b < t.n := by intro b hb; unfold Typer.nT at hb; unfold Typer.nS; omega
  have p1 := h.policy ex (ym := ym) (y := y) (fun i hi => by
    rw [hy i hi]
    exact sumTo_congr fun b hb => by rw [hym _ (hst b hb), Nat.add_sub_cancel_left])
  have p2 := h.policy ex (ym := y) (y := yp) (fun i hi => by
    rw [hyp i hi]
    exact sumTo_congr fun b hb => by rw [hy _ (hst b hb)])
  have := linearised_zero ex h.cur h.static h.square h.space (h.separated ex) h.solved p1 p2 i hi
  rw [linearised_none, row_cur g, row_lag g, row_lead g] at this
  rw [← this]
  congr 1
  · congr 1
    · refine sumTo_congr (n := t.nF) fun f hf => ?_
      have := hyp (t.f0 + f) (by unfold Typer.nF at hf; unfold Typer.f0; omega)
      exact congrArg _ this.symm
    · exact sumTo_congr fun j hj => by rw [hy j hj]
  · refine sumTo_congr (n := t.nT) fun b hb => ?_
    have := hym (t.nS + b) (hst b hb)
    rw [Nat.add_sub_cancel_left] at this
    exact congrArg _ this.symm

/-- deviations from the policy functions that are bounded and that the equations allow are zero -/
theorem Det.forced (b : Nat → Nat → V)
    (hb : ∀ τ, ∀ i < t.n, (sumTo t.n fun j => sysEnt t.toTyper J gy.e i j * b τ j) +
      (sumTo t.nF fun f => J.e i (t.col 2 (t.f0 + f)) * b (τ + 1) (t.f0 + f)) = 0)
    (B : ℝ) (hB : ∀ τ, ∀ j < t.n, ‖φ (b τ j)‖ ≤ B) : ∀ τ, ∀ j < t.n, b τ j = 0 := by
  have g := groups h.cur
  have gt := g.total
  have hnb : t.nBackward = t.nT := (C31_sizes t.toTyper).2.2.2.1
  have hst : ∀ b < t.nT, t.nS + b < t.n := by intro b hb; unfold Typer.nT at hb; unfold Typer.nS; omega
  have hfw : ∀ f < t.nF, t.f0 + f < t.n := by intro f hf; unfold Typer.nF at hf; unfold Typer.f0; omega
  -- the path
  let z : Nat → Nat → V := fun τ => Nat.rec (fun _ => 0) (fun τ z i => (sumTo t.nT fun k => gy.e i k * z (t.nS + k)) + b τ i) τ
  have z0 : ∀ i, z 0 i = 0 := fun _ => rfl
  have zs : ∀ τ i, z (τ + 1) i = (sumTo t.nT fun k => gy.e i k * z τ (t.nS + k)) + b τ i := fun _ _ => rfl
  choose y hy using fun τ => dr_fill g (z τ)
  -- it is bounded
  obtain ⟨C, r, hC, hr, hr1, hbd⟩ := h.states ex
  have hBs : ∀ τ, ∑ j ∈ Finset.range t.nBackward, ‖φ (b τ (t.nS + j))‖ ≤ t.nT * B := by
    intro τ
    rw [hnb]
    refine (Finset.sum_le_sum fun j hj => hB τ _ (hst j (Finset.mem_range.mp hj))).trans ?_
    rw [Finset.sum_const, Finset.card_range, nsmul_eq_mul]
  have hT0 : 0 ≤ (t.nT : ℝ) * B := (Finset.sum_nonneg fun _ _ => norm_nonneg _).trans (hBs 0)
  have hstate : ∀ τ, ∀ k < t.nT, ‖φ (z τ (t.nS + k))‖ ≤ C * (t.nT * B) / (1 - r) := by
    intro τ k hk
    have := hbd (fun τ k => z τ (t.nS + k)) (fun τ k => b τ (t.nS + k)) τ (by
      intro m _ i hi
      rw [zs, hnb]
      have : (t.permute t.drOrder).state[i]?.getD 0 = t.nS + i := by
        rw [hnb] at hi
        rw [g.state]; simp [show i < t.pureBackward.length + t.mixed.length from hi, Typer.nS]
      rw [this]) _ hT0 (fun m _ => hBs m) k (by omega)
    refine this.trans (le_of_eq ?_)
    rw [Finset.sum_eq_zero (fun j _ => by rw [z0, map_zero, norm_zero]), mul_zero, zero_add]
  set K := C * (t.nT * B) / (1 - r) with hK
  have hK0 : 0 ≤ K := by
    rw [hK]
    exact div_nonneg (mul_nonneg hC hT0) (by linarith)
  set M := ∑ i ∈ Finset.range t.n, ∑ k ∈ Finset.range t.nT, ‖φ (gy.e i k)‖ with hM
  have hM0 : 0 ≤ M := Finset.sum_nonneg fun _ _ => Finset.sum_nonneg fun _ _ => norm_nonneg _
  have hall : ∀ τ, ∀ i < t.n, ‖φ (z τ i)‖ ≤ M * K + |B| := by
    intro τ i hi
    cases τ with
    | zero => rw [z0, map_zero, norm_zero]; positivity
    | succ τ =>
      rw [zs, map_add]
      refine (norm_add_le _ _).trans (add_le_add ?_ ((hB τ i hi).trans (le_abs_self B)))
      rw [sumTo_eq, map_sum]
      refine (norm_sum_le _ _).trans ?_
      have e1 : ∀ k ∈ Finset.range t.nT, ‖φ (gy.e i k * z τ (t.nS + k))‖ ≤ ‖φ (gy.e i k)‖ * K := by
        intro k hk
        rw [map_mul, norm_mul]
        exact mul_le_mul_of_nonneg_left (hstate τ k (Finset.mem_range.mp hk)) (norm_nonneg _)
      refine (Finset.sum_le_sum e1).trans ?_
      rw [← Finset.sum_mul]
      refine mul_le_mul_of_nonneg_right ?_ hK0
      exact Finset.single_le_sum (f := fun i => ∑ k ∈ Finset.range t.nT, ‖φ (gy.e i k)‖)
        (fun _ _ => Finset.sum_nonneg fun _ _ => norm_nonneg _) (Finset.mem_range.mpr hi)
  have hyb : ∀ τ, ∀ c < t.n, ‖φ (y τ c)‖ ≤ M * K + |B| := by
    intro τ c hc
    obtain ⟨a, ha⟩ := (drEnum g (IsEnum.fin t.n)).surj c hc
    rw [← ha, hy τ a a.2]
    exact hall τ a a.2
  -- it solves the equations
  have heq : ∀ τ, ∀ i < t.n, linearised t nExog J i (y τ) (y (τ + 1)) (y (τ + 2)) (fun _ => 0) = 0 := by
    intro τ i hi
    rw [linearised_none, row_cur g, row_lag g, row_lead g]
    have e2 : (sumTo (t.mixed.length + t.pureForward.length) fun f =>
        J.e i (t.col 2 (t.static.length + t.pureBackward.length + f)) *
          y (τ + 2) (t.dr (t.static.length + t.pureBackward.length + f))) =
        sumTo t.nF fun f => J.e i (t.col 2 (t.f0 + f)) * z (τ + 2) (t.f0 + f) :=
      sumTo_congr (n := t.nF) fun f hf => congrArg _ (hy (τ + 2) _ (hfw f hf))
    have e0 : (sumTo (t.pureBackward.length + t.mixed.length) fun b =>
        J.e i (t.col 0 (t.static.length + b)) * y τ (t.dr (t.static.length + b))) =
        sumTo t.nT fun k => J.e i (t.col 0 (t.nS + k)) * z τ (t.nS + k) :=
      sumTo_congr (n := t.nT) fun k hk => congrArg _ (hy τ _ (hst k hk))
    have e1 : (sumTo t.n fun j => J.e i (t.col 1 j) * y (τ + 1) (t.dr j)) =
        sumTo t.n fun j => J.e i (t.col 1 j) * z (τ + 1) j :=
      sumTo_congr fun j hj => congrArg _ (hy (τ + 1) _ hj)
    rw [e0, e1, e2]
    have a := h.annihilates ex (fun k => z τ (t.nS + k)) hi
    have f := hb τ i hi
    rw [sysEnt_apply g] at f
    refine Eq.trans ?_ ((congrArg₂ (· + ·) a f).trans (add_zero 0))
    have s2 : (sumTo t.nF fun f => J.e i (t.col 2 (t.f0 + f)) * z (τ + 2) (t.f0 + f)) =
        (sumTo t.nF fun f => J.e i (t.col 2 (t.f0 + f)) * sumTo t.nT fun k => gy.e (t.f0 + f) k *
          sumTo t.nT fun k' => gy.e (t.nS + k) k' * z τ (t.nS + k')) +
        (sumTo t.nF fun f => J.e i (t.col 2 (t.f0 + f)) * sumTo t.nT fun k => gy.e (t.f0 + f) k * b τ (t.nS + k)) +
        sumTo t.nF fun f => J.e i (t.col 2 (t.f0 + f)) * b (τ + 1) (t.f0 + f) := by
      simp only [zs (τ + 1), zs τ, sumTo_eq, mul_add, Finset.sum_add_distrib]
    have s1 : (sumTo t.n fun j => J.e i (t.col 1 j) * z (τ + 1) j) =
        (sumTo t.n fun j => J.e i (t.col 1 j) * sumTo t.nT fun k => gy.e j k * z τ (t.nS + k)) +
        sumTo t.n fun j => J.e i (t.col 1 j) * b τ j := by
      simp only [zs τ, sumTo_eq, mul_add, Finset.sum_add_distrib]
    rw [s2, s1]
    ring
  have hf := h.unique ex y (fun _ _ => 0) (fun _ _ _ _ => rfl) heq _ hyb
  -- so it is zero
  have hz : ∀ τ, ∀ i < t.n, z τ i = 0 := by
    intro τ
    induction τ with
    | zero => exact fun i _ => z0 i
    | succ τ ih =>
      intro i hi
      rw [← hy (τ + 1) i hi, h.follows ex (hf τ) i hi, sumTo_eq]
      refine Finset.sum_eq_zero fun k hk => ?_
      have hk := hst k (Finset.mem_range.mp hk)
      rw [hy τ _ hk, ih _ hk, mul_zero]
  intro τ j hj
  have := zs τ j
  rw [hz (τ + 1) j hj, sumTo_eq, Finset.sum_eq_zero (fun k hk => by
    rw [hz τ _ (hst k (Finset.mem_range.mp hk)), mul_zero]), zero_add] at this
  exact this.symm

/-- the array of the system is regular -/
theorem Det.sys_inj (v : Nat → V) (hv : ∀ i < t.n, (sumTo t.n fun j => sysEnt t.toTyper J gy.e i j * v j) = 0) :
    ∀ j < t.n, v j = 0 := by
  have g := groups h.cur
  refine h.forced ex (fun τ j => if τ = 0 then v j else 0) ?_ (∑ j ∈ Finset.range t.n, ‖φ (v j)‖) ?_ 0
  · intro τ i hi
    rw [sumTo_eq t.nF, Finset.sum_eq_zero (fun f _ => by rw [if_neg (by omega), mul_zero]), add_zero]
    by_cases hτ : τ = 0
    · simp only [hτ, if_true]; exact hv i hi
    · simp only [if_neg hτ, mul_zero, sumTo_eq, Finset.sum_const_zero]
  · intro τ j hj
    by_cases hτ : τ = 0
    · simp only [hτ, if_true]
      exact Finset.single_le_sum (f := fun j => ‖φ (v j)‖) (fun _ _ => norm_nonneg _) (Finset.mem_range.mpr hj)
    · simp only [if_neg hτ, map_zero, norm_zero]
      exact Finset.sum_nonneg fun _ _ => norm_nonneg _

/-- so is the one of the system for the constant -/
theorem Det.del2_inj [DecidableEq V] (v : Nat → V)
    (hv : ∀ i < t.n, (sumTo t.n fun j => del2Ent t.toTyper J gy.e i j * v j) = 0) : ∀ j < t.n, v j = 0 := by
  have g := groups h.cur
  have gt := g.total
  refine h.forced ex (fun _ j => v j) ?_ (∑ j ∈ Finset.range t.n, ‖φ (v j)‖) ?_ 0
  · intro τ i hi
    rw [← hv i hi, sysEnt_apply g]
    have e : (sumTo t.n fun j => del2Ent t.toTyper J gy.e i j * v j) =
        (sumTo t.n fun j => J.e i (t.col 1 j) * v j) + sumTo t.nF fun f => J.e i (t.col 2 (t.f0 + f)) *
          sumTo t.n fun j => ((if j = t.f0 + f then 1 else 0) +
            if t.nS ≤ j ∧ j < t.nS + t.nT then gy.e (t.f0 + f) (j - t.nS) else 0) * v j := by
      unfold del2Ent
      simp only [sumTo_eq, add_mul, Finset.sum_add_distrib, Finset.sum_mul]
      congr 1
      rw [Finset.sum_comm]
      refine Finset.sum_congr rfl fun f _ => ?_
      rw [← Finset.sum_add_distrib, Finset.mul_sum]
      exact Finset.sum_congr rfl fun j _ => by ring
    rw [e, add_assoc]
    congr 1
    have e2 : ∀ f < t.nF, (sumTo t.n fun j => ((if j = t.f0 + f then 1 else 0) +
        if t.nS ≤ j ∧ j < t.nS + t.nT then gy.e (t.f0 + f) (j - t.nS) else 0) * v j) =
        v (t.f0 + f) + sumTo t.nT fun k => gy.e (t.f0 + f) k * v (t.nS + k) := by
      intro f hf
      have h1 : (sumTo t.n fun j => (if j = t.f0 + f then (1 : V) else 0) * v j) = v (t.f0 + f) := by
        rw [sumTo_eq, Finset.sum_eq_single (t.f0 + f)]
        · rw [if_pos rfl, one_mul]
        · intro j _ hj; rw [if_neg hj, zero_mul]
        · intro hn
          exact absurd (Finset.mem_range.mpr (by unfold Typer.nF at hf; unfold Typer.f0; omega)) hn
      have h2 := sumTo_states g fun j => gy.e (t.f0 + f) (j - t.nS) * v j
      simp only [Nat.add_sub_cancel_left] at h2
      rw [← h1, ← h2]
      simp only [sumTo_eq, add_mul, ite_mul, zero_mul, Finset.sum_add_distrib]
    rw [sumTo_congr fun f hf => congrArg (J.e i (t.col 2 (t.f0 + f)) * ·) (e2 f hf)]
    simp only [sumTo_eq, mul_add, Finset.sum_add_distrib]
    exact add_comm _ _
  · intro τ j hj
    exact Finset.single_le_sum (f := fun j => ‖φ (v j)‖) (fun _ _ => norm_nonneg _) (Finset.mem_range.mpr hj)

open Nd (kronEnt) in
/-- and the one of the system for the second derivatives in the states -/
theorem Det.syl_inj [DecidableEq V] (X : Arr V)
    (hX : ∀ i < t.n, ∀ j < t.nT * t.nT, (sumTo t.n fun k => sysEnt t.toTyper J gy.e i k * X.e k j) +
      (sumTo t.nF fun f => J.e i (t.col 2 (t.f0 + f)) *
        kronEnt X t.nT (fun p => gy.e (t.nS + p)) t.nT t.nT (fun p => gy.e (t.nS + p)) (t.f0 + f) j) = 0) :
    ∀ k < t.n, ∀ j < t.nT * t.nT, X.e k j = 0 := by
  have g := groups h.cur
  have hnb : t.nBackward = t.nT := (C31_sizes t.toTyper).2.2.2.1
  obtain ⟨C, r, hC, hr, hr1, hbd⟩ := h.states ex
  let a : (Nat → V) → Nat → Nat → V := fun x τ =>
    Nat.rec x (fun _ a p => sumTo t.nT fun k => gy.e (t.nS + p) k * a k) τ
  have a0 : ∀ x p, a x 0 p = x p := fun _ _ => rfl
  have as : ∀ x τ p, a x (τ + 1) p = sumTo t.nT fun k => gy.e (t.nS + p) k * a x τ k := fun _ _ _ => rfl
  have abd : ∀ x τ, ∀ p < t.nT, ‖φ (a x τ p)‖ ≤ C * ∑ k ∈ Finset.range t.nT, ‖φ (x k)‖ := by
    intro x τ p hp
    have := hbd (a x) (fun _ _ => 0) τ (by
      intro m _ i hi
      rw [as, hnb, add_zero]
      have : (t.permute t.drOrder).state[i]?.getD 0 = t.nS + i := by
        rw [hnb] at hi
        rw [g.state]; simp [show i < t.pureBackward.length + t.mixed.length from hi, Typer.nS]
      rw [this]) 0 le_rfl (fun _ _ => by simp) p (by omega)
    rw [hnb, mul_zero, zero_div, add_zero] at this
    refine this.trans ?_
    have h1 : C * r ^ τ ≤ C := mul_le_of_le_one_right hC (pow_le_one₀ hr.le hr1.le)
    exact mul_le_mul_of_nonneg_right h1 (Finset.sum_nonneg fun _ _ => norm_nonneg _)
  intro k hk j hj
  obtain ⟨hj1, hj2⟩ := div_lt_of_mul hj
  set u : Nat → V := fun p => if p = j / t.nT then 1 else 0 with hu
  set w : Nat → V := fun p => if p = j % t.nT then 1 else 0 with hw
  let b : Nat → Nat → V := fun τ k => sumTo t.nT fun p => sumTo t.nT fun p' =>
    X.e k (p * t.nT + p') * (a u τ p * a w τ p')
  have hnext : ∀ τ k, b (τ + 1) k = sumTo t.nT fun p => sumTo t.nT fun p' =>
      kronEnt X t.nT (fun p => gy.e (t.nS + p)) t.nT t.nT (fun p => gy.e (t.nS + p)) k (p * t.nT + p') *
        (a u τ p * a w τ p') := by
    intro τ k
    have e1 : b (τ + 1) k = ∑ p ∈ Finset.range t.nT, ∑ p' ∈ Finset.range t.nT, ∑ m ∈ Finset.range t.nT,
        ∑ m' ∈ Finset.range t.nT, X.e k (p * t.nT + p') * (gy.e (t.nS + p) m * gy.e (t.nS + p') m') *
          (a u τ m * a w τ m') := by
      simp only [b, sumTo_eq, as]
      refine Finset.sum_congr rfl fun p _ => Finset.sum_congr rfl fun p' _ => ?_
      rw [Finset.sum_mul_sum, Finset.mul_sum]
      refine Finset.sum_congr rfl fun m _ => ?_
      rw [Finset.mul_sum]
      exact Finset.sum_congr rfl fun m' _ => by ring
    rw [e1]
    have e2 : ∀ m ∈ Finset.range t.nT, ∀ m' ∈ Finset.range t.nT,
        kronEnt X t.nT (fun p => gy.e (t.nS + p)) t.nT t.nT (fun p => gy.e (t.nS + p)) k (m * t.nT + m') *
          (a u τ m * a w τ m') = ∑ p ∈ Finset.range t.nT, ∑ p' ∈ Finset.range t.nT,
        X.e k (p * t.nT + p') * (gy.e (t.nS + p) m * gy.e (t.nS + p') m') * (a u τ m * a w τ m') := by
      intro m _ m' hm'
      unfold kronEnt
      have hm' := Finset.mem_range.mp hm'
      rw [Nd.div_add hm', Nd.mod_add hm']
      simp only [sumTo_eq, Finset.sum_mul]
    simp only [sumTo_eq]
    rw [Finset.sum_congr rfl fun m hm => Finset.sum_congr rfl fun m' hm' => e2 m hm m' hm']
    -- the order of summation
    rw [Finset.sum_congr rfl fun p _ => Finset.sum_comm]
    rw [Finset.sum_comm]
    refine Finset.sum_congr rfl fun m _ => ?_
    rw [Finset.sum_congr rfl fun p _ => Finset.sum_comm]
    exact Finset.sum_comm
  have hb := h.forced ex b (by
    intro τ i hi
    have e1 : (sumTo t.n fun k => sysEnt t.toTyper J gy.e i k * b τ k) =
        ∑ p ∈ Finset.range t.nT, ∑ p' ∈ Finset.range t.nT,
          (sumTo t.n fun k => sysEnt t.toTyper J gy.e i k * X.e k (p * t.nT + p')) * (a u τ p * a w τ p') := by
      simp only [b, sumTo_eq, Finset.mul_sum, Finset.sum_mul]
      rw [Finset.sum_comm]
      refine Finset.sum_congr rfl fun p _ => ?_
      rw [Finset.sum_comm]
      exact Finset.sum_congr rfl fun p' _ => Finset.sum_congr rfl fun k _ => (mul_assoc _ _ _).symm
    have e2 : (sumTo t.nF fun f => J.e i (t.col 2 (t.f0 + f)) * b (τ + 1) (t.f0 + f)) =
        ∑ p ∈ Finset.range t.nT, ∑ p' ∈ Finset.range t.nT,
          (sumTo t.nF fun f => J.e i (t.col 2 (t.f0 + f)) *
            kronEnt X t.nT (fun p => gy.e (t.nS + p)) t.nT t.nT (fun p => gy.e (t.nS + p)) (t.f0 + f)
              (p * t.nT + p')) * (a u τ p * a w τ p') := by
      simp only [hnext, sumTo_eq, Finset.mul_sum, Finset.sum_mul]
      rw [Finset.sum_comm]
      refine Finset.sum_congr rfl fun p _ => ?_
      rw [Finset.sum_comm]
      exact Finset.sum_congr rfl fun p' _ => Finset.sum_congr rfl fun k _ => (mul_assoc _ _ _).symm
    rw [e1, e2, ← Finset.sum_add_distrib]
    refine Finset.sum_eq_zero fun p hp => ?_
    rw [← Finset.sum_add_distrib]
    refine Finset.sum_eq_zero fun p' hp' => ?_
    rw [← add_mul, hX i hi _ (mul_add_lt (Finset.mem_range.mp hp) (Finset.mem_range.mp hp')), zero_mul])
    (∑ k ∈ Finset.range t.n, ∑ p ∈ Finset.range t.nT, ∑ p' ∈ Finset.range t.nT, ‖φ (X.e k (p * t.nT + p'))‖ *
      ((C * ∑ k ∈ Finset.range t.nT, ‖φ (u k)‖) * (C * ∑ k ∈ Finset.range t.nT, ‖φ (w k)‖))) (by
    intro τ k hk
    have hk' : ‖φ (b τ k)‖ ≤ ∑ p ∈ Finset.range t.nT, ∑ p' ∈ Finset.range t.nT, ‖φ (X.e k (p * t.nT + p'))‖ *
        ((C * ∑ k ∈ Finset.range t.nT, ‖φ (u k)‖) * (C * ∑ k ∈ Finset.range t.nT, ‖φ (w k)‖)) := by
      simp only [b, sumTo_eq, map_sum]
      refine (norm_sum_le _ _).trans (Finset.sum_le_sum fun p hp => ?_)
      refine (norm_sum_le _ _).trans (Finset.sum_le_sum fun p' hp' => ?_)
      rw [map_mul, map_mul, norm_mul, norm_mul]
      refine mul_le_mul_of_nonneg_left ?_ (norm_nonneg _)
      exact mul_le_mul (abd u τ p (Finset.mem_range.mp hp)) (abd w τ p' (Finset.mem_range.mp hp')) (norm_nonneg _)
        (mul_nonneg hC (Finset.sum_nonneg fun _ _ => norm_nonneg _))
    refine hk'.trans ?_
    refine Finset.single_le_sum (f := fun k => ∑ p ∈ Finset.range t.nT, ∑ p' ∈ Finset.range t.nT,
      ‖φ (X.e k (p * t.nT + p'))‖ *
        ((C * ∑ k ∈ Finset.range t.nT, ‖φ (u k)‖) * (C * ∑ k ∈ Finset.range t.nT, ‖φ (w k)‖))) ?_
      (Finset.mem_range.mpr hk)
    intro k _
    exact Finset.sum_nonneg fun _ _ => Finset.sum_nonneg fun _ _ => mul_nonneg (norm_nonneg _)
      (mul_nonneg (mul_nonneg hC (Finset.sum_nonneg fun _ _ => norm_nonneg _))
        (mul_nonneg hC (Finset.sum_nonneg fun _ _ => norm_nonneg _)))) 0 k hk
  have : b 0 k = X.e k j := by
    simp only [b, a0, sumTo_eq]
    rw [Finset.sum_eq_single (j / t.nT), Finset.sum_eq_single (j % t.nT)]
    · rw [hu, hw]
      simp only [if_true, mul_one]
      rw [Nat.div_add_mod']
    · intro p' _ hp'
      rw [hw]
      simp only [if_neg hp', mul_zero]
    · intro hn
      exact absurd (Finset.mem_range.mpr hj2) hn
    · intro p _ hp
      rw [hu]
      simp only [if_neg hp, zero_mul, mul_zero, Finset.sum_const_zero]
    · intro hn
      exact absurd (Finset.mem_range.mpr hj1) hn
  rw [← this]
  exact hb

end

end Pynare

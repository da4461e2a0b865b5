import Verif.Spec.SecondUnique
import Verif.Props.SecondOrder
import Verif.Props.StabilitySecond
import Verif.Props.Linear
import Verif.Lemmas.Order
/-!
# Uniqueness of second-order solutions (C153)
-/

namespace Pynare

variable {V : Type} [Field V]

set_option linter.unusedSectionVars false

theorem rowPart_add (t : Typer) (J : Arr V) (i r : Nat) (a b : Nat → V) :
    rowPart t J i r (fun c => a c + b c) = rowPart t J i r a + rowPart t J i r b := by
  unfold rowPart
  rw [sumTo_eq, sumTo_eq, sumTo_eq, ← Finset.sum_add_distrib]
  refine Finset.sum_congr rfl fun c _ => ?_
  cases t.cell r c with
  | none => simp
  | some k => simp [mul_add]

theorem linearised_add (t : Llx) (m : Nat) (J : Arr V) (i : Nat) (ym y yp u ym' y' yp' u' : Nat → V) :
    linearised t m J i (fun c => ym c + ym' c) (fun c => y c + y' c) (fun c => yp c + yp' c) (fun k => u k + u' k) =
      linearised t m J i ym y yp u + linearised t m J i ym' y' yp' u' := by
  unfold linearised
  have : (sumTo m fun k => J.e i (t.count + k) * (u k + u' k)) =
      (sumTo m fun k => J.e i (t.count + k) * u k) + sumTo m fun k => J.e i (t.count + k) * u' k := by
    rw [sumTo_eq, sumTo_eq, sumTo_eq, ← Finset.sum_add_distrib]
    exact Finset.sum_congr rfl fun k _ => by ring
  rw [rowPart_add, rowPart_add, rowPart_add, this]
  ring

/-- a disturbance that is bounded and solves the linearised equations with what follows from it is zero -/
theorem Det.no_disturbance {φ : V →+* ℂ} {la : LinAlg V} (ex : la.Exact) {t : Llx} {nExog : Nat}
    {J gy gu : Arr V} {s : Space V} {q : QZ V} {ev : Nat → Option ℂ}
    (h : Det φ la t nExog J gy gu s q ev) (d w : Nat → Nat → V)
    (hw : ∀ τ (i c : Nat), t.drOrder[i]? = some c →
      w τ c = (sumTo t.nBackward fun b => gy.e i b * stateVals t.toTyper (d τ) b) + d (τ + 1) c)
    (heq : ∀ τ, ∀ i < t.n, linearised t nExog J i (fun _ => 0) (d τ) (w τ) (fun _ => 0) = 0)
    (B : ℝ) (hB : ∀ τ, ∀ c < t.n, ‖φ (d τ c)‖ ≤ B) : ∀ c < t.n, d 0 c = 0 := by
  have g := groups h.cur
  have hp := g.perm
  obtain ⟨o1, o2, o3⟩ := drState_length hp
  obtain ⟨-, g2, -⟩ := solution_rows ex h.cur h.static h.square h.space (h.separated ex) h.solved
  have hdr : ∀ i < t.n, t.drOrder[i]? = some (t.dr i) := by
    intro i hi
    have : i < t.drOrder.length := by omega
    simp [Typer.dr, List.getElem?_eq_getElem this]
  have hdn : ∀ i < t.n, t.dr i < t.n := by
    intro i hi
    have := hp.mem_iff.mp (List.mem_of_getElem? (hdr i hi))
    simpa using this
  have hsurj : ∀ c < t.n, ∃ i < t.n, t.dr i = c := by
    intro c hc
    obtain ⟨i, hi⟩ := (drEnum g (IsEnum.fin t.n)).surj c hc
    exact ⟨i, i.2, hi⟩
  obtain ⟨hnf, hnb, hnm, hnb', hnf', _⟩ := C31_sizes t.toTyper
  have gt := g.total
  have hst : ∀ i < t.nBackward, (t.permute t.drOrder).state[i]?.getD 0 < t.n := by
    intro i hi
    have hsi : (t.permute t.drOrder).state[i]? = some (t.static.length + i) := by
      rw [g.state]; simp [show i < t.pureBackward.length + t.mixed.length by omega]
    rw [hsi]; simp only [Option.getD_some]; omega
  -- the response to the disturbance
  let G : (Nat → V) → Nat → V := stepFirst t.toTyper gy fun _ => 0
  have hG : ∀ x : Nat → V, FollowsPolicy t.toTyper nExog gy gu x (fun _ => 0) (G x) := fun x =>
    stepFirst_follows hp (by rw [g2]; exact o1.symm) fun i _ => by
      rw [sumTo_eq]; exact (Finset.sum_eq_zero fun j _ => mul_zero _).symm
  have hGe : ∀ x, ∀ i < t.n, G x (t.dr i) = sumTo t.nBackward fun b => gy.e i b * stateVals t.toTyper x b := by
    intro x i hi
    have := hG x i _ (hdr i hi)
    rw [this]
    have : (sumTo nExog fun k => gu.e i k * (0 : V)) = 0 := by
      rw [sumTo_eq]; exact Finset.sum_eq_zero fun j _ => mul_zero _
    rw [this, add_zero]
    rfl
  have hGadd : ∀ x y, ∀ c < t.n, G (fun c => x c + y c) c = G x c + G y c := by
    intro x y c hc
    obtain ⟨i, hi, rfl⟩ := hsurj c hc
    rw [hGe _ i hi, hGe _ i hi, hGe _ i hi, sumTo_eq, sumTo_eq, sumTo_eq, ← Finset.sum_add_distrib]
    exact Finset.sum_congr rfl fun b _ => by unfold stateVals; ring
  let z : Nat → Nat → V := fun τ => Nat.rec (fun _ => 0) (fun τ z c => G z c + d τ c) τ
  have z0 : z 0 = fun _ => 0 := rfl
  have zS : ∀ τ, z (τ + 1) = fun c => G (z τ) c + d τ c := fun τ => rfl
  -- it solves the equations
  have hlin : ∀ τ, ∀ i < t.n, linearised t nExog J i (z τ) (z (τ + 1)) (z (τ + 2)) (fun _ => 0) = 0 := by
    intro τ i hi
    have e1 := linearised_zero ex h.cur h.static h.square h.space (h.separated ex) h.solved (hG (z τ)) (hG (G (z τ))) i hi
    have e2 := heq τ i hi
    have := linearised_add t nExog J i (z τ) (G (z τ)) (G (G (z τ))) (fun _ => 0) (fun _ => 0) (d τ) (w τ) (fun _ => 0)
    rw [e1, e2, add_zero] at this
    refine Eq.trans ?_ this
    refine linearised_within (fun c _ => (add_zero _).symm) (fun c _ => rfl) (fun c hc => ?_) (fun _ _ => by simp)
    obtain ⟨j, hj, rfl⟩ := hsurj c hc
    rw [zS (τ + 1), hw τ j _ (hdr j hj), ← hGe (d τ) j hj, zS τ]
    show G (fun c => G (z τ) c + d τ c) (t.dr j) + d (τ + 1) (t.dr j) = _
    rw [hGadd _ _ _ (hdn j hj)]
    ring
  -- and is bounded
  have hB0 : 0 ≤ max B 0 := le_max_right _ _
  obtain ⟨C, r, hC, hr, hr1, hb⟩ := h.states ex
  have hxs : ∀ τ, ∀ b < t.nBackward, ‖φ (stateVals t.toTyper (z τ) b)‖ ≤ C * (t.nBackward * max B 0) / (1 - r) := by
    intro τ b hb'
    have := hb (fun τ b => stateVals t.toTyper (z τ) b) (fun τ b => stateVals t.toTyper (d τ) b) τ (by
      intro m _ i hi
      show z (m + 1) (t.dr ((t.permute t.drOrder).state[i]?.getD 0)) = _
      rw [zS m]
      show G (z m) (t.dr _) + d m (t.dr _) = _
      rw [hGe _ _ (hst i hi)]
      rfl) (t.nBackward * max B 0) (by positivity) (by
      intro m _
      refine (Finset.sum_le_sum fun j hj => (hB m _ (hdn _ (hst j (Finset.mem_range.mp hj)))).trans (le_max_left B 0)).trans
        (le_of_eq ?_)
      rw [Finset.sum_const, Finset.card_range, nsmul_eq_mul]) b hb'
    refine this.trans (le_of_eq ?_)
    have e0 : (∑ j ∈ Finset.range t.nBackward, ‖φ (stateVals t.toTyper (z 0) j)‖) = 0 :=
      Finset.sum_eq_zero fun j _ => by rw [z0]; simp [stateVals]
    rw [e0, mul_zero, zero_add]
  set K := C * (t.nBackward * max B 0) / (1 - r) with hK
  set W := ∑ i ∈ Finset.range t.n, ∑ j ∈ Finset.range t.nBackward, ‖φ (gy.e i j)‖ with hW
  have hW0 : 0 ≤ W := Finset.sum_nonneg fun _ _ => Finset.sum_nonneg fun _ _ => norm_nonneg _
  have hK0 : 0 ≤ K := div_nonneg (by positivity) (by linarith)
  have hbd : ∀ τ, ∀ c < t.n, ‖φ (z τ c)‖ ≤ W * K + max B 0 := by
    intro τ c hc
    cases τ with
    | zero => rw [z0]; simp only [map_zero, norm_zero]; positivity
    | succ τ =>
      obtain ⟨i, hi, rfl⟩ := hsurj c hc
      rw [zS τ]
      show ‖φ (G (z τ) (t.dr i) + d τ (t.dr i))‖ ≤ _
      rw [map_add]
      refine (norm_add_le _ _).trans (add_le_add ?_ ((hB τ _ hc).trans (le_max_left _ _)))
      rw [hGe _ i hi, sumTo_eq, map_sum]
      refine le_trans ?_ (mul_le_mul_of_nonneg_right (Finset.single_le_sum
        (f := fun i => ∑ j ∈ Finset.range t.nBackward, ‖φ (gy.e i j)‖)
        (fun _ _ => Finset.sum_nonneg fun _ _ => norm_nonneg _) (Finset.mem_range.mpr hi)) hK0)
      rw [Finset.sum_mul]
      refine (norm_sum_le _ _).trans (Finset.sum_le_sum fun j hj => ?_)
      rw [map_mul, norm_mul]
      exact mul_le_mul_of_nonneg_left (hxs τ j (Finset.mem_range.mp hj)) (norm_nonneg _)
  -- so it follows the policy functions
  have hfol := h.unique ex z (fun _ _ => 0) (fun _ _ _ _ => rfl) hlin _ hbd 0
  intro c hc
  obtain ⟨i, hi, rfl⟩ := hsurj c hc
  have e1 := hfol i _ (hdr i hi)
  have e2 := (hG (z 0)) i _ (hdr i hi)
  rw [← e2, zS 0] at e1
  have e1 : G (z 0) (t.dr i) + d 0 (t.dr i) = G (z 0) (t.dr i) := e1
  linear_combination e1

/-- two ways to complete the first-order solution are the same -/
theorem second_unique {φ : V →+* ℂ} {la : LinAlg V} (ex : la.Exact) {t : Llx} {nExog : Nat} {half : V}
    {J H gy gu : Arr V} {s : Space V} {q : QZ V} {ev : Nat → Option ℂ}
    (h : Det φ la t nExog J gy gu s q ev) {F F' : (Nat → V) → (Nat → V) → Nat → V}
    (hF : SolvesSecond t nExog half J H gy gu F) (hF' : SolvesSecond t nExog half J H gy gu F')
    (hb : BoundedOnBounded φ t.n nExog F) (hb' : BoundedOnBounded φ t.n nExog F') (ym u : Nat → V) :
    ∀ c < t.n, F ym u c = F' ym u c := by
  have hp := (groups h.cur).perm
  obtain ⟨o1, o2, o3⟩ := drState_length hp
  obtain ⟨-, g2, -⟩ := solution_rows ex h.cur h.static h.square h.space (h.separated ex) h.solved
  let U : Nat → Nat → V := fun τ => if τ = 0 then u else fun _ => 0
  let x : Nat → Nat → V := devFirst t.toTyper gy (fun τ i => sumTo nExog fun k => gu.e i k * U τ k) ym
  have hx : ∀ τ, FollowsPolicy t.toTyper nExog gy gu (x τ) (U τ) (x (τ + 1)) := fun τ =>
    stepFirst_follows hp (by rw [g2]; exact o1.symm) fun i _ => rfl
  have hU : ∀ τ, U (τ + 1) = fun _ => 0 := fun τ => by simp [U]
  let A : (Nat → V) → Nat → V := stepFirst t.toTyper gy fun _ => 0
  have hA : ∀ y : Nat → V, ∀ (i c : Nat), t.drOrder[i]? = some c →
      A y c = sumTo t.nBackward fun b => gy.e i b * stateVals t.toTyper y b := by
    intro y i c hic
    have := (stepFirst_follows (gu := gu) (nExog := 0) (u := fun _ => 0) (prev := y) hp
      (by rw [g2]; exact o1.symm) fun i _ => rfl) i c hic
    rw [show A y c = _ from this]
    show _ + 0 = _
    rw [add_zero]
    rfl
  -- the path is bounded
  obtain ⟨C, r, hC, hr, hr1, hbd⟩ := h.bound ex
  set X := ∑ c ∈ Finset.range t.n, ‖φ (ym c)‖ with hX
  set E := ∑ k ∈ Finset.range nExog, ‖φ (u k)‖ with hE
  have hX0 : 0 ≤ X := Finset.sum_nonneg fun _ _ => norm_nonneg _
  have hE0 : 0 ≤ E := Finset.sum_nonneg fun _ _ => norm_nonneg _
  have hUb : ∀ τ, ∀ k < nExog, ‖φ (U τ k)‖ ≤ E := by
    intro τ k hk
    cases τ with
    | zero => exact Finset.single_le_sum (f := fun k => ‖φ (u k)‖) (fun _ _ => norm_nonneg _) (Finset.mem_range.mpr hk)
    | succ τ => rw [hU τ, map_zero, norm_zero]; exact hE0
  have hxb : ∀ τ, ∀ c < t.n, ‖φ (x τ c)‖ ≤ C * (X + E) := by
    intro τ c hc
    refine (hbd τ x U X E hX0 hE0 (fun τ _ => hx τ)
      (fun c hc => Finset.single_le_sum (f := fun c => ‖φ (ym c)‖) (fun _ _ => norm_nonneg _) (Finset.mem_range.mpr hc))
      (fun τ _ => hUb τ) c hc).trans (mul_le_mul_of_nonneg_left ?_ hC)
    have := mul_le_mul_of_nonneg_right (pow_le_one₀ (n := τ) hr.le hr1.le) hX0
    linarith
  obtain ⟨B, hB⟩ := hb (C * (X + E) + E)
  obtain ⟨B', hB'⟩ := hb' (C * (X + E) + E)
  have hCX : 0 ≤ C * (X + E) := by positivity
  have key := h.no_disturbance ex (fun τ c => F (x τ) (U τ) c - F' (x τ) (U τ) c)
    (fun τ c => (A (F (x τ) (U τ)) c + F (x (τ + 1)) (fun _ => 0) c) -
      (A (F' (x τ) (U τ)) c + F' (x (τ + 1)) (fun _ => 0) c)) (by
      intro τ i c hic
      show _ = _ + (F (x (τ + 1)) (U (τ + 1)) c - F' (x (τ + 1)) (U (τ + 1)) c)
      rw [hU τ, hA _ i c hic, hA _ i c hic]
      have : (sumTo t.nBackward fun b => gy.e i b * stateVals t.toTyper (fun c => F (x τ) (U τ) c - F' (x τ) (U τ) c) b) =
          (sumTo t.nBackward fun b => gy.e i b * stateVals t.toTyper (F (x τ) (U τ)) b) -
          sumTo t.nBackward fun b => gy.e i b * stateVals t.toTyper (F' (x τ) (U τ)) b := by
        rw [sumTo_eq, sumTo_eq, sumTo_eq, ← Finset.sum_sub_distrib]
        exact Finset.sum_congr rfl fun b _ => by unfold stateVals; ring
      rw [this]
      ring) (by
      intro τ i hi
      have f1 := hF (x τ) (U τ) (x (τ + 1)) (x (τ + 2)) (fun c => A (F (x τ) (U τ)) c + F (x (τ + 1)) (fun _ => 0) c)
        (hx τ) (by rw [← hU τ]; exact hx (τ + 1)) (fun i c hic => by rw [hA _ i c hic]) i hi
      have f2 := hF' (x τ) (U τ) (x (τ + 1)) (x (τ + 2)) (fun c => A (F' (x τ) (U τ)) c + F' (x (τ + 1)) (fun _ => 0) c)
        (hx τ) (by rw [← hU τ]; exact hx (τ + 1)) (fun i c hic => by rw [hA _ i c hic]) i hi
      have := linearised_add t nExog J i (fun _ => 0) (fun c => F (x τ) (U τ) c - F' (x τ) (U τ) c)
        (fun c => (A (F (x τ) (U τ)) c + F (x (τ + 1)) (fun _ => 0) c) -
          (A (F' (x τ) (U τ)) c + F' (x (τ + 1)) (fun _ => 0) c)) (fun _ => 0)
        (fun _ => 0) (F' (x τ) (U τ)) (fun c => A (F' (x τ) (U τ)) c + F' (x (τ + 1)) (fun _ => 0) c) (fun _ => 0)
      simp only [sub_add_cancel, add_zero] at this
      linear_combination f1 - f2 - this) (B + B') (by
      intro τ c hc
      show ‖φ (F (x τ) (U τ) c - F' (x τ) (U τ) c)‖ ≤ _
      rw [map_sub]
      refine (norm_sub_le _ _).trans (add_le_add (hB _ _ ?_ ?_ c hc) (hB' _ _ ?_ ?_ c hc))
      · intro c hc; exact (hxb τ c hc).trans (by linarith)
      · intro k hk; exact (hUb τ k hk).trans (by linarith)
      · intro c hc; exact (hxb τ c hc).trans (by linarith)
      · intro k hk; exact (hUb τ k hk).trans (by linarith))
  intro c hc
  exact sub_eq_zero.mp (key c hc)

/-- what arrays of coefficients add, as a function -/
def secondFun (t : Typer) (nExog : Nat) (so : SecondNd V) (ym u : Nat → V) (c : Nat) : V :=
  quadForm so.ghxx.to2 (t.drOrder.idxOf c) t.nBackward (stateVals t ym) t.nBackward (stateVals t ym) +
    quadForm so.ghxu.to2 (t.drOrder.idxOf c) t.nBackward (stateVals t ym) nExog u +
    quadForm so.ghuu.to2 (t.drOrder.idxOf c) nExog u nExog u

theorem idxOf_dr {t : Typer} (hp : t.drOrder.Perm (List.range t.n)) {i v : Nat} (h : t.drOrder[i]? = some v) :
    t.drOrder.idxOf v = i := by
  obtain ⟨hi, e⟩ := List.getElem?_eq_some_iff.mp h
  rw [← e]; exact (hp.nodup_iff.mpr List.nodup_range).idxOf_getElem i hi

theorem secondFun_terms {t : Typer} (hp : t.drOrder.Perm (List.range t.n)) (nExog : Nat) (so : SecondNd V)
    (ym u : Nat → V) : SecondTerms t nExog so ym u (secondFun t nExog so ym u) := by
  intro i c hic
  simp only [secondFun, idxOf_dr hp hic]

/-! ### C153 -/

variable [LinearOrder V] [IsStrictOrderedRing V]

/-- **C153** (partial: see `Determinate`; for models that can be solved to second order, see C87).  Take any
function `F` of last period's variables and the shocks that is bounded as long as they are.  Adding it to
the first-order solution makes the second-order part of all equations vanish if and only if it is what the
arrays returned by `solve` say.  So the second-order solution is the only one. -/
theorem C153_unique_partial (φ : V →+* ℂ) (la : LinAlg V) (ex : la.Exact) (qz : Arr V → Arr V → Except Err (GQZ V))
    (hqz : GQZExact qz) (half : V) (hhalf : 2 * half = 1) (pss : List (List Int)) (t : Llx) (nExog : Nat)
    (J H sigma gy gu : Arr V) (s : Space V) (q : QZ V) (ev : Nat → Option ℂ)
    (h : Determinate φ la pss t nExog J gy gu s q ev) (hH : H.r = pss.length) (hsym : SymmetricHessian t nExog H)
    (hsig : sigma.r = nExog ∧ sigma.c = nExog) (so : SecondNd V)
    (hso : solveSecondOrder la qz half t.toTyper nExog J H sigma (Nd.mat gy).squeeze (Nd.mat gu).squeeze = .ok so)
    (F : (Nat → V) → (Nat → V) → Nat → V) :
    (SolvesSecond t nExog half J H gy gu F ∧ BoundedOnBounded φ pss.length nExog F) ↔
      ∀ ym u, SecondTerms t.toTyper nExog (so.stored half) ym u (F ym u) := by
  obtain ⟨hd, hn⟩ := h.det ex
  obtain ⟨g1, g2, g3, g4, -⟩ := solution_rows ex hd.cur hd.static hd.square hd.space (hd.separated ex) hd.solved
  have g := groups hd.cur
  have hp := g.perm
  obtain ⟨o1, o2, o3⟩ := drState_length hp
  have hpos := (solved_facts ex h.periods h.table h.space h.solved).2.2.1
  have hstate : t.state ≠ [] := by
    intro h0
    have := (C31_sizes t.toTyper).2.1
    rw [h0] at this
    rw [this] at hpos
    cases hpos
  have hdr : ∀ i < t.n, t.drOrder[i]? = some (t.dr i) := by
    intro i hi
    have : i < t.drOrder.length := by omega
    simp [Typer.dr, List.getElem?_eq_getElem this]
  have hdn : ∀ i < t.n, t.dr i < t.n := by
    intro i hi
    have := hp.mem_iff.mp (List.mem_of_getElem? (hdr i hi))
    simpa using this
  have hsurj : ∀ c < t.n, ∃ i < t.n, t.dr i = c := by
    intro c hc
    obtain ⟨i, hi⟩ := (drEnum g (IsEnum.fin t.n)).surj c hc
    exact ⟨i, i.2, hi⟩
  -- what the arrays say does solve the equations
  have solves : ∀ F : (Nat → V) → (Nat → V) → Nat → V, (∀ ym u, SecondTerms t.toTyper nExog (so.stored half) ym u (F ym u)) →
      SolvesSecond t nExog half J H gy gu F ∧ BoundedOnBounded φ t.n nExog F := by
    intro F hF
    constructor
    · intro ym u y yp q' hy hyp hq'
      refine C85_second_order la ex qz hqz half hhalf pss t h.table hd.cur hstate nExog J H sigma gy gu ⟨g1, g2⟩ ⟨g3, g4⟩
        (by omega) hsym hsig so hso ym u y yp (F ym u) q' hy hyp (hF ym u) ?_
      intro i c hic
      rw [hq' i c hic, hF y (fun _ => 0) i c hic]
      have e1 : quadForm (so.stored half).ghxu.to2 i t.nBackward (stateVals t.toTyper y) nExog (fun _ => (0 : V)) = 0 := by
        unfold quadForm
        rw [sumTo_eq]
        exact Finset.sum_eq_zero fun a _ => by rw [sumTo_eq]; exact Finset.sum_eq_zero fun b _ => by ring
      have e2 : quadForm (so.stored half).ghuu.to2 i nExog (fun _ => (0 : V)) nExog (fun _ => (0 : V)) = 0 := by
        unfold quadForm
        rw [sumTo_eq]
        exact Finset.sum_eq_zero fun a _ => by rw [sumTo_eq]; exact Finset.sum_eq_zero fun b _ => by ring
      rw [e1, e2, add_zero, add_zero]
    · intro X
      let S : Arr V → Nat → Nat → Nat → ℝ := fun M a b i =>
        ∑ j ∈ Finset.range a, ∑ l ∈ Finset.range b, ‖φ (M.e i (j * b + l))‖
      have hS : ∀ M a b i, 0 ≤ S M a b i := fun M a b i =>
        Finset.sum_nonneg fun _ _ => Finset.sum_nonneg fun _ _ => norm_nonneg _
      have hX0 : 0 ≤ max X 0 := le_max_right _ _
      let W : Nat → ℝ := fun i => S (so.stored half).ghxx.to2 t.nBackward t.nBackward i +
        S (so.stored half).ghxu.to2 t.nBackward nExog i + S (so.stored half).ghuu.to2 nExog nExog i
      have hW : ∀ i, 0 ≤ W i := fun i => add_nonneg (add_nonneg (hS _ _ _ _) (hS _ _ _ _)) (hS _ _ _ _)
      refine ⟨(∑ i ∈ Finset.range t.n, W i) * (max X 0 * max X 0), ?_⟩
      intro x u hx hu c hc
      obtain ⟨i, hi, rfl⟩ := hsurj c hc
      rw [hF x u i _ (hdr i hi), map_add, map_add]
      have hx' : ∀ b < t.nBackward, ‖φ (stateVals t.toTyper x b)‖ ≤ max X 0 := by
        intro b hb
        refine (hx _ ?_).trans (le_max_left _ _)
        show t.dr _ < t.n
        refine hdn _ ?_
        obtain ⟨hnf, hnb, hnm, hnb', hnf', _⟩ := C31_sizes t.toTyper
        have gt := g.total
        have hsi : (t.permute t.drOrder).state[b]? = some (t.static.length + b) := by
          rw [g.state]; simp [show b < t.pureBackward.length + t.mixed.length by omega]
        rw [hsi]; simp only [Option.getD_some]; omega
      have hu' : ∀ k < nExog, ‖φ (u k)‖ ≤ max X 0 := fun k hk => (hu k hk).trans (le_max_left _ _)
      have b1 := double_bound φ (c := fun j l => (so.stored half).ghxx.to2.e i (j * t.nBackward + l)) hX0 hx' hx'
      have b2 := double_bound φ (c := fun j l => (so.stored half).ghxu.to2.e i (j * nExog + l)) hX0 hx' hu'
      have b3 := double_bound φ (c := fun j l => (so.stored half).ghuu.to2.e i (j * nExog + l)) hX0 hu' hu'
      refine (norm_add_le _ _).trans ((add_le_add ((norm_add_le _ _).trans (add_le_add b1 b2)) b3).trans ?_)
      rw [← add_mul, ← add_mul]
      exact mul_le_mul_of_nonneg_right (Finset.single_le_sum (f := W) (fun i _ => hW i) (Finset.mem_range.mpr hi))
        (by positivity)
  rw [← hn]
  refine ⟨?_, solves F⟩
  rintro ⟨hF, hb⟩ ym u i c hic
  -- a function that comes from the arrays
  have hF' := secondFun_terms hp nExog (so.stored half)
  obtain ⟨s1, s2⟩ := solves _ hF'
  have hc : c < t.n := by simpa using hp.mem_iff.mp (List.mem_of_getElem? hic)
  rw [second_unique ex hd hF s1 hb s2 ym u c hc]
  exact hF' ym u i c hic

/-- **C153, risk** (partial: as above, for symmetric covariances).  Let `F` be what the second order adds.  A
constant makes up for the risk of next period's shocks if and only if it is the one returned by `solve`. -/
theorem C153_risk_partial (φ : V →+* ℂ) (la : LinAlg V) (ex : la.Exact) (qz : Arr V → Arr V → Except Err (GQZ V))
    (hqz : GQZExact qz) (half : V) (hhalf : 2 * half = 1) (pss : List (List Int)) (t : Llx) (nExog : Nat)
    (J H sigma gy gu : Arr V) (s : Space V) (q : QZ V) (ev : Nat → Option ℂ)
    (h : Determinate φ la pss t nExog J gy gu s q ev) (hH : H.r = pss.length)
    (hsig : sigma.r = nExog ∧ sigma.c = nExog) (hsy : ∀ j < nExog, ∀ k < nExog, sigma.e j k = sigma.e k j)
    (so : SecondNd V)
    (hso : solveSecondOrder la qz half t.toTyper nExog J H sigma (Nd.mat gy).squeeze (Nd.mat gu).squeeze = .ok so)
    (F : (Nat → V) → (Nat → V) → Nat → V) (hF : ∀ ym u, SecondTerms t.toTyper nExog (so.stored half) ym u (F ym u))
    (c : Nat → V) :
    SolvesRisk t nExog half J H sigma gy gu F c ↔ RiskTerm t.toTyper (so.stored half) c := by
  obtain ⟨hd, hn⟩ := h.det ex
  obtain ⟨g1, g2, g3, g4, -⟩ := solution_rows ex hd.cur hd.static hd.square hd.space (hd.separated ex) hd.solved
  have g := groups hd.cur
  have hp := g.perm
  obtain ⟨o1, o2, o3⟩ := drState_length hp
  have hpos := (solved_facts ex h.periods h.table h.space h.solved).2.2.1
  have hstate : t.state ≠ [] := by
    intro h0
    have := (C31_sizes t.toTyper).2.1
    rw [h0] at this
    rw [this] at hpos
    cases hpos
  -- the joint effect of two shocks
  have hpair : ∀ (i v : Nat), t.drOrder[i]? = some v → overShocks nExog sigma (fun j k => pairEffect half F v j k) =
      overShocks nExog sigma fun j k => (so.stored half).ghuu.to2.e i (j * nExog + k) := by
    intro i v hiv
    set w := fun j k => (so.stored half).ghuu.to2.e i (j * nExog + k) with hw
    have hq : ∀ u : Nat → V, F (fun _ => 0) u v = sumTo nExog fun a => sumTo nExog fun b => w a b * (u a * u b) := by
      intro u
      rw [hF _ u i v hiv]
      have e1 : quadForm (so.stored half).ghxx.to2 i t.nBackward (stateVals t.toTyper fun _ => (0 : V)) t.nBackward
          (stateVals t.toTyper fun _ => (0 : V)) = 0 := by
        unfold quadForm stateVals
        rw [sumTo_eq]
        exact Finset.sum_eq_zero fun a _ => by rw [sumTo_eq]; exact Finset.sum_eq_zero fun b _ => by ring
      have e2 : quadForm (so.stored half).ghxu.to2 i t.nBackward (stateVals t.toTyper fun _ => (0 : V)) nExog u = 0 := by
        unfold quadForm stateVals
        rw [sumTo_eq]
        exact Finset.sum_eq_zero fun a _ => by rw [sumTo_eq]; exact Finset.sum_eq_zero fun b _ => by ring
      rw [e1, e2, zero_add, zero_add]
      rfl
    have hb : ∀ j < nExog, ∀ k < nExog,
        (sumTo nExog fun a => sumTo nExog fun b => w a b * (unitShock j a * unitShock k b)) = w j k := by
      intro j hj k hk
      rw [sumTo_eq, Finset.sum_eq_single j]
      · rw [sumTo_eq, Finset.sum_eq_single k]
        · simp [unitShock]
        · intro b _ hne; simp [unitShock, hne]
        · intro hne; exact absurd (Finset.mem_range.mpr hk) hne
      · intro a _ hne
        rw [sumTo_eq]
        exact Finset.sum_eq_zero fun b _ => by simp [unitShock, hne]
      · intro hne; exact absurd (Finset.mem_range.mpr hj) hne
    have hpe : ∀ j < nExog, ∀ k < nExog, pairEffect half F v j k = half * (w j k + w k j) := by
      intro j hj k hk
      unfold pairEffect
      rw [hq, hq, hq]
      congr 1
      have : (sumTo nExog fun a => sumTo nExog fun b => w a b * ((unitShock j a + unitShock k a) *
            (unitShock j b + unitShock k b))) =
          (sumTo nExog fun a => sumTo nExog fun b => w a b * (unitShock j a * unitShock j b)) +
          (sumTo nExog fun a => sumTo nExog fun b => w a b * (unitShock k a * unitShock k b)) +
          (sumTo nExog fun a => sumTo nExog fun b => w a b * (unitShock j a * unitShock k b)) +
          (sumTo nExog fun a => sumTo nExog fun b => w a b * (unitShock k a * unitShock j b)) := by
        simp only [sumTo_eq, ← Finset.sum_add_distrib]
        exact Finset.sum_congr rfl fun a _ => Finset.sum_congr rfl fun b _ => by ring
      rw [this, hb j hj k hk, hb k hk j hj]
      ring
    unfold overShocks
    have e1 : (sumTo nExog fun j => sumTo nExog fun k => sigma.e k j * pairEffect half F v j k) =
        half * ((sumTo nExog fun j => sumTo nExog fun k => sigma.e k j * w j k) +
          sumTo nExog fun j => sumTo nExog fun k => sigma.e k j * w k j) := by
      simp only [sumTo_eq, ← Finset.sum_add_distrib, Finset.mul_sum]
      refine Finset.sum_congr rfl fun j hj => Finset.sum_congr rfl fun k hk => ?_
      rw [hpe j (Finset.mem_range.mp hj) k (Finset.mem_range.mp hk)]
      ring
    have e2 : (sumTo nExog fun j => sumTo nExog fun k => sigma.e k j * w k j) =
        sumTo nExog fun j => sumTo nExog fun k => sigma.e k j * w j k := by
      simp only [sumTo_eq]
      rw [Finset.sum_comm]
      exact Finset.sum_congr rfl fun j hj => Finset.sum_congr rfl fun k hk => by
        rw [hsy j (Finset.mem_range.mp hj) k (Finset.mem_range.mp hk)]
    rw [e1, e2, ← two_mul, ← mul_assoc, mul_comm half 2, hhalf, one_mul]
  -- the constant of the solution
  have solves : ∀ c, RiskTerm t.toTyper (so.stored half) c → SolvesRisk t nExog half J H sigma gy gu F c := by
    intro c hc lead e hl he
    refine C86_risk la ex qz hqz half pss t h.table hd.cur hstate nExog J H sigma gy gu ⟨g1, g2⟩ ⟨g3, g4⟩ (by omega)
      hsig so hso lead hl c e hc ?_
    intro i v hiv
    rw [he i v hiv, hpair i v hiv]
  refine ⟨fun hc => ?_, solves c⟩
  let c' : Nat → V := fun v => (so.stored half).del2.to2.e (t.drOrder.idxOf v) 0
  have hidx : ∀ (i v : Nat), t.drOrder[i]? = some v → t.drOrder.idxOf v = i := fun i v => idxOf_dr hp
  have hc' : RiskTerm t.toTyper (so.stored half) c' := by
    intro i v hiv
    simp only [c', hidx i v hiv]
  have h' := solves c' hc'
  let lead : Nat → Nat → V := fun j =>
    stepFirst t.toTyper gy (fun i => sumTo nExog fun k => gu.e i k * unitShock j k) fun _ => 0
  have hl : ∀ j < nExog, FollowsPolicy t.toTyper nExog gy gu (fun _ => 0) (unitShock j) (lead j) := fun j _ =>
    stepFirst_follows hp (by rw [g2]; exact o1.symm) fun i _ => rfl
  let nxt : (Nat → V) → Nat → V := fun c v => c v +
    (sumTo t.nBackward fun b => gy.e (t.drOrder.idxOf v) b * stateVals t.toTyper c b) +
    overShocks nExog sigma fun j k => pairEffect half F v j k
  have key := hd.no_disturbance ex (fun _ v => c v - c' v) (fun _ v => nxt c v - nxt c' v) (by
      intro _ i v hiv
      simp only [nxt, hidx i v hiv]
      have : (sumTo t.nBackward fun b => gy.e i b * stateVals t.toTyper (fun v => c v - c' v) b) =
          (sumTo t.nBackward fun b => gy.e i b * stateVals t.toTyper c b) -
          sumTo t.nBackward fun b => gy.e i b * stateVals t.toTyper c' b := by
        rw [sumTo_eq, sumTo_eq, sumTo_eq, ← Finset.sum_sub_distrib]
        exact Finset.sum_congr rfl fun b _ => by unfold stateVals; ring
      rw [this]
      ring) (by
      intro _ i hi
      have f1 := hc lead (nxt c) hl (fun i v hiv => by simp only [nxt, hidx i v hiv]) i hi
      have f2 := h' lead (nxt c') hl (fun i v hiv => by simp only [nxt, hidx i v hiv]) i hi
      have := linearised_add t nExog J i (fun _ => 0) (fun v => c v - c' v) (fun v => nxt c v - nxt c' v) (fun _ => 0)
        (fun _ => 0) c' (nxt c') (fun _ => 0)
      simp only [sub_add_cancel, add_zero] at this
      linear_combination f1 - f2 - this)
    (∑ v ∈ Finset.range t.n, ‖φ (c v - c' v)‖) (fun _ v hv =>
      Finset.single_le_sum (f := fun v => ‖φ (c v - c' v)‖) (fun _ _ => norm_nonneg _) (Finset.mem_range.mpr hv))
  intro i v hiv
  have hv : v < t.n := by simpa using hp.mem_iff.mp (List.mem_of_getElem? hiv)
  rw [sub_eq_zero.mp (key v hv)]
  exact hc' i v hiv

/-- the hypotheses of C153 are met by the model `x = x(-1)/2 + x(-1)^2 + e1`, `z = z(-1)/4 + e2`,
`w(+1) = 2*w`, and there is a function that solves its equations, which is not zero -/
example : ∃ (s : Space ℚ) (gy gu : Arr ℚ) (so : SecondNd ℚ) (F : (Nat → ℚ) → (Nat → ℚ) → Nat → ℚ) (c : Nat → ℚ),
    xpLa.Exact ∧ GQZExact triQz ∧
    Determinate (Rat.castHom ℂ) xpLa [[-1, 0], [-1, 0], [0, 1]] so2T 2 xpJ gy gu s (diagQz [1/2, 1/4, 2])
      (diagEv [1/2, 1/4, 2]) ∧ SymmetricHessian so2T 2 xpH ∧
    solveSecondOrder xpLa triQz (1/2) so2T.toTyper 2 xpJ xpH so2Sigma (Nd.mat gy).squeeze (Nd.mat gu).squeeze = .ok so ∧
    (∀ ym u, SecondTerms so2T.toTyper 2 (so.stored (1/2)) ym u (F ym u)) ∧
    SolvesSecond so2T 2 (1/2) xpJ xpH gy gu F ∧ BoundedOnBounded (Rat.castHom ℂ) 3 2 F ∧
    SolvesRisk so2T 2 (1/2) xpJ xpH so2Sigma gy gu F c ∧ F (fun _ => 1) (fun _ => 0) 0 ≠ 0 := by
  obtain ⟨s, gy, gu, so, h, hso, -, -, -, hx, y1, y2, y3⟩ := xp_solved
  have hp := (groups ((h.det xpLa_exact).1.cur)).perm
  have hsym : SymmetricHessian so2T 2 xpH := by unfold SymmetricHessian; decide +kernel
  have hF := secondFun_terms hp 2 (so.stored (1/2))
  obtain ⟨f1, f2⟩ := (C153_unique_partial (Rat.castHom ℂ) xpLa xpLa_exact triQz triQz_exact (1/2) (by norm_num) _ so2T 2
    xpJ xpH so2Sigma gy gu s _ _ h rfl hsym ⟨rfl, rfl⟩ so hso _).mpr hF
  refine ⟨s, gy, gu, so, _, fun v => (so.stored (1/2)).del2.to2.e (so2T.drOrder.idxOf v) 0, xpLa_exact, triQz_exact, h, hsym,
    hso, hF, f1, f2, ?_, ?_⟩
  · refine (C153_risk_partial (Rat.castHom ℂ) xpLa xpLa_exact triQz triQz_exact (1/2) (by norm_num) _ so2T 2
      xpJ xpH so2Sigma gy gu s _ _ h rfl ⟨rfl, rfl⟩ (by decide +kernel) so hso _ hF _).mpr ?_
    intro i v hiv
    simp only [idxOf_dr hp hiv]
  · have e0 : so2T.drOrder[0]? = some 0 := by decide
    rw [hF _ _ 0 0 e0]
    have hm : ∀ i j, (so.stored (1/2)).ghxx.to2.e i j = 1/2 * so.arrays.ghxx.e i j := by
      intro i j
      simp only [SecondNd.stored, SecondNd.arrays]
      cases so.ghxx <;> rfl
    have e1 : quadForm (so.stored (1/2)).ghxx.to2 0 so2T.nBackward (stateVals so2T.toTyper fun _ => 1) so2T.nBackward
        (stateVals so2T.toTyper fun _ => 1) = 1 := by
      show (sumTo 2 fun a => sumTo 2 fun b => (so.stored (1/2)).ghxx.to2.e 0 (a * 2 + b) * (1 * 1)) = 1
      simp only [sumTo, hm, Nat.zero_mul, Nat.one_mul, Nat.zero_add, hx, y1, y2, y3, show 2 + 1 = 3 from rfl]
      norm_num
    have e2 : quadForm (so.stored (1/2)).ghxu.to2 0 so2T.nBackward (stateVals so2T.toTyper fun _ => 1) 2
        (fun _ => (0 : ℚ)) = 0 := by
      unfold quadForm
      simp [sumTo_eq]
    have e3 : quadForm (so.stored (1/2)).ghuu.to2 0 2 (fun _ => (0 : ℚ)) 2 (fun _ => (0 : ℚ)) = 0 := by
      unfold quadForm
      simp [sumTo_eq]
    rw [e1, e2, e3]
    norm_num

#print axioms C153_unique_partial
#print axioms C153_risk_partial

end Pynare

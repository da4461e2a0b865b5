import Verif.Props.Impulse
import Verif.Props.Stats
import Verif.Props.Order
import Mathlib.LinearAlgebra.BilinearMap
import Mathlib.Algebra.Module.Submodule.LinearMap
import Mathlib.Data.Finsupp.SMul
import Mathlib.LinearAlgebra.Finsupp.Defs
import Mathlib.Algebra.BigOperators.Finsupp.Basic
/-!
# Moments as sums of products of impulse responses

C157, C158.
-/

namespace Pynare

set_option linter.unusedSectionVars false

section
variable {V : Type} [CommRing V]

/-- random variables as combinations of independent standardised shocks, one for every period and position -/
abbrev Combi (V : Type) [CommRing V] := (Nat × Nat) →₀ V

/-- their covariance -/
noncomputable def combiCov : Combi V →ₗ[V] Combi V →ₗ[V] V :=
  LinearMap.mk₂ V (fun a b => a.sum fun i x => x * b i)
    (fun a a' b => Finsupp.sum_add_index' (fun _ => by simp) fun _ _ _ => by ring)
    (fun c a b => by
      rw [Finsupp.sum_smul_index' (fun _ => by simp), Finsupp.smul_sum]
      exact Finsupp.sum_congr fun _ _ => by simp [mul_assoc])
    (fun a b b' => by
      rw [← Finsupp.sum_add]
      exact Finsupp.sum_congr fun _ _ => by simp [mul_add])
    (fun c a b => by
      rw [Finsupp.smul_sum]
      refine Finsupp.sum_congr fun _ _ => ?_
      simp
      ring)

/-- one of the shocks -/
noncomputable def standardShock (q : Nat × Nat) : Combi V := Finsupp.single q 1

theorem combiCov_unit (p q : Nat × Nat) : combiCov (V := V) (standardShock p) (standardShock q) = if p = q then 1 else 0 := by
  show (Finsupp.single p (1 : V)).sum (fun i x => x * (Finsupp.single q (1 : V)) i) = _
  rw [Finsupp.sum_single_index (by simp), one_mul, Finsupp.single_apply]
  by_cases h : p = q
  · rw [if_pos h, if_pos h.symm]
  · rw [if_neg h, if_neg (Ne.symm h)]

theorem combiCov_sum (S T : Finset (Nat × Nat)) (a b : Nat × Nat → V) :
    combiCov (∑ p ∈ S, a p • standardShock p) (∑ q ∈ T, b q • standardShock q) = ∑ p ∈ S ∩ T, a p * b p := by
  have key : ∀ p, combiCov (V := V) (standardShock p) (∑ q ∈ T, b q • standardShock q) = if p ∈ T then b p else 0 := by
    intro p
    rw [map_sum]
    simp only [map_smul, combiCov_unit, smul_eq_mul, mul_ite, mul_one, mul_zero]
    rw [Finset.sum_ite_eq]
  rw [map_sum combiCov, LinearMap.sum_apply]
  simp only [map_smul, LinearMap.smul_apply, key, smul_eq_mul, mul_ite, mul_zero]
  rw [← Finset.sum_filter, Finset.filter_mem_eq_inter]

theorem combiCov_symm (a b : Combi V) : combiCov a b = combiCov b a := by
  have h : ∀ a : Combi V, a = ∑ p ∈ a.support, a p • standardShock p := by
    intro a
    conv_lhs => rw [← Finsupp.sum_single a]
    exact Finset.sum_congr rfl fun p _ => by simp [standardShock]
  rw [h a, h b, combiCov_sum, combiCov_sum, Finset.inter_comm]
  exact Finset.sum_congr rfl fun _ _ => mul_comm _ _

variable {t : Typer} {gy gu u sigma : Arr V}

theorem unitDev_policy (sh : SolutionShape t gy gu) (hs : gu.r ≠ 1 ∨ gu.c = 1) (hc : u.c = gu.c) (l : Nat) :
    (∀ i c : Nat, t.drOrder[i]? = some c → unitDev t gy gu u l 1 c = sumTo gu.c fun j => gu.e i j * u.e l j) ∧
    ∀ k, ∀ i c : Nat, t.drOrder[i]? = some c → unitDev t gy gu u l (k + 2) c =
      sumTo t.nBackward fun j => gy.e i j * unitDev t gy gu u l (k + 1) (t.drState[j]?.getD 0) := by
  obtain ⟨h1, h2, h3⟩ := drState_length sh.perm
  have hd : (⟨1, u.c, fun _ j => u.e l j⟩ : Arr V).dot gu.squeezed.tr = .ok ⟨1, gu.squeezed.tr.c, fun i j =>
      sumTo u.c fun k => u.e l k * gu.squeezed.tr.e k j⟩ := by
    unfold Arr.dot
    refine if_pos ?_
    show u.c = gu.squeezed.c
    unfold Arr.squeezed
    by_cases h : gu.r = 1
    · rw [if_pos h]
      have := hs.resolve_left (fun h' => h' h)
      show u.c = gu.r
      omega
    · rw [if_neg h]
      exact hc
  obtain ⟨-, -, hr⟩ := innov_row hd hs
  have hst : ∀ i c : Nat, t.drOrder[i]? = some c → i < t.n := by
    intro i c h
    have := (List.getElem?_eq_some_iff.mp h).1
    omega
  have step : ∀ (innov prev : Nat → V) (i c : Nat), t.drOrder[i]? = some c → stepFirst t gy innov prev c =
      (sumTo t.nBackward fun j => gy.e i j * prev (t.drState[j]?.getD 0)) + innov i := by
    intro innov prev i c hic
    unfold stepFirst
    rw [scatter_get h3 _ _ hic, sh.gyc]
  constructor
  · intro i c hic
    unfold unitDev
    rw [devFirst, step _ _ i c hic, if_pos rfl]
    rw [show (sumTo t.nBackward fun j => gy.e i j * devFirst t gy (fun k j => if k = 0 then respRow u gu l j else 0)
      (fun _ => 0) 0 (t.drState[j]?.getD 0)) = 0 by
        rw [sumTo_eq]
        exact Finset.sum_eq_zero fun j _ => mul_zero _, zero_add]
    have := hr 0 (by show 0 < 1; omega) i (by rw [sh.gur]; exact hst i c hic)
    refine Eq.trans this ?_
    show sumTo u.c _ = _
    rw [hc]
  · intro k i c hic
    unfold unitDev
    rw [show k + 2 = (k + 1) + 1 from rfl, devFirst, step _ _ i c hic, if_neg (by omega), add_zero]

/-- the process made of the responses -/
noncomputable def respProcess (t : Typer) (gy gu u : Arr V) (m k c : Nat) : Combi V :=
  ∑ q ∈ Finset.range k ×ˢ Finset.range m, unitDev t gy gu u q.2 (k - q.1) c • standardShock (q.1 + 1, q.2)

/-- its shocks -/
noncomputable def respShock (u : Arr V) (m k l : Nat) : Combi V :=
  ∑ l' ∈ Finset.range m, u.e l' l • standardShock (k, l')

theorem respShock_eq (u : Arr V) (m k l : Nat) :
    respShock u m k l = ∑ q ∈ ({k} : Finset Nat) ×ˢ Finset.range m, u.e q.2 l • standardShock q := by
  unfold respShock
  rw [Finset.sum_product, Finset.sum_singleton]

theorem respProcess_eq (t : Typer) (gy gu u : Arr V) (m k c : Nat) :
    respProcess t gy gu u m k c =
      ∑ q ∈ Finset.Ico 1 (k + 1) ×ˢ Finset.range m, unitDev t gy gu u q.2 (k + 1 - q.1) c • standardShock q := by
  unfold respProcess
  rw [Finset.sum_product, Finset.sum_product, Finset.range_eq_Ico]
  refine Eq.trans ?_ (Finset.sum_Ico_add' (fun a => ∑ l ∈ Finset.range m,
    unitDev t gy gu u l (k + 1 - a) c • (standardShock (a, l) : Combi V)) 0 k 1)
  refine Finset.sum_congr rfl fun s _ => Finset.sum_congr rfl fun l _ => ?_
  rw [show k + 1 - (s + 1) = k - s by omega]

theorem respProcess_policy (sh : SolutionShape t gy gu) (hs : gu.r ≠ 1 ∨ gu.c = 1) (hc : u.c = gu.c) (m k i c : Nat)
    (hic : t.drOrder[i]? = some c) :
    respProcess t gy gu u m (k + 1) c = (sumTo t.nBackward fun j => gy.e i j • respProcess t gy gu u m k (t.drState[j]?.getD 0)) +
      sumTo gu.c fun l => gu.e i l • respShock u m (k + 1) l := by
  rw [sumTo_eq, sumTo_eq]
  unfold respProcess respShock
  rw [Finset.sum_product, Finset.sum_range_succ]
  congr 1
  · simp only [Finset.smul_sum]
    rw [Finset.sum_comm (s := Finset.range t.nBackward), Finset.sum_product]
    refine Finset.sum_congr rfl fun s hs' => Finset.sum_congr rfl fun l _ => ?_
    have hs' := Finset.mem_range.mp hs'
    obtain ⟨n, hn⟩ : ∃ n, k - s = n + 1 := ⟨k - s - 1, by omega⟩
    rw [show k + 1 - s = n + 2 by omega, (unitDev_policy sh hs hc l).2 n i c hic, hn, sumTo_eq, Finset.sum_smul]
    exact Finset.sum_congr rfl fun j _ => by rw [smul_smul]
  · simp only [Finset.smul_sum]
    rw [Finset.sum_comm]
    refine Finset.sum_congr rfl fun l _ => ?_
    rw [show k + 1 - k = 1 by omega, (unitDev_policy sh hs hc l).1 i c hic, sumTo_eq, Finset.sum_smul]
    exact Finset.sum_congr rfl fun j _ => by rw [smul_smul]

/-- it follows the policy functions, and its shocks have the covariances given -/
theorem respProcess_linear (sh : SolutionShape t gy gu) (hs : gu.r ≠ 1 ∨ gu.c = 1) (hc : u.c = gu.c)
    (hu : ∀ l < gu.c, ∀ l' < gu.c, (sumTo u.r fun k => u.e k l * u.e k l') = sigma.e l l') :
    LinearProcess t gu.c gy gu sigma combiCov (respProcess t gy gu u u.r) (respShock u u.r) := by
  refine ⟨fun k i c hic => respProcess_policy sh hs hc u.r k i c hic, combiCov_symm, ?_, ?_, ?_⟩
  · intro k l hl l' hl'
    rw [respShock_eq, respShock_eq, combiCov_sum, Finset.inter_self, Finset.sum_product, Finset.sum_singleton]
    have := hu l hl l' hl'
    rw [sumTo_eq] at this
    exact this
  · intro k k' hk l hl l' hl'
    rw [respShock_eq, respShock_eq, combiCov_sum]
    refine Finset.sum_eq_zero fun q hq => absurd ?_ hk
    simp only [Finset.mem_inter, Finset.mem_product, Finset.mem_singleton] at hq
    exact hq.1.1.symm.trans hq.2.1
  · intro k c l hl
    have : respProcess t gy gu u u.r 0 c = 0 := by
      unfold respProcess
      rw [Finset.sum_product]
      exact Finset.sum_empty
    rw [this]
    simp

theorem chol_columns {chol : Chol V} (ch : CholExact chol) (hu : chol sigma = .ok u) (hr : sigma.r = gu.c) :
    ∀ l < gu.c, ∀ l' < gu.c, (sumTo u.r fun k => u.e k l * u.e k l') = sigma.e l l' := by
  obtain ⟨c1, c2, c3, -, -, -, c4⟩ := ch sigma u hu
  intro l hl l' hl'
  exact c4 l (by show l < u.c; omega) l' (by omega)

theorem respProcess_cov (m k i c d : Nat) :
    combiCov (respProcess t gy gu u m (k + 1 + i) c) (respProcess t gy gu u m (k + 1) d) =
      sumTo (k + 2) fun j => sumTo m fun l => unitDev t gy gu u l (j + i) c * unitDev t gy gu u l j d := by
  rw [respProcess_eq, respProcess_eq, combiCov_sum]
  have e : (Finset.Ico 1 (k + 1 + i + 1) ×ˢ Finset.range m) ∩ (Finset.Ico 1 (k + 1 + 1) ×ˢ Finset.range m) =
      Finset.Ico 1 (k + 1 + 1) ×ˢ Finset.range m := by
    ext q
    simp only [Finset.mem_inter, Finset.mem_product, Finset.mem_Ico]
    constructor
    · rintro ⟨-, h⟩; exact h
    · rintro ⟨h1, h2⟩; exact ⟨⟨⟨h1.1, by omega⟩, h2⟩, h1, h2⟩
  rw [e, Finset.sum_product, sumTo_eq, Finset.sum_range_succ', ← Finset.sum_range_reflect]
  rw [show (sumTo m fun l => unitDev t gy gu u l (0 + i) c * unitDev t gy gu u l 0 d) = 0 by
    rw [sumTo_eq]
    exact Finset.sum_eq_zero fun l _ => mul_zero _, add_zero]
  rw [Finset.sum_Ico_eq_sum_range]
  refine Finset.sum_congr (by congr 1) fun s hs => ?_
  rw [sumTo_eq]
  have hs := Finset.mem_range.mp hs
  refine Finset.sum_congr rfl fun l _ => ?_
  rw [show k + 1 + 1 - (1 + s) = k + 1 - 1 - s + 1 by omega, show k + 1 + i + 1 - (1 + s) = k + 1 - 1 - s + 1 + i by omega]

/-! ### later and earlier values -/

section
variable {M : Type} [AddCommGroup M] [Module V M] {m : Nat} {cov : M →ₗ[V] M →ₗ[V] V} {y ush : Nat → Nat → M}

/-- shocks are not correlated with earlier values -/
theorem LinearProcess.news (hp : t.drOrder.Perm (List.range t.n)) (p : LinearProcess t m gy gu sigma cov y ush) :
    ∀ (k k' c l : Nat), k < k' → c < t.n → l < m → cov (y k c) (ush k' l) = 0
  | 0, k', c, l, hk, _, hl => by
    obtain ⟨n, rfl⟩ : ∃ n, k' = n + 1 := ⟨k' - 1, by omega⟩
    exact p.start n c l hl
  | k + 1, k', c, l, hk, hc, hl => by
    obtain ⟨i, hi⟩ := List.mem_iff_getElem?.mp (hp.mem_iff.mpr (List.mem_range.mpr hc))
    rw [p.policy k i c hi, sumTo_eq, sumTo_eq, map_add, LinearMap.add_apply, map_sum, map_sum, LinearMap.sum_apply,
      LinearMap.sum_apply, Finset.sum_eq_zero, Finset.sum_eq_zero, add_zero]
    · intro l' hl'
      rw [map_smul, LinearMap.smul_apply, p.across _ _ (by omega) l' (Finset.mem_range.mp hl') l hl, smul_zero]
    · intro j hj
      have hj := Finset.mem_range.mp hj
      have : t.drState[j]?.getD 0 < t.n :=
        List.mem_range.mp (hp.mem_iff.mp (List.mem_of_getElem? (drState_row hp hj)))
      rw [map_smul, LinearMap.smul_apply, p.news hp k k' _ l (by omega) this hl, smul_zero]

/-- how the present states bear on a later period -/
def leadRow (t : Typer) (gy : Arr V) : Nat → Nat → Nat → V
  | 0, i, j => gy.e i j
  | n + 1, i, j => sumTo t.nBackward fun k => gy.e i k * leadRow t gy n ((t.permute t.drOrder).state[k]?.getD 0) j

theorem LinearProcess.later (hp : t.drOrder.Perm (List.range t.n)) (p : LinearProcess t m gy gu sigma cov y ush) :
    ∀ (n k i c d : Nat), t.drOrder[i]? = some c → d < t.n → cov (y (k + 1 + (n + 1)) c) (y (k + 1) d) =
      sumTo t.nBackward fun j => leadRow t gy n i j * cov (y (k + 1) (t.drState[j]?.getD 0)) (y (k + 1) d)
  | n, k, i, c, d, hic, hd => by
    have first : cov (y (k + 1 + (n + 1)) c) (y (k + 1) d) = sumTo t.nBackward fun j => gy.e i j *
        cov (y (k + 1 + n) (t.drState[j]?.getD 0)) (y (k + 1) d) := by
      rw [show k + 1 + (n + 1) = (k + 1 + n) + 1 from rfl, p.policy (k + 1 + n) i c hic, sumTo_eq, sumTo_eq, sumTo_eq,
        map_add, LinearMap.add_apply, map_sum, map_sum, LinearMap.sum_apply, LinearMap.sum_apply]
      rw [Finset.sum_eq_zero (s := Finset.range m), add_zero]
      · exact Finset.sum_congr rfl fun j _ => by rw [map_smul, LinearMap.smul_apply, smul_eq_mul]
      · intro l hl
        rw [map_smul, LinearMap.smul_apply, p.symm,
          p.news hp (k + 1) _ d l (by omega) hd (Finset.mem_range.mp hl), smul_zero]
    match n, first with
    | 0, first => exact first
    | n + 1, first =>
      rw [first]
      simp only [leadRow, sumTo_eq, Finset.sum_mul]
      rw [Finset.sum_comm]
      refine Finset.sum_congr rfl fun j hj => ?_
      have hj := Finset.mem_range.mp hj
      have hst : t.drOrder[(t.permute t.drOrder).state[j]?.getD 0]? = some (t.drState[j]?.getD 0) := drState_row hp hj
      rw [p.later hp n k _ _ d hst hd, sumTo_eq, Finset.mul_sum]
      exact Finset.sum_congr rfl fun l _ => by ring

end

end

/-! ### C157 -/

variable {V : Type} [Field V] [LinearOrder V] [IsStrictOrderedRing V] {la : LinAlg V} {lyap : Lyap V} {chol : Chol V}
  {half : V} {t : Typer} {s : Space V} {gy gu sigma u C : Arr V} {ys : List V} {stoch : List String}

/-- what the response to shock number `l` is -/
theorem impulse_unit (hn : stoch.Nodup) (hu : chol sigma = .ok u) {l T : Nat} {x : String} (hx : stoch[l]? = some x)
    {p : Arr V} (h : impulseNamed chol half t (.first gy gu) ys sigma stoch (.one x) T 1 = .ok p) (k c : Nat) :
    p.e k c = unitDev t gy gu u l k c := by
  obtain ⟨idx, u', g1, hu', -, -, -, hlt, -, -, -, -, -, e⟩ := impulse_at h
  obtain rfl : u = u' := Except.ok.inj (hu.symm.trans hu')
  obtain rfl : [l] = idx := Except.ok.inj ((index_one hn hx).symm.trans g1)
  rw [e, sumTo_eq, Finset.sum_eq_single l]
  · rw [if_pos (List.mem_singleton.mpr rfl), one_mul]
  · intro b _ hb
    rw [if_neg (fun h => hb (List.mem_singleton.mp h))]
  · intro h
    exact absurd (Finset.mem_range.mpr (hlt _ (List.mem_singleton.mpr rfl))) h

/-- **C157.** The covariance reported for two variables is the sum of the products of their responses, over all
periods and all shocks: with enough periods the sum comes as close as wanted. -/
theorem C157_covariances (ly : LyapExact lyap) (ch : CholExact chol) (sh : SolutionShape t gy gu)
    (hst : Stable (stateRows t gy)) (hn : stoch.Nodup) (hl : stoch.length = gu.c) (hu : chol sigma = .ok u)
    (h : covArr la lyap t s gy gu sigma = .ok C) {c d : Nat} (hc : c < t.n) (hd : d < t.n) (ε : V) (hε : 0 < ε) :
    ∃ T0, ∀ T ≥ T0, ∀ ir : Nat → Arr V,
      (∀ (l : Nat) x, stoch[l]? = some x →
        impulseNamed chol half t (.first gy gu) ys sigma stoch (.one x) T 1 = .ok (ir l)) →
      |(sumTo T fun k => sumTo stoch.length fun l => (ir l).e k c * (ir l).e k d) - C.e c d| < ε := by
  obtain ⟨hn1, s1, s2, -⟩ := covArr_spec ly sh.perm sh.gyr sh.gyc sh.gur h
  obtain ⟨c1, c2, -⟩ := ch sigma u hu
  have hs : gu.r ≠ 1 ∨ gu.c = 1 := Or.inl (by rw [sh.gur]; exact hn1)
  obtain ⟨k0, hk⟩ := C62_limit ly sh hst h (respProcess_linear sh hs (by omega) (chol_columns ch hu s1)) hc hd ε hε
  refine ⟨k0 + 2, fun T hT ir hir => ?_⟩
  obtain ⟨k, rfl⟩ : ∃ k, T = k + 2 := ⟨T - 2, by omega⟩
  have := hk k (by omega)
  rw [show combiCov (respProcess t gy gu u u.r (k + 1) c) (respProcess t gy gu u u.r (k + 1) d) = _ from
    respProcess_cov u.r k 0 c d] at this
  have e : (sumTo (k + 2) fun k => sumTo stoch.length fun l => (ir l).e k c * (ir l).e k d) =
      sumTo (k + 2) fun j => sumTo u.r fun l => unitDev t gy gu u l (j + 0) c * unitDev t gy gu u l j d := by
    refine sumTo_congr fun j _ => ?_
    rw [show u.r = stoch.length by omega]
    refine sumTo_congr fun l hl => ?_
    rw [impulse_unit hn hu (List.getElem?_eq_getElem hl) (hir l _ (List.getElem?_eq_getElem hl)),
      impulse_unit hn hu (List.getElem?_eq_getElem hl) (hir l _ (List.getElem?_eq_getElem hl)), Nat.add_zero]
  rw [e]
  exact this

/-- a factorised matrix is symmetric and positive semidefinite -/
theorem chol_psd (ch : CholExact chol) (hu : chol sigma = .ok u) : SymmArr sigma ∧ PosSemi sigma := by
  obtain ⟨c1, c2, c3, -, -, -, c4⟩ := ch sigma u hu
  have c4 : ∀ i < sigma.r, ∀ j < sigma.r, (sumTo sigma.r fun k => u.e k i * u.e k j) = sigma.e i j := by
    intro i hi j hj
    have := c4 i (by show i < u.c; omega) j (by omega)
    rw [show u.tr.c = u.r from rfl, c1] at this
    exact this
  refine ⟨⟨c3, fun i hi j hj => ?_⟩, fun w => ?_⟩
  · rw [← c4 i hi j hj, ← c4 j hj i hi]
    exact sumTo_congr fun k _ => mul_comm _ _
  · have : (sumTo sigma.r fun i => sumTo sigma.r fun j => w i * sigma.e i j * w j) =
        ∑ k ∈ Finset.range sigma.r, (∑ i ∈ Finset.range sigma.r, w i * u.e k i) ^ 2 := by
      rw [sumTo_eq]
      simp only [sq, Finset.sum_mul_sum]
      rw [Finset.sum_comm]
      refine Finset.sum_congr rfl fun i hi => ?_
      rw [Finset.sum_comm, sumTo_eq]
      refine Finset.sum_congr rfl fun j hj => ?_
      rw [← c4 i (Finset.mem_range.mp hi) j (Finset.mem_range.mp hj), sumTo_eq, Finset.mul_sum, Finset.sum_mul]
      exact Finset.sum_congr rfl fun k _ => by ring
    rw [this]
    exact Finset.sum_nonneg fun k _ => sq_nonneg _

/-- the autocovariances reported follow from the covariances reported -/
theorem autocov_lead (ly : LyapExact lyap) (ch : CholExact chol) (sh : SolutionShape t gy gu)
    (hst : Stable (stateRows t gy)) (hu : chol sigma = .ok u) {L : List (Arr V)} {q : Nat}
    (h : covArr la lyap t s gy gu sigma = .ok C) (hL : autocov la lyap t s gy gu sigma q = .ok L) {n : Nat} (hn : n < q) :
    ∃ a, L[n]? = some a ∧ a.r = t.n ∧ a.c = t.n ∧ ∀ i c d : Nat, t.drOrder[i]? = some c → d < t.n →
      a.e c d = sumTo t.nBackward fun j => leadRow t gy n i j * C.e (t.drState[j]?.getD 0) d := by
  obtain ⟨hs, hpos⟩ := chol_psd ch hu
  obtain ⟨hn1, s1, s2, -⟩ := covArr_spec ly sh.perm sh.gyr sh.gyc sh.gur h
  obtain ⟨X, hX, x1, -⟩ := C62_states_psd ly sh hst hs hpos h
  obtain ⟨-, -, xr, xc, -⟩ := stateVar_spec ly sh.perm sh.gyr sh.gyc sh.gur hn1 hX
  obtain ⟨-, X2, hX2, hall⟩ := C64_lag_partial ly sh hL
  obtain rfl : X = X2 := Except.ok.inj (hX.symm.trans hX2)
  obtain ⟨-, -, X3, hX3, hstat⟩ := C62_stationary ly sh h
  obtain rfl : X = X3 := Except.ok.inj (hX.symm.trans hX3)
  obtain ⟨a, a1, a2, a3, a4⟩ := hall n hn
  refine ⟨a, a1, a2, a3, fun i c d hic hd => ?_⟩
  obtain ⟨M, _, _, cov, y, us, p, h0⟩ := C62_exists (sigma := (⟨sigma.r, sigma.c, fun i j =>
      if i < sigma.r ∧ j < sigma.r then sigma.e i j else 0⟩ : Arr V)) sh
    (X := ⟨X.r, X.c, fun i j => if i < X.r ∧ j < X.r then X.e i j else 0⟩) (fun i j => by
      show (if _ then _ else _) = if _ then _ else _
      by_cases hij : i < X.r ∧ j < X.r
      · rw [if_pos hij, if_pos hij.symm, x1.2 i hij.1 j hij.2]
      · rw [if_neg hij, if_neg (fun h => hij h.symm)]) (fun i j => by
      show (if _ then _ else _) = if _ then _ else _
      by_cases hij : i < sigma.r ∧ j < sigma.r
      · rw [if_pos hij, if_pos hij.symm, hs.2 i hij.1 j hij.2]
      · rw [if_neg hij, if_neg (fun h => hij h.symm)])
  have p' : LinearProcess t gu.c gy gu sigma cov y us := ⟨p.policy, p.symm, fun k l hl l' hl' => by
    rw [p.within k l hl l' hl']
    exact if_pos ⟨by omega, by omega⟩, p.across, p.start⟩
  have h0' : StartsWith t X cov y := fun i hi j hj => by
    rw [h0 i hi j hj]
    exact if_pos ⟨by omega, by omega⟩
  have hc : c < t.n := List.mem_range.mp (sh.perm.mem_iff.mp (List.mem_of_getElem? hic))
  rw [← a4 p' h0' 0 c hc d hd, p'.later sh.perm n 0 i c d hic hd]
  refine sumTo_congr fun j hj => ?_
  rw [(hstat p' h0' 0).2 _ (List.mem_range.mp (sh.perm.mem_iff.mp (List.mem_of_getElem? (drState_row sh.perm hj)))) d hd]

/-- a finite combination of limits -/
theorem combination_limit {f : Nat → Nat → V} {g w : Nat → V} (m : Nat)
    (h : ∀ j < m, ∀ ε : V, 0 < ε → ∃ k0, ∀ k ≥ k0, |f k j - g j| < ε) (ε : V) (hε : 0 < ε) :
    ∃ k0, ∀ k ≥ k0, |(sumTo m fun j => w j * f k j) - sumTo m fun j => w j * g j| < ε := by
  induction m generalizing ε with
  | zero => exact ⟨0, fun k _ => by simpa [sumTo] using hε⟩
  | succ m ih =>
    obtain ⟨k1, h1⟩ := ih (fun j hj => h j (by omega)) (ε / 2) (by positivity)
    have hw : 0 < |w m| + 1 := by positivity
    obtain ⟨k2, h2⟩ := h m (by omega) (ε / 2 / (|w m| + 1)) (by positivity)
    refine ⟨max k1 k2, fun k hk => ?_⟩
    have a := h1 k (le_trans (le_max_left _ _) hk)
    have b := h2 k (le_trans (le_max_right _ _) hk)
    have c : |w m * (f k m - g m)| ≤ ε / 2 := by
      rw [abs_mul]
      have : |w m| * |f k m - g m| ≤ (|w m| + 1) * (ε / 2 / (|w m| + 1)) :=
        mul_le_mul (by linarith) b.le (abs_nonneg _) hw.le
      rwa [mul_div_cancel₀ _ hw.ne'] at this
    have e : (sumTo (m + 1) fun j => w j * f k j) - (sumTo (m + 1) fun j => w j * g j) =
        ((sumTo m fun j => w j * f k j) - sumTo m fun j => w j * g j) + w m * (f k m - g m) := by
      simp only [sumTo]
      ring
    rw [e]
    have := abs_add_le ((sumTo m fun j => w j * f k j) - sumTo m fun j => w j * g j) (w m * (f k m - g m))
    linarith

/-- **C157**, autocovariances: entry number `n` of those reported is the sum of the products of the responses of the first
variable with those of the second one `n + 1` periods earlier. -/
theorem C157_autocovariances (ly : LyapExact lyap) (ch : CholExact chol) (sh : SolutionShape t gy gu)
    (hst : Stable (stateRows t gy)) (hn : stoch.Nodup) (hl : stoch.length = gu.c) (hu : chol sigma = .ok u)
    (h : covArr la lyap t s gy gu sigma = .ok C) {L : List (Arr V)} {q : Nat}
    (hL : autocov la lyap t s gy gu sigma q = .ok L) {n : Nat} (hq : n < q) :
    ∃ a, L[n]? = some a ∧ ∀ c < t.n, ∀ d < t.n, ∀ ε : V, 0 < ε → ∃ T0, ∀ T ≥ T0, ∀ ir : Nat → Arr V,
      (∀ (l : Nat) x, stoch[l]? = some x →
        impulseNamed chol half t (.first gy gu) ys sigma stoch (.one x) (T + n + 1) 1 = .ok (ir l)) →
      |(sumTo T fun k => sumTo stoch.length fun l => (ir l).e (k + n + 1) c * (ir l).e k d) - a.e c d| < ε := by
  obtain ⟨a, ha, -, -, hlead⟩ := autocov_lead ly ch sh hst hu h hL hq
  refine ⟨a, ha, fun c hc d hd ε hε => ?_⟩
  obtain ⟨i, hic⟩ := List.mem_iff_getElem?.mp (sh.perm.mem_iff.mpr (List.mem_range.mpr hc))
  obtain ⟨hn1, s1, s2, -⟩ := covArr_spec ly sh.perm sh.gyr sh.gyc sh.gur h
  obtain ⟨c1, c2, -⟩ := ch sigma u hu
  have hs : gu.r ≠ 1 ∨ gu.c = 1 := Or.inl (by rw [sh.gur]; exact hn1)
  have P := respProcess_linear sh hs (by omega) (chol_columns ch hu s1)
  obtain ⟨k0, hk⟩ := combination_limit (f := fun k j => combiCov (respProcess t gy gu u u.r (k + 1) (t.drState[j]?.getD 0))
      (respProcess t gy gu u u.r (k + 1) d)) (g := fun j => C.e (t.drState[j]?.getD 0) d) (w := leadRow t gy n i) t.nBackward
    (fun j hj => C62_limit ly sh hst h P
      (List.mem_range.mp (sh.perm.mem_iff.mp (List.mem_of_getElem? (drState_row sh.perm hj)))) hd) ε hε
  refine ⟨k0 + 2, fun T hT ir hir => ?_⟩
  obtain ⟨k, rfl⟩ : ∃ k, T = k + 2 := ⟨T - 2, by omega⟩
  have := hk k (by omega)
  rw [← P.later sh.perm n k i c d hic hd, ← hlead i c d hic hd, respProcess_cov u.r k (n + 1) c d] at this
  have e : (sumTo (k + 2) fun k => sumTo stoch.length fun l => (ir l).e (k + n + 1) c * (ir l).e k d) =
      sumTo (k + 2) fun j => sumTo u.r fun l => unitDev t gy gu u l (j + (n + 1)) c * unitDev t gy gu u l j d := by
    refine sumTo_congr fun j _ => ?_
    rw [show u.r = stoch.length by omega]
    refine sumTo_congr fun l hl => ?_
    rw [impulse_unit hn hu (List.getElem?_eq_getElem hl) (hir l _ (List.getElem?_eq_getElem hl)),
      impulse_unit hn hu (List.getElem?_eq_getElem hl) (hir l _ (List.getElem?_eq_getElem hl)), Nat.add_assoc]
  rw [e]
  exact this

/-! ### C158 -/

/-- a lower factor, transposed, is an upper one -/
def transposed (chol : Chol V) : Chol V := fun s => (chol s).map Arr.tr

theorem transposed_upper {chol : Chol V} (ch : CholLower chol) : CholUpper (transposed chol) := by
  have key : ∀ s u, transposed chol s = .ok u → ∃ L, chol s = .ok L ∧ u = L.tr := by
    intro s u h
    unfold transposed at h
    cases hL : chol s with
    | error e => rw [hL] at h; cases h
    | ok L => rw [hL] at h; exact ⟨L, rfl, (Except.ok.inj h).symm⟩
  refine ⟨fun s u h => ?_, fun s u h i hi j hj => ?_, fun s u h i hi => ?_⟩
  · obtain ⟨L, hL, rfl⟩ := key s u h
    obtain ⟨l1, l2, l3, l4, l5, l6⟩ := ch s L hL
    refine ⟨l2, l1, l3, ?_, ?_, ?_, ?_⟩
    · show L.c = L.c; rfl
    · show s.r = L.r; omega
    · show s.c = L.r; omega
    · intro i hi j hj
      have := l4 i (by have : i < L.r := hi; omega) j (by have : j < L.r := hj; omega)
      show sumTo L.c _ = _
      rw [l2]
      exact this
  · obtain ⟨L, hL, rfl⟩ := key s u h
    exact (ch s L hL).2.2.2.2.1 j (by omega) i hi hj
  · obtain ⟨L, hL, rfl⟩ := key s u h
    exact (ch s L hL).2.2.2.2.2 i hi

/-- **C158**: the shares of the variance decomposition compare the sums of the squared responses to the single shocks. -/
theorem C158_shares {cholL : Chol V} {tol : V} {D : Arr (Option V)} (ly : LyapExact lyap) (chL : CholLower cholL)
    (ch : CholUpper chol) (sh : SolutionShape t gy gu) (hst : Stable (stateRows t gy)) (hs : sigma.c = sigma.r)
    (hn : stoch.Nodup) (hl : stoch.length = gu.c)
    (h : decompShares la lyap cholL (fun x : V => |x|) tol t s gy gu sigma t.n stoch.length = .ok D) :
    ∃ v : Nat → Nat → V,
      (∀ c < t.n, ∀ i < stoch.length, D.e c i = if (sumTo stoch.length fun k => v c k) = 0 then none
        else some (v c i / sumTo stoch.length fun k => v c k)) ∧
      ∀ c < t.n, ∀ (i : Nat) x, stoch[i]? = some x → ∀ ε : V, 0 < ε → ∃ T0, ∀ T ≥ T0, ∀ ir : Arr V,
        impulseNamed chol half t (.first gy gu) ys (perturbed tol sigma) stoch (.one x) T 1 = .ok ir →
          |(sumTo T fun k => ir.e k c * ir.e k c) - v c i| < ε := by
  rw [hl] at h
  obtain ⟨L, hL, v, h1, h2⟩ := C65_meaning ly chL sh hst hs h
  rw [hl]
  refine ⟨v, h1, fun c hc i x hx ε hε => ?_⟩
  have hi : i < stoch.length := (List.getElem?_eq_some_iff.mp hx).1
  cases hu : chol (perturbed tol sigma) with
  | error e =>
    refine ⟨0, fun T _ ir hir => ?_⟩
    obtain ⟨idx, u', -, hu', -⟩ := impulse_at hir
    rw [hu] at hu'
    cases hu'
  | ok u =>
    by_cases hok : stoch.length = u.r ∧ u.c = gu.squeezed.c
    · obtain ⟨ur, uc⟩ := hok
      obtain ⟨c1, c2, c3, -⟩ := ch.exact _ u hu
      obtain ⟨l1, l2, -⟩ := chL _ L hL
      have hs' : gu.r ≠ 1 ∨ gu.c = 1 := by
        by_cases hr : gu.r = 1
        · right
          unfold Arr.squeezed at uc
          rw [if_pos hr] at uc
          have : u.c = gu.r := uc
          omega
        · exact Or.inl hr
      have he : ∀ j < gu.c, L.e j i = u.e i j := fun j hj =>
        chol_unique (transposed_upper chL) ch (s := perturbed tol sigma) (u := L.tr) (by unfold transposed; rw [hL]; rfl) hu rfl
          (fun _ _ _ _ => rfl) i (by omega) j (by omega)
      have P := respProcess_linear (u := ⟨1, u.c, fun _ j => u.e i j⟩) (sigma := outerCol L i) sh hs'
        (show u.c = gu.c by omega) (fun l hl l' hl' => by
          show sumTo 1 (fun _ => u.e i l * u.e i l') = L.e l i * L.e l' i
          rw [he l hl, he l' hl']
          simp [sumTo])
      obtain ⟨k0, hk⟩ := (h2 c hc).1 i (by omega) P ε hε
      refine ⟨k0 + 2, fun T hT ir hir => ?_⟩
      obtain ⟨k, rfl⟩ : ∃ k, T = k + 2 := ⟨T - 2, by omega⟩
      have := hk k (by omega)
      rw [show combiCov (respProcess t gy gu ⟨1, u.c, fun _ j => u.e i j⟩ 1 (k + 1) c)
        (respProcess t gy gu ⟨1, u.c, fun _ j => u.e i j⟩ 1 (k + 1) c) = _ from respProcess_cov 1 k 0 c c] at this
      have e : (sumTo (k + 2) fun k => ir.e k c * ir.e k c) = sumTo (k + 2) fun j => sumTo 1 fun l =>
          unitDev t gy gu ⟨1, u.c, fun _ j => u.e i j⟩ l (j + 0) c *
            unitDev t gy gu ⟨1, u.c, fun _ j => u.e i j⟩ l j c := by
        refine sumTo_congr fun j _ => ?_
        rw [impulse_unit hn hu hx hir]
        simp only [sumTo, zero_add, Nat.add_zero]
        rfl
      rw [e]
      exact this
    · refine ⟨0, fun T _ ir hir => ?_⟩
      obtain ⟨idx, u', -, hu', a, b, -⟩ := impulse_at hir
      obtain rfl : u = u' := Except.ok.inj (hu.symm.trans hu')
      exact absurd ⟨a, b⟩ hok

/-! ### Examples -/

/-- correlated shocks, and their upper factor -/
def imChol : Chol ℚ := listChol [listArr [[4, 1], [0, 3]] 2]

theorem im_moments : ∃ C L, covArr stLa stLyap stT stSpace stGy stGu (perturbed 1 stSigma') = .ok C ∧
    autocov stLa stLyap stT stSpace stGy stGu (perturbed 1 stSigma') 3 = .ok L ∧ C.e 0 2 ≠ 0 ∧
    (L[2]?.getD C).e 0 2 ≠ 0 := by
  obtain ⟨C, hC, c⟩ := ok_of_check (x := covArr stLa stLyap stT stSpace stGy stGu (perturbed 1 stSigma'))
    (p := fun C => okAnd (autocov stLa stLyap stT stSpace stGy stGu (perturbed 1 stSigma') 3)
      fun L => decide (C.e 0 2 ≠ 0 ∧ (L[2]?.getD C).e 0 2 ≠ 0)) (by decide +kernel)
  obtain ⟨L, hL, c⟩ := ok_of_check c
  exact ⟨C, L, hC, hL, of_decide_eq_true c⟩

theorem im_responses : ∃ a b, impulseNamed imChol (1/2) stT (.first stGy stGu) [1, 2, 3] (perturbed 1 stSigma') ["e", "u"]
      (.one "e") 4 1 = .ok a ∧
    impulseNamed imChol (1/2) stT (.first stGy stGu) [1, 2, 3] (perturbed 1 stSigma') ["e", "u"] (.one "u") 4 1 = .ok b ∧
    a.e 2 0 ≠ 0 ∧ b.e 2 0 ≠ 0 := by
  obtain ⟨a, ha, c⟩ := ok_of_check (x := impulseNamed imChol (1/2) stT (.first stGy stGu) [1, 2, 3] (perturbed 1 stSigma')
      ["e", "u"] (.one "e") 4 1)
    (p := fun a => okAnd (impulseNamed imChol (1/2) stT (.first stGy stGu) [1, 2, 3] (perturbed 1 stSigma') ["e", "u"]
      (.one "u") 4 1) fun b => decide (a.e 2 0 ≠ 0 ∧ b.e 2 0 ≠ 0)) (by decide +kernel)
  obtain ⟨b, hb, c⟩ := ok_of_check c
  exact ⟨a, b, ha, hb, of_decide_eq_true c⟩

/-- a model with correlated shocks meets all hypotheses: its covariances are limits of sums over responses -/
example : ∃ C, covArr stLa stLyap stT stSpace stGy stGu (perturbed 1 stSigma') = .ok C ∧ C.e 0 2 ≠ 0 ∧
    ∃ T0, ∀ T ≥ T0, ∀ ir : Nat → Arr ℚ, (∀ (l : Nat) x, ["e", "u"][l]? = some x →
        impulseNamed imChol (1/2) stT (.first stGy stGu) [1, 2, 3] (perturbed 1 stSigma') ["e", "u"] (.one x) T 1 = .ok (ir l)) →
      |(sumTo T fun k => sumTo 2 fun l => (ir l).e k 0 * (ir l).e k 2) - C.e 0 2| < 1 / 100 := by
  obtain ⟨C, L, hC, hL, c, -⟩ := im_moments
  obtain ⟨u, hu, -⟩ := ok_of_check (x := imChol (perturbed 1 stSigma')) (p := fun _ => true) (by decide +kernel)
  exact ⟨C, hC, c, C157_covariances stLyap_exact (listChol_upper _).exact stShape stStable (by decide) rfl hu hC
    (by decide +kernel) (by decide +kernel) _ (by norm_num)⟩

example : ∃ L a, autocov stLa stLyap stT stSpace stGy stGu (perturbed 1 stSigma') 3 = .ok L ∧ L[2]? = some a ∧ a.e 0 2 ≠ 0 ∧
    ∃ T0, ∀ T ≥ T0, ∀ ir : Nat → Arr ℚ, (∀ (l : Nat) x, ["e", "u"][l]? = some x →
        impulseNamed imChol (1/2) stT (.first stGy stGu) [1, 2, 3] (perturbed 1 stSigma') ["e", "u"] (.one x) (T + 2 + 1) 1 =
          .ok (ir l)) →
      |(sumTo T fun k => sumTo 2 fun l => (ir l).e (k + 2 + 1) 0 * (ir l).e k 2) - a.e 0 2| < 1 / 100 := by
  obtain ⟨C, L, hC, hL, -, c⟩ := im_moments
  obtain ⟨u, hu, -⟩ := ok_of_check (x := imChol (perturbed 1 stSigma')) (p := fun _ => true) (by decide +kernel)
  obtain ⟨a, ha, h⟩ := C157_autocovariances (half := 1/2) (ys := [1, 2, 3]) (stoch := ["e", "u"]) (n := 2) stLyap_exact
    (listChol_upper _).exact stShape stStable (by decide) rfl hu hC hL (by decide)
  rw [ha] at c
  exact ⟨L, a, hL, ha, c, h 0 (by decide +kernel) 2 (by decide +kernel) _ (by norm_num)⟩

/-- the shares of the same model: both shocks matter -/
example : ∃ D, decompShares stLa stLyap stChol (fun x : ℚ => |x|) 1 stT stSpace stGy stGu stSigma' stT.n ["e", "u"].length = .ok D ∧
    ["e", "u"].length = stGu.c ∧ stSigma'.c = stSigma'.r ∧
    (∃ x, D.e 0 0 = some x ∧ x ≠ 0 ∧ x ≠ 1) ∧ CholLower stChol ∧ CholUpper imChol := by
  obtain ⟨D, h, c⟩ := ok_of_check
    (x := decompShares stLa stLyap stChol (fun x : ℚ => |x|) 1 stT stSpace stGy stGu stSigma' stT.n ["e", "u"].length)
    (p := fun D => decide (D.e 0 0 ≠ none ∧ D.e 0 0 ≠ some 0 ∧ D.e 0 0 ≠ some 1)) (by decide +kernel)
  obtain ⟨c1, c2, c3⟩ := of_decide_eq_true c
  refine ⟨D, h, rfl, rfl, ?_, stChol_exact, listChol_upper _⟩
  obtain ⟨x, hx⟩ := Option.ne_none_iff_exists'.mp c1
  rw [hx] at c2 c3
  exact ⟨x, hx, fun e => c2 (by rw [e]), fun e => c3 (by rw [e])⟩

#print axioms C157_covariances
#print axioms C157_autocovariances
#print axioms C158_shares

end Pynare

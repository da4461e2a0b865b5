import Mathlib.Tactic.LinearCombination
import Mathlib.Algebra.Module.BigOperators
import Verif.Spec.Filter
import Verif.Lemmas.Simul
/-!
# The Kalman recursion
-/

namespace Pynare

variable {V : Type}

section
variable [CommRing V]

theorem add_entry {a b c : Arr V} (h : a.add b = .ok c) :
    a.r = b.r ∧ a.c = b.c ∧ c.r = a.r ∧ c.c = a.c ∧ ∀ i j, c.e i j = a.e i j + b.e i j := by
  unfold Arr.add at h
  split at h
  case isFalse => cases h
  rename_i h1
  rw [← Except.ok.inj h]
  exact ⟨h1.1, h1.2, rfl, rfl, fun _ _ => rfl⟩

theorem cols_entry {a x : Arr V} {cs : List Nat} (h : a.cols cs = .ok x) :
    x.r = a.r ∧ x.c = cs.length ∧ ∀ i j, x.e i j = a.e i (obsAt cs j) := by
  unfold Arr.cols at h
  split at h
  case isFalse => cases h
  rw [← Except.ok.inj h]
  exact ⟨rfl, rfl, fun _ _ => rfl⟩

theorem rows_entry {a x : Arr V} {cs : List Nat} (h : a.rows cs = .ok x) :
    x.r = cs.length ∧ x.c = a.c ∧ ∀ i j, x.e i j = a.e (obsAt cs i) j := by
  unfold Arr.rows at h
  split at h
  case isFalse => cases h
  rw [← Except.ok.inj h]
  exact ⟨rfl, rfl, fun _ _ => rfl⟩

theorem obsAt_lt {n : Nat} {locs : List Nat} (h : ∀ k ∈ locs, k < n) {k : Nat} (hk : k < locs.length) :
    obsAt locs k < n := by
  unfold obsAt
  rw [List.getElem?_eq_getElem hk]
  exact h _ (List.getElem_mem hk)

/-- what an iteration does to covariances -/
structure GainFacts (n m : Nat) (loc : Nat → Nat) (T Q P K P' : Nat → Nat → V) : Prop where
  gain : ∀ a < n, ∀ k < m, ∑ l ∈ Finset.range m, K a l * P (loc l) (loc k) = P a (loc k)
  next : ∀ i < n, ∀ j < n, P' i j = (∑ a ∈ Finset.range n, ∑ b ∈ Finset.range n,
    T i a * (P a b - ∑ k ∈ Finset.range m, K a k * P (loc k) b) * T j b) + Q i j

theorem invSymPd_entry {lp : Lapack V} (hl : LapackExact lp) {a b : Arr V} (ha : SymmArr a)
    (h : invSymPd lp a = .ok b) : b.r = a.r ∧ b.c = a.r ∧ ∀ i < a.r, ∀ j < a.r, b.e i j = b.e j i ∧
      ∑ l ∈ Finset.range a.r, a.e i l * b.e l j = if i = j then 1 else 0 := by
  unfold invSymPd at h
  split at h
  · cases h
  rename_i c hc
  split at h
  · cases h
  rename_i b' hb
  obtain ⟨h1, h2, g, hg, hu⟩ := hl a c b' ha hc hb
  have hbe : ∀ i < a.r, ∀ j < a.r, (symFromUpper b').e i j = g i j := by
    intro i hi j hj
    simp only [symFromUpper]
    split
    · rename_i hji
      rw [hu j hj i hi (by omega)]
      exact (hg j hj i hi).1
    · exact hu i hi j hj (by omega)
  rw [← Except.ok.inj h]
  refine ⟨h1, h2, fun i hi j hj => ⟨?_, ?_⟩⟩
  · rw [hbe i hi j hj, hbe j hj i hi]; exact (hg i hi j hj).1
  · rw [← (hg i hi j hj).2, sumTo_eq]
    refine Finset.sum_congr rfl fun l hlr => ?_
    rw [hbe l (Finset.mem_range.mp hlr) j hj]

theorem kalmanGain_facts {lp : Lapack V} (hl : LapackExact lp) {n : Nat} {T Q P K P' : Arr V} {locs : List Nat} {d : V}
    (hT : T.r = n ∧ T.c = n) (hP : P.r = n ∧ SymmArr P) (hQ : Q.r = n ∧ SymmArr Q) (hlocs : ∀ k ∈ locs, k < n)
    (h : kalmanGain lp T Q locs P = .ok (d, K, P')) :
    K.r = n ∧ K.c = locs.length ∧ (P'.r = n ∧ SymmArr P') ∧
    GainFacts n locs.length (obsAt locs) T.e Q.e P.e K.e P'.e ∧
    ∃ F : Arr V, F.r = locs.length ∧ F.c = locs.length ∧ (∃ δ, lp.det F = .ok δ ∧ d = lp.log δ) ∧
      ∀ i < locs.length, ∀ j < locs.length, F.e i j = P.e (obsAt locs i) (obsAt locs j) := by
  unfold kalmanGain at h
  obtain ⟨Pl, hPl, h⟩ := Except.bind_ok_iff.mp h
  obtain ⟨Ft, hFt, h⟩ := Except.bind_ok_iff.mp h
  obtain ⟨Fi, hFi, h⟩ := Except.bind_ok_iff.mp h
  obtain ⟨PFi, hPFi, h⟩ := Except.bind_ok_iff.mp h
  obtain ⟨Pr, hPr, h⟩ := Except.bind_ok_iff.mp h
  obtain ⟨hh, hhh, h⟩ := Except.bind_ok_iff.mp h
  obtain ⟨Ptt, hPtt, h⟩ := Except.bind_ok_iff.mp h
  obtain ⟨aa, haa, h⟩ := Except.bind_ok_iff.mp h
  obtain ⟨bb, hbb, h⟩ := Except.bind_ok_iff.mp h
  obtain ⟨P'', hP', h⟩ := Except.bind_ok_iff.mp h
  obtain ⟨δ, hδ, h⟩ := Except.bind_ok_iff.mp h
  obtain ⟨rfl, rfl, rfl⟩ : lp.log δ = d ∧ PFi = K ∧ P'' = P' := by
    have := Except.ok.inj h
    simpa [Prod.ext_iff] using this
  obtain ⟨l1, l2, l3⟩ := cols_entry hPl
  obtain ⟨f1, f2, f3⟩ := rows_entry hFt
  obtain ⟨hPr', hPc, hPs⟩ := hP
  have hFs : SymmArr Ft := by
    refine ⟨by rw [f2, l2, f1], fun i hi j hj => ?_⟩
    rw [f1] at hi hj
    rw [f3, f3, l3, l3]
    exact hPs _ (hPr' ▸ obsAt_lt hlocs hi) _ (hPr' ▸ obsAt_lt hlocs hj)
  obtain ⟨i1, i2, i3⟩ := invSymPd_entry hl hFs hFi
  obtain ⟨k1, k2, k3, k4⟩ := dot_entry hPFi
  obtain ⟨r1, r2, r3⟩ := rows_entry hPr
  obtain ⟨u1, u2, u3, u4⟩ := dot_entry hhh
  obtain ⟨p1, p2, p3, p4, p5⟩ := add_entry hPtt
  obtain ⟨a1, a2, a3, a4⟩ := dot_entry haa
  obtain ⟨b1, b2, b3, b4⟩ := dot_entry hbb
  obtain ⟨q1, q2, q3, q4, q5⟩ := add_entry hP'
  rw [f1] at i1 i2 i3
  have hPe : ∀ i < n, ∀ j < n, P.e i j = P.e j i := fun i hi j hj => hPs i (hPr' ▸ hi) j (hPr' ▸ hj)
  have hloc : ∀ {k}, k < locs.length → obsAt locs k < n := fun hk => obsAt_lt hlocs hk
  have hKe : ∀ a k, PFi.e a k = ∑ l ∈ Finset.range locs.length, P.e a (obsAt locs l) * Fi.e l k := by
    intro a k
    rw [k4, sumTo_eq, l2]
    exact Finset.sum_congr rfl fun l _ => by rw [l3]
  have hFe : ∀ i j, Ft.e i j = P.e (obsAt locs i) (obsAt locs j) := fun i j => by rw [f3, l3]
  have hPtt' : ∀ a b, Ptt.e a b = P.e a b - ∑ k ∈ Finset.range locs.length, PFi.e a k * P.e (obsAt locs k) b := by
    intro a b
    rw [p5]
    simp only [Arr.neg]
    rw [u4, sumTo_eq, k3, i2, sub_eq_add_neg]
    congr 2
    exact Finset.sum_congr rfl fun l _ => by rw [r3]
  have hsym : ∀ a < n, ∀ b < n, Ptt.e a b = Ptt.e b a := by
    intro a ha b hb
    rw [hPtt', hPtt', hPe a ha b hb]
    congr 1
    simp only [hKe, Finset.sum_mul]
    rw [Finset.sum_comm]
    refine Finset.sum_congr rfl fun k hk => Finset.sum_congr rfl fun l hl' => ?_
    rw [Finset.mem_range] at hk hl'
    rw [(i3 k hk l hl').1, hPe a ha _ (hloc hk), hPe _ (hloc hl') b hb]
    ring
  have hnext : ∀ i j, P''.e i j = (∑ a ∈ Finset.range n, ∑ b ∈ Finset.range n, T.e i a * Ptt.e a b * T.e j b) + Q.e i j := by
    intro i j
    rw [q5, b4, sumTo_eq, hT.2]
    congr 1
    refine Finset.sum_congr rfl fun a _ => ?_
    rw [a4, sumTo_eq, p4, hPc, hPr', Finset.mul_sum]
    refine Finset.sum_congr rfl fun b _ => ?_
    simp only [Arr.tr]
    ring
  have hr : P''.r = n := by rw [q3, b2, hT.1]
  refine ⟨by rw [k2, l1, hPr'], by rw [k3, i2], ⟨hr, ?_, ?_⟩, ⟨?_, ?_⟩, Ft, f1, by rw [f2, l2],
    ⟨δ, hδ, rfl⟩, fun i _ j _ => hFe i j⟩
  · rw [q4, b3, a3, hr]; exact hT.1
  · rw [hr]
    intro i hi j hj
    rw [hnext, hnext, hQ.2.2 i (hQ.1 ▸ hi) j (hQ.1 ▸ hj)]
    congr 1
    rw [Finset.sum_comm]
    refine Finset.sum_congr rfl fun a ha => Finset.sum_congr rfl fun b hb => ?_
    rw [hsym _ (Finset.mem_range.mp hb) _ (Finset.mem_range.mp ha)]
    ring
  · intro a ha k hk
    simp only [hKe, Finset.sum_mul]
    rw [Finset.sum_comm]
    have : ∀ l ∈ Finset.range locs.length, (∑ j ∈ Finset.range locs.length,
        P.e a (obsAt locs l) * Fi.e l j * P.e (obsAt locs j) (obsAt locs k)) =
        P.e a (obsAt locs l) * if k = l then 1 else 0 := by
      intro l hl'
      rw [Finset.mem_range] at hl'
      rw [← (i3 k hk l hl').2, Finset.mul_sum]
      refine Finset.sum_congr rfl fun j hj => ?_
      rw [Finset.mem_range] at hj
      rw [hFe, (i3 l hl' j hj).1, hPe _ (hloc hj) _ (hloc hk)]
      ring
    rw [Finset.sum_congr rfl this]
    simp [hk]
  · intro i _ j _
    rw [hnext]
    congr 1
    refine Finset.sum_congr rfl fun a _ => Finset.sum_congr rfl fun b _ => ?_
    rw [hPtt']

/-- what an iteration does to the prediction -/
theorem kalmanState_ok {n : Nat} {T K x y : Arr V} {locs : List Nat} (hT : T.r = n ∧ T.c = n)
    (hK : K.r = n ∧ K.c = locs.length) (hx : x.r = n ∧ x.c = 1) (hy : y.r = locs.length ∧ y.c = 1)
    (hlocs : ∀ k ∈ locs, k < n) : ∃ x', kalmanState T K locs x y = .ok x' ∧ x'.r = n ∧ x'.c = 1 ∧
      ∀ i, x'.e i 0 = ∑ a ∈ Finset.range n, T.e i a * (x.e a 0 +
        ∑ k ∈ Finset.range locs.length, K.e a k * (y.e k 0 - x.e (obsAt locs k) 0)) := by
  have h1 : x.rows locs = .ok ⟨locs.length, x.c, fun i j => x.e (obsAt locs i) j⟩ := by
    unfold Arr.rows
    rw [if_pos]
    · rfl
    · simpa [hx.1] using hlocs
  unfold kalmanState
  rw [h1]
  simp only [bind, Except.bind, Arr.add, Arr.neg, Arr.dot, hx, hy, hK, hT, and_self, if_true]
  refine ⟨_, rfl, rfl, rfl, fun i => ?_⟩
  simp only [sumTo_eq, sub_eq_add_neg]

end

/-! ### weights -/

section module
variable [CommRing V]

/-- coefficients of the first prediction -/
def kfB (n m : Nat) (loc : Nat → Nat) (T : Nat → Nat → V) (K : Nat → Nat → Nat → V) : Nat → Nat → Nat → V
  | 0 => fun i j => if i = j then 1 else 0
  | t + 1 => fun i j => ∑ a ∈ Finset.range n, T i a * (kfB n m loc T K t a j -
      ∑ l ∈ Finset.range m, K t a l * kfB n m loc T K t (loc l) j)

/-- coefficients of the observations -/
def kfW (n m : Nat) (loc : Nat → Nat) (T : Nat → Nat → V) (K : Nat → Nat → Nat → V) : Nat → Nat → Nat → Nat → V
  | 0 => fun _ _ _ => 0
  | t + 1 => fun i τ k => ∑ a ∈ Finset.range n, T i a * (if τ = t then K t a k else kfW n m loc T K t a τ k -
      ∑ l ∈ Finset.range m, K t a l * kfW n m loc T K t (loc l) τ k)

variable {M : Type} [AddCommGroup M] [Module V M]

theorem sum_smul_comm (n m : Nat) (f : Nat → V) (g : Nat → Nat → V) (x : Nat → M) :
    ∑ a ∈ Finset.range n, f a • ∑ j ∈ Finset.range m, g a j • x j =
      ∑ j ∈ Finset.range m, (∑ a ∈ Finset.range n, f a * g a j) • x j := by
  simp only [Finset.smul_sum, Finset.sum_smul, smul_smul]
  exact Finset.sum_comm

theorem sum_smul_comm2 (n m p : Nat) (f : Nat → V) (g : Nat → Nat → Nat → V) (x : Nat → Nat → M) :
    ∑ a ∈ Finset.range n, f a • ∑ τ ∈ Finset.range p, ∑ j ∈ Finset.range m, g a τ j • x τ j =
      ∑ τ ∈ Finset.range p, ∑ j ∈ Finset.range m, (∑ a ∈ Finset.range n, f a * g a τ j) • x τ j := by
  simp only [Finset.smul_sum, Finset.sum_smul, smul_smul]
  rw [Finset.sum_comm]
  exact Finset.sum_congr rfl fun τ _ => Finset.sum_comm

theorem kf_linear {n m : Nat} {loc : Nat → Nat} (hloc : ∀ k < m, loc k < n) {T : Nat → Nat → V}
    {K : Nat → Nat → Nat → V} {N : Nat} {y X : Nat → Nat → M}
    (hX : ∀ t < N, ∀ i < n, X (t + 1) i = ∑ a ∈ Finset.range n, T i a • (X t a +
      ∑ k ∈ Finset.range m, K t a k • (y t k - X t (loc k)))) :
    ∀ t ≤ N, ∀ i < n, X t i = (∑ j ∈ Finset.range n, kfB n m loc T K t i j • X 0 j) +
      ∑ τ ∈ Finset.range t, ∑ k ∈ Finset.range m, kfW n m loc T K t i τ k • y τ k := by
  intro t
  induction t with
  | zero =>
    intro _ i hi
    simp [kfB, hi]
  | succ t ih =>
    intro ht i hi
    have ih' := ih (by omega)
    rw [hX t (by omega) i hi]
    have e1 : ∀ a ∈ Finset.range n, T i a • (X t a + ∑ k ∈ Finset.range m, K t a k • (y t k - X t (loc k))) =
        T i a • ((∑ j ∈ Finset.range n, (kfB n m loc T K t a j -
            ∑ l ∈ Finset.range m, K t a l * kfB n m loc T K t (loc l) j) • X 0 j) +
          (∑ τ ∈ Finset.range t, ∑ k ∈ Finset.range m, (kfW n m loc T K t a τ k -
            ∑ l ∈ Finset.range m, K t a l * kfW n m loc T K t (loc l) τ k) • y τ k) +
          ∑ k ∈ Finset.range m, K t a k • y t k) := by
      intro a ha
      congr 1
      rw [ih' a (Finset.mem_range.mp ha)]
      have e2 : ∑ k ∈ Finset.range m, K t a k • (y t k - X t (loc k)) =
          ∑ k ∈ Finset.range m, K t a k • y t k -
          ((∑ j ∈ Finset.range n, (∑ l ∈ Finset.range m, K t a l * kfB n m loc T K t (loc l) j) • X 0 j) +
          ∑ τ ∈ Finset.range t, ∑ k ∈ Finset.range m,
            (∑ l ∈ Finset.range m, K t a l * kfW n m loc T K t (loc l) τ k) • y τ k) := by
        rw [← sum_smul_comm, ← sum_smul_comm2, ← Finset.sum_add_distrib, ← Finset.sum_sub_distrib]
        refine Finset.sum_congr rfl fun k hk => ?_
        rw [ih' (loc k) (hloc k (Finset.mem_range.mp hk)), smul_sub, smul_add]
      rw [e2]
      simp only [sub_smul, Finset.sum_sub_distrib]
      abel
    rw [Finset.sum_congr rfl e1]
    simp only [smul_add, Finset.sum_add_distrib]
    rw [sum_smul_comm, sum_smul_comm2, sum_smul_comm, Finset.sum_range_succ, add_assoc]
    congr 1
    congr 1
    · refine Finset.sum_congr rfl fun τ hτ => Finset.sum_congr rfl fun k _ => ?_
      have : τ ≠ t := by have := Finset.mem_range.mp hτ; omega
      simp [kfW, this]
    · refine Finset.sum_congr rfl fun k _ => ?_
      simp [kfW]

end module

/-! ### the process -/

section process
variable [CommRing V] {M : Type} [AddCommGroup M] [Module V M]

theorem cov_sum_left (cov : M →ₗ[V] M →ₗ[V] V) (n : Nat) (f : Nat → V) (x : Nat → M) (z : M) :
    cov (∑ a ∈ Finset.range n, f a • x a) z = ∑ a ∈ Finset.range n, f a * cov (x a) z := by
  simp [map_sum, LinearMap.sum_apply]

theorem cov_sum_right (cov : M →ₗ[V] M →ₗ[V] V) (n : Nat) (f : Nat → V) (x : Nat → M) (z : M) :
    cov z (∑ a ∈ Finset.range n, f a • x a) = ∑ a ∈ Finset.range n, f a * cov z (x a) := by
  simp [map_sum]

theorem ObservedProcess.later {n : Nat} {x0 P0 T Q : Arr V} {cov : M →ₗ[V] M →ₗ[V] V} {mean : M →ₗ[V] V}
    {s e : Nat → Nat → M} (h : ObservedProcess n x0 P0 T Q cov mean s e) (τ : Nat) :
    ∀ t ≥ τ, ∀ i < n, ∀ j < n, cov (s τ i) (e (t + 1) j) = 0 := by
  induction τ with
  | zero => intro t _ i hi j hj; exact h.start t i hi j hj
  | succ τ ih =>
    intro t ht i hi j hj
    rw [h.step τ i hi, sumTo_eq, map_add, LinearMap.add_apply, cov_sum_left,
      h.across τ t (by omega) i hi j hj, add_zero]
    refine Finset.sum_eq_zero fun a ha => ?_
    rw [ih t (by omega) a (Finset.mem_range.mp ha) j hj, mul_zero]

/-- the prediction as a random variable -/
theorem kf_errors {n m : Nat} {loc : Nat → Nat} (hloc : ∀ k < m, loc k < n) {x0 P0 T Q : Arr V}
    {cov : M →ₗ[V] M →ₗ[V] V} {mean : M →ₗ[V] V} {s e : Nat → Nat → M}
    (h : ObservedProcess n x0 P0 T Q cov mean s e) {N : Nat} {K P : Nat → Nat → Nat → V}
    (hP0 : P 0 = P0.e) (hg : ∀ t < N, GainFacts n m loc T.e Q.e (P t) (K t) (P (t + 1)))
    {X : Nat → Nat → M} (hX0 : ∀ i < n, X 0 i = 0)
    (hX : ∀ t < N, ∀ i < n, X (t + 1) i = ∑ a ∈ Finset.range n, T.e i a • (X t a +
      ∑ k ∈ Finset.range m, K t a k • (s t (loc k) - X t (loc k)))) :
    ∀ t ≤ N, (∀ i < n, ∀ τ < t, ∀ k < m, cov (s t i - X t i) (s τ (loc k)) = 0) ∧
      ∀ i < n, ∀ j < n, cov (s t i - X t i) (s t j - X t j) = P t i j := by
  have hlin : ∀ t ≤ N, ∀ i < n, X t i = ∑ τ ∈ Finset.range t, ∑ k ∈ Finset.range m,
      kfW n m loc T.e K t i τ k • s τ (loc k) := by
    intro t ht i hi
    rw [kf_linear (y := fun t k => s t (loc k)) hloc hX t ht i hi, Finset.sum_eq_zero, zero_add]
    intro j hj
    rw [hX0 j (Finset.mem_range.mp hj), smul_zero]
  -- anything uncorrelated with the observations is uncorrelated with the prediction
  have hspan : ∀ t ≤ N, ∀ i < n, ∀ z : M, (∀ τ < t, ∀ k < m, cov z (s τ (loc k)) = 0) → cov z (X t i) = 0 := by
    intro t ht i hi z hz
    rw [hlin t ht i hi, map_sum]
    refine Finset.sum_eq_zero fun τ hτ => ?_
    rw [cov_sum_right]
    refine Finset.sum_eq_zero fun k hk => ?_
    rw [hz τ (Finset.mem_range.mp hτ) k (Finset.mem_range.mp hk), mul_zero]
  have hnoise : ∀ t ≤ N, ∀ i < n, ∀ t' ≥ t, ∀ j < n, cov (s t i - X t i) (e (t' + 1) j) = 0 := by
    intro t ht i hi t' ht' j hj
    rw [map_sub, LinearMap.sub_apply, h.later t t' ht' i hi j hj, h.symm, hspan t ht i hi, sub_zero]
    intro τ hτ k hk
    rw [h.symm]
    exact h.later τ t' (by omega) _ (hloc k hk) j hj
  intro t
  induction t with
  | zero =>
    intro _
    refine ⟨fun i _ τ hτ => absurd hτ (Nat.not_lt_zero τ), fun i hi j hj => ?_⟩
    rw [hX0 i hi, hX0 j hj, sub_zero, sub_zero, h.first i hi j hj, hP0]
  | succ t ih =>
    intro ht
    obtain ⟨ih1, ih2⟩ := ih (by omega)
    have G := hg t (by omega)
    -- the error after looking at the observations of the period
    let er : Nat → M := fun a => s t a - X t a
    let u : Nat → M := fun a => er a - ∑ k ∈ Finset.range m, K t a k • er (loc k)
    have hu : ∀ i < n, s (t + 1) i - X (t + 1) i = (∑ a ∈ Finset.range n, T.e i a • u a) + e (t + 1) i := by
      intro i hi
      rw [h.step t i hi, hX t (by omega) i hi, sumTo_eq, add_sub_right_comm, ← Finset.sum_sub_distrib]
      congr 1
      refine Finset.sum_congr rfl fun a _ => ?_
      rw [← smul_sub, sub_add_eq_sub_sub]
    have hc1 : ∀ a < n, ∀ z : M, cov (u a) z = cov (er a) z - ∑ k ∈ Finset.range m, K t a k * cov (er (loc k)) z := by
      intro a _ z
      show cov (er a - _) z = _
      rw [map_sub, LinearMap.sub_apply, cov_sum_left]
    have hue : ∀ a < n, ∀ b < n, cov (u a) (er b) = P t a b - ∑ k ∈ Finset.range m, K t a k * P t (loc k) b := by
      intro a ha b hb
      rw [hc1 a ha, ih2 a ha b hb]
      congr 1
      refine Finset.sum_congr rfl fun k hk => ?_
      rw [ih2 (loc k) (hloc k (Finset.mem_range.mp hk)) b hb]
    have hul : ∀ a < n, ∀ k < m, cov (u a) (er (loc k)) = 0 := by
      intro a ha k hk
      rw [hue a ha _ (hloc k hk), G.gain a ha k hk, sub_self]
    have hupast : ∀ a < n, ∀ τ < t, ∀ k < m, cov (u a) (s τ (loc k)) = 0 := by
      intro a ha τ hτ k hk
      rw [hc1 a ha, ih1 a ha τ hτ k hk, zero_sub, neg_eq_zero]
      refine Finset.sum_eq_zero fun l hl => ?_
      rw [ih1 (loc l) (hloc l (Finset.mem_range.mp hl)) τ hτ k hk, mul_zero]
    have huobs : ∀ a < n, ∀ τ < t + 1, ∀ k < m, cov (u a) (s τ (loc k)) = 0 := by
      intro a ha τ hτ k hk
      by_cases hτt : τ < t
      · exact hupast a ha τ hτt k hk
      have : τ = t := by omega
      subst this
      have e1 : s τ (loc k) = er (loc k) + X τ (loc k) := by simp [er]
      rw [e1, map_add, hul a ha k hk, zero_add]
      exact hspan τ (by omega) _ (hloc k hk) _ (hupast a ha)
    have hun : ∀ a < n, ∀ t' ≥ t, ∀ j < n, cov (u a) (e (t' + 1) j) = 0 := by
      intro a ha t' ht' j hj
      rw [hc1 a ha, hnoise t (by omega) a ha t' ht' j hj, zero_sub, neg_eq_zero]
      refine Finset.sum_eq_zero fun l hl => ?_
      rw [hnoise t (by omega) _ (hloc l (Finset.mem_range.mp hl)) t' ht' j hj, mul_zero]
    have huu : ∀ a < n, ∀ b < n, cov (u a) (u b) = P t a b - ∑ k ∈ Finset.range m, K t a k * P t (loc k) b := by
      intro a ha b hb
      rw [← hue a ha b hb]
      show cov (u a) (er b - _) = _
      rw [map_sub, cov_sum_right, Finset.sum_eq_zero, sub_zero]
      intro k hk
      rw [hul a ha k (Finset.mem_range.mp hk), mul_zero]
    refine ⟨fun i hi τ hτ k hk => ?_, fun i hi j hj => ?_⟩
    · rw [hu i hi, map_add, LinearMap.add_apply, cov_sum_left, Finset.sum_eq_zero, zero_add, h.symm]
      · exact h.later τ t (by omega) _ (hloc k hk) i hi
      · intro a ha
        rw [huobs a (Finset.mem_range.mp ha) τ hτ k hk, mul_zero]
    · rw [hu i hi, hu j hj, map_add, map_add, LinearMap.add_apply, LinearMap.add_apply, G.next i hi j hj,
        h.within t i hi j hj, h.symm (e (t + 1) i) (∑ a ∈ Finset.range n, _), cov_sum_left, cov_sum_left, cov_sum_left]
      have z1 : ∀ j < n, ∑ a ∈ Finset.range n, T.e i a * cov (u a) (e (t + 1) j) = 0 := by
        intro j hj
        refine Finset.sum_eq_zero fun a ha => ?_
        rw [hun a (Finset.mem_range.mp ha) t (le_refl t) j hj, mul_zero]
      have z2 : ∑ a ∈ Finset.range n, T.e j a * cov (u a) (e (t + 1) i) = 0 := by
        refine Finset.sum_eq_zero fun a ha => ?_
        rw [hun a (Finset.mem_range.mp ha) t (le_refl t) i hi, mul_zero]
      rw [z1 j hj, z2, add_zero, zero_add]
      congr 1
      refine Finset.sum_congr rfl fun a ha => ?_
      rw [cov_sum_right, Finset.mul_sum]
      refine Finset.sum_congr rfl fun b hb => ?_
      rw [huu a (Finset.mem_range.mp ha) b (Finset.mem_range.mp hb)]
      ring

end process

/-! ### the loop -/

section run
variable [CommRing V]

/-- everything about covariances is decided without the data -/
theorem kalmanRun_facts {lp : Lapack V} (hl : LapackExact lp) {n : Nat} {x0 P0 T Q : Arr V} {locs : List Nat}
    (hs : KShape n x0 P0 T Q locs) {data : Arr V} (hd : data.c = locs.length) :
    ∀ {N : Nat} {llk : V} {x P : Arr V}, kalmanRun lp T Q locs x0 P0 data N = .ok (llk, x, P) →
    ∃ (K PP : Nat → Arr V) (d : Nat → V), PP 0 = P0 ∧ PP N = P ∧ llk = sumTo N d ∧
      (∀ t ≤ N, (PP t).r = n ∧ SymmArr (PP t)) ∧
      (∀ t < N, kalmanGain lp T Q locs (PP t) = .ok (d t, K t, PP (t + 1))) ∧
      ∀ data' : Arr V, data'.c = locs.length → ∃ X : Nat → Arr V, X 0 = x0 ∧
        (∀ t ≤ N, (X t).r = n ∧ (X t).c = 1 ∧
          kalmanRun lp T Q locs x0 P0 data' t = .ok (sumTo t d, X t, PP t)) ∧
        ∀ t < N, ∀ i, (X (t + 1)).e i 0 = ∑ a ∈ Finset.range n, T.e i a * ((X t).e a 0 +
          ∑ k ∈ Finset.range locs.length, (K t).e a k * (data'.e t k - (X t).e (obsAt locs k) 0)) := by
  intro N
  induction N with
  | zero =>
    intro llk x P h
    have := Except.ok.inj h
    simp only [Prod.ext_iff] at this
    obtain ⟨rfl, rfl, rfl⟩ := this
    refine ⟨fun _ => T, fun _ => P0, fun _ => 0, rfl, rfl, rfl, fun _ _ => hs.p, fun t ht => absurd ht (Nat.not_lt_zero t),
      fun data' _ => ⟨fun _ => x0, rfl, fun t ht => ⟨hs.x.1, hs.x.2, ?_⟩, fun t ht => absurd ht (Nat.not_lt_zero t)⟩⟩
    obtain rfl : t = 0 := by omega
    rfl
  | succ N ih =>
    intro llk x P h
    rw [kalmanRun] at h
    obtain ⟨⟨l0, xN, PN⟩, h0, h⟩ := Except.bind_ok_iff.mp h
    obtain ⟨⟨l1, KN, P1⟩, h1, h⟩ := Except.bind_ok_iff.mp h
    obtain ⟨x1, h2, h⟩ := Except.bind_ok_iff.mp h
    have := Except.ok.inj h
    simp only [Prod.ext_iff] at this
    obtain ⟨rfl, rfl, rfl⟩ := this
    obtain ⟨K, PP, d, p0, pN, hsum, hsh, hgain, hdata⟩ := ih h0
    subst pN
    obtain ⟨g1, g2, g3, -, -⟩ := kalmanGain_facts hl hs.t (hsh N (le_refl N)) hs.q hs.locs h1
    refine ⟨fun t => if t = N then KN else K t, fun t => if t = N + 1 then P1 else PP t,
      fun t => if t = N then l1 else d t, ?_, ?_, ?_, ?_, ?_, ?_⟩
    · simpa using p0
    · simp
    · rw [sumTo, if_pos rfl, hsum]
      congr 1
      exact sumTo_congr fun i hi => by rw [if_neg (by omega)]
    · intro t ht
      by_cases htN : t = N + 1
      · simp only [if_pos htN]; exact g3
      · simp only [if_neg htN]; exact hsh t (by omega)
    · intro t ht
      by_cases htN : t = N
      · subst htN
        simpa using h1
      · have h3 : t ≠ N + 1 := by omega
        have h4 : t + 1 ≠ N + 1 := by omega
        simp only [if_neg h3, if_neg h4, if_neg htN]
        exact hgain t (by omega)
    · intro data' hd'
      obtain ⟨X, X0, hX, hstep⟩ := hdata data' hd'
      obtain ⟨xs1, xs2, xs3⟩ := hX N (le_refl N)
      obtain ⟨x', hx', s1, s2, s3⟩ := kalmanState_ok (y := dataRow data' N) hs.t ⟨g1, g2⟩ ⟨xs1, xs2⟩ ⟨hd', rfl⟩ hs.locs
      have hsm : ∀ t ≤ N, sumTo t (fun t => if t = N then l1 else d t) = sumTo t d := fun t ht =>
        sumTo_congr fun i hi => by rw [if_neg (by omega)]
      refine ⟨fun t => if t = N + 1 then x' else X t, by simpa using X0, ?_, ?_⟩
      · intro t ht
        by_cases htN : t = N + 1
        · subst htN
          simp only [if_true]
          refine ⟨s1, s2, ?_⟩
          rw [kalmanRun, xs3]
          simp only [bind, Except.bind]
          rw [h1]
          simp only
          rw [hx', sumTo, hsm N (le_refl N)]
          simp
        · simp only [if_neg htN]
          rw [hsm t (by omega)]
          exact hX t (by omega)
      · intro t ht i
        by_cases htN : t = N
        · subst htN
          simpa [dataRow] using s3 i
        · have h3 : t ≠ N + 1 := by omega
          have h4 : t + 1 ≠ N + 1 := by omega
          simp only [if_neg h3, if_neg h4, if_neg htN]
          exact hstep t (by omega) i

/-- the coefficients the recursion amounts to -/
theorem kalman_predicts {lp : Lapack V} (hl : LapackExact lp) {n : Nat} {x0 P0 T Q : Arr V} {locs : List Nat}
    (hs : KShape n x0 P0 T Q locs) {N : Nat} {K PP : Nat → Arr V} {d : Nat → V} (p0 : PP 0 = P0)
    (hsh : ∀ t ≤ N, (PP t).r = n ∧ SymmArr (PP t))
    (hg : ∀ t < N, kalmanGain lp T Q locs (PP t) = .ok (d t, K t, PP (t + 1))) :
    ∀ t ≤ N, ∃ (c : Nat → V) (w : Nat → Nat → Nat → V),
      (∀ (data : Arr V) (X : Nat → Arr V), X 0 = x0 → (∀ t < N, ∀ i, (X (t + 1)).e i 0 =
        ∑ a ∈ Finset.range n, T.e i a * ((X t).e a 0 +
          ∑ k ∈ Finset.range locs.length, (K t).e a k * (data.e t k - (X t).e (obsAt locs k) 0))) →
        ∀ i < n, (X t).e i 0 = weightedData locs.length (c i) (w i) data t) ∧
      ∀ {M : Type} [AddCommGroup M] [Module V M] (cov : M →ₗ[V] M →ₗ[V] V) (mean : M →ₗ[V] V) (s e : Nat → Nat → M),
        ObservedProcess n x0 P0 T Q cov mean s e → Predicts n locs t c w (PP t) cov mean s := by
  intro t ht
  have hloc : ∀ k < locs.length, obsAt locs k < n := fun k hk => obsAt_lt hs.locs hk
  let KK : Nat → Nat → Nat → V := fun t => (K t).e
  refine ⟨fun i => ∑ j ∈ Finset.range n, kfB n locs.length (obsAt locs) T.e KK t i j * x0.e j 0,
    kfW n locs.length (obsAt locs) T.e KK t, ?_, ?_⟩
  · intro data X hX0 hX i hi
    have := kf_linear (M := V) (K := KK) (y := data.e) (X := fun t i => (X t).e i 0) (T := T.e) (n := n) (N := N)
      hloc (fun t ht i _ => by simpa only [smul_eq_mul] using hX t ht i) t ht i hi
    simp only [smul_eq_mul, hX0] at this
    rw [this, weightedData, sumTo_eq]
    congr 1
    exact Finset.sum_congr rfl fun τ _ => (sumTo_eq ..).symm
  · intro M _ _ cov mean s e h
    have hcomb : ∀ i, weighted locs (kfW n locs.length (obsAt locs) T.e KK t i) s t =
        ∑ τ ∈ Finset.range t, ∑ k ∈ Finset.range locs.length,
          kfW n locs.length (obsAt locs) T.e KK t i τ k • s τ (obsAt locs k) := by
      intro i
      rw [weighted, sumTo_eq]
      exact Finset.sum_congr rfl fun τ _ => sumTo_eq ..
    have hgf : ∀ t < N, GainFacts n locs.length (obsAt locs) T.e Q.e (PP t).e (KK t) (PP (t + 1)).e := fun t ht =>
      (kalmanGain_facts hl hs.t (hsh t (by omega)) hs.q hs.locs (hg t ht)).2.2.2.1
    -- the recursion for random variables
    let X : Nat → Nat → M := fun t => Nat.rec (fun _ => (0 : M)) (fun t X i => ∑ a ∈ Finset.range n, T.e i a • (X a +
      ∑ k ∈ Finset.range locs.length, KK t a k • (s t (obsAt locs k) - X (obsAt locs k)))) t
    have hXw : ∀ i < n, X t i = weighted locs (kfW n locs.length (obsAt locs) T.e KK t i) s t := by
      intro i hi
      rw [hcomb, kf_linear (X := X) (y := fun t k => s t (obsAt locs k)) (N := t) hloc (fun _ _ _ _ => rfl) t
        (le_refl t) i hi, Finset.sum_eq_zero, zero_add]
      intro j _
      exact smul_zero _
    obtain ⟨e1, e2⟩ := kf_errors (P := fun t => (PP t).e) hloc h (by rw [p0]) hgf (X := X) (fun _ _ => rfl)
      (fun _ _ _ _ => rfl) t ht
    refine ⟨?_, ?_, ?_⟩
    · intro i hi
      have hm : ∀ t i, i < n → mean (s (t + 1) i) = ∑ a ∈ Finset.range n, T.e i a * mean (s t a) := by
        intro t i hi
        rw [h.step t i hi, sumTo_eq, map_add, h.noise t i hi, add_zero, map_sum]
        exact Finset.sum_congr rfl fun a _ => by rw [map_smul, smul_eq_mul]
      have := kf_linear (M := V) (K := KK) (y := fun t k => mean (s t (obsAt locs k))) (X := fun t i => mean (s t i))
        (T := T.e) (n := n) (N := t) hloc (fun t _ i hi => by simpa using hm t i hi) t (le_refl t) i hi
      simp only [smul_eq_mul] at this
      rw [this, hcomb]
      congr 1
      · exact Finset.sum_congr rfl fun j hj => by rw [h.firstMean j (Finset.mem_range.mp hj)]
      · rw [map_sum]
        refine Finset.sum_congr rfl fun τ _ => ?_
        rw [map_sum]
        exact Finset.sum_congr rfl fun k _ => by rw [map_smul, smul_eq_mul]
    · intro i hi τ hτ k hk
      rw [← hXw i hi]
      exact e1 i hi τ hτ k hk
    · intro i hi j hj
      rw [← hXw i hi, ← hXw j hj]
      exact e2 i hi j hj

end run

end Pynare

import Verif.Lemmas.Certainty
import Verif.Spec.Mixture
/-!
# The correction for risk under sums of covariances (C188)
-/

namespace Pynare

variable {V : Type} [Field V] {a b : V}

/-- numbers, vectors and matrices of the same shape, of which the third is `a` times the first plus `b` times the second -/
inductive Nd.Mix (a b : V) : Nd V → Nd V → Nd V → Prop
  | num (x y : V) : Nd.Mix a b (.num x) (.num y) (.num (a * x + b * y))
  | vec (n : Nat) (e e' e'' : Nat → V) (h : ∀ i < n, e'' i = a * e i + b * e' i) :
      Nd.Mix a b (.vec n e) (.vec n e') (.vec n e'')
  | mat (x y z : Arr V) (h : Arr.Mix a b x y z) : Nd.Mix a b (.mat x) (.mat y) (.mat z)

theorem Nd.Mix.to2 {x y z : Nd V} (h : Nd.Mix a b x y z) : Arr.Mix a b x.to2 y.to2 z.to2 := by
  cases h with
  | num x y => exact ⟨rfl, rfl, rfl, rfl, fun _ _ _ _ => rfl⟩
  | vec n e e' e'' h => exact ⟨rfl, rfl, rfl, rfl, fun i hi _ _ => h i hi⟩
  | mat x y z h => exact h

theorem Nd.Mix.map {x y z : Nd V} (h : Nd.Mix a b x y z) {f : V → V} (hf : ∀ v w, f (a * v + b * w) = a * f v + b * f w) :
    Nd.Mix a b (x.map f) (y.map f) (z.map f) := by
  cases h with
  | num x y => simp only [Nd.map, hf]; exact .num _ _
  | vec n e e' e'' h => exact .vec _ _ _ _ fun i hi => by rw [h i hi, hf]
  | mat x y z h => exact .mat _ _ _ ⟨h.1, h.2.1, h.2.2.1, h.2.2.2.1, fun i hi j hj => by
      show f (z.e i j) = a * f (x.e i j) + b * f (y.e i j)
      rw [h.2.2.2.2 i hi j hj, hf]⟩

/-- products with two vectors and with a sum of multiples of them -/
theorem matmulScalar_mix {s : Nd V} {n : Nat} {e e' e'' : Nat → V} (he : ∀ i < n, e'' i = a * e i + b * e' i)
    {w w' w'' : Nd V} (h : Nd.matmulScalar s (.vec n e) = .ok w) (h' : Nd.matmulScalar s (.vec n e') = .ok w')
    (h'' : Nd.matmulScalar s (.vec n e'') = .ok w'') : Nd.Mix a b w w' w'' := by
  unfold Nd.matmulScalar at h h' h''
  by_cases hn : n = 1
  · subst hn
    have e0 := he 0 (by omega)
    have i1 : (Nd.vec 1 e).item? = some (e 0) := rfl
    have i2 : (Nd.vec 1 e').item? = some (e' 0) := rfl
    have i3 : (Nd.vec 1 e'').item? = some (e'' 0) := rfl
    rw [i1] at h
    rw [i2] at h'
    rw [i3] at h''
    cases hs : s.item? with
    | some c =>
      rw [hs] at h h' h''
      cases h
      cases h'
      cases h''
      rw [e0, show c * (a * e 0 + b * e' 0) = a * (c * e 0) + b * (c * e' 0) by ring]
      exact .num _ _
    | none =>
      rw [hs] at h h' h''
      cases h
      cases h'
      cases h''
      rw [e0]
      cases s with
      | num x => cases hs
      | vec m g => exact .vec _ _ _ _ fun i _ => by ring
      | mat c => exact .mat _ _ _ ⟨rfl, rfl, rfl, rfl, fun i _ j _ => by simp only; ring⟩
  · have i1 : (Nd.vec n e).item? = none := by simp [Nd.item?, hn]
    have i2 : (Nd.vec n e').item? = none := by simp [Nd.item?, hn]
    have i3 : (Nd.vec n e'').item? = none := by simp [Nd.item?, hn]
    rw [i1] at h
    rw [i2] at h'
    rw [i3] at h''
    cases hs : s.item? with
    | some c =>
      rw [hs] at h h' h''
      cases h
      cases h'
      cases h''
      exact .vec _ _ _ _ fun i hi => by rw [he i hi]; ring
    | none =>
      rw [hs] at h h' h''
      simp only at h h' h''
      cases s with
      | num x => cases hs
      | vec m g =>
        simp only [Nd.matmul] at h h' h''
        split at h
        · rename_i hm
          subst hm
          rw [if_pos rfl] at h' h''
          cases h
          cases h'
          cases h''
          rw [show (sumTo m fun i => g i * e'' i) = a * (sumTo m fun i => g i * e i) + b * sumTo m fun i => g i * e' i by
            simp only [sumTo_eq, Finset.mul_sum, ← Finset.sum_add_distrib]
            exact Finset.sum_congr rfl fun i hi => by rw [he i (Finset.mem_range.mp hi)]; ring]
          exact .num _ _
        · cases h
      | mat c =>
        simp only [Nd.matmul] at h h' h''
        split at h
        · rename_i hm
          rw [if_pos hm] at h' h''
          cases h
          cases h'
          cases h''
          refine .vec _ _ _ _ fun i _ => ?_
          simp only [sumTo_eq, Finset.mul_sum, ← Finset.sum_add_distrib]
          exact Finset.sum_congr rfl fun j hj => by
            rw [he j (by rw [← hm]; exact Finset.mem_range.mp hj)]; ring
        · cases h

/-- the solutions of linear systems with two right-hand sides and with a sum of multiples of them -/
theorem solveChecked_mix {la : LinAlg V} (ex : la.Exact) {A r r' r'' x x' x'' : Arr V} (hb : Arr.Mix a b r r' r'')
    (h : la.solveChecked A r = .ok x) (h' : la.solveChecked A r' = .ok x') (h'' : la.solveChecked A r'' = .ok x'') :
    Arr.Mix a b x x' x'' := by
  unfold LinAlg.solveChecked at h h' h''
  split at h
  swap
  · cases h
  split at h'
  swap
  · cases h'
  split at h''
  swap
  · cases h''
  rename_i c c' c''
  obtain ⟨⟨p1, p2, p3, p4⟩, -⟩ := ex.solve _ _ _ c.1 c.2 h
  obtain ⟨⟨o1, o2, o3, o4⟩, -⟩ := ex.solve _ _ _ c'.1 c'.2 h'
  obtain ⟨⟨q1, q2, q3, q4⟩, inv, ⟨i1, i2, i3, -⟩, j1, j2, j3, j4⟩ := ex.solve _ _ _ c''.1 c''.2 h''
  obtain ⟨b1, b2, b1', b2', b3⟩ := hb
  refine ⟨by omega, by omega, by omega, by omega, fun i hi j hj => ?_⟩
  have hA : A.r = A.c := c.1
  have e : ∀ l < A.c, (sumTo A.r fun m => inv.e i m * A.e m l) = if l = i then 1 else 0 := by
    intro l hl
    have := j4 i (by omega) l (by omega)
    rw [j1] at this
    exact this
  have key : ∀ z : Nat → V, z i = sumTo A.r fun m => inv.e i m * sumTo A.c fun l => A.e m l * z l := by
    intro z
    have : (sumTo A.c fun l => (sumTo A.r fun m => inv.e i m * A.e m l) * z l) = z i := by
      rw [sumTo_congr (g := fun l => (if l = i then 1 else 0) * z l) (fun l hl => by rw [e l hl])]
      rw [sumTo_eq, Finset.sum_eq_single i]
      · simp
      · intro l _ hl; simp [hl]
      · intro hi'; exact absurd (Finset.mem_range.mpr (by omega)) hi'
    rw [← this]
    simp only [sumTo_eq, Finset.sum_mul, Finset.mul_sum]
    rw [Finset.sum_comm]
    exact Finset.sum_congr rfl fun m _ => Finset.sum_congr rfl fun l _ => by ring
  rw [key fun l => x''.e l j, key fun l => x'.e l j, key fun l => x.e l j]
  simp only [sumTo_eq] at *
  rw [Finset.mul_sum, Finset.mul_sum, ← Finset.sum_add_distrib]
  refine Finset.sum_congr rfl fun m hm => ?_
  have hm := Finset.mem_range.mp hm
  rw [p4 m hm j hj, o4 m hm j (by omega), q4 m hm j (by omega), b3 m (by omega) j (by omega)]
  ring

theorem solveNd_mix {la : LinAlg V} (ex : la.Exact) {A : Arr V} {r r' r'' x x' x'' : Nd V} (hb : Nd.Mix a b r r' r'')
    (h : la.solveNd A r = .ok x) (h' : la.solveNd A r' = .ok x') (h'' : la.solveNd A r'' = .ok x'') :
    Nd.Mix a b x x' x'' := by
  cases hb with
  | num v w => cases h
  | vec n e e' e'' he =>
    simp only [LinAlg.solveNd] at h h' h''
    obtain ⟨z, hz, h⟩ := Except.bind_eq_ok h
    obtain ⟨z', hz', h'⟩ := Except.bind_eq_ok h'
    obtain ⟨z'', hz'', h''⟩ := Except.bind_eq_ok h''
    obtain ⟨t1, t2, t3, t4, t5⟩ := solveChecked_mix ex (a := a) (b := b)
      (show Arr.Mix a b (⟨n, 1, fun i _ => e i⟩ : Arr V) ⟨n, 1, fun i _ => e' i⟩ ⟨n, 1, fun i _ => e'' i⟩ from
        ⟨rfl, rfl, rfl, rfl, fun i hi _ _ => he i hi⟩) hz hz' hz''
    have hc : z.c = 1 := by
      unfold LinAlg.solveChecked at hz
      split at hz
      · rename_i c
        exact (ex.solve _ _ _ c.1 c.2 hz).1.2.2.1.symm
      · cases hz
    cases h
    cases h'
    cases h''
    rw [t1, t3]
    exact .vec _ _ _ _ fun i hi => t5 i hi 0 (by omega)
  | mat y y' y'' ha =>
    simp only [LinAlg.solveNd] at h h' h''
    obtain ⟨z, hz, h⟩ := Except.bind_eq_ok h
    obtain ⟨z', hz', h'⟩ := Except.bind_eq_ok h'
    obtain ⟨z'', hz'', h''⟩ := Except.bind_eq_ok h''
    cases h
    cases h'
    cases h''
    exact .mat _ _ _ (solveChecked_mix ex ha hz hz' hz'')

/-- the correction for risk when the covariances are sums of multiples of others -/
theorem solveDel2_mix {la : LinAlg V} (ex : la.Exact) {half : V} {t : Typer} {nz : Nat} {gy gu ghuu : Nd V}
    {sigma sigma' sigma'' J H : Arr V} (hs : Arr.Mix a b sigma sigma' sigma'') {d d' d'' : Nd V}
    (h : solveDel2 la half t nz gy gu ghuu sigma J H = .ok d)
    (h' : solveDel2 la half t nz gy gu ghuu sigma' J H = .ok d')
    (h'' : solveDel2 la half t nz gy gu ghuu sigma'' J H = .ok d'') : Nd.Mix a b d d' d'' := by
  unfold solveDel2 at h h' h''
  obtain ⟨fsq, hfsq, h⟩ := Except.bind_eq_ok h
  obtain ⟨Hf, hHf, h⟩ := Except.bind_eq_ok h
  obtain ⟨guf, hguf, h⟩ := Except.bind_eq_ok h
  obtain ⟨B1, hB1, h⟩ := Except.bind_eq_ok h
  obtain ⟨Jf, hJf, h⟩ := Except.bind_eq_ok h
  obtain ⟨huf, hhuf, h⟩ := Except.bind_eq_ok h
  obtain ⟨x, hx, h⟩ := Except.bind_eq_ok h
  obtain ⟨s, hs', h⟩ := Except.bind_eq_ok h
  simp only [hfsq, hHf, hguf, hB1, hJf, hhuf, hx, hs', exc_bind] at h' h''
  obtain ⟨w, hw, h⟩ := Except.bind_eq_ok h
  obtain ⟨w', hw', h'⟩ := Except.bind_eq_ok h'
  obtain ⟨w'', hw'', h''⟩ := Except.bind_eq_ok h''
  obtain ⟨gyf, hgyf, h⟩ := Except.bind_eq_ok h
  obtain ⟨l, hl, h⟩ := Except.bind_eq_ok h
  obtain ⟨d, hd, h⟩ := Except.bind_eq_ok h
  obtain ⟨eyef, heye, h⟩ := Except.bind_eq_ok h
  obtain ⟨deriv, hder, h⟩ := Except.bind_eq_ok h
  simp only [hgyf, hl, hd, heye, hder, exc_bind] at h' h''
  split at h
  · cases h
  rename_i hJ
  rw [if_neg hJ] at h' h''
  obtain ⟨y, hy, h⟩ := Except.bind_eq_ok h
  obtain ⟨lhs, hlhs, h⟩ := Except.bind_eq_ok h
  simp only [hy, hlhs, exc_bind] at h' h''
  have hwt : Nd.Mix a b w w' w'' := by
    rw [hs.1, hs.2.1] at hw'
    rw [hs.2.2.1, hs.2.2.2.1] at hw''
    refine matmulScalar_mix (fun i hi => ?_) hw hw' hw''
    have hr : 0 < sigma.r := Nat.pos_of_ne_zero fun h0 => by simp [h0] at hi
    exact hs.2.2.2.2 _ (Nat.mod_lt _ hr) _ (Nat.div_lt_of_lt_mul (by rw [Nat.mul_comm]; exact hi))
  cases lhs with
  | num v => cases h
  | vec n e => cases h
  | mat L =>
    simp only at h h' h''
    obtain ⟨r, hr, h⟩ := Except.bind_eq_ok h
    obtain ⟨r', hr', h'⟩ := Except.bind_eq_ok h'
    obtain ⟨r'', hr'', h''⟩ := Except.bind_eq_ok h''
    cases h
    cases h'
    cases h''
    exact (solveNd_mix ex (hwt.map fun v w => by ring) hr hr' hr'').map fun v w => by ring

end Pynare

import Verif.Spec.Certainty
import Verif.Lemmas.Whole
import Verif.Lemmas.SecondSolve
import Verif.Lemmas.Build
/-!
# Lemmas about model files with different shocks blocks
-/

namespace Pynare

set_option linter.unusedSectionVars false

variable {V SS S : Type}

theorem facBounds_differ {ops : Ops V} {look : String → Option V} {o : Outline V} {a a' : Actions V}
    (h1 : a'.initval = a.initval) (h2 : a'.endval = a.endval) (h3 : a'.histval = a.histval) :
    facBounds ops look o a' = facBounds ops look o a := by
  unfold facBounds
  rw [h1, h2, h3]

/-- the outlines differ in the shocks only -/
theorem outline_differ {ops : Ops V} {sq : V → Except Err V} {m m' : ModelFile V} (hd : DifferInShocks m m')
    {o o' : Outline V} (h : createOutline ops sq m = .ok o) (h' : createOutline ops sq m' = .ok o') :
    ∃ d, o' = { o with shocks := d } := by
  obtain ⟨-, o1, s, st, o2, b, d, a1, a2, a3, a4, -, -, rfl⟩ := createOutline_inv h
  obtain ⟨-, o1', s', st', o2', b', d', c1, c2, c3, c4, -, -, rfl⟩ := createOutline_inv h'
  rw [hd.decls, a1] at c1
  cases c1
  rw [hd.params, a2] at c2
  cases c2
  rw [hd.stmts, a3] at c3
  cases c3
  rw [facBounds_differ hd.initval hd.endval hd.histval, a4] at c4
  cases c4
  exact ⟨d', rfl⟩

theorem stoch_names [One V] {shks : Dict (Moments V)} {xs : List String} {ss : List (Stoch V)}
    (h : makeAll (makeStoch shks) xs = .ok ss) : ss.map Stoch.name = xs := by
  refine makeAll_names Stoch.name _ ?_ h
  intro x y hxy
  unfold makeStoch at hxy
  split at hxy
  · cases hxy; rfl
  · split at hxy
    · cases hxy
    · cases hxy; rfl

/-- the models differ in the shocks only -/
theorem built_differ [Zero V] [One V] {env : MEnv V SS S} {o : Outline V} {d : Dict (ShockDict V)} {lang name name' : String}
    {md md' : MState V SS S} (h : fromOutline env o lang name = .ok md)
    (h' : fromOutline env { o with shocks := d } lang name' = .ok md') :
    md'.endog = md.endog ∧ md'.stochNames = md.stochNames ∧ md'.params = md.params ∧ md'.locals = md.locals ∧
      md'.indexes = md.indexes ∧ md'.steady = md.steady ∧ md'.dynamic = md.dynamic ∧ md'.statespace = md.statespace := by
  simp only [fromOutline, Except.bind_ok_iff] at h h'
  obtain ⟨ls, h1, locals, h2, h⟩ := h
  obtain ⟨ls', h1', locals', h2', h'⟩ := h'
  rw [h1] at h1'
  cases h1'
  rw [h2] at h2'
  cases h2'
  split at h
  · cases h
  rename_i hl
  rw [if_neg hl] at h'
  simp only [Except.bind_ok_iff] at h h'
  obtain ⟨ps, h3, params, h4, h⟩ := h
  obtain ⟨ps', h3', params', h4', h'⟩ := h'
  rw [h3] at h3'
  cases h3'
  rw [h4] at h4'
  cases h4'
  simp only [MState.build, outlineArgs, Except.bind_ok_iff, Except.ok.injEq] at h h'
  obtain ⟨ll, g1, st, g2, sto, g3, det, g4, idx, g5, dy, g6, ss, g7, rfl⟩ := h
  obtain ⟨ll', k1, st', k2, sto', k3, det', k4, idx', k5, dy', k6, ss', k7, rfl⟩ := h'
  rw [g1] at k1
  cases k1
  rw [g2] at k2
  cases k2
  rw [g5] at k5
  cases k5
  have n := stoch_names g3
  have n' := stoch_names k3
  rw [n', ← n, g6] at k6
  cases k6
  have l : sto'.length = sto.length := by
    have := congrArg List.length (n'.trans n.symm)
    simpa using this
  rw [l, g7] at k7
  cases k7
  exact ⟨rfl, n'.trans n.symm, rfl, rfl, rfl, rfl, rfl, rfl⟩

section
variable [Field V]

/-- numbers, vectors and matrices of the same shape, of which the second has `k` times the entries of the first -/
inductive Nd.Times (k : V) : Nd V → Nd V → Prop
  | num (x : V) : Nd.Times k (.num x) (.num (k * x))
  | vec (n : Nat) (e e' : Nat → V) (h : ∀ i < n, e' i = k * e i) : Nd.Times k (.vec n e) (.vec n e')
  | mat (a b : Arr V) (h : a.Times k b) : Nd.Times k (.mat a) (.mat b)

theorem Nd.Times.to2 {k : V} {x y : Nd V} (h : Nd.Times k x y) : x.to2.Times k y.to2 := by
  cases h with
  | num x => exact ⟨rfl, rfl, fun _ _ _ _ => rfl⟩
  | vec n e e' h => exact ⟨rfl, rfl, fun i hi _ _ => h i hi⟩
  | mat a b h => exact h

theorem Nd.Times.map {k : V} {x y : Nd V} (h : Nd.Times k x y) {f : V → V} (hf : ∀ v, f (k * v) = k * f v) :
    Nd.Times k (x.map f) (y.map f) := by
  cases h with
  | num x => simp only [Nd.map, hf]; exact .num _
  | vec n e e' h => exact .vec _ _ _ fun i hi => by rw [h i hi, hf]
  | mat a b h => exact .mat _ _ ⟨h.1, h.2.1, fun i hi j hj => by
      show f (b.e i j) = k * f (a.e i j)
      rw [h.2.2 i hi j hj, hf]⟩

/-- a product with a vector that is multiplied by a number -/
theorem matmulScalar_times {k : V} {s : Nd V} {n : Nat} {e e' : Nat → V} (he : ∀ i < n, e' i = k * e i) {w w' : Nd V}
    (h : Nd.matmulScalar s (.vec n e) = .ok w) (h' : Nd.matmulScalar s (.vec n e') = .ok w') : Nd.Times k w w' := by
  unfold Nd.matmulScalar at h h'
  by_cases hn : n = 1
  · subst hn
    have e0 := he 0 (by omega)
    have i1 : (Nd.vec 1 e).item? = some (e 0) := rfl
    have i2 : (Nd.vec 1 e').item? = some (e' 0) := rfl
    rw [i1] at h
    rw [i2] at h'
    cases hs : s.item? with
    | some a =>
      rw [hs] at h h'
      cases h
      cases h'
      rw [e0, show a * (k * e 0) = k * (a * e 0) by ring]
      exact .num _
    | none =>
      rw [hs] at h h'
      cases h
      cases h'
      rw [e0]
      cases s with
      | num x => cases hs
      | vec m g => exact .vec _ _ _ fun i _ => by ring
      | mat a => exact .mat _ _ ⟨rfl, rfl, fun i _ j _ => by simp only; ring⟩
  · have i1 : (Nd.vec n e).item? = none := by simp [Nd.item?, hn]
    have i2 : (Nd.vec n e').item? = none := by simp [Nd.item?, hn]
    rw [i1] at h
    rw [i2] at h'
    cases hs : s.item? with
    | some a =>
      rw [hs] at h h'
      cases h
      cases h'
      exact .vec _ _ _ fun i hi => by rw [he i hi]; ring
    | none =>
      rw [hs] at h h'
      simp only at h h'
      cases s with
      | num x => cases hs
      | vec m g =>
        simp only [Nd.matmul] at h h'
        split at h
        · rename_i hm
          subst hm
          rw [if_pos rfl] at h'
          cases h
          cases h'
          rw [show (sumTo m fun i => g i * e' i) = k * sumTo m fun i => g i * e i by
            simp only [sumTo_eq, Finset.mul_sum]
            exact Finset.sum_congr rfl fun i hi => by rw [he i (Finset.mem_range.mp hi)]; ring]
          exact .num _
        · cases h
      | mat a =>
        simp only [Nd.matmul] at h h'
        split at h
        · rename_i hm
          rw [if_pos hm] at h'
          cases h
          cases h'
          refine .vec _ _ _ fun i _ => ?_
          simp only [sumTo_eq, Finset.mul_sum]
          exact Finset.sum_congr rfl fun j hj => by
            rw [he j (by rw [← hm]; exact Finset.mem_range.mp hj)]; ring
        · cases h

/-- the solution of a linear system whose right-hand side is multiplied by a number -/
theorem solveChecked_times {la : LinAlg V} (ex : la.Exact) {k : V} {A b b' x x' : Arr V} (hb : b.Times k b')
    (h : la.solveChecked A b = .ok x) (h' : la.solveChecked A b' = .ok x') : x.Times k x' := by
  unfold LinAlg.solveChecked at h h'
  split at h
  swap
  · cases h
  split at h'
  swap
  · cases h'
  rename_i c c'
  obtain ⟨⟨p1, p2, p3, p4⟩, -⟩ := ex.solve _ _ _ c.1 c.2 h
  obtain ⟨⟨q1, q2, q3, q4⟩, inv, ⟨i1, i2, i3, -⟩, j1, j2, j3, j4⟩ := ex.solve _ _ _ c'.1 c'.2 h'
  obtain ⟨b1, b2, b3⟩ := hb
  refine ⟨by omega, by omega, fun i hi j hj => ?_⟩
  have hA : A.r = A.c := c.1
  have e : ∀ l < A.c, (sumTo A.r fun m => inv.e i m * A.e m l) = if l = i then 1 else 0 := by
    intro l hl
    have := j4 i (by omega) l (by omega)
    rw [j1] at this
    exact this
  have key : ∀ z : Nat → V, z i = sumTo A.r fun m => inv.e i m * sumTo A.c fun l => A.e m l * z l := by
    intro z
    have : (sumTo A.c fun l => (sumTo A.r fun m => inv.e i m * A.e m l) * z l) = z i := by
      rw [sumTo_congr (g := fun l => (if l = i then 1 else 0) * z l) (fun l hl => by rw [e l hl])]
      rw [sumTo_eq, Finset.sum_eq_single i]
      · simp
      · intro l _ hl; simp [hl]
      · intro hi'; exact absurd (Finset.mem_range.mpr (by omega)) hi'
    rw [← this]
    simp only [sumTo_eq, Finset.sum_mul, Finset.mul_sum]
    rw [Finset.sum_comm]
    exact Finset.sum_congr rfl fun m _ => Finset.sum_congr rfl fun l _ => by ring
  rw [key fun l => x'.e l j, key fun l => x.e l j]
  simp only [sumTo_eq] at *
  rw [Finset.mul_sum]
  refine Finset.sum_congr rfl fun m hm => ?_
  have hm := Finset.mem_range.mp hm
  rw [p4 m hm j hj, q4 m hm j (by omega), b3 m (by omega) j (by omega)]
  ring

theorem solveNd_times {la : LinAlg V} (ex : la.Exact) {k : V} {A : Arr V} {b b' x x' : Nd V} (hb : Nd.Times k b b')
    (h : la.solveNd A b = .ok x) (h' : la.solveNd A b' = .ok x') : Nd.Times k x x' := by
  cases hb with
  | num v => cases h
  | vec n e e' he =>
    simp only [LinAlg.solveNd] at h h'
    obtain ⟨z, hz, h⟩ := Except.bind_eq_ok h
    obtain ⟨z', hz', h'⟩ := Except.bind_eq_ok h'
    obtain ⟨t1, t2, t3⟩ := solveChecked_times ex (k := k)
      (show (⟨n, 1, fun i _ => e i⟩ : Arr V).Times k ⟨n, 1, fun i _ => e' i⟩ from ⟨rfl, rfl, fun i hi _ _ => he i hi⟩) hz hz'
    have hc : z.c = 1 := by
      unfold LinAlg.solveChecked at hz
      split at hz
      · rename_i c
        exact (ex.solve _ _ _ c.1 c.2 hz).1.2.2.1.symm
      · cases hz
    cases h
    cases h'
    rw [t1]
    exact .vec _ _ _ fun i hi => t3 i hi 0 (by omega)
  | mat a a' ha =>
    simp only [LinAlg.solveNd] at h h'
    obtain ⟨z, hz, h⟩ := Except.bind_eq_ok h
    obtain ⟨z', hz', h'⟩ := Except.bind_eq_ok h'
    cases h
    cases h'
    exact .mat _ _ (solveChecked_times ex ha hz hz')

/-- the correction for risk when all covariances are multiplied by a number -/
theorem solveDel2_times {la : LinAlg V} (ex : la.Exact) {k half : V} {t : Typer} {nz : Nat} {gy gu ghuu : Nd V}
    {sigma sigma' J H : Arr V} (hs : sigma.Times k sigma') {d d' : Nd V}
    (h : solveDel2 la half t nz gy gu ghuu sigma J H = .ok d)
    (h' : solveDel2 la half t nz gy gu ghuu sigma' J H = .ok d') : Nd.Times k d d' := by
  unfold solveDel2 at h h'
  obtain ⟨fsq, hfsq, h⟩ := Except.bind_eq_ok h
  obtain ⟨Hf, hHf, h⟩ := Except.bind_eq_ok h
  obtain ⟨guf, hguf, h⟩ := Except.bind_eq_ok h
  obtain ⟨B1, hB1, h⟩ := Except.bind_eq_ok h
  obtain ⟨Jf, hJf, h⟩ := Except.bind_eq_ok h
  obtain ⟨huf, hhuf, h⟩ := Except.bind_eq_ok h
  obtain ⟨x, hx, h⟩ := Except.bind_eq_ok h
  obtain ⟨s, hs', h⟩ := Except.bind_eq_ok h
  simp only [hfsq, hHf, hguf, hB1, hJf, hhuf, hx, hs', exc_bind] at h'
  obtain ⟨w, hw, h⟩ := Except.bind_eq_ok h
  obtain ⟨w', hw', h'⟩ := Except.bind_eq_ok h'
  obtain ⟨gyf, hgyf, h⟩ := Except.bind_eq_ok h
  obtain ⟨l, hl, h⟩ := Except.bind_eq_ok h
  obtain ⟨d, hd, h⟩ := Except.bind_eq_ok h
  obtain ⟨eyef, heye, h⟩ := Except.bind_eq_ok h
  obtain ⟨deriv, hder, h⟩ := Except.bind_eq_ok h
  simp only [hgyf, hl, hd, heye, hder, exc_bind] at h'
  split at h
  · cases h
  rename_i hJ
  rw [if_neg hJ] at h'
  obtain ⟨y, hy, h⟩ := Except.bind_eq_ok h
  obtain ⟨lhs, hlhs, h⟩ := Except.bind_eq_ok h
  simp only [hy, hlhs, exc_bind] at h'
  have hwt : Nd.Times k w w' := by
    rw [hs.1, hs.2.1] at hw'
    refine matmulScalar_times (fun i hi => ?_) hw hw'
    have hr : 0 < sigma.r := Nat.pos_of_ne_zero fun h0 => by simp [h0] at hi
    exact hs.2.2 _ (Nat.mod_lt _ hr) _ (Nat.div_lt_of_lt_mul (by rw [Nat.mul_comm]; exact hi))
  cases lhs with
  | num v => cases h
  | vec n e => cases h
  | mat L =>
    simp only at h h'
    obtain ⟨r, hr, h⟩ := Except.bind_eq_ok h
    obtain ⟨r', hr', h'⟩ := Except.bind_eq_ok h'
    cases h
    cases h'
    exact (solveNd_times ex (hwt.map fun v => by ring) hr hr').map fun v => by ring

end

end Pynare

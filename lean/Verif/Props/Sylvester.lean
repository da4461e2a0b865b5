import Verif.Lemmas.Sylvester
import Verif.Examples.FirstOrder
/-!
# C47: the generalised Sylvester equation
-/

namespace Pynare

open Matrix

variable {V : Type} [CommRing V] [DecidableEq V]

set_option linter.unusedSectionVars false

theorem blk_of_entries {m n : Nat} {a b : Arr V}
    (h : a.blk (fun i : Fin m => i.val) (fun j : Fin n => j.val) =
      b.blk (fun i : Fin m => i.val) fun j : Fin n => j.val) :
    ∀ i < m, ∀ j < n, a.e i j = b.e i j := by
  intro i hi j hj
  exact congrFun (congrFun h ⟨i, hi⟩) ⟨j, hj⟩

/-- the decomposition as an equation of matrices -/
theorem GQZ.Decomposes.mats {g : GQZ V} {a c : Arr V} (h : g.Decomposes a c) :
    let κ : Fin a.r → Nat := fun i => i.val
    a.blk κ κ = g.Q.blk κ κ * g.P.blk κ κ * (g.Z.blk κ κ)ᵀ ∧
    c.blk κ κ = g.Q.blk κ κ * g.S.blk κ κ * (g.Z.blk κ κ)ᵀ ∧
    g.Q.blk κ κ * (g.Q.blk κ κ)ᵀ = 1 ∧ (g.Q.blk κ κ)ᵀ * g.Q.blk κ κ = 1 ∧
    g.Z.blk κ κ * (g.Z.blk κ κ)ᵀ = 1 ∧ (g.Z.blk κ κ)ᵀ * g.Z.blk κ κ = 1 := by
  intro κ
  have hκ : IsEnum κ a.r := IsEnum.fin a.r
  have hq : IsEnum κ g.Q.r := by rw [(h.shape g.Q (by simp)).1]; exact hκ
  have hz : IsEnum κ g.Z.r := by rw [(h.shape g.Z (by simp)).1]; exact hκ
  obtain ⟨q1, q2⟩ := h.orthQ.mul hq
  obtain ⟨z1, z2⟩ := h.orthZ.mul hz
  refine ⟨?_, ?_, q1, q2, z1, z2⟩
  · ext i j
    simp only [Matrix.mul_apply, Matrix.transpose_apply, Arr.blk_apply]
    rw [← h.left i.val i.2 j.val j.2, sumTo_enum hκ]
    exact Finset.sum_congr rfl fun k _ => by rw [sumTo_enum hκ]
  · ext i j
    simp only [Matrix.mul_apply, Matrix.transpose_apply, Arr.blk_apply]
    rw [← h.right i.val i.2 j.val j.2, sumTo_enum hκ]
    exact Finset.sum_congr rfl fun k _ => by rw [sumTo_enum hκ]

/-- the equation between matrices gives the equation of the specification -/
theorem solves_of_mats {A B C D E X : Arr V} {m n : Nat} (hE : E.r = m ∧ E.c = n) (hX : X.r = m ∧ X.c = n)
    (h : A.blk (fun i : Fin m => i.val) (fun j : Fin m => j.val) *
        X.blk (fun i : Fin m => i.val) (fun j : Fin n => j.val) *
        (B.blk (fun i : Fin n => i.val) fun j : Fin n => j.val)ᵀ +
      C.blk (fun i : Fin m => i.val) (fun j : Fin m => j.val) *
        X.blk (fun i : Fin m => i.val) (fun j : Fin n => j.val) *
        (D.blk (fun i : Fin n => i.val) fun j : Fin n => j.val)ᵀ =
      E.blk (fun i : Fin m => i.val) fun j : Fin n => j.val) : SolvesSylvester A B C D E X := by
  refine ⟨by omega, by omega, ?_⟩
  intro i hi j hj
  have := congrFun (congrFun h ⟨i, by omega⟩) ⟨j, by omega⟩
  simp only [Matrix.add_apply, Matrix.mul_apply, Matrix.transpose_apply, Arr.blk_apply] at this
  have conv : ∀ (M N : Arr V), (sumTo E.r fun k => sumTo E.c fun l => M.e i k * X.e k l * N.e j l) =
      ∑ l : Fin n, (∑ k : Fin m, M.e i k.val * X.e k.val l.val) * N.e j l.val := by
    intro M N
    rw [hE.1, hE.2, sumTo_enum (IsEnum.fin m)]
    rw [Finset.sum_congr rfl fun k _ => sumTo_enum (IsEnum.fin n) _, Finset.sum_comm]
    exact Finset.sum_congr rfl fun l _ => by rw [Finset.sum_mul]
  rw [conv, conv]
  exact this

/-- **C47.** If `generalized_sylvester` returns, its result is an array of numbers that solves the
equation, for all sizes and all patterns of real and complex eigenvalues, provided the decompositions and
the linear systems are solved exactly. -/
theorem C47_solves (la : LinAlg V) (ex : la.Exact) (qz : Arr V → Arr V → Except Err (GQZ V))
    (hqz : GQZExact qz) (A B C D E : Arr V) (r : Option (Arr V))
    (h : generalizedSylvester la qz A B C D E = .ok r) :
    ∃ X, r = some X ∧ SolvesSylvester A B C D E X := by
  unfold generalizedSylvester at h
  split at h
  · cases h
  rename_i h1
  split at h
  · cases h
  rename_i h2
  split at h
  · cases h
  rename_i h3
  split at h
  · cases h
  rename_i h4
  split at h
  · cases h
  rename_i h5
  have h1 : A.r = C.r ∧ A.c = C.c := Classical.not_not.mp h1
  have h2 : A.r = A.c := Classical.not_not.mp h2
  have h3 : B.r = D.r ∧ B.c = D.c := Classical.not_not.mp h3
  have h4 : B.r = B.c := Classical.not_not.mp h4
  have h5 : A.r = E.r ∧ B.r = E.c := by omega
  split at h
  · -- one row
    rename_i hm
    obtain ⟨x, hx, h⟩ := Except.bind_eq_ok h
    have := Except.ok.inj h
    subst this
    obtain ⟨p1, p2, p3, p4⟩ := solveChecked_ok ex hx
    simp only [combine] at p1 p2 p3 p4
    have p2 : E.c = B.r := p2
    have p3 : E.r = x.c := p3
    refine ⟨_, rfl, p3.symm, by show x.r = E.c; omega, ?_⟩
    intro i hi j hj
    have hi0 : i = 0 := by omega
    subst hi0
    have := p4 j (by omega) 0 (by omega)
    rw [← show E.tr.e j 0 = E.e 0 j from rfl, ← this]
    rw [show E.r = 1 by omega, ← h4, h5.2]
    simp only [sumTo_eq, Finset.sum_range_one, ← Finset.sum_add_distrib]
    exact Finset.sum_congr rfl fun l _ => by simp only [Arr.tr]; ring
  split at h
  · -- one column
    rename_i hm hn
    obtain ⟨x, hx, h⟩ := Except.bind_eq_ok h
    have := Except.ok.inj h
    subst this
    obtain ⟨p1, p2, p3, p4⟩ := solveChecked_ok ex hx
    simp only [combine] at p1 p2 p3 p4
    refine ⟨_, rfl, by omega, by omega, ?_⟩
    intro i hi j hj
    have hj0 : j = 0 := by omega
    subst hj0
    have := p4 i (by omega) 0 (by omega)
    rw [← this, show E.c = 1 by omega, ← h2, h5.1]
    simp only [sumTo_eq, Finset.sum_range_one, ← Finset.sum_add_distrib]
    exact Finset.sum_congr rfl fun l _ => by ring
  · -- the general case
    unfold sylGeneral at h
    obtain ⟨g1, hg1, h⟩ := Except.bind_eq_ok h
    obtain ⟨g2, hg2, h⟩ := Except.bind_eq_ok h
    obtain ⟨eq2, he, h⟩ := Except.bind_eq_ok h
    obtain ⟨f, hf, h⟩ := Except.bind_eq_ok h
    obtain ⟨⟨rest, Y⟩, hY, h⟩ := Except.bind_eq_ok h
    obtain ⟨yz, hyz, h⟩ := Except.bind_eq_ok h
    obtain ⟨x, hx, h⟩ := Except.bind_eq_ok h
    have d1 := hqz A C g1 h2 (by omega) (by omega) hg1
    have d2 := hqz D B g2 (by omega) h4 (by omega) hg2
    have s1 := d1.shape
    have s2 := d2.shape
    simp only [List.mem_cons, List.not_mem_nil, or_false, forall_eq_or_imp, forall_eq] at s1 s2
    obtain ⟨m1, m2, m3, m4⟩ := s1
    obtain ⟨n1, n2, n3, n4⟩ := s2
    have hn0 : B.r ≠ 0 := by
      intro h0
      rw [h0] at hY
      cases hY
    have hz : zerosBelow g2.P B.r + 1 = passes g2.P B.r := by
      unfold passes
      rw [if_neg hn0]
      rfl
    obtain ⟨r0, hcol⟩ := sylLoop_correct la ex g1.P g1.S g2.P g2.S f B.r A.r m1 m2
      (by rw [h3.1]; exact d2.triS) (by rw [h3.1]; exact d2.triP) (by rw [h3.1]; exact d2.blocks)
      _ _ _ _ _ (Nat.le_refl _) hz (fun h _ => by omega) (fun j _ _ => by omega) hY
    subst r0
    rw [if_pos rfl] at h
    have := Except.ok.inj h
    subst this
    refine ⟨x, rfl, ?_⟩
    obtain ⟨e1, e2, e3, e4⟩ := Arr.dot_ok he
    obtain ⟨f1, f2, f3, f4⟩ := Arr.dot_ok hf
    obtain ⟨y1, y2, y3, y4⟩ := Arr.dot_ok hyz
    obtain ⟨x1, x2, x3, x4⟩ := Arr.dot_ok hx
    have y1 : B.r = g2.Z.c := y1
    have y2 : yz.r = A.r := y2
    have y3 : yz.c = g2.Z.r := y3
    refine solves_of_mats (m := A.r) (n := B.r) ⟨h5.1.symm, h5.2.symm⟩
      ⟨x2.trans m4.1, x3.trans (y3.trans (n4.1.trans h3.1.symm))⟩ ?_
    -- the equations as equations of matrices
    obtain ⟨a1, a2, a3, a4, a5, a6⟩ := d1.mats
    have m := d2.mats
    rw [← h3.1] at m
    obtain ⟨b1, b2, b3, b4, b5, b6⟩ := m
    have hm : IsEnum (fun i : Fin A.r => i.val) A.r := IsEnum.fin _
    have hn : IsEnum (fun i : Fin B.r => i.val) B.r := IsEnum.fin _
    have xm := x4 (fun i : Fin A.r => i.val) (fun i : Fin A.r => i.val) (fun i : Fin B.r => i.val)
      (by rw [m4.2]; exact hm)
    have ym := y4 (fun i : Fin A.r => i.val) (fun i : Fin B.r => i.val) (fun i : Fin B.r => i.val) hn
    have fm := f4 (fun i : Fin A.r => i.val) (fun i : Fin A.r => i.val) (fun i : Fin B.r => i.val)
      (by show IsEnum _ g1.Q.r; rw [m3.1]; exact hm)
    have em := e4 (fun i : Fin A.r => i.val) (fun i : Fin B.r => i.val) (fun i : Fin B.r => i.val)
      (by rw [← h5.2]; exact hn)
    simp only [Arr.tr_blk] at ym fm
    have key : g1.P.blk (fun i : Fin A.r => i.val) (fun i : Fin A.r => i.val) *
          (⟨A.r, B.r, Y⟩ : Arr V).blk (fun i : Fin A.r => i.val) (fun i : Fin B.r => i.val) *
          (g2.S.blk (fun i : Fin B.r => i.val) (fun i : Fin B.r => i.val))ᵀ +
        g1.S.blk (fun i : Fin A.r => i.val) (fun i : Fin A.r => i.val) *
          (⟨A.r, B.r, Y⟩ : Arr V).blk (fun i : Fin A.r => i.val) (fun i : Fin B.r => i.val) *
          (g2.P.blk (fun i : Fin B.r => i.val) (fun i : Fin B.r => i.val))ᵀ =
        f.blk (fun i : Fin A.r => i.val) (fun i : Fin B.r => i.val) := by
      ext i j
      simp only [Matrix.add_apply, Matrix.mul_apply, Matrix.transpose_apply, Arr.blk_apply]
      rw [← hcol j.val j.2 i.val (by rw [m1.1]; exact i.2), sumTo_enum hn, ← Finset.sum_add_distrib]
      refine Finset.sum_congr rfl fun l _ => ?_
      unfold colTerm
      rw [m1.2, sumTo_enum hm, Finset.sum_mul, Finset.sum_mul, ← Finset.sum_add_distrib]
      exact Finset.sum_congr rfl fun p _ => by ring
    rw [a1, a2, b1, b2, xm, ym]
    simp only [Matrix.transpose_mul, Matrix.transpose_transpose]
    generalize (⟨A.r, B.r, Y⟩ : Arr V).blk (fun i : Fin A.r => i.val) (fun i : Fin B.r => i.val) = Ym at *
    rw [fm, em] at key
    generalize g1.Q.blk (fun i : Fin A.r => i.val) (fun i : Fin A.r => i.val) = Q1 at *
    generalize g1.Z.blk (fun i : Fin A.r => i.val) (fun i : Fin A.r => i.val) = Z1 at *
    generalize g2.Q.blk (fun i : Fin B.r => i.val) (fun i : Fin B.r => i.val) = Q2 at *
    generalize g2.Z.blk (fun i : Fin B.r => i.val) (fun i : Fin B.r => i.val) = Z2 at *
    generalize g1.P.blk (fun i : Fin A.r => i.val) (fun i : Fin A.r => i.val) = P at *
    generalize g1.S.blk (fun i : Fin A.r => i.val) (fun i : Fin A.r => i.val) = S at *
    generalize g2.P.blk (fun i : Fin B.r => i.val) (fun i : Fin B.r => i.val) = T at *
    generalize g2.S.blk (fun i : Fin B.r => i.val) (fun i : Fin B.r => i.val) = R at *
    generalize E.blk (fun i : Fin A.r => i.val) (fun i : Fin B.r => i.val) = Em at *
    have cancel : ∀ (M : Matrix (Fin A.r) (Fin A.r) V) (N : Matrix (Fin B.r) (Fin B.r) V),
        Q1 * M * Z1ᵀ * (Z1 * (Ym * Z2ᵀ)) * (Z2 * (N * Q2ᵀ)) = Q1 * (M * Ym * N) * Q2ᵀ := by
      intro M N
      calc Q1 * M * Z1ᵀ * (Z1 * (Ym * Z2ᵀ)) * (Z2 * (N * Q2ᵀ))
          = Q1 * M * (Z1ᵀ * Z1) * Ym * (Z2ᵀ * Z2) * N * Q2ᵀ := by simp only [Matrix.mul_assoc]
        _ = Q1 * (M * Ym * N) * Q2ᵀ := by
            rw [a6, b6]
            simp only [Matrix.mul_assoc, Matrix.one_mul, Matrix.mul_one]
    rw [cancel, cancel, ← Matrix.add_mul, ← Matrix.mul_add, key]
    calc Q1 * (Q1ᵀ * (Em * Q2)) * Q2ᵀ = (Q1 * Q1ᵀ) * Em * (Q2 * Q2ᵀ) := by simp only [Matrix.mul_assoc]
      _ = Em := by rw [a3, b3, Matrix.one_mul, Matrix.mul_one]

/-- **C47, refusals.** Arguments whose shapes do not fit the equation raise `ValueError`. -/
theorem C47_shapes (la : LinAlg V) (qz : Arr V → Arr V → Except Err (GQZ V)) (A B C D E : Arr V)
    (h : ¬ (A.r = E.r ∧ A.c = E.r ∧ C.r = E.r ∧ C.c = E.r ∧
      B.r = E.c ∧ B.c = E.c ∧ D.r = E.c ∧ D.c = E.c)) :
    generalizedSylvester la qz A B C D E = .error .valueError := by
  unfold generalizedSylvester
  split
  · rfl
  split
  · rfl
  split
  · rfl
  split
  · rfl
  split
  · rfl
  · exfalso
    rename_i h1 h2 h3 h4 h5
    apply h
    omega

/-! ### an example with a pair of complex eigenvalues -/

/-- the first coefficient -/
def syA : Arr ℚ := listArr [[2, 1], [0, 3]] 2
/-- a rotation, whose eigenvalues are complex -/
def syD : Arr ℚ := listArr [[0, -1], [1, 0]] 2
/-- the system for two columns at once -/
def syM : Arr ℚ := listArr [[2, 1, -1, 0], [0, 3, 0, -1], [1, 0, 2, 1], [0, 1, 0, 3]] 4
/-- its inverse -/
def syMi : Arr ℚ := listArr [[2/5, -1/10, 1/5, -1/10], [0, 3/10, 0, 1/10], [-1/5, 1/10, 2/5, -1/10],
  [0, -1/10, 0, 3/10]] 4

/-- a linear algebra that can solve this system -/
def syLa : LinAlg ℚ where
  qr _ := .error .valueError
  rank _ := 0
  ordqz _ _ := .error .valueError
  inv _ := .error .valueError
  solve a b := if sameArr a syM then .ok ⟨4, b.c, fun i j => sumTo 4 fun k => syMi.e i k * b.e k j⟩
    else .error .valueError

/-- decompositions of arrays that are triangular already -/
def syQz : Arr ℚ → Arr ℚ → Except Err (GQZ ℚ) := fun a c =>
  if a.r = 2 ∧ c.r = 2 ∧ c.e 1 0 = 0 then .ok ⟨⟨2, 2, a.e⟩, ⟨2, 2, c.e⟩, Arr.eye 2 2 0, Arr.eye 2 2 0⟩
  else .error .valueError

theorem syM_inv : syM.IsInv syMi := by
  constructor
  · refine ⟨rfl, rfl, rfl, ?_⟩
    intro i hi j hj
    have hi : i < 4 := hi
    have hj : j < 4 := hj
    interval_cases i <;> interval_cases j <;> decide +kernel
  · refine ⟨rfl, rfl, rfl, ?_⟩
    intro i hi j hj
    have hi : i < 4 := hi
    have hj : j < 4 := hj
    interval_cases i <;> interval_cases j <;> decide +kernel

theorem syLa_exact : syLa.Exact where
  qr M Q R h := by cases h
  inv a b _ h := by cases h
  ordqz b a q _ _ _ h := by cases h
  solve a b x hsq hb h := by
    simp only [syLa] at h
    split at h
    · rename_i hs
      have := Except.ok.inj h
      subst this
      obtain ⟨h1, h2, h3⟩ := sameArr_spec hs
      have h1 : a.r = 4 := h1
      have h2 : a.c = 4 := h2
      refine ⟨⟨by omega, by omega, rfl, ?_⟩, syMi, ?_⟩
      · intro i hi j hj
        have hrow : ∀ k < 4, a.e i k = syM.e i k := fun k hk => h3 i hi k (by omega)
        have hi : i < 4 := by omega
        rw [h2]
        simp only [sumTo, hrow 0 (by omega), hrow 1 (by omega), hrow 2 (by omega), hrow 3 (by omega)]
        interval_cases i <;> simp [syM, syMi, listArr] <;> ring
      · obtain ⟨⟨e1, e2, e3, e4⟩, ⟨f1, f2, f3, f4⟩⟩ := syM_inv
        refine ⟨⟨by rw [h2]; rfl, rfl, by rw [h1]; rfl, ?_⟩, ⟨by rw [h1]; rfl, by rw [h1]; rfl, by
          show a.r = a.c; omega, ?_⟩⟩
        · intro i hi j hj
          rw [h1]
          refine Eq.trans ?_ (e4 i (by show i < 4; omega) j hj)
          rw [h2]
          exact sumTo_congr fun k hk => by rw [h3 i hi k (by omega)]
        · intro i hi j hj
          rw [h1]
          refine Eq.trans ?_ (f4 i hi j (by show j < 4; omega))
          exact sumTo_congr fun k hk => by
            have hk : k < 4 := hk
            rw [h3 k (by omega) j (by omega)]
    · cases h

theorem syQz_exact : GQZExact syQz := by
  intro a c g ha hc hac h
  unfold syQz at h
  split at h
  · rename_i hs
    have := Except.ok.inj h
    subst this
    obtain ⟨h1, h2, h3⟩ := hs
    have eye : (Arr.eye 2 2 0 : Arr ℚ).IsInv (Arr.eye 2 2 0 : Arr ℚ).tr := by
      constructor
      · refine ⟨rfl, rfl, rfl, ?_⟩
        intro i hi j hj
        have hi : i < 2 := hi
        have hj : j < 2 := hj
        interval_cases i <;> interval_cases j <;> decide +kernel
      · refine ⟨rfl, rfl, rfl, ?_⟩
        intro i hi j hj
        have hi : i < 2 := hi
        have hj : j < 2 := hj
        interval_cases i <;> interval_cases j <;> decide +kernel
    refine ⟨?_, eye, eye, ?_, ?_, ?_, ?_, ?_⟩
    · intro x hx
      simp only [List.mem_cons, List.not_mem_nil, or_false] at hx
      rcases hx with rfl | rfl | rfl | rfl <;> exact ⟨h1.symm, h1.symm⟩
    · intro i hi j hj
      rw [h1] at hi hj ⊢
      interval_cases i <;> interval_cases j <;> simp [sumTo, Arr.eye]
    · intro i hi j hj
      rw [h1] at hi hj ⊢
      interval_cases i <;> interval_cases j <;> simp [sumTo, Arr.eye]
    · intro i j hj hi
      rw [h1] at hi
      have e1 : i = 1 := by omega
      have e2 : j = 0 := by omega
      subst e1 e2
      exact h3
    · intro i j hj hi; omega
    · intro i hi; omega
  · cases h

/-- the equation with these coefficients is solved -/
example : ∃ X, generalizedSylvester syLa syQz syA (Arr.eye 2 2 0) (Arr.eye 2 2 0) syD
    (listArr [[1, 0], [0, 10]] 2) = .ok (some X) ∧ X.e 0 0 = -3/5 ∧ X.e 1 1 = 3 := by
  obtain ⟨r, hr, h⟩ := ok_of_check (x := generalizedSylvester syLa syQz syA (Arr.eye 2 2 0)
    (Arr.eye 2 2 0) syD (listArr [[1, 0], [0, 10]] 2))
    (p := fun r => match r with | some X => decide (X.e 0 0 = -3/5 ∧ X.e 1 1 = 3) | none => false)
    (by decide +kernel)
  cases r with
  | none => cases h
  | some X => exact ⟨X, hr, of_decide_eq_true h⟩

#print axioms C47_solves
#print axioms C47_shapes

end Pynare

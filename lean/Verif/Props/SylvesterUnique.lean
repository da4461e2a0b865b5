import Verif.Lemmas.SylvesterUnique
/-!
# C47: the solution of the generalised Sylvester equation is the only one
-/

namespace Pynare

open Matrix

variable {V : Type} [CommRing V] [DecidableEq V]

set_option linter.unusedSectionVars false

/-- **C47, uniqueness.** If `generalized_sylvester` returns, no array solves the equation but the one
returned. -/
theorem C47_unique (la : LinAlg V) (ex : la.Exact) (qz : Arr V → Arr V → Except Err (GQZ V))
    (hqz : GQZExact qz) (A B C D E X X' : Arr V)
    (h : generalizedSylvester la qz A B C D E = .ok (some X)) (hX' : SolvesSylvester A B C D E X') :
    X'.r = X.r ∧ X'.c = X.c ∧ ∀ i < X.r, ∀ j < X.c, X'.e i j = X.e i j := by
  obtain ⟨X0, hX0, hX⟩ := C47_solves la ex qz hqz A B C D E _ h
  have := Option.some.inj hX0
  subst this
  refine ⟨by rw [hX'.1, hX.1], by rw [hX'.2.1, hX.2.1], ?_⟩
  rw [hX.1, hX.2.1]
  unfold generalizedSylvester at h
  split at h
  · cases h
  rename_i h1
  split at h
  · cases h
  rename_i h2
  split at h
  · cases h
  rename_i h3
  split at h
  · cases h
  rename_i h4
  split at h
  · cases h
  rename_i h5
  have h1 : A.r = C.r ∧ A.c = C.c := Classical.not_not.mp h1
  have h2 : A.r = A.c := Classical.not_not.mp h2
  have h3 : B.r = D.r ∧ B.c = D.c := Classical.not_not.mp h3
  have h4 : B.r = B.c := Classical.not_not.mp h4
  have h5 : A.r = E.r ∧ B.r = E.c := by omega
  split at h
  · -- one row
    rename_i hm
    obtain ⟨x, hx, -⟩ := Except.bind_eq_ok h
    obtain ⟨-, inv, hinv⟩ := solveChecked_inv ex hx
    intro i hi j hj
    have hi0 : i = 0 := by omega
    subst hi0
    refine sub_eq_zero.mp (inv_kills hinv (n := E.c) (by show B.r = E.c; omega) (by show B.c = E.c; omega)
      (v := fun l => X'.e 0 l - X.e 0 l) (fun j hj => ?_) j hj)
    have e1 := hX.2.2 0 hi j hj
    have e2 := hX'.2.2 0 hi j hj
    rw [show E.r = 1 by omega] at e1 e2
    simp only [sumTo_eq, Finset.sum_range_one, ← Finset.sum_add_distrib] at e1 e2 ⊢
    rw [← sub_eq_zero.mpr (e2.trans e1.symm), ← Finset.sum_sub_distrib]
    refine Finset.sum_congr rfl fun l _ => ?_
    simp only [combine]
    ring
  split at h
  · -- one column
    rename_i hm hn
    obtain ⟨x, hx, -⟩ := Except.bind_eq_ok h
    obtain ⟨-, inv, hinv⟩ := solveChecked_inv ex hx
    intro i hi j hj
    have hj0 : j = 0 := by omega
    subst hj0
    refine sub_eq_zero.mp (inv_kills hinv (n := E.r) (by show A.r = E.r; omega) (by show A.c = E.r; omega)
      (v := fun l => X'.e l 0 - X.e l 0) (fun i hi => ?_) i hi)
    have e1 := hX.2.2 i hi 0 hj
    have e2 := hX'.2.2 i hi 0 hj
    rw [show E.c = 1 by omega] at e1 e2
    simp only [sumTo_eq, Finset.sum_range_one, ← Finset.sum_add_distrib] at e1 e2 ⊢
    rw [← sub_eq_zero.mpr (e2.trans e1.symm), ← Finset.sum_sub_distrib]
    refine Finset.sum_congr rfl fun l _ => ?_
    simp only [combine]
    ring
  · -- the general case
    have mX := mats_of_solves (m := A.r) (n := B.r) ⟨h5.1.symm, h5.2.symm⟩ hX
    have mX' := mats_of_solves (m := A.r) (n := B.r) ⟨h5.1.symm, h5.2.symm⟩ hX'
    unfold sylGeneral at h
    obtain ⟨g1, hg1, h⟩ := Except.bind_eq_ok h
    obtain ⟨g2, hg2, h⟩ := Except.bind_eq_ok h
    obtain ⟨eq2, he, h⟩ := Except.bind_eq_ok h
    obtain ⟨f, hf, h⟩ := Except.bind_eq_ok h
    obtain ⟨⟨rest, Y⟩, hY, -⟩ := Except.bind_eq_ok h
    have d1 := hqz A C g1 h2 (by omega) (by omega) hg1
    have d2 := hqz D B g2 (by omega) h4 (by omega) hg2
    have s1 := d1.shape
    have s2 := d2.shape
    simp only [List.mem_cons, List.not_mem_nil, or_false, forall_eq_or_imp, forall_eq] at s1 s2
    obtain ⟨m1, m2, m3, m4⟩ := s1
    obtain ⟨n1, n2, n3, n4⟩ := s2
    have hn0 : B.r ≠ 0 := by
      intro h0
      rw [h0] at hY
      cases hY
    have hz : zerosBelow g2.P B.r + 1 = passes g2.P B.r := by
      unfold passes
      rw [if_neg hn0]
      rfl
    have hm : IsEnum (fun i : Fin A.r => i.val) A.r := IsEnum.fin _
    have hn : IsEnum (fun i : Fin B.r => i.val) B.r := IsEnum.fin _
    obtain ⟨a1, a2, a3, a4, a5, a6⟩ := d1.mats
    have m := d2.mats
    rw [← h3.1] at m
    obtain ⟨b1, b2, b3, b4, b5, b6⟩ := m
    -- the difference in the coordinates of the decompositions
    let W : Matrix (Fin A.r) (Fin B.r) V :=
      (g1.Z.blk (fun i : Fin A.r => i.val) fun i : Fin A.r => i.val)ᵀ *
        (X'.blk (fun i : Fin A.r => i.val) (fun i : Fin B.r => i.val) -
          X.blk (fun i : Fin A.r => i.val) fun i : Fin B.r => i.val) *
        g2.Z.blk (fun i : Fin B.r => i.val) fun i : Fin B.r => i.val
    let Δ : Nat → Nat → V := fun p l => if hp : p < A.r then if hl : l < B.r then W ⟨p, hp⟩ ⟨l, hl⟩ else 0 else 0
    have hW : ∀ (p : Fin A.r) (l : Fin B.r), Δ p.val l.val = W p l := by
      intro p l
      show (if hp : p.val < A.r then if hl : l.val < B.r then W ⟨p.val, hp⟩ ⟨l.val, hl⟩ else 0 else 0) = _
      rw [dif_pos p.2, dif_pos l.2]
    have key : g1.P.blk (fun i : Fin A.r => i.val) (fun i : Fin A.r => i.val) * W *
          (g2.S.blk (fun i : Fin B.r => i.val) (fun i : Fin B.r => i.val))ᵀ +
        g1.S.blk (fun i : Fin A.r => i.val) (fun i : Fin A.r => i.val) * W *
          (g2.P.blk (fun i : Fin B.r => i.val) (fun i : Fin B.r => i.val))ᵀ = 0 := by
      rw [a1, a2, b1, b2] at mX mX'
      show g1.P.blk _ _ * ((g1.Z.blk _ _)ᵀ * (X'.blk _ _ - X.blk _ _) * g2.Z.blk _ _) * _ +
        g1.S.blk _ _ * ((g1.Z.blk _ _)ᵀ * (X'.blk _ _ - X.blk _ _) * g2.Z.blk _ _) * _ = 0
      have mD := sub_eq_zero.mpr (mX'.trans mX.symm)
      generalize X'.blk (fun i : Fin A.r => i.val) (fun i : Fin B.r => i.val) = M' at *
      generalize X.blk (fun i : Fin A.r => i.val) (fun i : Fin B.r => i.val) = M at *
      generalize g1.Q.blk (fun i : Fin A.r => i.val) (fun i : Fin A.r => i.val) = Q1 at *
      generalize g1.Z.blk (fun i : Fin A.r => i.val) (fun i : Fin A.r => i.val) = Z1 at *
      generalize g2.Q.blk (fun i : Fin B.r => i.val) (fun i : Fin B.r => i.val) = Q2 at *
      generalize g2.Z.blk (fun i : Fin B.r => i.val) (fun i : Fin B.r => i.val) = Z2 at *
      generalize g1.P.blk (fun i : Fin A.r => i.val) (fun i : Fin A.r => i.val) = P at *
      generalize g1.S.blk (fun i : Fin A.r => i.val) (fun i : Fin A.r => i.val) = S at *
      generalize g2.P.blk (fun i : Fin B.r => i.val) (fun i : Fin B.r => i.val) = T at *
      generalize g2.S.blk (fun i : Fin B.r => i.val) (fun i : Fin B.r => i.val) = R at *
      have e : P * (Z1ᵀ * (M' - M) * Z2) * Rᵀ + S * (Z1ᵀ * (M' - M) * Z2) * Tᵀ =
          Q1ᵀ * (Q1 * P * Z1ᵀ * M' * (Q2 * R * Z2ᵀ)ᵀ + Q1 * S * Z1ᵀ * M' * (Q2 * T * Z2ᵀ)ᵀ -
            (Q1 * P * Z1ᵀ * M * (Q2 * R * Z2ᵀ)ᵀ + Q1 * S * Z1ᵀ * M * (Q2 * T * Z2ᵀ)ᵀ)) * Q2 := by
        have one : ∀ (L : Matrix (Fin A.r) (Fin A.r) V) (N : Matrix (Fin B.r) (Fin B.r) V)
            (O : Matrix (Fin A.r) (Fin B.r) V),
            Q1ᵀ * (Q1 * L * Z1ᵀ * O * (Q2 * N * Z2ᵀ)ᵀ) * Q2 = L * (Z1ᵀ * O * Z2) * Nᵀ := by
          intro L N O
          rw [Matrix.transpose_mul, Matrix.transpose_mul, Matrix.transpose_transpose]
          calc Q1ᵀ * (Q1 * L * Z1ᵀ * O * (Z2 * (Nᵀ * Q2ᵀ))) * Q2
              = (Q1ᵀ * Q1) * (L * (Z1ᵀ * O * Z2) * Nᵀ) * (Q2ᵀ * Q2) := by simp only [Matrix.mul_assoc]
            _ = L * (Z1ᵀ * O * Z2) * Nᵀ := by rw [a4, b4, Matrix.one_mul, Matrix.mul_one]
        simp only [Matrix.mul_sub, Matrix.mul_add, Matrix.sub_mul, Matrix.add_mul, one]
        abel
      rw [e, mD, Matrix.mul_zero, Matrix.zero_mul]
    have zero := sylLoop_unique la ex g1.P g1.S g2.P g2.S f B.r A.r m1 m2
      (by rw [h3.1]; exact d2.triS) (by rw [h3.1]; exact d2.triP) (by rw [h3.1]; exact d2.blocks)
      Δ (by
        intro j hj i hi
        have := congrFun (congrFun key ⟨i, hi⟩) ⟨j, hj⟩
        simp only [Matrix.add_apply, Matrix.mul_apply, Matrix.transpose_apply, Arr.blk_apply,
          Matrix.zero_apply] at this
        rw [← this, sumTo_enum hn, ← Finset.sum_add_distrib]
        refine Finset.sum_congr rfl fun l _ => ?_
        unfold colTerm
        rw [m1.2, sumTo_enum hm, Finset.sum_mul, Finset.sum_mul, ← Finset.sum_add_distrib]
        exact Finset.sum_congr rfl fun p _ => by rw [hW]; ring)
      _ _ _ _ _ (Nat.le_refl _) hz (fun j _ _ => by omega) hY
    have hW0 : W = 0 := by
      ext p l
      rw [← hW]
      exact zero l.val l.2 p.val p.2
    have hD : X'.blk (fun i : Fin A.r => i.val) (fun i : Fin B.r => i.val) -
        X.blk (fun i : Fin A.r => i.val) (fun i : Fin B.r => i.val) = 0 := by
      have e : X'.blk (fun i : Fin A.r => i.val) (fun i : Fin B.r => i.val) -
          X.blk (fun i : Fin A.r => i.val) (fun i : Fin B.r => i.val) =
          g1.Z.blk (fun i : Fin A.r => i.val) (fun i : Fin A.r => i.val) * W *
            (g2.Z.blk (fun i : Fin B.r => i.val) (fun i : Fin B.r => i.val))ᵀ := by
        show _ = g1.Z.blk _ _ * ((g1.Z.blk _ _)ᵀ * (X'.blk _ _ - X.blk _ _) * g2.Z.blk _ _) * _
        generalize X'.blk (fun i : Fin A.r => i.val) (fun i : Fin B.r => i.val) -
          X.blk (fun i : Fin A.r => i.val) (fun i : Fin B.r => i.val) = O at *
        generalize g1.Z.blk (fun i : Fin A.r => i.val) (fun i : Fin A.r => i.val) = Z1 at *
        generalize g2.Z.blk (fun i : Fin B.r => i.val) (fun i : Fin B.r => i.val) = Z2 at *
        calc O = (Z1 * Z1ᵀ) * O * (Z2 * Z2ᵀ) := by rw [a5, b5, Matrix.one_mul, Matrix.mul_one]
          _ = Z1 * (Z1ᵀ * O * Z2) * Z2ᵀ := by simp only [Matrix.mul_assoc]
      rw [e, hW0, Matrix.mul_zero, Matrix.zero_mul]
    intro i hi j hj
    exact blk_of_entries (sub_eq_zero.mp hD) i (by omega) j (by omega)

/-- the equation of the example in `Props/Sylvester.lean` has one solution: whatever solves it has these
entries -/
example (X' : Arr ℚ) (h : SolvesSylvester syA (Arr.eye 2 2 0) (Arr.eye 2 2 0) syD
    (listArr [[1, 0], [0, 10]] 2) X') : X'.e 0 0 = -3/5 ∧ X'.e 1 1 = 3 := by
  obtain ⟨r, hr, hc⟩ := ok_of_check (x := generalizedSylvester syLa syQz syA (Arr.eye 2 2 0)
    (Arr.eye 2 2 0) syD (listArr [[1, 0], [0, 10]] 2))
    (p := fun r => match r with
      | some X => decide (X.r = 2 ∧ X.c = 2 ∧ X.e 0 0 = -3/5 ∧ X.e 1 1 = 3)
      | none => false)
    (by decide +kernel)
  cases r with
  | none => cases hc
  | some X =>
    obtain ⟨h1, h2, h3, h4⟩ := of_decide_eq_true hc
    obtain ⟨-, -, he⟩ := C47_unique syLa syLa_exact syQz syQz_exact _ _ _ _ _ X X' hr h
    exact ⟨(he 0 (by omega) 0 (by omega)).trans h3, (he 1 (by omega) 1 (by omega)).trans h4⟩

#print axioms C47_unique

end Pynare

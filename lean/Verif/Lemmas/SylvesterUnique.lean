import Verif.Props.Sylvester
/-!
# Lemmas for the uniqueness of the solution of the generalised Sylvester equation
-/

namespace Pynare

open Matrix

variable {V : Type} [CommRing V] [DecidableEq V]

set_option linter.unusedSectionVars false

theorem inv_kills {a b : Arr V} (h : a.IsInv b) {v : Nat → V} {n : Nat} (hr : a.r = n) (hc : a.c = n)
    (hv : ∀ i < n, (sumTo n fun k => a.e i k * v k) = 0) : ∀ k < n, v k = 0 := by
  intro k hk
  obtain ⟨h1, h2, h3, h4⟩ := h.1
  obtain ⟨g1, g2, g3, g4⟩ := h.2
  have hbr : b.r = n := by omega
  have hbc : b.c = n := by omega
  have : (sumTo n fun j => b.e k j * sumTo n fun l => a.e j l * v l) = v k := by
    simp only [sumTo_eq, Finset.mul_sum]
    rw [Finset.sum_comm]
    have e : ∀ l ∈ Finset.range n, (∑ j ∈ Finset.range n, b.e k j * (a.e j l * v l)) =
        (if l = k then 1 else 0) * v l := by
      intro l hl
      have := g4 k (by omega) l (by rw [hc]; exact Finset.mem_range.mp hl)
      rw [hbc, sumTo_eq] at this
      have h5 : (Arr.eye a.r a.r 0 : Arr V).e k l = if l = k then 1 else 0 := rfl
      rw [← h5, ← this, Finset.sum_mul]
      exact Finset.sum_congr rfl fun j _ => by rw [mul_assoc]
    rw [Finset.sum_congr rfl e]
    simp [hk]
  rw [← this, sumTo_eq]
  refine Finset.sum_eq_zero fun j hj => ?_
  rw [hv j (Finset.mem_range.mp hj), mul_zero]

theorem solveChecked_inv {la : LinAlg V} (ex : la.Exact) {a b x : Arr V} (h : la.solveChecked a b = .ok x) :
    a.r = a.c ∧ ∃ i, a.IsInv i := by
  unfold LinAlg.solveChecked at h
  split at h
  · rename_i hs; exact ⟨hs.1, (ex.solve a b x hs.1 hs.2 h).2⟩
  · cases h

/-- what solves the homogeneous equation is zero -/
theorem sylLoop_unique (la : LinAlg V) (ex : la.Exact) (P S T R F : Arr V) (n m : Nat)
    (hP : P.r = m ∧ P.c = m) (hS : S.r = m ∧ S.c = m)
    (triR : ∀ i j, j < i → i < n → R.e i j = 0)
    (triT : ∀ i j, j + 1 < i → i < n → T.e i j = 0)
    (blocks : ∀ i, i + 2 < n → T.e (i + 1) i = 0 ∨ T.e (i + 2) (i + 1) = 0)
    (Δ : Nat → Nat → V) (hΔ : ∀ j < n, ∀ i < m, (sumTo n fun l => colTerm P S T R Δ i j l) = 0) :
    ∀ fuel k1 Y rest Y', k1 ≤ n → fuel = passes T k1 →
      (∀ j, k1 ≤ j → j < n → ∀ p < m, Δ p j = 0) →
      sylLoop la P S T R F n fuel k1 Y = .ok (rest, Y') →
      ∀ j < n, ∀ p < m, Δ p j = 0 := by
  intro fuel
  induction fuel with
  | zero =>
    intro k1 Y rest Y' hk hf hY h
    have h0 : k1 = 0 := by
      by_contra hne
      unfold passes at hf
      rw [if_neg hne] at hf
      omega
    subst h0
    exact fun j hj => hY j (Nat.zero_le j) hj
  | succ fuel ih =>
    intro k1 Y rest Y' hk hf hY h
    have late : ∀ i j l, k1 ≤ l → l < n → colTerm P S T R Δ i j l = 0 := by
      intro i j l h1 h2
      unfold colTerm
      rw [sumTo_eq]
      refine Finset.sum_eq_zero fun p hp => ?_
      rw [hY l h1 h2 p (by have := Finset.mem_range.mp hp; omega), mul_zero]
    cases k1 with
    | zero => unfold passes at hf; rw [if_pos rfl] at hf; omega
    | succ k =>
      have hf : fuel + 1 = zerosTo T (k + 1) + 1 := by
        unfold passes at hf; rw [if_neg (by omega)] at hf; exact hf
      rw [sylLoop] at h
      split at h
      · -- two columns
        rename_i hT
        obtain ⟨hT, hk0⟩ := hT
        obtain ⟨q, rfl⟩ : ∃ q, k = q + 1 := ⟨k - 1, by omega⟩
        simp only [Nat.add_sub_cancel] at h hT
        obtain ⟨b, hblk, h⟩ := Except.bind_eq_ok h
        obtain ⟨y, hy, h⟩ := Except.bind_eq_ok h
        obtain ⟨-, inv, hinv⟩ := solveChecked_inv ex hy
        have hbq : 0 < q → T.e q (q - 1) = 0 := by
          intro hq
          obtain ⟨z, rfl⟩ : ∃ z, q = z + 1 := ⟨q - 1, by omega⟩
          rcases blocks z (by omega) with h0 | h0
          · exact h0
          · exact absurd h0 hT
        refine ih q _ rest Y' (by omega) ?_ ?_ h
        · unfold passes
          rw [zerosTo_succ_ne T q hT] at hf
          by_cases hq : q = 0
          · subst hq
            rw [if_pos rfl]
            have : zerosTo T (0 + 1) = 0 := rfl
            omega
          · obtain ⟨z, rfl⟩ : ∃ z, q = z + 1 := ⟨q - 1, by omega⟩
            rw [if_neg hq]
            rw [zerosTo_succ_zero T z (hbq (by omega))] at hf
            omega
        · -- the two columns
          obtain ⟨t, ht, hblk⟩ := Except.bind_eq_ok hblk
          obtain ⟨u, hu, hblk⟩ := Except.bind_eq_ok hblk
          obtain ⟨t0, t1, t2, t3, t4⟩ := Arr.hstack_ok ht
          obtain ⟨u0, u1, u2, u3, u4⟩ := Arr.hstack_ok hu
          obtain ⟨b0, b1, b2, b3, b4⟩ := Arr.vstack_ok hblk
          simp only [combine] at t0 t1 t2 t3 t4 u0 u1 u2 u3 u4
          have hbc : b.c = m + m := by rw [b2, t2, hP.2]
          have hbr : b.r = m + m := by rw [b1, t1, u1, hP.1, hS.1]
          have split2 : ∀ f : Nat → V, sumTo (m + m) f = sumTo m f + sumTo m fun p => f (m + p) := by
            intro f
            rw [sumTo_eq, sumTo_eq, sumTo_eq, Finset.sum_range_add]
          have hlow : ∀ row, q ≤ row → row ≤ q + 1 → row < n → ∀ l < q, T.e row l = 0 := by
            intro row h1 h2 h3 l hl
            by_cases e : l + 1 = row
            · have e1 : row = q := by omega
              subst e1
              have := hbq (by omega)
              rw [← e] at this
              rw [← e]
              exact this
            · exact triT row l (by omega) h3
          have two : ∀ row, q ≤ row → row ≤ q + 1 → ∀ i < m,
              colTerm P S T R Δ i row q + colTerm P S T R Δ i row (q + 1) = 0 := by
            intro row h1 h2 i hi
            have := hΔ row (by omega) i hi
            rw [sumTo_tail2 _ (by omega : q + 1 < n) fun l hl => colTerm_zero
              (triR row l (by omega) (by omega)) (hlow row h1 h2 (by omega) l hl)] at this
            rw [sumTo_eq, Finset.sum_eq_zero fun j hj => late i row _ (by omega)
              (by have := Finset.mem_range.mp hj; omega), add_zero] at this
            exact this
          have zero := inv_kills hinv (n := m + m) hbr hbc
            (v := fun k => if k < m then Δ k q else Δ (k - m) (q + 1)) (by
            intro i hi
            rw [split2]
            by_cases him : i < m
            · rw [← two q (by omega) (by omega) i him]
              congr 1
              · unfold colTerm
                rw [hP.2]
                refine sumTo_congr fun p hp => ?_
                rw [b3 i p (by omega), t3 i p (by omega), if_pos hp]
              · unfold colTerm
                rw [hP.2]
                refine sumTo_congr fun p hp => ?_
                have := t4 i p
                rw [hP.2] at this
                rw [b3 i (m + p) (by omega), this, if_neg (by omega), Nat.add_sub_cancel_left]
            · obtain ⟨i, rfl⟩ := Nat.exists_eq_add_of_le (Nat.le_of_not_lt him)
              rw [← two (q + 1) (by omega) (by omega) i (by omega)]
              congr 1
              · unfold colTerm
                rw [hP.2]
                refine sumTo_congr fun p hp => ?_
                have := b4 i p
                rw [t1, hP.1] at this
                have hu3 := u3
                rw [hS.2] at hu3
                rw [this, hu3 i p hp, if_pos hp, triR (q + 1) q (by omega) (by omega)]
                ring
              · unfold colTerm
                rw [hP.2]
                refine sumTo_congr fun p hp => ?_
                have := b4 i (m + p)
                rw [t1, hP.1] at this
                have h' := u4 i p
                rw [hS.2] at h'
                rw [this, h', if_neg (by omega), Nat.add_sub_cancel_left])
          intro j hj hjn p hp
          by_cases h2 : q + 1 + 1 ≤ j
          · exact hY j h2 hjn p hp
          · by_cases hjq : j = q
            · subst hjq
              have := zero p (by omega)
              rwa [if_pos hp] at this
            · have hjq : j = q + 1 := by omega
              subst hjq
              have := zero (m + p) (by omega)
              rwa [if_neg (by omega), Nat.add_sub_cancel_left] at this
      · -- one column
        rename_i hT
        obtain ⟨y, hy, h⟩ := Except.bind_eq_ok h
        obtain ⟨-, inv, hinv⟩ := solveChecked_inv ex hy
        have hbk : 0 < k → T.e k (k - 1) = 0 := by
          intro h0
          by_contra hne
          exact hT ⟨hne, by omega⟩
        refine ih k _ rest Y' (by omega) ?_ ?_ h
        · unfold passes
          by_cases hq : k = 0
          · subst hq
            rw [if_pos rfl]
            have : zerosTo T (0 + 1) = 0 := rfl
            omega
          · obtain ⟨z, rfl⟩ : ∃ z, k = z + 1 := ⟨k - 1, by omega⟩
            rw [if_neg hq]
            rw [zerosTo_succ_zero T z (hbk (by omega))] at hf
            omega
        · intro j hj hjn p hp
          by_cases hj2 : k + 1 ≤ j
          · exact hY j hj2 hjn p hp
          · have hjk : j = k := by omega
            subst hjk
            have hlow : ∀ l < j, T.e j l = 0 := by
              intro l hl
              by_cases e : l + 1 = j
              · have := hbk (by omega)
                rw [← e] at this ⊢
                exact this
              · exact triT j l (by omega) hjn
            refine inv_kills hinv (n := m) hP.1 hP.2 (v := fun p => Δ p j) (fun i hi => ?_) p hp
            have := hΔ j hjn i hi
            rw [sumTo_tail1 _ hjn fun l hl => colTerm_zero (triR j l hl hjn) (hlow l hl)] at this
            rw [sumTo_eq (n - 1 - j), Finset.sum_eq_zero fun l hl => late i j _ (by omega)
              (by have := Finset.mem_range.mp hl; omega), add_zero] at this
            rw [← this]
            unfold colTerm combine
            rw [hP.2]

/-- the equation of the specification as an equation between matrices -/
theorem mats_of_solves {A B C D E X : Arr V} {m n : Nat} (hE : E.r = m ∧ E.c = n)
    (h : SolvesSylvester A B C D E X) :
    A.blk (fun i : Fin m => i.val) (fun j : Fin m => j.val) *
        X.blk (fun i : Fin m => i.val) (fun j : Fin n => j.val) *
        (B.blk (fun i : Fin n => i.val) fun j : Fin n => j.val)ᵀ +
      C.blk (fun i : Fin m => i.val) (fun j : Fin m => j.val) *
        X.blk (fun i : Fin m => i.val) (fun j : Fin n => j.val) *
        (D.blk (fun i : Fin n => i.val) fun j : Fin n => j.val)ᵀ =
      E.blk (fun i : Fin m => i.val) fun j : Fin n => j.val := by
  ext i j
  simp only [Matrix.add_apply, Matrix.mul_apply, Matrix.transpose_apply, Arr.blk_apply]
  have conv : ∀ (M N : Arr V), (sumTo E.r fun k => sumTo E.c fun l => M.e i.val k * X.e k l * N.e j.val l) =
      ∑ l : Fin n, (∑ k : Fin m, M.e i.val k.val * X.e k.val l.val) * N.e j.val l.val := by
    intro M N
    rw [hE.1, hE.2, sumTo_enum (IsEnum.fin m)]
    rw [Finset.sum_congr rfl fun k _ => sumTo_enum (IsEnum.fin n) _, Finset.sum_comm]
    exact Finset.sum_congr rfl fun l _ => by rw [Finset.sum_mul]
  rw [← conv, ← conv]
  exact h.2.2 i.val (by have := i.2; omega) j.val (by have := j.2; omega)

end Pynare

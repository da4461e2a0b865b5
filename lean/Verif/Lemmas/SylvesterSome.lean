import Verif.Lemmas.Solvable
import Verif.Props.SylvesterUnique
/-!
# When the generalised Sylvester equation is solved
-/

namespace Pynare

open Matrix

set_option linter.unusedSectionVars false

variable {V : Type} [Field V] [DecidableEq V]

/-- a square array whose columns produce everything has an inverse -/
theorem arr_inv_of_surj {a : Arr V} {n : Nat} (hr : a.r = n) (hc : a.c = n)
    (h : ∀ f : Nat → V, ∃ v : Nat → V, ∀ i < n, (sumTo n fun j => a.e i j * v j) = f i) : ∃ b, a.IsInv b := by
  refine arr_inv_of_inj hr hc ?_
  set M : Matrix (Fin n) (Fin n) V := Matrix.of fun i j => a.e i j with hM
  have hs : Function.Surjective M.mulVecLin := by
    intro f
    obtain ⟨v, hv⟩ := h fun i => if hi : i < n then f ⟨i, hi⟩ else 0
    refine ⟨fun j => v j, ?_⟩
    funext i
    have := hv i i.2
    rw [sumTo_enum (IsEnum.fin n), dif_pos i.2] at this
    rw [← this]
    simp only [Matrix.mulVecLin_apply, mulVec, dotProduct, hM, Matrix.of_apply]
  have hi := LinearMap.injective_iff_surjective.mpr hs
  intro v hv j hj
  have : M.mulVecLin (fun j => v j) = M.mulVecLin 0 := by
    rw [map_zero]
    funext i
    refine Eq.trans ?_ (hv i i.2)
    rw [sumTo_enum (IsEnum.fin n)]
    simp only [Matrix.mulVecLin_apply, mulVec, dotProduct, hM, Matrix.of_apply]
  exact congrFun (hi this) ⟨j, hj⟩

theorem solveChecked_some {la : LinAlg V} (iv : la.Inverts) {a b i : Arr V} (h1 : a.r = a.c) (h2 : b.r = a.r)
    (h : a.IsInv i) : ∃ x, la.solveChecked a b = .ok x := by
  obtain ⟨x, hx⟩ := iv.solve a b i h1 h2 h
  exact ⟨x, by unfold LinAlg.solveChecked; rw [if_pos ⟨h1, h2⟩, hx]⟩

/-- if the equation has one solution whatever its right-hand side is, the columns can be found one after the
other -/
theorem sylLoop_some {la : LinAlg V} (iv : la.Inverts) (P S T R F : Arr V) (n m : Nat)
    (hP : P.r = m ∧ P.c = m) (hS : S.r = m ∧ S.c = m)
    (triR : ∀ i j, j < i → i < n → R.e i j = 0)
    (triT : ∀ i j, j + 1 < i → i < n → T.e i j = 0)
    (blocks : ∀ i, i + 2 < n → T.e (i + 1) i = 0 ∨ T.e (i + 2) (i + 1) = 0)
    (sur : ∀ f : Nat → Nat → V, ∃ Δ : Nat → Nat → V, ∀ j < n, ∀ i < m,
      (sumTo n fun l => colTerm P S T R Δ i j l) = f i j) :
    ∀ fuel k1 Y, k1 ≤ n → fuel = passes T k1 →
      (∀ Δ : Nat → Nat → V, (∀ j, k1 ≤ j → j < n → ∀ i < m, (sumTo n fun l => colTerm P S T R Δ i j l) = 0) →
        ∀ j, k1 ≤ j → j < n → ∀ p < m, Δ p j = 0) →
      ∃ r, sylLoop la P S T R F n fuel k1 Y = .ok r := by
  intro fuel
  induction fuel with
  | zero => intro k1 Y _ _ _; exact ⟨_, rfl⟩
  | succ fuel ih =>
    intro k1 Y hk hf above
    cases k1 with
    | zero => unfold passes at hf; rw [if_pos rfl] at hf; omega
    | succ k =>
      have hf : fuel + 1 = zerosTo T (k + 1) + 1 := by
        unfold passes at hf; rw [if_neg (by omega)] at hf; exact hf
      -- what is zero after the columns at hand contributes nothing
      have late : ∀ Δ : Nat → Nat → V, (∀ j, k + 1 ≤ j → j < n → ∀ p < m, Δ p j = 0) →
          ∀ i j l, k + 1 ≤ l → l < n → colTerm P S T R Δ i j l = 0 := by
        intro Δ hΔ i j l h1 h2
        unfold colTerm
        rw [sumTo_eq]
        refine Finset.sum_eq_zero fun p hp => ?_
        rw [hΔ l h1 h2 p (by have := Finset.mem_range.mp hp; omega), mul_zero]
      rw [sylLoop]
      split
      · -- two columns
        rename_i hT
        obtain ⟨hT, hk0⟩ := hT
        obtain ⟨q, rfl⟩ : ∃ q, k = q + 1 := ⟨k - 1, by omega⟩
        simp only [Nat.add_sub_cancel] at hT ⊢
        have hbq : 0 < q → T.e q (q - 1) = 0 := by
          intro hq
          obtain ⟨z, rfl⟩ : ∃ z, q = z + 1 := ⟨q - 1, by omega⟩
          rcases blocks z (by omega) with h0 | h0
          · exact h0
          · exact absurd h0 hT
        have hlow : ∀ row, q ≤ row → row ≤ q + 1 → row < n → ∀ l < q, T.e row l = 0 := by
          intro row h1 h2 h3 l hl
          by_cases e : l + 1 = row
          · have e1 : row = q := by omega
            subst e1
            have := hbq (by omega)
            rw [← e] at this
            rw [← e]
            exact this
          · exact triT row l (by omega) h3
        have two : ∀ Δ : Nat → Nat → V, (∀ j, q + 1 + 1 ≤ j → j < n → ∀ p < m, Δ p j = 0) →
            ∀ row, q ≤ row → row ≤ q + 1 → ∀ i, (sumTo n fun l => colTerm P S T R Δ i row l) =
              colTerm P S T R Δ i row q + colTerm P S T R Δ i row (q + 1) := by
          intro Δ hΔ row h1 h2 i
          rw [sumTo_tail2 _ (by omega : q + 1 < n) fun l hl => colTerm_zero
            (triR row l (by omega) (by omega)) (hlow row h1 h2 (by omega) l hl)]
          rw [sumTo_eq, Finset.sum_eq_zero fun j hj => late Δ hΔ i row _ (by omega)
            (by have := Finset.mem_range.mp hj; omega), add_zero]
        have split2 : ∀ f : Nat → V, sumTo (m + m) f = sumTo m f + sumTo m fun p => f (m + p) := by
          intro f
          rw [sumTo_eq, sumTo_eq, sumTo_eq, Finset.sum_range_add]
        obtain ⟨b, hblk⟩ := Arr.block_some (a := combine (R.e q q) P (T.e q q) S)
          (b := combine (R.e q (q + 1)) P (T.e q (q + 1)) S) (c := ⟨S.r, S.c, fun i j => T.e (q + 1) q * S.e i j⟩)
          (d := combine (R.e (q + 1) (q + 1)) P (T.e (q + 1) (q + 1)) S)
          rfl (by simp only [combine]; omega) (by simp only [combine]; omega)
        have hblk' := hblk
        obtain ⟨t, ht, hblk⟩ := Except.bind_eq_ok hblk
        obtain ⟨u, hu, hblk⟩ := Except.bind_eq_ok hblk
        obtain ⟨t0, t1, t2, t3, t4⟩ := Arr.hstack_ok ht
        obtain ⟨u0, u1, u2, u3, u4⟩ := Arr.hstack_ok hu
        obtain ⟨b0, b1, b2, b3, b4⟩ := Arr.vstack_ok hblk
        simp only [combine] at t0 t1 t2 t3 t4 u0 u1 u2 u3 u4
        have hbc : b.c = m + m := by rw [b2, t2, hP.2]
        have hbr : b.r = m + m := by rw [b1, t1, u1, hP.1, hS.1]
        -- the block applied to two columns
        have app : ∀ (Δ : Nat → Nat → V) (v : Nat → V), (∀ p < m, v p = Δ p q) → (∀ p < m, v (m + p) = Δ p (q + 1)) →
            (∀ i < m, (sumTo (m + m) fun j => b.e i j * v j) =
              colTerm P S T R Δ i q q + colTerm P S T R Δ i q (q + 1)) ∧
            ∀ i < m, (sumTo (m + m) fun j => b.e (m + i) j * v j) =
              colTerm P S T R Δ i (q + 1) q + colTerm P S T R Δ i (q + 1) (q + 1) := by
          intro Δ v hv1 hv2
          refine ⟨fun i hi => ?_, fun i hi => ?_⟩
          · rw [split2]
            congr 1
            · unfold colTerm
              rw [hP.2]
              refine sumTo_congr fun p hp => ?_
              rw [b3 i p (by omega), t3 i p (by omega), hv1 p hp]
            · unfold colTerm
              rw [hP.2]
              refine sumTo_congr fun p hp => ?_
              have := t4 i p
              rw [hP.2] at this
              rw [b3 i (m + p) (by omega), this, hv2 p hp]
          · rw [split2]
            congr 1
            · unfold colTerm
              rw [hP.2]
              refine sumTo_congr fun p hp => ?_
              have := b4 i p
              rw [t1, hP.1] at this
              have hu3 := u3
              rw [hS.2] at hu3
              rw [this, hu3 i p hp, hv1 p hp, triR (q + 1) q (by omega) (by omega)]
              ring
            · unfold colTerm
              rw [hP.2]
              refine sumTo_congr fun p hp => ?_
              have := b4 i (m + p)
              rw [t1, hP.1] at this
              have h' := u4 i p
              rw [hS.2] at h'
              rw [this, h', hv2 p hp]
        obtain ⟨inv, hinv⟩ := arr_inv_of_surj hbr hbc (by
          intro f
          obtain ⟨Δ, hΔ⟩ := sur fun i j => if j = q then f i else if j = q + 1 then f (m + i) else 0
          have hz := above Δ (by
            intro j h1 h2 i hi
            rw [hΔ j h2 i hi, if_neg (by omega), if_neg (by omega)])
          obtain ⟨p1, p2⟩ := app Δ (fun k => if k < m then Δ k q else Δ (k - m) (q + 1))
            (fun p hp => if_pos hp) (fun p hp => by rw [if_neg (by omega), Nat.add_sub_cancel_left])
          refine ⟨fun k => if k < m then Δ k q else Δ (k - m) (q + 1), fun i hi => ?_⟩
          by_cases him : i < m
          · rw [p1 i him, ← two Δ hz q (by omega) (by omega), hΔ q (by omega) i him, if_pos rfl]
          · obtain ⟨i, rfl⟩ := Nat.exists_eq_add_of_le (Nat.le_of_not_lt him)
            rw [p2 i (by omega), ← two Δ hz (q + 1) (by omega) (by omega), hΔ (q + 1) (by omega) i (by omega),
              if_neg (by omega), if_pos rfl])
        rw [hblk']
        simp only [exc_bind]
        obtain ⟨y, hy⟩ := solveChecked_some (la := la) iv (a := b) (b := ⟨P.r + P.r, 1, fun i _ =>
          if i < P.r then F.e i q - knownPart P S T R n Y (q + 1) q i
          else F.e (i - P.r) (q + 1) - knownPart P S T R n Y (q + 1) (q + 1) (i - P.r)⟩) (by omega)
          (by show P.r + P.r = _; omega) hinv
        rw [hy]
        simp only [exc_bind]
        refine ih q _ (by omega) ?_ ?_
        · unfold passes
          rw [zerosTo_succ_ne T q hT] at hf
          by_cases hq : q = 0
          · subst hq
            rw [if_pos rfl]
            have : zerosTo T (0 + 1) = 0 := rfl
            omega
          · obtain ⟨z, rfl⟩ : ∃ z, q = z + 1 := ⟨q - 1, by omega⟩
            rw [if_neg hq]
            rw [zerosTo_succ_zero T z (hbq (by omega))] at hf
            omega
        · intro Δ hΔ j hj hjn p hp
          have hz := above Δ (fun j h1 h2 => hΔ j (by omega) h2)
          obtain ⟨p1, p2⟩ := app Δ (fun k => if k < m then Δ k q else Δ (k - m) (q + 1))
            (fun p hp => if_pos hp) (fun p hp => by rw [if_neg (by omega), Nat.add_sub_cancel_left])
          have zero := inv_kills hinv (n := m + m) hbr hbc (v := fun k => if k < m then Δ k q else Δ (k - m) (q + 1)) (by
            intro i hi
            by_cases him : i < m
            · rw [p1 i him, ← two Δ hz q (by omega) (by omega), hΔ q (by omega) (by omega) i him]
            · obtain ⟨i, rfl⟩ := Nat.exists_eq_add_of_le (Nat.le_of_not_lt him)
              rw [p2 i (by omega), ← two Δ hz (q + 1) (by omega) (by omega),
                hΔ (q + 1) (by omega) (by omega) i (by omega)])
          by_cases h2 : q + 1 + 1 ≤ j
          · exact hz j h2 hjn p hp
          · by_cases hjq : j = q
            · subst hjq
              have := zero p (by omega)
              rwa [if_pos hp] at this
            · have hjq : j = q + 1 := by omega
              subst hjq
              have := zero (m + p) (by omega)
              rwa [if_neg (by omega), Nat.add_sub_cancel_left] at this
      · -- one column
        rename_i hT
        have hbk : 0 < k → T.e k (k - 1) = 0 := by
          intro h0
          by_contra hne
          exact hT ⟨hne, by omega⟩
        have hlow : ∀ l < k, T.e k l = 0 := by
          intro l hl
          by_cases e : l + 1 = k
          · have := hbk (by omega)
            rw [← e] at this ⊢
            exact this
          · exact triT k l (by omega) (by omega)
        have one : ∀ Δ : Nat → Nat → V, (∀ j, k + 1 ≤ j → j < n → ∀ p < m, Δ p j = 0) →
            ∀ i, (sumTo n fun l => colTerm P S T R Δ i k l) = sumTo m fun p =>
              (combine (R.e k k) P (T.e k k) S).e i p * Δ p k := by
          intro Δ hΔ i
          rw [sumTo_tail1 _ (by omega : k < n) fun l hl => colTerm_zero (triR k l hl (by omega)) (hlow l hl)]
          rw [sumTo_eq (n - 1 - k), Finset.sum_eq_zero fun l hl => late Δ hΔ i k _ (by omega)
            (by have := Finset.mem_range.mp hl; omega), add_zero]
          unfold colTerm combine
          rw [hP.2]
        obtain ⟨inv, hinv⟩ := arr_inv_of_surj (a := combine (R.e k k) P (T.e k k) S) hP.1 hP.2 (by
          intro f
          obtain ⟨Δ, hΔ⟩ := sur fun i j => if j = k then f i else 0
          have hz := above Δ (by
            intro j h1 h2 i hi
            rw [hΔ j h2 i hi, if_neg (by omega)])
          exact ⟨fun p => Δ p k, fun i hi => by rw [← one Δ hz, hΔ k (by omega) i hi, if_pos rfl]⟩)
        obtain ⟨y, hy⟩ := solveChecked_some (la := la) iv (a := combine (R.e k k) P (T.e k k) S)
          (b := ⟨P.r, 1, fun i _ => F.e i k - knownPart P S T R n Y k k i⟩)
          (by simp only [combine]; omega) rfl hinv
        rw [hy]
        simp only [exc_bind]
        refine ih k _ (by omega) ?_ ?_
        · unfold passes
          by_cases hq : k = 0
          · subst hq
            rw [if_pos rfl]
            have : zerosTo T (0 + 1) = 0 := rfl
            omega
          · obtain ⟨z, rfl⟩ : ∃ z, k = z + 1 := ⟨k - 1, by omega⟩
            rw [if_neg hq]
            rw [zerosTo_succ_zero T z (hbk (by omega))] at hf
            omega
        · intro Δ hΔ j hj hjn p hp
          have hz := above Δ (fun j h1 h2 => hΔ j (by omega) h2)
          by_cases hj2 : k + 1 ≤ j
          · exact hz j hj2 hjn p hp
          · have hjk : j = k := by omega
            subst hjk
            exact inv_kills hinv (n := m) hP.1 hP.2 (v := fun p => Δ p j) (fun i hi => by
              rw [← one Δ hz, hΔ j (by omega) hjn i hi]) p hp

set_option maxHeartbeats 1000000 in
/-- the general case -/
theorem sylGeneral_some {la : LinAlg V} (iv : la.Inverts) {qz : Arr V → Arr V → Except Err (GQZ V)}
    (hqz : GQZExact qz) {A B C D E : Arr V} {m n : Nat} (hA : A.r = m ∧ A.c = m) (hC : C.r = m ∧ C.c = m)
    (hB : B.r = n ∧ B.c = n) (hD : D.r = n ∧ D.c = n) (hE : E.r = m ∧ E.c = n) (hn0 : n ≠ 0)
    (q1 : ∃ g, qz A C = .ok g) (q2 : ∃ g, qz D B = .ok g)
    (inj : ∀ X : Arr V, SolvesSylvester A B C D (Arr.zeros m n) X → ∀ i < m, ∀ j < n, X.e i j = 0) :
    ∃ r, sylGeneral la qz A B C D E = .ok r := by
  obtain ⟨g1, hg1⟩ := q1
  obtain ⟨g2, hg2⟩ := q2
  have d1 := hqz A C g1 (by omega) (by omega) (by omega) hg1
  have d2 := hqz D B g2 (by omega) (by omega) (by omega) hg2
  have s1 := d1.shape
  have s2 := d2.shape
  simp only [List.mem_cons, List.not_mem_nil, or_false, forall_eq_or_imp, forall_eq] at s1 s2
  rw [hA.1] at s1
  rw [hD.1] at s2
  obtain ⟨m1, m2, m3, m4⟩ := s1
  obtain ⟨n1, n2, n3, n4⟩ := s2
  have hm : IsEnum (fun i : Fin m => i.val) m := IsEnum.fin _
  have hn : IsEnum (fun i : Fin n => i.val) n := IsEnum.fin _
  have mm := d1.mats
  rw [hA.1] at mm
  obtain ⟨a1, a2, a3, a4, a5, a6⟩ := mm
  have mm := d2.mats
  rw [hD.1] at mm
  obtain ⟨b1, b2, b3, b4, b5, b6⟩ := mm
  set κm : Fin m → Nat := fun i => i.val with hκm
  set κn : Fin n → Nat := fun i => i.val with hκn
  -- the operator in the coordinates of the decompositions
  let L : Matrix (Fin m) (Fin n) V →ₗ[V] Matrix (Fin m) (Fin n) V :=
    { toFun := fun Y => g1.P.blk κm κm * Y * (g2.S.blk κn κn)ᵀ + g1.S.blk κm κm * Y * (g2.P.blk κn κn)ᵀ
      map_add' := by intro x y; simp only [Matrix.mul_add, Matrix.add_mul]; abel
      map_smul' := by intro c x; simp only [Matrix.mul_smul, Matrix.smul_mul, smul_add, RingHom.id_apply] }
  have Linj : Function.Injective L := by
    rw [injective_iff_map_eq_zero]
    intro Y hY
    have hY : g1.P.blk κm κm * Y * (g2.S.blk κn κn)ᵀ + g1.S.blk κm κm * Y * (g2.P.blk κn κn)ᵀ = 0 := hY
    let XM : Matrix (Fin m) (Fin n) V := g1.Z.blk κm κm * Y * (g2.Z.blk κn κn)ᵀ
    let X : Arr V := ⟨m, n, fun p l => if hp : p < m then if hl : l < n then XM ⟨p, hp⟩ ⟨l, hl⟩ else 0 else 0⟩
    have hXb : X.blk κm κn = XM := by
      ext p l
      show (if hp : p.val < m then if hl : l.val < n then XM ⟨p.val, hp⟩ ⟨l.val, hl⟩ else 0 else 0) = _
      rw [dif_pos p.2, dif_pos l.2]
    have hX := inj X (solves_of_mats (m := m) (n := n) ⟨rfl, rfl⟩ ⟨rfl, rfl⟩ (by
      show A.blk κm κm * X.blk κm κn * (B.blk κn κn)ᵀ + C.blk κm κm * X.blk κm κn * (D.blk κn κn)ᵀ = _
      rw [hXb, a1, a2, b1, b2]
      have e0 : (Arr.zeros m n : Arr V).blk (fun i : Fin m => i.val) (fun j : Fin n => j.val) = 0 := by
        ext i j; rfl
      rw [e0]
      have one : ∀ (L : Matrix (Fin m) (Fin m) V) (N : Matrix (Fin n) (Fin n) V),
          g1.Q.blk κm κm * L * (g1.Z.blk κm κm)ᵀ * XM * (g2.Q.blk κn κn * N * (g2.Z.blk κn κn)ᵀ)ᵀ =
            g1.Q.blk κm κm * (L * Y * Nᵀ) * (g2.Q.blk κn κn)ᵀ := by
        intro L N
        show g1.Q.blk κm κm * L * (g1.Z.blk κm κm)ᵀ * (g1.Z.blk κm κm * Y * (g2.Z.blk κn κn)ᵀ) * _ = _
        rw [Matrix.transpose_mul, Matrix.transpose_mul, Matrix.transpose_transpose]
        calc g1.Q.blk κm κm * L * (g1.Z.blk κm κm)ᵀ * (g1.Z.blk κm κm * Y * (g2.Z.blk κn κn)ᵀ) *
              (g2.Z.blk κn κn * (Nᵀ * (g2.Q.blk κn κn)ᵀ))
            = g1.Q.blk κm κm * L * ((g1.Z.blk κm κm)ᵀ * g1.Z.blk κm κm) * Y *
              ((g2.Z.blk κn κn)ᵀ * g2.Z.blk κn κn) * Nᵀ * (g2.Q.blk κn κn)ᵀ := by simp only [Matrix.mul_assoc]
          _ = _ := by rw [a6, b6]; simp only [Matrix.mul_assoc, Matrix.mul_one]
      rw [one, one, ← Matrix.add_mul, ← Matrix.mul_add, hY, Matrix.mul_zero, Matrix.zero_mul]))
    have hXM : XM = 0 := by
      ext p l
      have := hX p.val p.2 l.val l.2
      rw [← hXb]
      exact this
    calc Y = ((g1.Z.blk κm κm)ᵀ * g1.Z.blk κm κm) * Y * ((g2.Z.blk κn κn)ᵀ * g2.Z.blk κn κn) := by
          rw [a6, b6, Matrix.one_mul, Matrix.mul_one]
      _ = (g1.Z.blk κm κm)ᵀ * XM * g2.Z.blk κn κn := by
          show _ = (g1.Z.blk κm κm)ᵀ * (g1.Z.blk κm κm * Y * (g2.Z.blk κn κn)ᵀ) * g2.Z.blk κn κn
          simp only [Matrix.mul_assoc]
      _ = 0 := by rw [hXM, Matrix.mul_zero, Matrix.zero_mul]
  have Lsur := LinearMap.injective_iff_surjective.mp Linj
  have sur : ∀ f : Nat → Nat → V, ∃ Δ : Nat → Nat → V, ∀ j < n, ∀ i < m,
      (sumTo n fun l => colTerm g1.P g1.S g2.P g2.S Δ i j l) = f i j := by
    intro f
    obtain ⟨Y, hY⟩ := Lsur (Matrix.of fun i j => f i.val j.val)
    refine ⟨fun p l => if hp : p < m then if hl : l < n then Y ⟨p, hp⟩ ⟨l, hl⟩ else 0 else 0, ?_⟩
    intro j hj i hi
    have e := congrFun (congrFun hY ⟨i, hi⟩) ⟨j, hj⟩
    refine Eq.trans ?_ e
    show _ = (g1.P.blk κm κm * Y * (g2.S.blk κn κn)ᵀ + g1.S.blk κm κm * Y * (g2.P.blk κn κn)ᵀ) ⟨i, hi⟩ ⟨j, hj⟩
    simp only [Matrix.add_apply, Matrix.mul_apply, Matrix.transpose_apply, Arr.blk_apply]
    rw [sumTo_enum hn, ← Finset.sum_add_distrib]
    refine Finset.sum_congr rfl fun l _ => ?_
    unfold colTerm
    rw [m1.2, sumTo_enum hm, Finset.sum_mul, Finset.sum_mul, ← Finset.sum_add_distrib]
    refine Finset.sum_congr rfl fun p _ => ?_
    simp only [hκm, hκn, Fin.is_lt, dite_true, Fin.eta]
    ring
  obtain ⟨eq2, he⟩ := Arr.dot_some (a := E) (b := g2.Q) (by omega)
  obtain ⟨-, e1, e2, -⟩ := Arr.dot_ok he
  obtain ⟨f, hf⟩ := Arr.dot_some (a := g1.Q.tr) (b := eq2) (by show g1.Q.r = _; omega)
  obtain ⟨⟨rest, Y⟩, hY⟩ := sylLoop_some iv g1.P g1.S g2.P g2.S f n m m1 m2
    (by have := d2.triS; rwa [hD.1] at this) (by have := d2.triP; rwa [hD.1] at this)
    (by have := d2.blocks; rwa [hD.1] at this) sur (zerosBelow g2.P n + 1) n (fun _ _ => 0) (Nat.le_refl _)
    (by unfold passes; rw [if_neg hn0]; rfl) (fun Δ _ j h1 h2 => by omega)
  obtain ⟨yz, hyz⟩ := Arr.dot_some (a := (⟨A.r, B.r, Y⟩ : Arr V)) (b := g2.Z.tr) (by show B.r = g2.Z.c; omega)
  obtain ⟨-, y1, y2, -⟩ := Arr.dot_ok hyz
  have y1 : yz.r = A.r := y1
  obtain ⟨x, hx⟩ := Arr.dot_some (a := g1.Z) (b := yz) (by omega)
  refine ⟨if rest = 0 then some x else none, ?_⟩
  rw [← hB.1] at hY
  simp only [sylGeneral, hg1, hg2, he, hf, hY, hyz, hx, exc_bind]

/-- the equation is solved whenever the homogeneous one has no solution but zero -/
theorem generalizedSylvester_some {la : LinAlg V} (iv : la.Inverts) {qz : Arr V → Arr V → Except Err (GQZ V)}
    (hqz : GQZExact qz) {A B C D E : Arr V} {m n : Nat} (hA : A.r = m ∧ A.c = m) (hC : C.r = m ∧ C.c = m)
    (hB : B.r = n ∧ B.c = n) (hD : D.r = n ∧ D.c = n) (hE : E.r = m ∧ E.c = n) (hn0 : n ≠ 0)
    (q1 : m ≠ 1 → n ≠ 1 → ∃ g, qz A C = .ok g) (q2 : m ≠ 1 → n ≠ 1 → ∃ g, qz D B = .ok g)
    (inj : ∀ X : Arr V, SolvesSylvester A B C D (Arr.zeros m n) X → ∀ i < m, ∀ j < n, X.e i j = 0) :
    ∃ r, generalizedSylvester la qz A B C D E = .ok r := by
  unfold generalizedSylvester
  rw [if_neg (by omega), if_neg (by omega), if_neg (by omega), if_neg (by omega), if_neg (by omega)]
  split
  · rename_i hm
    have hm : m = 1 := by omega
    subst hm
    obtain ⟨inv, hinv⟩ := arr_inv_of_inj (a := combine (A.e 0 0) B (C.e 0 0) D) (n := n) hB.1 hB.2 (by
      intro v hv j hj
      refine inj ⟨1, n, fun _ l => v l⟩ ⟨rfl, rfl, ?_⟩ 0 (by omega) j hj
      intro i hi j hj
      have hi0 : i = 0 := by have : i < 1 := hi; omega
      subst hi0
      have hj : j < n := hj
      refine Eq.trans ?_ (hv j hj)
      show (sumTo 1 fun k => sumTo n fun l => A.e 0 k * v l * B.e j l) +
        (sumTo 1 fun k => sumTo n fun l => C.e 0 k * v l * D.e j l) = _
      simp only [sumTo_eq, Finset.sum_range_one, ← Finset.sum_add_distrib, combine]
      exact Finset.sum_congr rfl fun l _ => by ring)
    obtain ⟨x, hx⟩ := solveChecked_some (la := la) iv (a := combine (A.e 0 0) B (C.e 0 0) D) (b := E.tr)
      (by simp only [combine]; omega) (by simp only [combine, Arr.tr]; omega) hinv
    exact ⟨_, by rw [hx]; rfl⟩
  split
  · rename_i hm hn
    have hn : n = 1 := by omega
    subst hn
    obtain ⟨inv, hinv⟩ := arr_inv_of_inj (a := combine (B.e 0 0) A (D.e 0 0) C) (n := m) hA.1 hA.2 (by
      intro v hv i hi
      refine inj ⟨m, 1, fun k _ => v k⟩ ⟨rfl, rfl, ?_⟩ i hi 0 (by omega)
      intro i hi j hj
      have hj0 : j = 0 := by have : j < 1 := hj; omega
      subst hj0
      have hi : i < m := hi
      refine Eq.trans ?_ (hv i hi)
      show (sumTo m fun k => sumTo 1 fun l => A.e i k * v k * B.e 0 l) +
        (sumTo m fun k => sumTo 1 fun l => C.e i k * v k * D.e 0 l) = _
      simp only [sumTo_eq, Finset.sum_range_one, ← Finset.sum_add_distrib, combine]
      exact Finset.sum_congr rfl fun l _ => by ring)
    obtain ⟨x, hx⟩ := solveChecked_some (la := la) iv (a := combine (B.e 0 0) A (D.e 0 0) C) (b := E)
      (by simp only [combine]; omega) (by simp only [combine]; omega) hinv
    exact ⟨_, by rw [hx]; rfl⟩
  · rename_i h1 h2
    exact sylGeneral_some iv hqz hA hC hB hD hE hn0 (q1 (by omega) (by omega)) (q2 (by omega) (by omega)) inj

end Pynare

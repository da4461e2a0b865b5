import Verif.Spec.Sylvester
import Verif.Lemmas.Simul
import Mathlib.Tactic.Ring
import Mathlib.Tactic.LinearCombination
/-!
# Lemmas for the generalised Sylvester equation
-/

namespace Pynare

variable {V : Type} [CommRing V] [DecidableEq V]

set_option linter.unusedSectionVars false

/-- column `j` of `P Y Rᵀ + S Y Tᵀ = F`, row `i`, split by columns of `Y` -/
def colTerm (P S T R : Arr V) (Y : Nat → Nat → V) (i j l : Nat) : V :=
  sumTo P.c fun p => (R.e j l * P.e i p + T.e j l * S.e i p) * Y p l

/-- equation column `j` -/
def colEq (P S T R F : Arr V) (n : Nat) (Y : Nat → Nat → V) (j : Nat) : Prop :=
  ∀ i < P.r, (sumTo n fun l => colTerm P S T R Y i j l) = F.e i j

theorem colTerm_zero {P S T R : Arr V} {Y : Nat → Nat → V} {i j l : Nat} (h1 : R.e j l = 0)
    (h2 : T.e j l = 0) : colTerm P S T R Y i j l = 0 := by
  unfold colTerm
  rw [sumTo_eq]
  exact Finset.sum_eq_zero fun p _ => by rw [h1, h2]; ring

theorem colTerm_congr {P S T R : Arr V} {Y Y' : Nat → Nat → V} {i j l : Nat}
    (h : ∀ p < P.c, Y p l = Y' p l) : colTerm P S T R Y i j l = colTerm P S T R Y' i j l := by
  unfold colTerm
  exact sumTo_congr fun p hp => by rw [h p hp]

/-- a sum whose first terms vanish -/
theorem sumTo_tail {n k : Nat} (f : Nat → V) (hk : k ≤ n) (h : ∀ l < k, f l = 0) :
    sumTo n f = sumTo (n - k) fun j => f (k + j) := by
  obtain ⟨d, rfl⟩ := Nat.exists_eq_add_of_le hk
  rw [Nat.add_sub_cancel_left, sumTo_eq, sumTo_eq, Finset.sum_range_add,
    Finset.sum_eq_zero (fun l hl => h l (Finset.mem_range.mp hl)), zero_add]

theorem sumTo_tail1 {n k : Nat} (f : Nat → V) (hk : k < n) (h : ∀ l < k, f l = 0) :
    sumTo n f = f k + sumTo (n - 1 - k) fun j => f (k + 1 + j) := by
  rw [sumTo_tail f (Nat.le_of_lt hk) h, show n - k = (n - 1 - k) + 1 by omega, sumTo_eq, sumTo_eq,
    Finset.sum_range_succ']
  rw [add_comm]
  simp only [Nat.add_zero]
  congr 1
  exact Finset.sum_congr rfl fun j _ => by congr 1; omega

theorem sumTo_tail2 {n k : Nat} (f : Nat → V) (hk : k + 1 < n) (h : ∀ l < k, f l = 0) :
    sumTo n f = f k + f (k + 1) + sumTo (n - 1 - (k + 1)) fun j => f (k + 1 + 1 + j) := by
  rw [sumTo_tail1 f (by omega) h, show n - 1 - k = (n - 1 - (k + 1)) + 1 by omega, sumTo_eq, sumTo_eq,
    Finset.sum_range_succ']
  simp only [Nat.add_zero]
  rw [add_comm (∑ j ∈ _, _) (f (k + 1)), ← add_assoc]
  congr 1
  exact Finset.sum_congr rfl fun j _ => by congr 1; omega

/-- the number of zeros next to the diagonal above row `k1` -/
def zerosTo (T : Arr V) (k1 : Nat) : Nat :=
  ((List.range (k1 - 1)).filter fun i => decide (T.e (i + 1) i = 0)).length

theorem zerosTo_succ_zero (T : Arr V) (k : Nat) (h : T.e (k + 1) k = 0) :
    zerosTo T (k + 2) = zerosTo T (k + 1) + 1 := by
  unfold zerosTo
  rw [show k + 2 - 1 = k + 1 by omega, show k + 1 - 1 = k by omega, List.range_succ, List.filter_append]
  simp [h]

theorem zerosTo_succ_ne (T : Arr V) (k : Nat) (h : T.e (k + 1) k ≠ 0) :
    zerosTo T (k + 2) = zerosTo T (k + 1) := by
  unfold zerosTo
  rw [show k + 2 - 1 = k + 1 by omega, show k + 1 - 1 = k by omega, List.range_succ, List.filter_append]
  simp [h]

/-- the passes needed for `k1` columns -/
def passes (T : Arr V) (k1 : Nat) : Nat := if k1 = 0 then 0 else zerosTo T k1 + 1

theorem solveChecked_ok {la : LinAlg V} (ex : la.Exact) {a b x : Arr V} (h : la.solveChecked a b = .ok x) :
    a.IsProd x b := by
  unfold LinAlg.solveChecked at h
  split at h
  · rename_i hs; exact (ex.solve a b x hs.1 hs.2 h).1
  · cases h

/-- the loop computes all columns and every column equation holds -/
theorem sylLoop_correct (la : LinAlg V) (ex : la.Exact) (P S T R F : Arr V) (n m : Nat)
    (hP : P.r = m ∧ P.c = m) (hS : S.r = m ∧ S.c = m)
    (triR : ∀ i j, j < i → i < n → R.e i j = 0)
    (triT : ∀ i j, j + 1 < i → i < n → T.e i j = 0)
    (blocks : ∀ i, i + 2 < n → T.e (i + 1) i = 0 ∨ T.e (i + 2) (i + 1) = 0) :
    ∀ fuel k1 Y rest Y', k1 ≤ n → fuel = passes T k1 →
      (0 < k1 → k1 < n → T.e k1 (k1 - 1) = 0) →
      (∀ j, k1 ≤ j → j < n → colEq P S T R F n Y j) →
      sylLoop la P S T R F n fuel k1 Y = .ok (rest, Y') →
      rest = 0 ∧ ∀ j < n, colEq P S T R F n Y' j := by
  intro fuel
  induction fuel with
  | zero =>
    intro k1 Y rest Y' hk hf _ hY h
    have h0 : k1 = 0 := by
      by_contra hne
      unfold passes at hf
      rw [if_neg hne] at hf
      omega
    subst h0
    rw [sylLoop] at h
    have := Except.ok.inj h
    simp only [Prod.mk.injEq] at this
    obtain ⟨e1, e2⟩ := this
    subst e1 e2
    exact ⟨rfl, fun j hj => hY j (Nat.zero_le j) hj⟩
  | succ fuel ih =>
    intro k1 Y rest Y' hk hf hb hY h
    cases k1 with
    | zero => unfold passes at hf; rw [if_pos rfl] at hf; omega
    | succ k =>
      have hf : fuel + 1 = zerosTo T (k + 1) + 1 := by
        unfold passes at hf; rw [if_neg (by omega)] at hf; exact hf
      -- equations of later columns do not depend on columns up to `k`
      have keep : ∀ Y2 : Nat → Nat → V, (∀ p l, k + 1 ≤ l → Y2 p l = Y p l) →
          ∀ j, k + 1 ≤ j → j < n → colEq P S T R F n Y2 j := by
        intro Y2 hY2 j hj hjn i hi
        rw [← hY j hj hjn i hi]
        refine sumTo_congr fun l hl => ?_
        by_cases hl' : k + 1 ≤ l
        · exact colTerm_congr fun p _ => hY2 p l hl'
        · have hz : T.e j l = 0 := by
            by_cases e : l + 1 = j
            · have e1 : l = k := by omega
              have e2 : j = k + 1 := by omega
              subst e1 e2
              exact hb (by omega) hjn
            · exact triT j l (by omega) hjn
          rw [colTerm_zero (triR j l (by omega) hjn) hz, colTerm_zero (triR j l (by omega) hjn) hz]
      rw [sylLoop] at h
      split at h
      · -- two columns
        rename_i hT
        obtain ⟨hT, hk0⟩ := hT
        obtain ⟨q, rfl⟩ : ∃ q, k = q + 1 := ⟨k - 1, by omega⟩
        simp only [Nat.add_sub_cancel] at h hT
        obtain ⟨b, hblk, h⟩ := Except.bind_eq_ok h
        obtain ⟨y, hy, h⟩ := Except.bind_eq_ok h
        have hprod := solveChecked_ok ex hy
        have hbq : 0 < q → T.e q (q - 1) = 0 := by
          intro hq
          obtain ⟨z, rfl⟩ : ∃ z, q = z + 1 := ⟨q - 1, by omega⟩
          rcases blocks z (by omega) with h0 | h0
          · exact h0
          · exact absurd h0 hT
        refine ih q _ rest Y' (by omega) ?_ (fun h0 _ => hbq h0) ?_ h
        · unfold passes
          rw [zerosTo_succ_ne T q hT] at hf
          by_cases hq : q = 0
          · subst hq
            rw [if_pos rfl]
            have : zerosTo T (0 + 1) = 0 := rfl
            omega
          · obtain ⟨z, rfl⟩ : ∃ z, q = z + 1 := ⟨q - 1, by omega⟩
            rw [if_neg hq]
            rw [zerosTo_succ_zero T z (hbq (by omega))] at hf
            omega
        · -- the two new columns
          obtain ⟨t, ht, hblk⟩ := Except.bind_eq_ok hblk
          obtain ⟨u, hu, hblk⟩ := Except.bind_eq_ok hblk
          obtain ⟨t0, t1, t2, t3, t4⟩ := Arr.hstack_ok ht
          obtain ⟨u0, u1, u2, u3, u4⟩ := Arr.hstack_ok hu
          obtain ⟨b0, b1, b2, b3, b4⟩ := Arr.vstack_ok hblk
          obtain ⟨p1, p2, p3, p4⟩ := hprod
          simp only [combine] at t0 t1 t2 t3 t4 u0 u1 u2 u3 u4
          have hbc : b.c = m + m := by rw [b2, t2, hP.2]
          have hbr : b.r = m + m := by rw [b1, t1, u1, hP.1, hS.1]
          have hyc : (1 : Nat) = y.c := p3
          have split2 : ∀ f : Nat → V, sumTo (m + m) f = sumTo m f + sumTo m fun p => f (m + p) := by
            intro f
            rw [sumTo_eq, sumTo_eq, sumTo_eq, Finset.sum_range_add]
          intro j hj hjn i hi
          have hi : i < m := by rw [← hP.1]; exact hi
          by_cases hj2 : q + 1 + 1 ≤ j
          · refine keep _ (fun p l hl => ?_) j hj2 hjn i (by omega)
            rw [if_neg (by omega), if_neg (by omega)]
          · -- rows of the product
            have hknown : ∀ row i, knownPart P S T R n Y (q + 1) row i =
                sumTo (n - 1 - (q + 1)) fun j => colTerm P S T R (fun i j => if j = q + 1 then
                  y.e (P.r + i) 0 else if j = q then y.e i 0 else Y i j) i row (q + 1 + 1 + j) := by
              intro row i
              unfold knownPart
              refine sumTo_congr fun j _ => ?_
              unfold colTerm combine
              refine sumTo_congr fun p _ => ?_
              dsimp only
              rw [if_neg (by omega), if_neg (by omega)]
            have hlow : ∀ row, q ≤ row → row ≤ q + 1 → row < n → ∀ l < q, T.e row l = 0 := by
              intro row h1 h2 h3 l hl
              by_cases e : l + 1 = row
              · have e1 : row = q := by omega
                subst e1
                have := hbq (by omega)
                rw [← e] at this
                rw [← e]
                exact this
              · exact triT row l (by omega) h3
            rw [sumTo_tail2 _ (by omega : q + 1 < n) fun l hl => colTerm_zero
              (triR j l (by omega) hjn) (hlow j hj (by omega) hjn l hl)]
            rw [← hknown]
            by_cases hjq : j = q
            · subst hjq
              have row := p4 i (by omega) 0 (by omega)
              simp only at row
              rw [if_pos (by omega), hbc, split2] at row
              have l1 : (sumTo m fun k => b.e i k * y.e k 0) = colTerm P S T R (fun i j' => if j' = j + 1 then
                  y.e (P.r + i) 0 else if j' = j then y.e i 0 else Y i j') i j j := by
                unfold colTerm
                rw [hP.2]
                refine sumTo_congr fun p hp => ?_
                dsimp only
                rw [b3 i p (by omega), t3 i p (by omega), if_neg (by omega), if_pos rfl]
              have l2 : (sumTo m fun k => b.e i (m + k) * y.e (m + k) 0) = colTerm P S T R (fun i j' =>
                  if j' = j + 1 then
                  y.e (P.r + i) 0 else if j' = j then y.e i 0 else Y i j') i j (j + 1) := by
                unfold colTerm
                rw [hP.2]
                refine sumTo_congr fun p hp => ?_
                dsimp only
                have := t4 i p
                rw [hP.2] at this
                rw [b3 i (m + p) (by omega), this, if_pos rfl, hP.1]
              rw [l1, l2] at row
              rw [row]
              ring
            · have hjq : j = q + 1 := by omega
              subst hjq
              have row := p4 (m + i) (by omega) 0 (by omega)
              simp only at row
              rw [if_neg (by omega), hbc, split2, show m + i - P.r = i by omega] at row
              have hu3 := u3
              rw [hS.2] at hu3
              have l1 : (sumTo m fun k => b.e (m + i) k * y.e k 0) = colTerm P S T R (fun i j' => if j' = q + 1 then
                  y.e (P.r + i) 0 else if j' = q then y.e i 0 else Y i j') i (q + 1) q := by
                unfold colTerm
                rw [hP.2]
                refine sumTo_congr fun p hp => ?_
                dsimp only
                have := b4 i p
                rw [t1, hP.1] at this
                rw [this, hu3 i p hp, if_neg (by omega), if_pos rfl, triR (q + 1) q (by omega) hjn]
                ring
              have l2 : (sumTo m fun k => b.e (m + i) (m + k) * y.e (m + k) 0) = colTerm P S T R (fun i j' =>
                  if j' = q + 1 then
                  y.e (P.r + i) 0 else if j' = q then y.e i 0 else Y i j') i (q + 1) (q + 1) := by
                unfold colTerm
                rw [hP.2]
                refine sumTo_congr fun p hp => ?_
                dsimp only
                have := b4 i (m + p)
                rw [t1, hP.1] at this
                have h' := u4 i p
                rw [hS.2] at h'
                rw [this, h', if_pos rfl, hP.1]
              rw [l1, l2] at row
              rw [row]
              ring
      · -- one column
        rename_i hT
        obtain ⟨y, hy, h⟩ := Except.bind_eq_ok h
        have hprod := solveChecked_ok ex hy
        have hbk : 0 < k → T.e k (k - 1) = 0 := by
          intro h0
          by_contra hne
          exact hT ⟨hne, by omega⟩
        refine ih k _ rest Y' (by omega) ?_ (fun h0 _ => hbk h0) ?_ h
        · unfold passes
          by_cases hq : k = 0
          · subst hq
            rw [if_pos rfl]
            have : zerosTo T (0 + 1) = 0 := rfl
            omega
          · obtain ⟨z, rfl⟩ : ∃ z, k = z + 1 := ⟨k - 1, by omega⟩
            rw [if_neg hq]
            rw [zerosTo_succ_zero T z (hbk (by omega))] at hf
            omega
        · obtain ⟨p1, p2, p3, p4⟩ := hprod
          intro j hj hjn i hi
          by_cases hj2 : k + 1 ≤ j
          · refine keep _ (fun p l hl => ?_) j hj2 hjn i hi
            rw [if_neg (by omega)]
          · have hjk : j = k := by omega
            subst hjk
            have hlow : ∀ l < j, T.e j l = 0 := by
              intro l hl
              by_cases e : l + 1 = j
              · have := hbk (by omega)
                rw [← e] at this ⊢
                exact this
              · exact triT j l (by omega) hjn
            rw [sumTo_tail1 _ hjn fun l hl => colTerm_zero (triR j l hl hjn) (hlow l hl)]
            have hknown : knownPart P S T R n Y j j i =
                sumTo (n - 1 - j) fun j' => colTerm P S T R (fun i j' => if j' = j then
                  y.e i 0 else Y i j') i j (j + 1 + j') := by
              unfold knownPart
              refine sumTo_congr fun j' _ => ?_
              unfold colTerm combine
              refine sumTo_congr fun p _ => ?_
              dsimp only
              rw [if_neg (by omega)]
            rw [← hknown]
            have hyc : (1 : Nat) = y.c := p3
            have row := p4 i hi 0 (by omega)
            have l1 : (sumTo (combine (R.e j j) P (T.e j j) S).c fun k =>
                (combine (R.e j j) P (T.e j j) S).e i k * y.e k 0) =
                colTerm P S T R (fun i j' => if j' = j then y.e i 0 else Y i j') i j j := by
              unfold colTerm combine
              refine sumTo_congr fun p _ => ?_
              dsimp only
              rw [if_pos rfl]
            rw [l1] at row
            rw [row]
            ring

end Pynare

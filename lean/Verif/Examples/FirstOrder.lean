import Mathlib.Algebra.Field.Rat
import Mathlib.Tactic.NormNum
import Mathlib.Tactic.Ring
import Mathlib.Tactic.FieldSimp
import Mathlib.Tactic.IntervalCases
import Verif.Lemmas.Solution
/-!
# A small model for the examples

Exact linear algebra over the rationals that answers for one model with a static, a backward-looking and
a forward-looking variable, whose eigenvalues are `1/2` and a parameter.
-/

namespace Pynare

/-- array from a list of rows -/
def listArr (rows : List (List ℚ)) (c : Nat) : Arr ℚ :=
  ⟨rows.length, c, fun i j => (rows[i]?.getD [])[j]?.getD 0⟩

/-- same shape and entries -/
def sameArr (a b : Arr ℚ) : Bool :=
  decide (a.r = b.r) && decide (a.c = b.c) &&
    (List.range a.r).all fun i => (List.range a.c).all fun j => decide (a.e i j = b.e i j)

/-- decomposition with orthogonal factor that is not trivial -/
def exQZ (l2 : ℚ) (e1 e2 : Eig) : QZ ℚ :=
  { S := listArr [[1/2, 0], [0, l2]] 2
    T := listArr [[1, 0], [0, 1]] 2
    eigs := [e1, e2]
    Q := listArr [[1, 0], [0, 1]] 2
    Zt := listArr [[3/5, -4/5], [4/5, 3/5]] 2 }

/-- the right-hand side of the state space -/
def exE (l2 : ℚ) : Arr ℚ := listArr [[3/10, 2/5], [-l2 * (4/5), l2 * (3/5)]] 2
/-- the left-hand side -/
def exD : Arr ℚ := listArr [[3/5, 4/5], [-4/5, 3/5]] 2
/-- the impact matrix -/
def exU (l2 : ℚ) : Arr ℚ := listArr [[1, -1, -1], [0, 5/3, -2/5], [0, 0, -l2 * (3/5)]] 3
/-- its inverse -/
def exUi (l2 : ℚ) : Arr ℚ :=
  listArr [[1, 3/5, -(31/15) * l2⁻¹], [0, 3/5, -(2/5) * l2⁻¹], [0, 0, -(5/3) * l2⁻¹]] 3

/-- linear algebra for the examples: exact where it answers -/
def exLa (l2 : ℚ) (e1 e2 : Eig) : LinAlg ℚ where
  qr M := if M.c = 1 ∧ (List.range M.r).all (fun i => decide (i = 0 ∨ M.e i 0 = 0)) = true then
      .ok (Arr.eye M.r M.r 0, M) else .error .valueError
  rank _ := 1
  ordqz b a := if sameArr b (exE l2) && sameArr a exD then .ok (exQZ l2 e1 e2) else .error .valueError
  inv a := if a.r = 1 ∧ a.c = 1 ∧ a.e 0 0 ≠ 0 then .ok ⟨1, 1, fun _ _ => (a.e 0 0)⁻¹⟩
    else .error .valueError
  solve a b := if a.r = 1 ∧ a.c = 1 ∧ a.e 0 0 ≠ 0 then .ok ⟨1, b.c, fun _ j => (a.e 0 0)⁻¹ * b.e 0 j⟩
    else if sameArr a (exU l2) then
      .ok ⟨3, b.c, fun i j => sumTo 3 fun k => (exUi l2).e i k * b.e k j⟩
    else .error .valueError

/-- the jacobian; columns: lag of the state, current forward-looking, state and static variable, lead,
shock -/
def exJ (l2 : ℚ) : Arr ℚ := listArr [[0, -1, -1, 1, 0, 0], [-3/10, -2/5, 3/5, 0, 4/5, 1],
  [l2 * (4/5), -l2 * (3/5), -4/5, 0, 3/5, 0]] 6

/-- the table of the model -/
def exT : Llx := match buildLlx [[0, 1], [0, -1], [0]] with
  | .ok t => t
  | .error _ => ⟨⟨0, fun _ _ => none⟩, 0⟩

/-- a stable eigenvalue -/
def stab : Eig := ⟨false, false, false⟩

/-- an explosive eigenvalue -/
def expl : Eig := ⟨true, false, true⟩

/-- returns, with a result that passes the test -/
def okAnd {α : Type} (x : Except Err α) (p : α → Bool) : Bool := match x with
  | .ok a => p a
  | .error _ => false

theorem ok_of_check {α : Type} {x : Except Err α} {p : α → Bool} (h : okAnd x p = true) :
    ∃ a, x = .ok a ∧ p a = true := by
  cases x with
  | ok a => exact ⟨a, rfl, h⟩
  | error e => cases h

theorem sameArr_spec {a b : Arr ℚ} (h : sameArr a b = true) :
    a.r = b.r ∧ a.c = b.c ∧ ∀ i < a.r, ∀ j < a.c, a.e i j = b.e i j := by
  unfold sameArr at h
  simp only [Bool.and_eq_true, decide_eq_true_eq, List.all_eq_true, List.mem_range] at h
  exact ⟨h.1.1, h.1.2, h.2⟩

theorem exLa_exact {l2 : ℚ} (hl : l2 ≠ 0) (e1 e2 : Eig) : (exLa l2 e1 e2).Exact := by
  constructor
  · intro M Q R h
    simp only [exLa] at h
    split at h
    case isFalse => cases h
    rename_i hM
    obtain ⟨rfl, rfl⟩ := Prod.mk.inj (Except.ok.inj h)
    have hen : ∀ n (i j : Nat), i < n → j < n →
        (sumTo n fun k => (Arr.eye n n 0 : Arr ℚ).e i k * (Arr.eye n n 0).tr.e k j) = (Arr.eye n n 0 : Arr ℚ).e i j := by
      intro n i j hi hj
      rw [sumTo_eq]
      simp [Arr.eye, Arr.tr, Finset.mem_range, hj]
    refine ⟨rfl, ⟨⟨rfl, rfl, rfl, fun i hi j hj => hen _ i j hi hj⟩,
      ⟨rfl, rfl, rfl, ?_⟩⟩, ⟨rfl, rfl, rfl, ?_⟩, ?_⟩
    · intro i hi j hj
      show (sumTo M.r _) = _
      rw [sumTo_eq]
      have hi : i < M.r := hi
      by_cases hij : i = j
      · subst hij; simp [Arr.eye, Arr.tr, Finset.mem_range, hi]
      · have : ¬ j = i := fun h => hij h.symm
        simp [Arr.eye, Arr.tr, Finset.mem_range, hij, this]
    · intro i hi j hj
      show (sumTo M.r _) = _
      rw [sumTo_eq]
      have hi : i < M.r := hi
      simp [Arr.eye, Finset.mem_range, hi]
    · intro i j hji hi hj
      have := hM.2
      simp only [List.all_eq_true, List.mem_range, decide_eq_true_eq] at this
      have hj0 : j = 0 := by omega
      subst hj0
      rcases this i hi with h | h
      · omega
      · exact h
  · intro a b _ h
    simp only [exLa] at h
    split at h
    case isFalse => cases h
    rename_i ha
    obtain ⟨h1, h2, h3⟩ := ha
    have := Except.ok.inj h
    subst this
    refine ⟨⟨h2, h1.symm ▸ rfl, h1.symm ▸ rfl, ?_⟩, ⟨h1.symm, h1, by rw [h2]; exact h1, ?_⟩⟩
    · intro i hi j hj
      have hi0 : i = 0 := by omega
      have hj0 : j = 0 := by have : j < 1 := hj; omega
      subst hi0 hj0
      simp [h2, sumTo, Arr.eye, h3]
    · intro i hi j hj
      have hi0 : i = 0 := by have : i < 1 := hi; omega
      have hj0 : j = 0 := by omega
      subst hi0 hj0
      simp [sumTo, Arr.eye, h3]
  · intro a b x hsq hr h
    simp only [exLa] at h
    split at h
    · rename_i ha
      obtain ⟨h1, h2, h3⟩ := ha
      have := Except.ok.inj h
      subst this
      refine ⟨⟨h2, hr, rfl, ?_⟩, ⟨1, 1, fun _ _ => (a.e 0 0)⁻¹⟩, ⟨h2, h1.symm ▸ rfl, h1.symm ▸ rfl, ?_⟩,
        ⟨h1.symm, h1, by rw [h2]; exact h1, ?_⟩⟩
      · intro i hi j hj
        have hi0 : i = 0 := by omega
        subst hi0
        simp [h2, sumTo, h3]
      · intro i hi j hj
        have hi0 : i = 0 := by omega
        have hj0 : j = 0 := by have : j < 1 := hj; omega
        subst hi0 hj0
        simp [h2, sumTo, Arr.eye, h3]
      · intro i hi j hj
        have hi0 : i = 0 := by have : i < 1 := hi; omega
        have hj0 : j = 0 := by omega
        subst hi0 hj0
        simp [sumTo, Arr.eye, h3]
    · split at h
      case isFalse => cases h
      rename_i hs
      have := Except.ok.inj h
      subst this
      obtain ⟨s1, s2, s3⟩ := sameArr_spec hs
      have s1' : a.r = 3 := s1
      have s2' : a.c = 3 := s2
      rw [s1', s2'] at s3
      have e00 : a.e 0 0 = 1 := s3 0 (by omega) 0 (by omega)
      have e01 : a.e 0 1 = -1 := s3 0 (by omega) 1 (by omega)
      have e02 : a.e 0 2 = -1 := s3 0 (by omega) 2 (by omega)
      have e10 : a.e 1 0 = 0 := s3 1 (by omega) 0 (by omega)
      have e11 : a.e 1 1 = 5/3 := s3 1 (by omega) 1 (by omega)
      have e12 : a.e 1 2 = -2/5 := s3 1 (by omega) 2 (by omega)
      have e20 : a.e 2 0 = 0 := s3 2 (by omega) 0 (by omega)
      have e21 : a.e 2 1 = 0 := s3 2 (by omega) 1 (by omega)
      have e22 : a.e 2 2 = -l2 * (3/5) := s3 2 (by omega) 2 (by omega)
      refine ⟨⟨s2', hr, rfl, ?_⟩, exUi l2, ⟨s2', s1'.symm ▸ rfl, s1'.symm ▸ rfl, ?_⟩, ⟨s1'.symm, s1', by rw [s2']; exact s1', ?_⟩⟩
      · intro i hi j hj
        rw [s1'] at hi
        interval_cases i <;>
          simp [s2', sumTo, exUi, listArr, e00, e01, e02, e10, e11, e12, e20, e21, e22] <;> field_simp <;> ring
      · intro i hi j hj
        rw [s1'] at hi
        have hj : j < 3 := hj
        interval_cases i <;> interval_cases j <;>
          simp [s2', sumTo, exUi, listArr, Arr.eye, e00, e01, e02, e10, e11, e12, e20, e21, e22] <;> field_simp <;> norm_num
      · intro i hi j hj
        rw [s2'] at hj
        have hi : i < 3 := hi
        interval_cases i <;> interval_cases j <;>
          simp [sumTo, exUi, listArr, Arr.eye, e00, e01, e02, e10, e11, e12, e20, e21, e22] <;> field_simp <;> norm_num
  · intro b a q _ _ _ h
    simp only [exLa] at h
    split at h
    case isFalse => cases h
    rename_i hs
    rw [Bool.and_eq_true] at hs
    have := Except.ok.inj h
    subst this
    obtain ⟨b1, b2, b3⟩ := sameArr_spec hs.1
    obtain ⟨a1, a2, a3⟩ := sameArr_spec hs.2
    have b1' : b.r = 2 := b1
    have b2' : b.c = 2 := b2
    have a1' : a.r = 2 := a1
    have a2' : a.c = 2 := a2
    rw [b1', b2'] at b3
    rw [a1', a2'] at a3
    refine ⟨?_, b1'.symm, ?_, ?_, ?_, ?_, ?_, ?_, ?_⟩
    · intro x hx
      simp [exQZ] at hx
      rcases hx with rfl | rfl | rfl | rfl <;> exact ⟨b1'.symm, b1'.symm⟩
    · refine ⟨⟨rfl, rfl, rfl, ?_⟩, ⟨rfl, rfl, rfl, ?_⟩⟩ <;>
      · intro i hi j hj
        have hi : i < 2 := hi
        have hj : j < 2 := hj
        interval_cases i <;> interval_cases j <;> norm_num [exQZ, listArr, sumTo, Arr.eye, Arr.tr]
    · refine ⟨⟨rfl, rfl, rfl, ?_⟩, ⟨rfl, rfl, rfl, ?_⟩⟩ <;>
      · intro i hi j hj
        have hi : i < 2 := hi
        have hj : j < 2 := hj
        interval_cases i <;> interval_cases j <;> norm_num [exQZ, listArr, sumTo, Arr.eye, Arr.tr]
    · rw [b1']
      intro i hi j hj
      rw [b3 i hi j hj]
      interval_cases i <;> interval_cases j <;> norm_num [exQZ, listArr, sumTo, exE]
    · rw [b1']
      intro i hi j hj
      rw [a3 i hi j hj]
      interval_cases i <;> interval_cases j <;> norm_num [exQZ, listArr, sumTo, exD]
    · intro i j hji hi
      rw [b1'] at hi
      interval_cases i <;> interval_cases j <;> rfl
    · intro i j hji hi
      rw [b1'] at hi
      omega
    · intro i hi hne
      rw [b1'] at hi
      have : i = 0 := by omega
      subst this
      exact absurd rfl hne

end Pynare

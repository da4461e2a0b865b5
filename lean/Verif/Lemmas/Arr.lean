import Mathlib.Data.Matrix.Mul
import Mathlib.Data.Matrix.Block
import Mathlib.Data.Matrix.ColumnRowPartitioned
import Mathlib.Algebra.BigOperators.Fin
import Mathlib.Tactic.Ring
import Verif.Spec.FirstOrder
import Verif.Lemmas.Semantics
/-!
# Arrays and matrices
-/

namespace Pynare

open Matrix

variable {V : Type}

theorem sumTo_eq [AddCommMonoid V] (n : Nat) (f : Nat → V) :
    sumTo n f = ∑ i ∈ Finset.range n, f i := by
  induction n with
  | zero => simp [sumTo]
  | succ n ih => rw [sumTo, ih, Finset.sum_range_succ]

/-- `κ` lists the numbers below `n` -/
structure IsEnum {α : Type} (κ : α → Nat) (n : Nat) : Prop where
  lt : ∀ a, κ a < n
  inj : Function.Injective κ
  surj : ∀ i < n, ∃ a, κ a = i

theorem IsEnum.fin (n : Nat) : IsEnum (fun i : Fin n => i.val) n :=
  ⟨fun a => a.2, fun _ _ h => Fin.ext h, fun i hi => ⟨⟨i, hi⟩, rfl⟩⟩

/-- enumeration of two consecutive ranges -/
def sumIdx {α β : Type} (κ : α → Nat) (n : Nat) (σ : β → Nat) : α ⊕ β → Nat :=
  Sum.elim κ fun b => n + σ b

theorem IsEnum.sum {α β : Type} {κ : α → Nat} {σ : β → Nat} {n m : Nat} (h : IsEnum κ n)
    (g : IsEnum σ m) : IsEnum (sumIdx κ n σ) (n + m) := by
  refine ⟨?_, ?_, ?_⟩
  · rintro (a | b)
    · exact Nat.lt_of_lt_of_le (h.lt a) (Nat.le_add_right ..)
    · exact Nat.add_lt_add_left (g.lt b) n
  · rintro (a | a) (b | b) hab
    · simp only [sumIdx, Sum.elim_inl] at hab; rw [h.inj hab]
    · simp only [sumIdx, Sum.elim_inl, Sum.elim_inr] at hab; have := h.lt a; omega
    · simp only [sumIdx, Sum.elim_inl, Sum.elim_inr] at hab; have := h.lt b; omega
    · simp only [sumIdx, Sum.elim_inr] at hab; rw [g.inj (Nat.add_left_cancel hab)]
  · intro i hi
    by_cases hn : i < n
    · obtain ⟨a, ha⟩ := h.surj i hn; exact ⟨.inl a, ha⟩
    · obtain ⟨b, hb⟩ := g.surj (i - n) (by omega); exact ⟨.inr b, by simp only [sumIdx, Sum.elim_inr, hb]; omega⟩

theorem sumTo_enum [AddCommMonoid V] {α : Type} [Fintype α] {κ : α → Nat} {n : Nat}
    (h : IsEnum κ n) (f : Nat → V) : sumTo n f = ∑ a, f (κ a) := by
  rw [sumTo_eq]
  symm
  apply Finset.sum_nbij κ
  · intro a _; exact Finset.mem_range.mpr (h.lt a)
  · intro a _ b _ hab; exact h.inj hab
  · intro i hi
    obtain ⟨a, ha⟩ := h.surj i (Finset.mem_range.mp hi)
    exact ⟨a, Finset.mem_coe.mpr (Finset.mem_univ a), ha⟩
  · intro a _; rfl

/-- the matrix that an array shows at chosen rows and columns -/
def Arr.blk {α β : Type} (a : Arr V) (ρ : α → Nat) (κ : β → Nat) : Matrix α β V :=
  Matrix.of fun i j => a.e (ρ i) (κ j)

theorem Arr.blk_apply {α β : Type} (a : Arr V) (ρ : α → Nat) (κ : β → Nat) (i : α) (j : β) :
    a.blk ρ κ i j = a.e (ρ i) (κ j) := rfl

set_option linter.unusedSectionVars false

section ops
variable {α β γ : Type} [CommRing V]

theorem Arr.tr_blk (a : Arr V) (ρ : α → Nat) (κ : β → Nat) : a.tr.blk ρ κ = (a.blk κ ρ)ᵀ := rfl

theorem Arr.neg_blk (a : Arr V) (ρ : α → Nat) (κ : β → Nat) : a.neg.blk ρ κ = -(a.blk ρ κ) := rfl

theorem Arr.add_ok {a b c : Arr V} (h : a.add b = .ok c) :
    a.r = b.r ∧ a.c = b.c ∧ c.r = a.r ∧ c.c = a.c ∧
    ∀ {α β : Type} (ρ : α → Nat) (κ : β → Nat), c.blk ρ κ = a.blk ρ κ + b.blk ρ κ := by
  unfold Arr.add at h
  split at h
  · rename_i hs
    have := Except.ok.inj h
    subst this
    exact ⟨hs.1, hs.2, rfl, rfl, fun ρ κ => rfl⟩
  · cases h

theorem Arr.dot_ok {a b c : Arr V} (h : a.dot b = .ok c) :
    a.c = b.r ∧ c.r = a.r ∧ c.c = b.c ∧
    ∀ {α β γ : Type} [Fintype β] (ρ : α → Nat) (κ : β → Nat) (σ : γ → Nat), IsEnum κ a.c →
      c.blk ρ σ = a.blk ρ κ * b.blk κ σ := by
  unfold Arr.dot at h
  split at h
  · rename_i hs
    have := Except.ok.inj h
    subst this
    refine ⟨hs, rfl, rfl, ?_⟩
    intro α β γ _ ρ κ σ hκ
    ext i j
    simp only [Arr.blk_apply, Matrix.mul_apply, sumTo_enum hκ]
  · cases h

theorem Arr.cols_ok {a x : Arr V} {cs : List Nat} (h : a.cols cs = .ok x) :
    x.r = a.r ∧ x.c = cs.length ∧ ∀ {α β : Type} (ρ : α → Nat) (κ : β → Nat),
      x.blk ρ κ = a.blk ρ fun j => cs[κ j]?.getD 0 := by
  unfold Arr.cols at h
  split at h
  · have := Except.ok.inj h
    subst this
    exact ⟨rfl, rfl, fun _ _ => rfl⟩
  · cases h

theorem Arr.hstack_ok {a b x : Arr V} (h : a.hstack b = .ok x) :
    a.r = b.r ∧ x.r = a.r ∧ x.c = a.c + b.c ∧
    (∀ i j, j < a.c → x.e i j = a.e i j) ∧ (∀ i j, x.e i (a.c + j) = b.e i j) := by
  unfold Arr.hstack at h
  split at h
  · rename_i hs
    have := Except.ok.inj h
    subst this
    refine ⟨hs, rfl, rfl, ?_, ?_⟩
    · intro i j hj; simp [hj]
    · intro i j
      have : ¬ a.c + j < a.c := by omega
      simp [this]
  · cases h

theorem Arr.vstack_ok {a b x : Arr V} (h : a.vstack b = .ok x) :
    a.c = b.c ∧ x.r = a.r + b.r ∧ x.c = a.c ∧
    (∀ i j, i < a.r → x.e i j = a.e i j) ∧ (∀ i j, x.e (a.r + i) j = b.e i j) := by
  unfold Arr.vstack at h
  split at h
  · rename_i hs
    have := Except.ok.inj h
    subst this
    refine ⟨hs, rfl, rfl, ?_, ?_⟩
    · intro i j hj; simp [hj]
    · intro i j
      have : ¬ a.r + i < a.r := by omega
      simp [this]
  · cases h

theorem arrayShingle_ok {a0 a1 x : Arr V} {k : Nat} (hk : k ≤ a1.r) (h : arrayShingle a0 a1 k = .ok x) :
    a0.c = a1.c ∧ x.r = a0.r + a1.r - k ∧ x.c = a0.c ∧
    (∀ i j, i < a0.r → x.e i j = a0.e i j) ∧ (∀ i j, x.e (a0.r + i) j = a1.e (i + k) j) := by
  unfold arrayShingle at h
  by_cases hs : a0.c ≠ a1.c
  · rw [if_pos hs] at h; cases h
  · rw [if_neg hs, if_pos hk] at h
    have := Except.ok.inj h
    subst this
    refine ⟨by simpa using hs, rfl, rfl, ?_, ?_⟩
    · intro i j hj; simp [hj]
    · intro i j
      have h1 : ¬ a0.r + i < a0.r := by omega
      simp [h1]

theorem Arr.IsProd.mul {a b c : Arr V} (h : a.IsProd b c) {α β γ : Type} [Fintype β] {ρ : α → Nat}
    {κ : β → Nat} {σ : γ → Nat} (hρ : ∀ i, ρ i < a.r) (hκ : IsEnum κ a.c) (hσ : ∀ i, σ i < b.c) :
    a.blk ρ κ * b.blk κ σ = c.blk ρ σ := by
  obtain ⟨_, _, _, h4⟩ := h
  ext i j
  simp only [Arr.blk_apply, Matrix.mul_apply]
  rw [← h4 _ (hρ i) _ (hσ j), sumTo_enum hκ]

theorem Arr.eye_blk [DecidableEq α] {κ : α → Nat} {n : Nat} (h : IsEnum κ n) :
    (Arr.eye n n 0 : Arr V).blk κ κ = 1 := by
  ext i j
  simp only [Arr.blk_apply, Arr.eye, Nat.add_zero, Matrix.one_apply]
  by_cases hij : i = j
  · simp [hij]
  · have : ¬ κ j = κ i := fun h' => hij (h.inj h').symm
    simp [hij, this]

theorem Arr.IsInv.mul {a b : Arr V} (h : a.IsInv b) {α : Type} [Fintype α] [DecidableEq α] {κ : α → Nat}
    (hκ : IsEnum κ a.r) : a.blk κ κ * b.blk κ κ = 1 ∧ b.blk κ κ * a.blk κ κ = 1 := by
  obtain ⟨h1, h2⟩ := h
  have e1 : a.c = b.r := h1.1
  have e2 : a.r = b.c := h1.2.2.1
  have e3 : b.c = a.r := h2.1
  have e4 : a.r = b.r := h2.2.1
  have e5 : a.r = a.c := h2.2.2.1
  constructor
  · rw [h1.mul (fun i => hκ.lt i) (e5 ▸ hκ) (fun i => e2 ▸ hκ.lt i), Arr.eye_blk hκ]
  · rw [h2.mul (fun i => e4 ▸ hκ.lt i) (e3 ▸ hκ) (fun i => e5 ▸ hκ.lt i), Arr.eye_blk hκ]

end ops

end Pynare

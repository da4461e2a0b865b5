import Mathlib.LinearAlgebra.Finsupp.LinearCombination
import Verif.Lemmas.Stats
/-!
# Lemmas about processes and variance decompositions
-/

namespace Pynare

open Matrix

set_option linter.unusedSectionVars false

variable {V : Type}

section exist
variable [CommRing V]

/-- covariances of the initial states and of the shocks -/
def kernel (X sigma : Arr V) : Nat ⊕ (Nat × Nat) → Nat ⊕ (Nat × Nat) → V
  | .inl i, .inl j => X.e i j
  | .inr (k, l), .inr (k', l') => if k = k' then sigma.e l l' else 0
  | _, _ => 0

/-- the bilinear form with these covariances -/
noncomputable def kernelForm (X sigma : Arr V) :
    (Nat ⊕ (Nat × Nat) →₀ V) →ₗ[V] (Nat ⊕ (Nat × Nat) →₀ V) →ₗ[V] V :=
  Finsupp.linearCombination V fun i => Finsupp.linearCombination V fun j => kernel X sigma i j

theorem kernelForm_single (X sigma : Arr V) (i j : Nat ⊕ (Nat × Nat)) :
    kernelForm X sigma (Finsupp.single i 1) (Finsupp.single j 1) = kernel X sigma i j := by
  simp [kernelForm, Finsupp.linearCombination_single]

theorem kernelForm_symm {X sigma : Arr V} (hX : ∀ i j, X.e i j = X.e j i) (hs : ∀ i j, sigma.e i j = sigma.e j i)
    (a b : Nat ⊕ (Nat × Nat) →₀ V) : kernelForm X sigma a b = kernelForm X sigma b a := by
  induction a using Finsupp.induction_linear with
  | zero => simp
  | add f g hf hg => simp [hf, hg]
  | single i x =>
    induction b using Finsupp.induction_linear with
    | zero => simp
    | add f g hf hg => simp [hf, hg]
    | single j y =>
      have : kernel X sigma i j = kernel X sigma j i := by
        rcases i with i | ⟨k, l⟩ <;> rcases j with j | ⟨k', l'⟩ <;> simp only [kernel]
        · exact hX i j
        · by_cases h : k = k'
          · rw [if_pos h, if_pos h.symm, hs]
          · rw [if_neg h, if_neg (fun e => h e.symm)]
      simp only [kernelForm, Finsupp.linearCombination_single, LinearMap.smul_apply, smul_eq_mul, this]
      ring

/-- a process with these covariances -/
noncomputable def someProcess (t : Typer) (m : Nat) (gy gu : Arr V) : Nat → Nat → (Nat ⊕ (Nat × Nat) →₀ V)
  | 0 => fun c => Finsupp.single (.inl (t.drState.idxOf c)) 1
  | k + 1 => fun c => (sumTo t.nBackward fun j => gy.e (t.drOrder.idxOf c) j • someProcess t m gy gu k (t.drState[j]?.getD 0)) +
      sumTo m fun l => gu.e (t.drOrder.idxOf c) l • Finsupp.single (.inr (k + 1, l)) 1

/-- there is a process to every covariance of the initial states -/
theorem process_exists {t : Typer} (hp : t.drOrder.Perm (List.range t.n)) (m : Nat) (gy gu : Arr V) {X sigma : Arr V}
    (hX : ∀ i j, X.e i j = X.e j i) (hs : ∀ i j, sigma.e i j = sigma.e j i) :
    ∃ (M : Type) (_ : AddCommGroup M) (_ : Module V M) (cov : M →ₗ[V] M →ₗ[V] V) (y u : Nat → Nat → M),
      LinearProcess t m gy gu sigma cov y u ∧ StartsWith t X cov y := by
  refine ⟨_, inferInstance, inferInstance, kernelForm X sigma, someProcess t m gy gu,
    fun k l => Finsupp.single (.inr (k, l)) 1, ⟨?_, kernelForm_symm hX hs, ?_, ?_, ?_⟩, ?_⟩
  · intro k i c hi
    have hn := (drState_length hp).2.2
    have : t.drOrder.idxOf c = i := by
      obtain ⟨hl, rfl⟩ := List.getElem?_eq_some_iff.mp hi
      exact hn.idxOf_getElem i hl
    subst this
    rfl
  · intro k l _ l' _
    rw [kernelForm_single]; simp [kernel]
  · intro k k' h l _ l' _
    rw [kernelForm_single]; simp [kernel, h]
  · intro k c l _
    show kernelForm X sigma (Finsupp.single _ 1) _ = 0
    rw [kernelForm_single]; rfl
  · intro i hi j hj
    have hl := (drState_length hp).1
    have hn : t.drState.Nodup := by
      have hg := (C30_permutation_iff_partial t).mp hp
      obtain ⟨-, -, -, -, -, b6, -⟩ := C69_blocks t hg
      rw [List.nodup_iff_injective_get]
      intro a b hab
      have ha : a.val < t.nBackward := by have := a.2; omega
      have hb : b.val < t.nBackward := by have := b.2; omega
      have h1 := drState_row hp ha
      have h2 := drState_row hp hb
      have e1 : t.drState[a.val]? = some (t.drState.get a) := List.getElem?_eq_getElem a.2
      have e2 : t.drState[b.val]? = some (t.drState.get b) := List.getElem?_eq_getElem b.2
      rw [e1] at h1
      rw [e2, ← hab] at h2
      have hnd := (drState_length hp).2.2
      obtain ⟨q1, r1⟩ := List.getElem?_eq_some_iff.mp h1
      obtain ⟨q2, r2⟩ := List.getElem?_eq_some_iff.mp h2
      have hst : stRow t a = stRow t b := (List.Nodup.getElem_inj_iff hnd).mp (r1.trans r2.symm)
      have hst' : (t.permute t.drOrder).state.Nodup := by rw [b6]; exact List.nodup_range'
      have hsl := state_length hp
      unfold stRow at hst
      rw [List.getElem?_eq_getElem (by omega), List.getElem?_eq_getElem (by omega)] at hst
      exact Fin.ext ((List.Nodup.getElem_inj_iff hst').mp hst)
    show kernelForm X sigma (Finsupp.single _ 1) (Finsupp.single _ 1) = _
    rw [kernelForm_single, List.getElem?_eq_getElem (by omega : i < t.drState.length),
      List.getElem?_eq_getElem (by omega : j < t.drState.length)]
    simp only [Option.getD_some, kernel]
    rw [hn.idxOf_getElem, hn.idxOf_getElem]

end exist

section decomp
variable [CommRing V]

theorem kalman_n {la : LinAlg V} {t : Typer} (hp : t.drOrder.Perm (List.range t.n)) {s : Space V} {gy gu : Arr V}
    {AB : Arr V × Arr V} (hr : gy.r = t.n) (hc : gy.c = t.nBackward)
    (h : kalmanTransition la t s gy gu = .ok AB) : t.n ≠ 1 := by
  intro hn
  obtain ⟨-, k1, k2, -⟩ := kalman_ok h
  have hb := nBackward_le t
  have hl := state_length hp
  unfold Arr.storedRows at k1
  by_cases h1 : gy.c = 1
  · rw [if_pos ⟨by omega, h1⟩] at k1; cases k1
  · rw [if_neg (by omega), if_pos (by omega)] at k1
    obtain ⟨e1, e2, -, -⟩ := Arr.rows_ok k1
    have e2 : AB.1.c = gy.r := e2
    omega

variable [Div V] [DecidableEq V]

theorem shockParts_ok {lyap : Lyap V} {A gyd sc gc : Arr V} : ∀ {is : List Nat} {ps : List (Arr V)},
    shockParts lyap A gyd sc gc is = .ok ps → ps.length = is.length ∧
      ∀ (k i : Nat), is[k]? = some i → ∃ d, ps[k]? = some d ∧ shockPart lyap A gyd sc gc i = .ok d := by
  intro is
  induction is with
  | nil =>
    intro ps h
    have := Except.ok.inj h
    subst this
    exact ⟨rfl, fun k i hk => by simp at hk⟩
  | cons j js ih =>
    intro ps h
    rw [shockParts] at h
    obtain ⟨d, h1, h⟩ := Except.bind_eq_ok h
    obtain ⟨rest, h2, h⟩ := Except.bind_eq_ok h
    have := Except.ok.inj h
    subst this
    obtain ⟨l1, l2⟩ := ih h2
    refine ⟨by simp [l1], ?_⟩
    intro k i hk
    cases k with
    | zero =>
      have : j = i := by simpa using hk
      subst this
      exact ⟨d, rfl, h1⟩
    | succ k => exact l2 k i (by simpa using hk)

theorem decompShares_ok {la : LinAlg V} {lyap : Lyap V} {chol : Chol V} {mag : V → V} {tol : V} {t : Typer}
    {s : Space V} {gy gu sigma : Arr V} {ne ns : Nat} {D : Arr (Option V)}
    (h : decompShares la lyap chol mag tol t s gy gu sigma ne ns = .ok D) :
    ∃ gyd gud AB P L sc gc parts, gy.squeezed.rows t.dcOrder = .ok gyd ∧ gu.squeezed.rows t.dcOrder = .ok gud ∧
      kalmanTransition la t s gy gu = .ok AB ∧ sigma.add ((Arr.eye sigma.r sigma.c 0).scale tol) = .ok P ∧
      chol P = .ok L ∧ AB.2.dot L = .ok sc ∧ gud.dot L = .ok gc ∧
      shockParts lyap AB.1 gyd sc gc (List.range ns) = .ok parts ∧ D = shares mag ne parts := by
  unfold decompShares at h
  obtain ⟨gyd, h1, h⟩ := Except.bind_eq_ok h
  obtain ⟨gud, h2, h⟩ := Except.bind_eq_ok h
  obtain ⟨AB, h3, h⟩ := Except.bind_eq_ok h
  obtain ⟨P, h4, h⟩ := Except.bind_eq_ok h
  obtain ⟨L, h5, h⟩ := Except.bind_eq_ok h
  obtain ⟨sc, h6, h⟩ := Except.bind_eq_ok h
  obtain ⟨gc, h7, h⟩ := Except.bind_eq_ok h
  obtain ⟨Q, h8, h⟩ := Except.bind_eq_ok h
  obtain ⟨_, h9, h⟩ := Except.bind_eq_ok h
  obtain ⟨parts, h10, h⟩ := Except.bind_eq_ok h
  exact ⟨gyd, gud, AB, P, L, sc, gc, parts, h1, h2, h3, h4, h5, h6, h7, h10, (Except.ok.inj h).symm⟩

/-- column of a matrix times itself -/
theorem outerCol_blk {α β : Type} (a : Arr V) (i : Nat) (ρ : α → Nat) (σ : β → Nat) :
    (outerCol a i).blk ρ σ = a.blk ρ (fun _ : Unit => i) * (a.blk σ (fun _ : Unit => i))ᵀ := by
  ext k l
  simp [outerCol, Arr.blk, Matrix.mul_apply]

/-- what the routine computes for one column of the factor -/
theorem decomp_part {la : LinAlg V} {lyap : Lyap V} (ly : LyapExact lyap) {t : Typer}
    (hp : t.drOrder.Perm (List.range t.n)) {s : Space V} {gy gu gyd gud L sc gc d : Arr V} {AB : Arr V × Arr V} {i : Nat}
    (hr : gy.r = t.n) (hc : gy.c = t.nBackward) (hu : gu.r = t.n)
    (h1 : gy.squeezed.rows t.dcOrder = .ok gyd) (h2 : gu.squeezed.rows t.dcOrder = .ok gud)
    (h3 : kalmanTransition la t s gy gu = .ok AB) (h6 : AB.2.dot L = .ok sc) (h7 : gud.dot L = .ok gc)
    (hd : shockPart lyap AB.1 gyd sc gc i = .ok d) :
    L.r = gu.c ∧ ∃ X : Matrix (Fin t.nBackward) (Fin t.nBackward) V,
      X = aM t gy * X * (aM t gy)ᵀ + bM t gu.c gu * (outerCol L i).toM gu.c gu.c * (bM t gu.c gu)ᵀ ∧
      d.toM t.n t.n = gM t gy * X * (gM t gy)ᵀ + hM t gu.c gu * (outerCol L i).toM gu.c gu.c * (hM t gu.c gu)ᵀ := by
  have hn := kalman_n hp hr hc h3
  obtain ⟨-, k1, k2, k3⟩ := kalman_ok h3
  obtain ⟨A1, A2, A3, -⟩ := Arr.storedRows_ok k1 (by omega)
  obtain ⟨B1, B2, B3, -⟩ := Arr.storedRows_ok k3 (by omega)
  rw [state_length hp] at A1 B1
  have sq : ∀ a : Arr V, a.r ≠ 1 → a.squeezed = a := fun a ha => by unfold Arr.squeezed; rw [if_neg ha]
  rw [sq gy (by omega)] at h1
  rw [sq gu (by omega)] at h2
  obtain ⟨G1, G2, G3, -⟩ := Arr.rows_ok h1
  obtain ⟨H1, H2, H3, -⟩ := Arr.rows_ok h2
  have hl := (C30_inverse t hp).1
  obtain ⟨e1, e2, e3, e4⟩ := Arr.dot_ok h6
  obtain ⟨f1, f2, f3, f4⟩ := Arr.dot_ok h7
  unfold shockPart at hd
  obtain ⟨X, q1, hd⟩ := Except.bind_eq_ok hd
  obtain ⟨x, q2, q3⟩ := Except.bind_eq_ok hd
  obtain ⟨x1, x2, x3⟩ := ly AB.1 (outerCol sc i) X k2 (by show sc.r = _; omega) (by show sc.r = _; omega) q1
  obtain ⟨p1, p2, p3, p4, p5⟩ := sandwich_ok q2
  obtain ⟨c1, c2, c3, c4, c5⟩ := Arr.add_ok q3
  refine ⟨by omega, X.toM t.nBackward t.nBackward, ?_, ?_⟩
  · have eS : (outerCol sc i).blk (fun j : Fin t.nBackward => j.val) (fun j : Fin t.nBackward => j.val) =
        bM t gu.c gu * (outerCol L i).toM gu.c gu.c * (bM t gu.c gu)ᵀ := by
      have eB : AB.2.blk (fun i : Fin t.nBackward => i.val) (fun i : Fin gu.c => i.val) = bM t gu.c gu := by
        ext i j; exact B3 i j
      have eO : (outerCol L i).toM gu.c gu.c = L.blk (fun j : Fin gu.c => j.val) (fun _ : Unit => i) *
          (L.blk (fun j : Fin gu.c => j.val) (fun _ : Unit => i))ᵀ := outerCol_blk L i _ _
      rw [outerCol_blk, e4 _ (fun j : Fin gu.c => j.val) _ (by rw [B2]; exact IsEnum.fin _), eB, eO,
        Matrix.transpose_mul]
      simp only [Matrix.mul_assoc]
    ext a b
    have hx := x3 a (by have := a.2; omega) b (by have := b.2; omega)
    rw [Matrix.add_apply, ← eS]
    show X.e a b = _ + (outerCol sc i).e a b
    rw [hx]
    congr 1
    have eA : ∀ i j : Nat, AB.1.e i j = gy.e (stRow t i) j := A3
    rw [A1, toM_sum, Matrix.mul_apply]
    simp only [Matrix.mul_apply, Finset.sum_mul]
    rw [Finset.sum_comm]
    refine Finset.sum_congr rfl fun k _ => ?_
    rw [toM_sum]
    refine Finset.sum_congr rfl fun l _ => ?_
    rw [eA, eA]
    rfl
  · have eG : gyd.blk (fun i : Fin t.n => i.val) (fun i : Fin t.nBackward => i.val) = gM t gy := by
      ext i j; exact G3 i j
    have eH : gud.blk (fun i : Fin t.n => i.val) (fun i : Fin gu.c => i.val) = hM t gu.c gu := by
      ext i j; exact H3 i j
    have eO : (outerCol L i).toM gu.c gu.c = L.blk (fun j : Fin gu.c => j.val) (fun _ : Unit => i) *
        (L.blk (fun j : Fin gu.c => j.val) (fun _ : Unit => i))ᵀ := outerCol_blk L i _ _
    have h7 := c5 (fun i : Fin t.n => i.val) (fun i : Fin t.n => i.val)
    rw [p5 _ _ _ (G2.trans hc), outerCol_blk, f4 _ (fun j : Fin gu.c => j.val) _ (by rw [H2]; exact IsEnum.fin _),
      eG, eH] at h7
    have h8 : d.toM t.n t.n = _ := h7
    rw [h8, eO, Matrix.transpose_mul]
    simp only [Matrix.mul_assoc]

end decomp

section order
variable [Field V] [LinearOrder V] [IsStrictOrderedRing V]

/-- a process with any shocks tends to what the Lyapunov equation says -/
theorem long_run {t : Typer} (hp : t.drOrder.Perm (List.range t.n)) {gy gu sigma : Arr V}
    (hst : Stable (stateRows t gy)) {X : Matrix (Fin t.nBackward) (Fin t.nBackward) V}
    (hL : X = aM t gy * X * (aM t gy)ᵀ + bM t gu.c gu * sigma.toM gu.c gu.c * (bM t gu.c gu)ᵀ) {M : Type} [AddCommGroup M]
    [Module V M] {cov : M →ₗ[V] M →ₗ[V] V} {y u : Nat → Nat → M} (p : LinearProcess t gu.c gy gu sigma cov y u)
    (c d : Fin t.n) :
    LongRun cov y c d ((gM t gy * X * (gM t gy)ᵀ + hM t gu.c gu * sigma.toM gu.c gu.c * (hM t gu.c gu)ᵀ :
      Matrix (Fin t.n) (Fin t.n) V) c d) := by
  intro ε hε
  have ps := p.toState hp
  obtain ⟨k0, hk0⟩ := sandwich_vanishes (stable_vanish hst) (gM t gy)
    (covM cov (fun j : Fin t.nBackward => y 0 (t.drState[j.val]?.getD 0))
      (fun j : Fin t.nBackward => y 0 (t.drState[j.val]?.getD 0)) - X)
    (gM t gy) c d hε
  refine ⟨k0, fun k hk => ?_⟩
  have h1 := hk0 k hk
  rw [← ps.var_diff hL k] at h1
  have h2 := ps.obs (gM t gy) (hM t gu.c gu) (gM t gy) (hM t gu.c gu) k
  rw [← p.declared hp k] at h2
  generalize hC : (gM t gy * X * (gM t gy)ᵀ + hM t gu.c gu * sigma.toM gu.c gu.c * (hM t gu.c gu)ᵀ) = C
  have h3 : cov (y (k + 1) c) (y (k + 1) d) - C c d =
      (covM cov (fun c : Fin t.n => y (k + 1) c) (fun c : Fin t.n => y (k + 1) c) - C) c d := rfl
  rw [h3, h2, ← hC]
  have e : ∀ P S Y : Matrix (Fin t.n) (Fin t.n) V, P + S - (Y + S) = P - Y := fun P S Y => by abel
  rw [e, ← Matrix.sub_mul, ← Matrix.mul_sub]
  exact h1

theorem Arr.add_eq {a b c : Arr V} (h : a.add b = .ok c) :
    a.r = b.r ∧ a.c = b.c ∧ c = ⟨a.r, a.c, fun i j => a.e i j + b.e i j⟩ := by
  unfold Arr.add at h
  split at h
  · rename_i hc
    exact ⟨hc.1, hc.2, (Except.ok.inj h).symm⟩
  · cases h

theorem outerCol_pos (L : Arr V) (i m : Nat) : PosM ((outerCol L i).toM m m) := by
  intro w
  have e : (outerCol L i).toM m m = Matrix.vecMulVec (fun k : Fin m => L.e k i) (fun k : Fin m => L.e k i) := rfl
  rw [e, Matrix.vecMulVec_mulVec, dotProduct_smul, dotProduct_comm]
  simp only [MulOpposite.smul_eq_mul_unop, MulOpposite.unop_op]
  exact mul_self_nonneg _

theorem posM_diag {s : Type} [Fintype s] [DecidableEq s] {X : Matrix s s V} (h : PosM X) (i : s) : 0 ≤ X i i := by
  have := h (Pi.single i 1)
  simpa using this

theorem outerCol_sum {L P : Arr V} {m : Nat} (h : ∀ i < m, ∀ j < m, (sumTo m fun k => L.e i k * L.e j k) = P.e i j) :
    ∑ i : Fin m, (outerCol L i).toM m m = P.toM m m := by
  ext a b
  rw [Matrix.sum_apply]
  have := h a a.2 b b.2
  rw [toM_sum] at this
  exact this

/-- a factor of a diagonal matrix is diagonal -/
theorem factor_diag {chol : Chol V} (ch : CholLower chol) {P L : Arr V} (h : chol P = .ok L)
    (hd : ∀ i < P.r, ∀ j < P.r, i ≠ j → P.e i j = 0) : ∀ i < P.r, ∀ j < P.r, i ≠ j → L.e i j = 0 := by
  obtain ⟨l1, l2, l3, l4, l5, l6⟩ := ch P L h
  have key : ∀ j, ∀ i, j < i → i < P.r → L.e i j = 0 := by
    intro j
    induction j using Nat.strongRecOn with
    | _ j ih =>
      intro i hji hi
      have hs := l4 i hi j (by omega)
      rw [hd i hi j (by omega) (by omega)] at hs
      have : (sumTo P.r fun k => L.e i k * L.e j k) = L.e i j * L.e j j := by
        rw [sumTo_eq]
        refine Finset.sum_eq_single j ?_ ?_
        · intro k hk hkj
          have hk := Finset.mem_range.mp hk
          rcases Nat.lt_or_ge k j with h | h
          · rw [ih k h j h (by omega), mul_zero]
          · rw [l5 j (by omega) k hk (by omega), mul_zero]
        · intro h
          exact absurd (Finset.mem_range.mpr (by omega)) h
      rw [this] at hs
      exact (mul_eq_zero.mp hs).resolve_right (ne_of_gt (l6 j (by omega)))
  intro i hi j hj hij
  rcases Nat.lt_or_ge i j with h | h
  · exact l5 i hi j hj h
  · exact key j i (by omega) hi

end order

end Pynare

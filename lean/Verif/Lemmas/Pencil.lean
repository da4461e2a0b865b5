import Verif.Lemmas.Stability
import Mathlib.LinearAlgebra.FiniteDimensional.Basic
import Mathlib.LinearAlgebra.Dimension.LinearMap
/-!
# Bounded solutions of a pencil

All bounded solutions of `D x' = E x`, from the ordered decomposition of the pencil.
-/

namespace Pynare

open Matrix

variable {V : Type} [Field V]

set_option linter.unusedSectionVars false

/-- `D x(τ+1) = E x(τ)` in every period, for vectors of length `n` -/
def PencilPath (D E : Arr V) (n : Nat) (x : Nat → Nat → V) : Prop :=
  ∀ τ, ∀ i < n, (sumTo n fun j => D.e i j * x (τ + 1) j) = sumTo n fun j => E.e i j * x τ j

/-- the path stays bounded -/
def PathBounded (φ : V →+* ℂ) (n : Nat) (x : Nat → Nat → V) : Prop := ∃ B : ℝ, ∀ τ, ∀ j < n, ‖φ (x τ j)‖ ≤ B

/-- coordinates with respect to the right factor -/
def coord (q : QZ V) (n : Nat) (x : Nat → V) : Nat → V := fun i => sumTo n fun j => q.Zt.e j i * x j

/-- the vector with these coordinates -/
def uncoord (q : QZ V) (n : Nat) (w : Nat → V) : Nat → V := fun j => sumTo n fun l => q.Zt.e j l * w l

theorem sumTo_split (n k : Nat) (hk : k ≤ n) (f : Nat → V) :
    sumTo n f = (∑ j ∈ Finset.range k, f j) + ∑ j ∈ Finset.Ico k n, f j := by
  rw [sumTo_eq, Finset.sum_range_add_sum_Ico _ hk]

theorem Ico_fin (k n : Nat) (f : Nat → V) : ∑ j ∈ Finset.Ico k n, f j = ∑ j : Fin (n - k), f (k + j) := by
  rw [Finset.sum_Ico_eq_sum_range, Finset.sum_range]

section
variable {D E : Arr V} {q : QZ V} (hd : q.Decomposes E D)
include hd

theorem uncoord_coord (x : Nat → V) {j : Nat} (hj : j < E.r) : uncoord q E.r (coord q E.r x) j = x j := by
  have hZr : q.Zt.r = E.r := (hd.shape _ (by simp)).1
  have oz := (hd.orthZ.mul (κ := fun i : Fin E.r => i.val) (by rw [hZr]; exact IsEnum.fin _)).1
  have := congrFun (congrArg (fun M => M *ᵥ fun i : Fin E.r => x i) oz) ⟨j, hj⟩
  simp only [one_mulVec, ← mulVec_mulVec] at this
  rw [← this]
  unfold uncoord coord
  rw [sumTo_enum (IsEnum.fin E.r)]
  simp only [mulVec, dotProduct, Arr.blk_apply, Arr.tr]
  refine Finset.sum_congr rfl fun l _ => ?_
  rw [sumTo_enum (IsEnum.fin E.r)]

theorem coord_uncoord (w : Nat → V) {j : Nat} (hj : j < E.r) : coord q E.r (uncoord q E.r w) j = w j := by
  have hZr : q.Zt.r = E.r := (hd.shape _ (by simp)).1
  have oz := (hd.orthZ.mul (κ := fun i : Fin E.r => i.val) (by rw [hZr]; exact IsEnum.fin _)).2
  have := congrFun (congrArg (fun M => M *ᵥ fun i : Fin E.r => w i) oz) ⟨j, hj⟩
  simp only [one_mulVec, ← mulVec_mulVec] at this
  rw [← this]
  unfold uncoord coord
  rw [sumTo_enum (IsEnum.fin E.r)]
  simp only [mulVec, dotProduct, Arr.blk_apply, Arr.tr]
  refine Finset.sum_congr rfl fun l _ => ?_
  rw [sumTo_enum (IsEnum.fin E.r)]

/-- the pencil, in coordinates -/
theorem pencil_coord (x x' : Nat → V) :
    (∀ i < E.r, (sumTo E.r fun j => D.e i j * x' j) = sumTo E.r fun j => E.e i j * x j) ↔
    ∀ i < E.r, (sumTo E.r fun j => q.T.e i j * coord q E.r x' j) = sumTo E.r fun j => q.S.e i j * coord q E.r x j := by
  have hQr : q.Q.r = E.r := (hd.shape _ (by simp)).1
  have oq := hd.orthQ.mul (κ := fun i : Fin E.r => i.val) (by rw [hQr]; exact IsEnum.fin _)
  set κ : Fin E.r → Nat := fun i => i.val with hκ
  have hen : IsEnum κ E.r := IsEnum.fin _
  have hfac : ∀ (M X : Arr V), (∀ i < E.r, ∀ j < E.r,
      (sumTo E.r fun y => (sumTo E.r fun l => q.Q.e i l * X.e l y) * q.Zt.e j y) = M.e i j) →
      M.blk κ κ = q.Q.blk κ κ * X.blk κ κ * q.Zt.tr.blk κ κ := by
    intro M X hM
    ext i j
    simp only [Matrix.mul_apply, Arr.blk_apply, Arr.tr]
    rw [← hM _ (hen.lt i) _ (hen.lt j), sumTo_enum hen]
    refine Finset.sum_congr rfl fun y _ => ?_
    rw [sumTo_enum hen]
  have hvec : ∀ (A : Arr V) (v : Nat → V) (i : Fin E.r), (A.blk κ κ *ᵥ fun j => v j) i =
      sumTo E.r fun j => A.e i j * v j := by
    intro A v i
    rw [sumTo_enum hen]; rfl
  have hco : ∀ v : Nat → V, (fun j : Fin E.r => coord q E.r v j) = q.Zt.tr.blk κ κ *ᵥ fun j : Fin E.r => v j := by
    intro v
    funext j
    rw [hvec]
    rfl
  have hD : ∀ v : Nat → V, (D.blk κ κ *ᵥ fun j => v j) = q.Q.blk κ κ *ᵥ (q.T.blk κ κ *ᵥ fun j => coord q E.r v j) := by
    intro v
    rw [hfac D q.T hd.right, hco]
    simp only [mulVec_mulVec, Matrix.mul_assoc]
  have hE : ∀ v : Nat → V, (E.blk κ κ *ᵥ fun j => v j) = q.Q.blk κ κ *ᵥ (q.S.blk κ κ *ᵥ fun j => coord q E.r v j) := by
    intro v
    rw [hfac E q.S hd.left, hco]
    simp only [mulVec_mulVec, Matrix.mul_assoc]
  constructor
  · intro h i hi
    have h1 : (D.blk κ κ *ᵥ fun j => x' j) = E.blk κ κ *ᵥ fun j => x j := by
      funext i
      rw [hvec, hvec]; exact h i i.2
    rw [hD, hE] at h1
    have h2 := congrArg (fun v => q.Q.tr.blk κ κ *ᵥ v) h1
    simp only [mulVec_mulVec, oq.2, ← Matrix.mul_assoc, Matrix.one_mul] at h2
    have := congrFun h2 ⟨i, hi⟩
    rw [hvec q.T (coord q E.r x'), hvec q.S (coord q E.r x)] at this
    exact this
  · intro h i hi
    have h1 : (q.T.blk κ κ *ᵥ fun j => coord q E.r x' j) = q.S.blk κ κ *ᵥ fun j => coord q E.r x j := by
      funext i
      rw [hvec q.T (coord q E.r x'), hvec q.S (coord q E.r x)]; exact h i i.2
    have h2 := congrArg (fun v => q.Q.blk κ κ *ᵥ v) h1
    rw [← hD, ← hE] at h2
    have := congrFun h2 ⟨i, hi⟩
    rw [hvec, hvec] at this
    exact this

variable {φ : V →+* ℂ} {ev : Nat → Option ℂ} (hev : q.Eigen φ ev) (hu : NoUnitRoot q.eigs.length ev) {k : Nat}
    (hk : k ≤ E.r) (hc : (q.eigs.countP fun x => x.big || x.inf) = E.r - k)
include hev hu hk hc

theorem split_at : (∀ i < k, Inside (ev i)) ∧ (∀ i, k ≤ i → i < E.r → Outside (ev i)) ∧
    (∀ (i : Nat) e, q.eigs[i]? = some e → ((e.big || e.inf) = true ↔ k ≤ i)) ∧
    (0 < k → k < E.r → q.S.e k (k - 1) = 0) := by
  have hn := hd.count
  obtain ⟨s1, s2, s3⟩ := eigen_split hev hu (k := k) (by omega) (by rw [hc, hn])
  refine ⟨s1, fun i h1 h2 => s2 i h1 (by omega), s3, ?_⟩
  intro h0 h1
  by_contra hS
  obtain ⟨k', rfl⟩ : ∃ k', k = k' + 1 := ⟨k - 1, by omega⟩
  rw [Nat.add_sub_cancel] at hS
  have := hd.pairs k' (by omega) hS
  have hl : k' < q.eigs.length := by omega
  have he := List.getElem?_eq_getElem hl
  have h1 := s3 k' _ he
  rw [this] at he
  have h2 := s3 (k' + 1) _ he
  rw [h1] at h2
  omega

/-- both triangular factors are zero below the cut -/
theorem split_zero : ∀ x y, k ≤ x → x < E.r → y < k → q.S.e x y = 0 ∧ q.T.e x y = 0 := by
  obtain ⟨-, -, -, s4⟩ := split_at hd hev hu hk hc
  intro x y hx hxE hy
  refine ⟨?_, hd.triT x y (by omega) hxE⟩
  by_cases hxy : y + 1 < x
  · exact hd.triS x y hxy hxE
  · have e1 : x = k := by omega
    have e2 : y = k - 1 := by omega
    rw [e1, e2]; exact s4 (by omega) (by omega)

/-- the transition matrix of the explosive part, backwards in time -/
theorem trail_back : ∃ N : Matrix (Fin (E.r - k)) (Fin (E.r - k)) ℂ,
    (∀ (z : ℂ) v, v ≠ 0 → N *ᵥ v = z • v → ‖z‖ < 1) ∧
    ∀ w w' : Fin (E.r - k) → ℂ,
      ((q.T.blk (fun i : Fin (E.r - k) => k + i.val) fun i : Fin (E.r - k) => k + i.val).map φ) *ᵥ w' =
      ((q.S.blk (fun i : Fin (E.r - k) => k + i.val) fun i : Fin (E.r - k) => k + i.val).map φ) *ᵥ w → w = N *ᵥ w' := by
  obtain ⟨-, s2, -, s4⟩ := split_at hd hev hu hk hc
  have hn := hd.count
  set S' := (q.S.blk (fun i : Fin (E.r - k) => k + i.val) fun i : Fin (E.r - k) => k + i.val).map φ
  set T' := (q.T.blk (fun i : Fin (E.r - k) => k + i.val) fun i : Fin (E.r - k) => k + i.val).map φ
  have out : ∀ w, BlockEigen φ q.S q.T k E.r w → Outside w := by
    intro w hw
    obtain ⟨i, h1, h2, rfl⟩ := hev.blocks k E.r hk (by omega) (fun h h' => s4 h (by omega))
      (fun _ h => absurd h (by omega)) _ hw
    exact s2 i h1 h2
  have hdet : IsUnit S'.det := by
    rw [isUnit_iff_ne_zero]
    intro h0
    obtain ⟨v, hv, hv0⟩ := Matrix.exists_mulVec_eq_zero_iff.mpr h0
    have := out _ ((trail_eigen (φ := φ) (S := q.S) (T := q.T) hk hv).1 0 (by
      rw [zero_smul]; exact hv0)) 0 rfl
    rw [norm_zero] at this
    linarith
  refine ⟨S'⁻¹ * T', ?_, ?_⟩
  · intro z v hv hz
    have hT : T' *ᵥ v = z • (S' *ᵥ v) := by
      rw [← mulVec_smul, ← hz, mulVec_mulVec, ← Matrix.mul_assoc, Matrix.mul_nonsing_inv _ hdet, Matrix.one_mul]
    by_cases hz0 : z = 0
    · rw [hz0, norm_zero]; exact one_pos
    · have := out _ ((trail_eigen (φ := φ) (S := q.S) (T := q.T) hk hv).1 z⁻¹ (by
        show S' *ᵥ v = z⁻¹ • (T' *ᵥ v)
        rw [hT, smul_smul, inv_mul_cancel₀ hz0, one_smul])) z⁻¹ rfl
      rw [norm_inv] at this
      have hpos : 0 < ‖z‖ := norm_pos_iff.mpr hz0
      exact (one_lt_inv₀ hpos).mp this
  · intro w w' h
    rw [← mulVec_mulVec, h, mulVec_mulVec, Matrix.nonsing_inv_mul _ hdet, one_mulVec]

/-- the transition matrix of the stable part -/
theorem lead_forward : IsUnit (q.T.blk (fun i : Fin k => i.val) fun i : Fin k => i.val).det ∧
    ∀ (z : ℂ) v, v ≠ 0 →
      (((q.T.blk (fun i : Fin k => i.val) fun i : Fin k => i.val)⁻¹ *
        q.S.blk (fun i : Fin k => i.val) fun i : Fin k => i.val).map φ) *ᵥ v = z • v → ‖z‖ < 1 := by
  obtain ⟨s1, -, -, s4⟩ := split_at hd hev hu hk hc
  have hn := hd.count
  have inn : ∀ w, BlockEigen φ q.S q.T 0 k w → Inside w := by
    intro w hw
    obtain ⟨i, h1, h2, rfl⟩ := hev.blocks 0 k (Nat.zero_le _) (by omega) (fun h => absurd h (lt_irrefl _))
      (fun h h' => s4 h (by omega)) _ hw
    exact s1 i h2
  set S' := q.S.blk (fun i : Fin k => i.val) fun i : Fin k => i.val
  set T' := q.T.blk (fun i : Fin k => i.val) fun i : Fin k => i.val
  have hdet : IsUnit T'.det := by
    rw [isUnit_iff_ne_zero]
    intro h0
    obtain ⟨v, hv, hv0⟩ := Matrix.exists_mulVec_eq_zero_iff.mpr h0
    obtain ⟨z, hz, -⟩ := inn none (by
      refine ⟨fun j => if h : j < k then φ (v ⟨j, h⟩) else 0, ?_, ?_⟩
      · obtain ⟨j, hj⟩ := Function.ne_iff.mp hv
        exact ⟨j, Nat.zero_le _, j.2, by simpa using hj⟩
      · intro i _ hi
        have := congrArg φ (congrFun hv0 ⟨i, hi⟩)
        simp only [mulVec, dotProduct, T', Arr.blk_apply, Pi.zero_apply, map_zero, map_sum, map_mul] at this
        show _ = _
        rw [← Finset.range_eq_Ico, Finset.sum_range]
        simpa using this)
    cases hz
  refine ⟨hdet, ?_⟩
  intro z v hv hz
  have key : S'.map φ *ᵥ v = z • (T'.map φ *ᵥ v) := by
    rw [← mulVec_smul, ← hz, mulVec_mulVec, ← Matrix.map_mul, ← Matrix.mul_assoc, Matrix.mul_nonsing_inv _ hdet,
      Matrix.one_mul]
  obtain ⟨z', hz', hlt⟩ := inn _ (lead_eigen hv key)
  cases hz'
  exact hlt

/-- in a bounded solution the explosive coordinates are zero -/
theorem bounded_trail {x : Nat → Nat → V} (hx : PencilPath D E E.r x) (hb : PathBounded φ E.r x) (τ : Nat) :
    ∀ i, k ≤ i → i < E.r → coord q E.r (x τ) i = 0 := by
  obtain ⟨B, hB⟩ := hb
  obtain ⟨N, hN, hstep⟩ := trail_back hd hev hu hk hc
  obtain ⟨C, r, hC, hr, hr1, hM⟩ := pow_geom N hN
  have hz := split_zero hd hev hu hk hc
  have hw : ∀ τ, (fun i : Fin (E.r - k) => φ (coord q E.r (x τ) (k + i))) =
      N *ᵥ fun i : Fin (E.r - k) => φ (coord q E.r (x (τ + 1)) (k + i)) := by
    intro τ
    refine hstep _ _ ?_
    rw [← map_mul_vec φ _ (fun i : Fin (E.r - k) => coord q E.r (x (τ + 1)) (k + i)),
      ← map_mul_vec φ _ (fun i : Fin (E.r - k) => coord q E.r (x τ) (k + i))]
    funext i
    have hi := i.2
    have := (pencil_coord hd _ _).mp (hx τ) (k + i) (by omega)
    rw [sumTo_split _ k hk, sumTo_split _ k hk,
      Finset.sum_eq_zero fun j hj => by
        rw [(hz (k + i) j (by omega) (by omega) (Finset.mem_range.mp hj)).2, zero_mul],
      Finset.sum_eq_zero (s := Finset.range k) fun j hj => by
        rw [(hz (k + i) j (by omega) (by omega) (Finset.mem_range.mp hj)).1, zero_mul], zero_add, zero_add,
      Ico_fin, Ico_fin] at this
    exact congrArg φ this
  have hzero := backward_zero hC hr.le hr1 hM hw
    (B := ∑ i : Fin (E.r - k), ∑ a ∈ Finset.range E.r, ‖φ (q.Zt.e a (k + i))‖ * B) (by
      intro τ
      refine Finset.sum_le_sum fun i _ => ?_
      unfold coord
      rw [sumTo_eq, map_sum]
      refine (norm_sum_le _ _).trans (Finset.sum_le_sum fun a ha => ?_)
      rw [map_mul, norm_mul]
      exact mul_le_mul_of_nonneg_left (hB τ a (Finset.mem_range.mp ha)) (norm_nonneg _)) τ
  intro i h1 h2
  have := congrFun hzero ⟨i - k, by omega⟩
  simp only [Pi.zero_apply, map_eq_zero, Nat.add_sub_cancel' h1] at this
  exact this

/-- a bounded solution at zero stays there -/
theorem bounded_zero {x : Nat → Nat → V} (hx : PencilPath D E E.r x) (hb : PathBounded φ E.r x)
    (h0 : ∀ j < E.r, x 0 j = 0) (τ : Nat) : ∀ j < E.r, x τ j = 0 := by
  obtain ⟨hdet, -⟩ := lead_forward hd hev hu hk hc
  have ht := bounded_trail hd hev hu hk hc hx hb
  suffices h : ∀ τ, ∀ i < E.r, coord q E.r (x τ) i = 0 by
    intro j hj
    rw [← uncoord_coord hd (x τ) hj]
    unfold uncoord
    rw [sumTo_eq]
    exact Finset.sum_eq_zero fun l hl => by rw [h τ l (Finset.mem_range.mp hl), mul_zero]
  intro τ
  induction τ with
  | zero =>
    intro i _
    unfold coord
    rw [sumTo_eq]
    exact Finset.sum_eq_zero fun l hl => by rw [h0 l (Finset.mem_range.mp hl), mul_zero]
  | succ τ ih =>
    intro i hi
    by_cases hik : k ≤ i
    · exact ht (τ + 1) i hik hi
    have hT : (q.T.blk (fun i : Fin k => i.val) fun i : Fin k => i.val) *ᵥ
        (fun i : Fin k => coord q E.r (x (τ + 1)) i) = 0 := by
      funext a
      have ha := a.2
      have := (pencil_coord hd _ _).mp (hx τ) a (by omega)
      rw [sumTo_split _ k hk, Finset.sum_eq_zero (s := Finset.Ico k E.r) (fun j hj => by
          rw [ht (τ + 1) j (Finset.mem_Ico.mp hj).1 (Finset.mem_Ico.mp hj).2, mul_zero]), add_zero,
        sumTo_eq E.r (fun j => q.S.e a j * coord q E.r (x τ) j),
        Finset.sum_eq_zero (s := Finset.range E.r) (fun j hj => by
          rw [ih j (Finset.mem_range.mp hj), mul_zero]), Finset.sum_range] at this
      exact this
    have := congrArg (fun v => (q.T.blk (fun i : Fin k => i.val) fun i : Fin k => i.val)⁻¹ *ᵥ v) hT
    simp only [mulVec_mulVec, Matrix.nonsing_inv_mul _ hdet, one_mulVec, mulVec_zero] at this
    exact congrFun this ⟨i, by omega⟩

/-- every choice of stable coordinates starts a bounded solution -/
theorem bounded_exists (w : Nat → V) : ∃ x : Nat → Nat → V, PencilPath D E E.r x ∧ PathBounded φ E.r x ∧
    ∀ j < E.r, x 0 j = uncoord q E.r (fun l => if l < k then w l else 0) j := by
  obtain ⟨hdet, hin⟩ := lead_forward hd hev hu hk hc
  have hz := split_zero hd hev hu hk hc
  obtain ⟨C, r, hC, hr, hr1, hM⟩ := pow_geom _ hin
  set S' := q.S.blk (fun i : Fin k => i.val) fun i : Fin k => i.val with hS'
  set T' := q.T.blk (fun i : Fin k => i.val) fun i : Fin k => i.val with hT'
  set M := T'⁻¹ * S' with hMd
  let c : Nat → Fin k → V := fun τ => M ^ τ *ᵥ fun i => w i
  let W : Nat → Nat → V := fun τ l => if h : l < k then c τ ⟨l, h⟩ else 0
  refine ⟨fun τ => uncoord q E.r (W τ), ?_, ?_, ?_⟩
  · intro τ
    refine (pencil_coord hd _ _).mpr fun i hi => ?_
    have e1 : (sumTo E.r fun j => q.T.e i j * coord q E.r (uncoord q E.r (W (τ + 1))) j) =
        ∑ j : Fin k, q.T.e i j * c (τ + 1) j := by
      rw [sumTo_split _ k hk, Finset.sum_eq_zero (s := Finset.Ico k E.r) (fun j hj => by
        rw [coord_uncoord hd _ (Finset.mem_Ico.mp hj).2]
        simp only [W, dif_neg (show ¬ j < k by have := (Finset.mem_Ico.mp hj).1; omega), mul_zero]), add_zero,
        Finset.sum_range]
      refine Finset.sum_congr rfl fun j _ => ?_
      have := j.2
      rw [coord_uncoord hd _ (by omega)]
      simp only [W, dif_pos j.2]
    have e2 : (sumTo E.r fun j => q.S.e i j * coord q E.r (uncoord q E.r (W τ)) j) =
        ∑ j : Fin k, q.S.e i j * c τ j := by
      rw [sumTo_split _ k hk, Finset.sum_eq_zero (s := Finset.Ico k E.r) (fun j hj => by
        rw [coord_uncoord hd _ (Finset.mem_Ico.mp hj).2]
        simp only [W, dif_neg (show ¬ j < k by have := (Finset.mem_Ico.mp hj).1; omega), mul_zero]), add_zero,
        Finset.sum_range]
      refine Finset.sum_congr rfl fun j _ => ?_
      have := j.2
      rw [coord_uncoord hd _ (by omega)]
      simp only [W, dif_pos j.2]
    rw [e1, e2]
    by_cases hik : k ≤ i
    · rw [Finset.sum_eq_zero fun j _ => by rw [(hz i j hik hi j.2).2, zero_mul],
        Finset.sum_eq_zero fun j _ => by rw [(hz i j hik hi j.2).1, zero_mul]]
    · have : T' *ᵥ c (τ + 1) = S' *ᵥ c τ := by
        simp only [c, pow_succ', ← mulVec_mulVec]
        rw [hMd, ← mulVec_mulVec, mulVec_mulVec (M := T') (N := T'⁻¹), Matrix.mul_nonsing_inv _ hdet, one_mulVec]
      exact congrFun this ⟨i, by omega⟩
  · have hc' : ∀ τ (i : Fin k), ‖φ (c τ i)‖ ≤ C * ∑ j : Fin k, ‖φ (w j)‖ := by
      intro τ i
      have h1 : φ (c τ i) = ((M.map φ) ^ τ *ᵥ fun j => φ (w j)) i := by
        have := congrFun (map_mul_vec φ (M ^ τ) fun j : Fin k => w j) i
        rw [this]
        congr 2
        exact map_pow φ.mapMatrix M τ
      rw [h1]
      refine (apply_geom hM τ _ i).trans ?_
      refine mul_le_mul_of_nonneg_right ?_ (Finset.sum_nonneg fun _ _ => norm_nonneg _)
      have : r ^ τ ≤ 1 := pow_le_one₀ hr.le hr1.le
      nlinarith
    have hW : ∀ τ l, ‖φ (W τ l)‖ ≤ C * ∑ j : Fin k, ‖φ (w j)‖ := by
      intro τ l
      simp only [W]
      split
      · exact hc' τ _
      · rw [map_zero, norm_zero]
        exact mul_nonneg hC (Finset.sum_nonneg fun _ _ => norm_nonneg _)
    refine ⟨∑ j ∈ Finset.range E.r, ∑ l ∈ Finset.range E.r, ‖φ (q.Zt.e j l)‖ * (C * ∑ j : Fin k, ‖φ (w j)‖), ?_⟩
    intro τ j hj
    have hnn : 0 ≤ C * ∑ j : Fin k, ‖φ (w j)‖ := mul_nonneg hC (Finset.sum_nonneg fun _ _ => norm_nonneg _)
    refine le_trans ?_ (Finset.single_le_sum (f := fun j => ∑ l ∈ Finset.range E.r, ‖φ (q.Zt.e j l)‖ *
      (C * ∑ j : Fin k, ‖φ (w j)‖)) (fun _ _ => Finset.sum_nonneg fun _ _ => mul_nonneg (norm_nonneg _) hnn)
      (Finset.mem_range.mpr hj))
    show ‖φ (sumTo E.r fun l => q.Zt.e j l * W τ l)‖ ≤ _
    rw [sumTo_eq, map_sum]
    refine (norm_sum_le _ _).trans (Finset.sum_le_sum fun l _ => ?_)
    rw [map_mul, norm_mul]
    exact mul_le_mul_of_nonneg_left (hW τ l) (norm_nonneg _)
  · intro j _
    show uncoord q E.r (W 0) j = _
    congr 1
    funext l
    simp only [W, c, pow_zero, one_mulVec]
    split <;> rfl

/-- a unique bounded solution from every value of the first `nb` entries: as many stable eigenvalues, and
the trailing block of the right factor is regular -/
theorem pencil_determinate {nb : Nat} (hnb : nb ≤ E.r) :
    ((∀ st : Nat → V, ∃ x, PencilPath D E E.r x ∧ PathBounded φ E.r x ∧ ∀ j < nb, x 0 j = st j) ∧
      ∀ x, PencilPath D E E.r x → PathBounded φ E.r x → (∀ j < nb, x 0 j = 0) → ∀ τ, ∀ j < E.r, x τ j = 0) ↔
    k = nb ∧ ∀ v : Nat → V, (∀ i, k ≤ i → i < E.r → ∑ j ∈ Finset.Ico k E.r, q.Zt.e j i * v j = 0) →
      ∀ j, k ≤ j → j < E.r → v j = 0 := by
  let P : (Fin k → V) →ₗ[V] (Fin nb → V) := Matrix.mulVecLin (Matrix.of fun (i : Fin nb) (j : Fin k) => q.Zt.e i j)
  have hP : ∀ (w : Nat → V) (i : Nat) (hi : i < nb), P (fun j => w j) ⟨i, hi⟩ =
      uncoord q E.r (fun l => if l < k then w l else 0) i := by
    intro w i hi
    simp only [uncoord]
    rw [sumTo_split _ k hk, Finset.sum_eq_zero (s := Finset.Ico k E.r) (fun j hj => by
      rw [if_neg (show ¬ j < k by have := (Finset.mem_Ico.mp hj).1; omega), mul_zero]), add_zero, Finset.sum_range]
    simp only [P, Matrix.mulVecLin_apply, mulVec, dotProduct, Matrix.of_apply]
    exact Finset.sum_congr rfl fun j _ => by rw [if_pos j.2]
  -- vectors without explosive coordinates
  have stab : ∀ x : Nat → V, (∀ i, k ≤ i → i < E.r → coord q E.r x i = 0) → ∀ j < E.r,
      x j = uncoord q E.r (fun l => if l < k then coord q E.r x l else 0) j := by
    intro x h j hj
    rw [← uncoord_coord hd x hj]
    simp only [uncoord]
    rw [sumTo_eq, sumTo_eq]
    refine Finset.sum_congr rfl fun l hl => ?_
    by_cases hlk : l < k
    · rw [if_pos hlk]
    · rw [if_neg hlk, h l (by omega) (Finset.mem_range.mp hl)]
  have coordz : ∀ w : Nat → V, (∀ j < E.r, uncoord q E.r w j = 0) → ∀ l < E.r, w l = 0 := by
    intro w h l hl
    rw [← coord_uncoord hd w hl]
    unfold coord
    rw [sumTo_eq]
    exact Finset.sum_eq_zero fun j hj => by rw [h j (Finset.mem_range.mp hj), mul_zero]
  constructor
  · rintro ⟨hex, huniq⟩
    have hsurj : Function.Surjective P := by
      intro b
      obtain ⟨x, hx, hb, h0⟩ := hex fun j => if h : j < nb then b ⟨j, h⟩ else 0
      refine ⟨fun j => coord q E.r (x 0) j, ?_⟩
      funext i
      rw [hP (coord q E.r (x 0)) i i.2, ← stab (x 0) (bounded_trail hd hev hu hk hc hx hb 0) i (by omega), h0 i i.2,
        dif_pos i.2]
    have hinj : Function.Injective P := by
      rw [injective_iff_map_eq_zero]
      intro b hb
      obtain ⟨x, hx, hbd, h0⟩ := bounded_exists hd hev hu hk hc fun j => if h : j < k then b ⟨j, h⟩ else 0
      have hPb := hP (fun j => if h : j < k then b ⟨j, h⟩ else 0)
      simp only [Fin.is_lt, dite_true, Fin.eta] at hPb
      have hz := huniq x hx hbd (fun j hj => by
        rw [h0 j (by omega), ← hPb j hj]
        have : (fun a : Fin k => b a) = b := rfl
        rw [this, hb]; rfl) 0
      have := coordz _ fun j hj => by rw [← h0 j hj]; exact hz j hj
      funext i
      have := this i (by omega)
      simpa using this
    have hkn : k = nb := by
      have := LinearEquiv.finrank_eq (LinearEquiv.ofBijective P ⟨hinj, hsurj⟩)
      simpa using this
    refine ⟨hkn, ?_⟩
    intro v hv
    have hx0 : ∀ i, k ≤ i → i < E.r → coord q E.r (fun j => if j < k then 0 else v j) i = 0 := by
      intro i h1 h2
      simp only [coord]
      rw [sumTo_split _ k hk, Finset.sum_eq_zero (s := Finset.range k) (fun j hj => by
        rw [if_pos (Finset.mem_range.mp hj), mul_zero]), zero_add]
      refine Eq.trans ?_ (hv i h1 h2)
      exact Finset.sum_congr rfl fun j hj => by
        rw [if_neg (show ¬ j < k by have := (Finset.mem_Ico.mp hj).1; omega)]
    have hs := stab _ hx0
    have hw : (fun j : Fin k => coord q E.r (fun j => if j < k then 0 else v j) j) = 0 := by
      apply hinj
      rw [map_zero]
      funext i
      rw [hP (coord q E.r (fun j => if j < k then 0 else v j)) i i.2, ← hs i (by omega), if_pos (by omega)]
      rfl
    intro j h1 h2
    have := hs j h2
    rw [if_neg (by omega)] at this
    rw [this]
    simp only [uncoord]
    rw [sumTo_eq]
    refine Finset.sum_eq_zero fun l _ => ?_
    split
    · rename_i hlk
      have := congrFun hw ⟨l, hlk⟩
      simp only [Pi.zero_apply] at this
      rw [this, mul_zero]
    · rw [mul_zero]
  · rintro ⟨rfl, hreg⟩
    have back : ∀ x : Nat → V, (∀ i, k ≤ i → i < E.r → coord q E.r x i = 0) → (∀ j < k, x j = 0) →
        ∀ j < E.r, x j = 0 := by
      intro x hx h0 j hj
      by_cases hjk : j < k
      · exact h0 j hjk
      refine hreg x ?_ j (by omega) hj
      intro i h1 h2
      have := hx i h1 h2
      unfold coord at this
      rwa [sumTo_split _ k hk, Finset.sum_eq_zero (s := Finset.range k) (fun j hj => by
        rw [h0 j (Finset.mem_range.mp hj), mul_zero]), zero_add] at this
    have hinj : Function.Injective P := by
      rw [injective_iff_map_eq_zero]
      intro b hb
      have hPb := hP (fun j => if h : j < k then b ⟨j, h⟩ else 0)
      simp only [Fin.is_lt, dite_true, Fin.eta] at hPb
      have hz := back (uncoord q E.r fun l => if l < k then (if h : l < k then b ⟨l, h⟩ else 0) else 0) (by
        intro i h1 h2
        rw [coord_uncoord hd _ h2, if_neg (by omega)]) (by
        intro j hj
        rw [← hPb j hj]
        have : (fun a : Fin k => b a) = b := rfl
        rw [this, hb]; rfl)
      funext i
      have := coordz _ hz i (by omega)
      simpa using this
    have hsurj : Function.Surjective P := LinearMap.injective_iff_surjective.mp hinj
    refine ⟨?_, ?_⟩
    · intro st
      obtain ⟨b, hb⟩ := hsurj fun j => st j
      obtain ⟨x, hx, hbd, h0⟩ := bounded_exists hd hev hu hk hc fun j => if h : j < k then b ⟨j, h⟩ else 0
      have hPb := hP (fun j => if h : j < k then b ⟨j, h⟩ else 0)
      simp only [Fin.is_lt, dite_true, Fin.eta] at hPb
      refine ⟨x, hx, hbd, fun j hj => ?_⟩
      rw [h0 j (by omega), ← hPb j hj]
      have : (fun a : Fin k => b a) = b := rfl
      rw [this, hb]
    · intro x hx hb h0
      exact bounded_zero hd hev hu hk hc hx hb
        (back (x 0) (bounded_trail hd hev hu hk hc hx hb 0) h0)

end

end Pynare

import Verif.Lemmas.Decay
import Verif.Lemmas.Solution
import Verif.Spec.Stability
/-!
# Stability of the computed responses
-/

namespace Pynare

open Matrix

variable {V : Type} [Field V]

set_option linter.unusedSectionVars false

/-! ### which eigenvalues are on which side of the cut -/

theorem countP_split {α : Type} (p : α → Bool) : ∀ (es : List α) (k : Nat), k ≤ es.length →
    (∀ (i j : Nat) a b, i ≤ j → es[i]? = some a → es[j]? = some b → p a = true → p b = true) →
    es.countP p = es.length - k → ∀ (j : Nat) e, es[j]? = some e → (p e = true ↔ k ≤ j)
  | [], k, h, _, _ => by simp
  | e :: es, k, h, hs, hc => by
    intro j a hj
    by_cases he : p e = true
    · have hall : ∀ b ∈ e :: es, p b = true := by
        intro b hb
        obtain ⟨i, hi⟩ := List.mem_iff_getElem?.mp hb
        exact hs 0 i e b (Nat.zero_le _) rfl hi he
      have : (e :: es).countP p = (e :: es).length := List.countP_eq_length.mpr hall
      have hk : k = 0 := by rw [this] at hc; simp only [List.length_cons] at h hc; omega
      subst hk
      exact ⟨fun _ => Nat.zero_le _, fun _ => hall a (List.mem_of_getElem? hj)⟩
    · rw [List.countP_cons_of_neg he] at hc
      have hle := List.countP_le_length (p := p) (l := es)
      simp only [List.length_cons] at hc h
      obtain ⟨k', rfl⟩ : ∃ k', k = k' + 1 := ⟨k - 1, by omega⟩
      have ih := countP_split p es k' (by omega) (fun i j a b hij ha hb =>
        hs (i + 1) (j + 1) a b (by omega) (by simpa using ha) (by simpa using hb)) (by omega)
      cases j with
      | zero =>
        have : e = a := by simpa using hj
        subst this
        simp [he]
      | succ j =>
        rw [ih j a (by simpa using hj)]
        omega

theorem eigen_split {φ : V →+* ℂ} {q : QZ V} {ev : Nat → Option ℂ} (hev : q.Eigen φ ev)
    (hu : NoUnitRoot q.eigs.length ev) {k : Nat} (hk : k ≤ q.eigs.length)
    (hc : (q.eigs.countP fun x => x.big || x.inf) = q.eigs.length - k) :
    (∀ i < k, Inside (ev i)) ∧ (∀ i, k ≤ i → i < q.eigs.length → Outside (ev i)) ∧
    (∀ (i : Nat) e, q.eigs[i]? = some e → ((e.big || e.inf) = true ↔ k ≤ i)) := by
  have flag : ∀ (i : Nat) e, q.eigs[i]? = some e → ((e.big || e.inf) = true ↔ ¬ Inside (ev i)) := by
    intro i e he
    have hi : i < q.eigs.length := (List.getElem?_eq_some_iff.mp he).1
    cases hw : ev i with
    | none =>
      have := (hev.infinite i e he).mpr hw
      simp [this, Inside]
    | some z =>
      have h1 : e.inf = false := by
        cases hinf : e.inf with
        | false => rfl
        | true => rw [(hev.infinite i e he).mp hinf] at hw; cases hw
      have h2 := hev.big i e z he hw
      rw [h1, Bool.or_false, h2]
      have := hu i hi
      rw [hw] at this
      constructor
      · rintro h ⟨z', hz, hlt⟩
        cases hz
        linarith
      · intro h
        exact this.resolve_left h z rfl
  have mono := countP_split (fun x : Eig => x.big || x.inf) q.eigs k hk (by
    intro i j a b hij ha hb h
    rw [flag j b hb]
    rw [flag i a ha] at h
    intro hin
    exact h (hev.sorted i j hij (List.getElem?_eq_some_iff.mp hb).1 hin)) hc
  refine ⟨?_, ?_, mono⟩
  · intro i hi
    have hl : i < q.eigs.length := by omega
    have he := List.getElem?_eq_getElem hl
    by_contra h
    have := (mono i _ he).mp ((flag i _ he).mpr h)
    omega
  · intro i hi hl
    have he := List.getElem?_eq_getElem hl
    exact (hu i hl).resolve_left ((flag i _ he).mp ((mono i _ he).mpr hi))

/-! ### the blocks of the decomposition -/

/-- what the partition says, in blocks -/
theorem partition_blocks {la : LinAlg V} (ex : la.Exact) {D E : Arr V} {parts : QZParts V} {q : QZ V}
    {gym gyp : Arr V} (hp : partitionedQZ la D E = .ok parts) (hq : la.ordqz E D = .ok q)
    (hs : solveNonstatic la parts = .ok (gym, gyp)) :
    q.Decomposes E D ∧ parts.eigs = q.eigs ∧ gym.r < E.r ∧ gym.c = gym.r ∧ gyp.r = E.r - gym.r ∧
    gyp.c = gym.r ∧ E.r = E.c ∧ D.r = D.c ∧ E.r = D.r ∧
    (∃ expl, findFirst (q.eigs.map fun x => x.gt1 || x.inf) = .ok expl ∧ gym.r = cutAt E.r expl) ∧
    ∀ {P Q : Type} [Fintype P] [Fintype Q] [DecidableEq P] [DecidableEq Q] (κ : P → Nat) (σ : Q → Nat),
      IsEnum κ gym.r → IsEnum σ (E.r - gym.r) →
      let Z := fun {α β : Type} (a : α → Nat) (b : β → Nat) => q.Zt.tr.blk a b
      let σ' := fun j => gym.r + σ j
      Z σ' σ' * gyp.blk σ κ = - Z σ' κ ∧ (∃ Zi : Matrix Q Q V, Zi * Z σ' σ' = 1) ∧
      ∃ T11i W : Matrix P P V, T11i * q.T.blk κ κ = 1 ∧ q.T.blk κ κ * T11i = 1 ∧ (Z κ κ)ᵀ * W = 1 ∧ W * (Z κ κ)ᵀ = 1 ∧
        gym.blk κ κ = ((Z κ κ)ᵀ * T11i) * (q.S.blk κ κ * W) := by
  unfold partitionedQZ at hp
  obtain ⟨q', hq', hp⟩ := Except.bind_eq_ok hp
  obtain ⟨expl, hx, hp⟩ := Except.bind_eq_ok hp
  unfold LinAlg.ordqzChecked at hq'
  split at hq'
  case isFalse => cases hq'
  rename_i hshape
  obtain ⟨sh1, sh2, sh3⟩ := hshape
  rw [hq] at hq'
  have := Except.ok.inj hq'
  subst this
  have hd := ex.ordqz _ _ _ sh1 sh2 sh3 hq
  have hparts := Except.ok.inj hp
  have heigs : parts.eigs = q.eigs := by rw [← hparts]
  have hZr : q.Zt.r = E.r := (hd.shape _ (by simp)).1
  have hZc : q.Zt.c = E.r := (hd.shape _ (by simp)).2
  have hk : cutAt E.r expl < E.r := by
    obtain ⟨hne, hc⟩ := findFirst_spec hx
    have hpos : 0 < q.eigs.length := List.length_pos_iff.mpr hne
    have hl := hd.count
    rcases hc with ⟨rfl, _⟩ | ⟨k, rfl, hk, _⟩
    · rw [cutAt, if_pos (by decide)]; omega
    · rw [cutAt, if_neg (by omega)]
      have : (k : Int).toNat = k := rfl
      omega
  rw [hZr] at hparts
  obtain ⟨k, hkk⟩ : ∃ k, cutAt E.r expl = k := ⟨_, rfl⟩
  rw [hkk] at hk hparts
  unfold solveNonstatic at hs
  obtain ⟨x, hxs, hs⟩ := Except.bind_eq_ok hs
  obtain ⟨T11i, hTi, hs⟩ := Except.bind_eq_ok hs
  obtain ⟨l, hl, hs⟩ := Except.bind_eq_ok hs
  obtain ⟨W, hW, hs⟩ := Except.bind_eq_ok hs
  obtain ⟨r, hr, hs⟩ := Except.bind_eq_ok hs
  obtain ⟨g, hg, hs⟩ := Except.bind_eq_ok hs
  have := Except.ok.inj hs
  simp only [Prod.mk.injEq] at this
  obtain ⟨rfl, rfl⟩ := this
  subst hparts
  unfold LinAlg.solveChecked at hxs
  split at hxs
  case isFalse => cases hxs
  rename_i hsq
  obtain ⟨hx1, i22, hi22⟩ := ex.solve _ _ _ hsq.1 hsq.2 hxs
  unfold LinAlg.invChecked at hTi hW
  split at hTi
  case isFalse => cases hTi
  rename_i hsqT
  split at hW
  case isFalse => cases hW
  rename_i hsqW
  have hTinv := ex.inv _ _ hsqT hTi
  have hWinv := ex.inv _ _ hsqW hW
  obtain ⟨l1, l2, l3, l4⟩ := Arr.dot_ok hl
  obtain ⟨r1, r2, r3, r4⟩ := Arr.dot_ok hr
  obtain ⟨g1, g2, g3, g4⟩ := Arr.dot_ok hg
  have hgr : g.r = k := by rw [g2, l2]; simp [Arr.tr, Arr.slice]
  have hWc : W.c = k := by
    have := hWinv.1.2.2.1
    simpa [Arr.eye, Arr.tr, Arr.slice] using this.symm
  have hgc : g.c = k := by rw [g3, r3, hWc]
  have hxr : x.r = E.r - k := by
    have := hx1.1
    simpa [Arr.slice] using this.symm
  have hxc : x.c = k := by
    have := hx1.2.2.1
    simpa [Arr.slice] using this.symm
  refine ⟨hd, rfl, by omega, by omega, by rw [hgr]; exact hxr, by rw [hgr]; exact hxc, sh1, sh2, sh3,
    ⟨expl, hx, by rw [hgr, hkk]⟩, ?_⟩
  intro P Q _ _ _ _ κ σ hκ hσ
  rw [hgr] at hκ hσ ⊢
  intro Z σ'
  have hx2 := hx1.mul (ρ := σ) (κ := σ) (σ := κ) (by simpa [Arr.slice] using hσ.lt)
    (by simpa [Arr.slice] using hσ) (by rw [hxc]; exact hκ.lt)
  simp only [slice_blk, Nat.zero_add] at hx2
  have hi2 := (hi22.mul (κ := σ) (by simpa [Arr.slice] using hσ)).2
  simp only [slice_blk] at hi2
  have hT2 := (hTinv.mul (κ := κ) (by simpa [Arr.slice] using hκ))
  simp only [slice_blk, Nat.zero_add] at hT2
  have hW2 := hWinv.mul (κ := κ) (by simpa [Arr.slice, Arr.tr] using hκ)
  simp only [Arr.tr_blk, slice_blk, Nat.zero_add] at hW2
  have hg2 : g.blk κ κ = ((q.Zt.tr.blk κ κ)ᵀ * T11i.blk κ κ) * (q.S.blk κ κ * W.blk κ κ) := by
    have hlc : l.c = k := by
      rw [l3]
      have := hTinv.1.2.2.1
      simpa [Arr.eye, Arr.slice] using this.symm
    rw [g4 κ κ κ (by rw [hlc]; exact hκ), l4 κ κ κ (by simpa [Arr.tr, Arr.slice] using hκ),
      r4 κ κ κ (by simpa [Arr.slice] using hκ)]
    simp only [Arr.tr_blk, slice_blk, Nat.zero_add]
  refine ⟨?_, ⟨_, hi2⟩, T11i.blk κ κ, W.blk κ κ, hT2.2, hT2.1, ?_, ?_, hg2⟩
  · rw [Arr.neg_blk, Matrix.mul_neg, hx2]
  · simpa only [Z, Arr.tr_blk] using hW2.1
  · simpa only [Z, Arr.tr_blk] using hW2.2

/-! ### eigenvalues of the two blocks -/

theorem map_mul_vec {m n : Type} [Fintype n] (φ : V →+* ℂ) (A : Matrix m n V) (v : n → V) :
    (fun i => φ ((A *ᵥ v) i)) = (A.map φ) *ᵥ fun j => φ (v j) := by
  funext i
  simp [mulVec, dotProduct, map_sum]

/-- a vector of the leading block -/
theorem lead_eigen {φ : V →+* ℂ} {S T : Arr V} {k : Nat} {z : ℂ} {v : Fin k → ℂ} (hv : v ≠ 0)
    (h : ((S.blk (fun i : Fin k => i.val) fun i : Fin k => i.val).map φ) *ᵥ v =
      z • (((T.blk (fun i : Fin k => i.val) fun i : Fin k => i.val).map φ) *ᵥ v)) :
    BlockEigen φ S T 0 k (some z) := by
  refine ⟨fun j => if h : j < k then v ⟨j, h⟩ else 0, ?_, ?_⟩
  · obtain ⟨j, hj⟩ := Function.ne_iff.mp hv
    exact ⟨j, Nat.zero_le _, j.2, by simpa using hj⟩
  · intro i _ hi
    have := congrFun h ⟨i, hi⟩
    simp only [mulVec, dotProduct, map_apply, Arr.blk_apply, Pi.smul_apply, smul_eq_mul] at this
    show _ = _
    rw [← Finset.range_eq_Ico, Finset.sum_range, Finset.sum_range]
    simpa using this

/-- a vector of the trailing block -/
theorem trail_eigen {φ : V →+* ℂ} {S T : Arr V} {k n : Nat} (hkn : k ≤ n) {v : Fin (n - k) → ℂ} (hv : v ≠ 0) :
    (∀ z : ℂ, ((S.blk (fun i : Fin (n - k) => k + i.val) fun i : Fin (n - k) => k + i.val).map φ) *ᵥ v =
      z • (((T.blk (fun i : Fin (n - k) => k + i.val) fun i : Fin (n - k) => k + i.val).map φ) *ᵥ v) →
      BlockEigen φ S T k n (some z)) ∧
    (((T.blk (fun i : Fin (n - k) => k + i.val) fun i : Fin (n - k) => k + i.val).map φ) *ᵥ v = 0 →
      BlockEigen φ S T k n none) := by
  have hne : ∃ j, k ≤ j ∧ j < n ∧ (fun j => if h : k ≤ j ∧ j < n then v ⟨j - k, by omega⟩ else 0) j ≠ 0 := by
    obtain ⟨j, hj⟩ := Function.ne_iff.mp hv
    have := j.2
    refine ⟨k + j, by omega, by omega, ?_⟩
    simp only [dif_pos (show k ≤ k + j.val ∧ k + j.val < n by omega)]
    have : (⟨k + j.val - k, by omega⟩ : Fin (n - k)) = j := by ext; simp
    rw [this]; exact hj
  have hsum : ∀ (A : Arr V) (i : Nat), ∑ j ∈ Finset.Ico k n, φ (A.e i j) *
      (fun j => if h : k ≤ j ∧ j < n then v ⟨j - k, by omega⟩ else 0) j =
      ∑ j : Fin (n - k), φ (A.e i (k + j)) * v j := by
    intro A i
    rw [Finset.sum_Ico_eq_sum_range, Finset.sum_range]
    refine Finset.sum_congr rfl fun j _ => ?_
    have := j.2
    simp only [dif_pos (show k ≤ k + j.val ∧ k + j.val < n by omega)]
    have : (⟨k + j.val - k, by omega⟩ : Fin (n - k)) = j := by ext; simp
    rw [this]
  constructor
  · intro z h
    refine ⟨_, hne, ?_⟩
    intro i hi1 hi2
    have := congrFun h ⟨i - k, by omega⟩
    simp only [mulVec, dotProduct, map_apply, Arr.blk_apply, Pi.smul_apply, smul_eq_mul,
      Nat.add_sub_cancel' hi1] at this
    show _ = _
    rw [hsum, hsum]
    exact this
  · intro h
    refine ⟨_, hne, ?_⟩
    intro i hi1 hi2
    have := congrFun h ⟨i - k, by omega⟩
    simp only [mulVec, dotProduct, map_apply, Arr.blk_apply, Pi.zero_apply,
      Nat.add_sub_cancel' hi1] at this
    show _ = _
    rw [hsum]
    exact this

/-! ### stability -/

section
variable {la : LinAlg V} (ex : la.Exact) {D E : Arr V} {parts : QZParts V} {q : QZ V}
    {gym gyp : Arr V} (hp : partitionedQZ la D E = .ok parts) (hq : la.ordqz E D = .ok q)
    (hs : solveNonstatic la parts = .ok (gym, gyp)) {φ : V →+* ℂ} {ev : Nat → Option ℂ}
    (hev : q.Eigen φ ev) (hu : NoUnitRoot q.eigs.length ev)
    (hc : (parts.eigs.countP fun x => x.big || x.inf) = gyp.r)
include ex hp hq hs hev hu hc

theorem cut_split : (∀ i < gym.r, Inside (ev i)) ∧ (∀ i, gym.r ≤ i → i < E.r → Outside (ev i)) ∧
    (∀ (i : Nat) e, q.eigs[i]? = some e → ((e.big || e.inf) = true ↔ gym.r ≤ i)) ∧
    (0 < gym.r → q.S.e gym.r (gym.r - 1) = 0) := by
  obtain ⟨hd, b1, b2, b3, b4, b5, -⟩ := partition_blocks ex hp hq hs
  have hn := hd.count
  obtain ⟨s1, s2, s3⟩ := eigen_split hev hu (k := gym.r) (by omega) (by rw [← b1, hc, b4, ← hn, b1])
  refine ⟨s1, fun i h1 h2 => s2 i h1 (by omega), s3, ?_⟩
  intro h0
  by_contra hS
  obtain ⟨k, hk⟩ : ∃ k, gym.r = k + 1 := ⟨gym.r - 1, by omega⟩
  rw [hk, Nat.add_sub_cancel] at hS
  have := hd.pairs k (by omega) hS
  have hl : k < q.eigs.length := by omega
  have he := List.getElem?_eq_getElem hl
  have h1 := s3 k _ he
  rw [this] at he
  have h2 := s3 (k + 1) _ he
  rw [h1] at h2
  omega

theorem cut_separated (h0 : 0 < gym.r) : parts.Separated := by
  obtain ⟨hd, b1, b2, b3, b4, b5, -, -, -, ⟨expl, hx, hcut⟩, -⟩ := partition_blocks ex hp hq hs
  obtain ⟨-, -, s3, -⟩ := cut_split ex hp hq hs hev hu hc
  have hn := hd.count
  unfold QZParts.Separated
  rw [b1]
  obtain ⟨hne, hf⟩ := findFirst_spec hx
  rcases hf with ⟨rfl, -⟩ | ⟨k, -, -, ⟨e, he, h⟩, -⟩
  · right
    rw [cutAt, if_pos (by decide)] at hcut
    intro heq
    have hl : q.eigs.length - 2 < q.eigs.length := by omega
    have he := List.getElem?_eq_getElem hl
    have h1 := s3 _ _ he
    rw [heq] at he
    have h2 := s3 _ _ he
    rw [h1] at h2
    omega
  · exact .inl ⟨e, List.mem_of_getElem? he, h⟩

/-- all eigenvalues of the responses of the states are inside the unit circle -/
theorem gym_eigen (z : ℂ) (v : Fin gym.r → ℂ) (hv : v ≠ 0)
    (h : ((gym.blk (fun i : Fin gym.r => i.val) fun i : Fin gym.r => i.val).map φ) *ᵥ v = z • v) : ‖z‖ < 1 := by
  obtain ⟨hd, b1, b2, b3, b4, b5, -, -, -, -, hb⟩ := partition_blocks ex hp hq hs
  obtain ⟨s1, -, -, s4⟩ := cut_split ex hp hq hs hev hu hc
  have hn := hd.count
  obtain ⟨-, -, T11i, W, t1, t2, w1, w2, hg⟩ := hb (fun i : Fin gym.r => i.val)
    (fun i : Fin (E.r - gym.r) => i.val) (IsEnum.fin _) (IsEnum.fin _)
  have mapW1 := congrArg (fun M => M.map φ) w1
  have mapW2 := congrArg (fun M => M.map φ) w2
  have mapT := congrArg (fun M => M.map φ) t2
  have mapG := congrArg (fun M => M.map φ) hg
  simp only [Matrix.map_mul, Matrix.map_one φ (map_zero φ) (map_one φ)] at mapW1 mapW2 mapT mapG
  set Z' := (q.Zt.tr.blk (fun i : Fin gym.r => i.val) fun i : Fin gym.r => i.val)ᵀ.map φ
  set S' := (q.S.blk (fun i : Fin gym.r => i.val) fun i : Fin gym.r => i.val).map φ
  set T' := (q.T.blk (fun i : Fin gym.r => i.val) fun i : Fin gym.r => i.val).map φ
  have hu0 : W.map φ *ᵥ v ≠ 0 := by
    intro h0
    apply hv
    rw [← one_mulVec v, ← mapW1, ← mulVec_mulVec, h0, mulVec_zero]
  have key : S' *ᵥ (W.map φ *ᵥ v) = z • (T' *ᵥ (W.map φ *ᵥ v)) := by
    rw [mapG] at h
    have h' := congrArg (fun u => T' *ᵥ (W.map φ *ᵥ u)) h
    simp only [mulVec_smul, mulVec_mulVec] at h'
    have e : T' * (W.map φ * (Z' * T11i.map φ * (S' * W.map φ))) = S' * W.map φ := by
      calc T' * (W.map φ * (Z' * T11i.map φ * (S' * W.map φ))) =
          T' * ((W.map φ * Z') * T11i.map φ * (S' * W.map φ)) := by simp only [Matrix.mul_assoc]
        _ = (T' * T11i.map φ) * (S' * W.map φ) := by rw [mapW2, Matrix.one_mul, Matrix.mul_assoc]
        _ = S' * W.map φ := by rw [mapT, Matrix.one_mul]
    rw [e] at h'
    rw [mulVec_mulVec, mulVec_mulVec]
    exact h'
  obtain ⟨i, -, hi, he⟩ := hev.blocks 0 gym.r (Nat.zero_le _) (by omega) (fun h => absurd h (lt_irrefl _))
    (fun h _ => s4 h) _ (lead_eigen hu0 key)
  obtain ⟨z', hz, hlt⟩ := s1 i hi
  rw [he] at hz
  cases hz
  exact hlt

/-- the transition matrix of the purely explosive part, backwards in time -/
theorem trail_matrix : ∃ N : Matrix (Fin (E.r - gym.r)) (Fin (E.r - gym.r)) ℂ,
    (∀ (z : ℂ) v, v ≠ 0 → N *ᵥ v = z • v → ‖z‖ < 1) ∧
    ∀ w w' : Fin (E.r - gym.r) → ℂ,
      ((q.T.blk (fun i : Fin (E.r - gym.r) => gym.r + i.val) fun i : Fin (E.r - gym.r) =>
        gym.r + i.val).map φ) *ᵥ w' =
      ((q.S.blk (fun i : Fin (E.r - gym.r) => gym.r + i.val) fun i : Fin (E.r - gym.r) =>
        gym.r + i.val).map φ) *ᵥ w → w = N *ᵥ w' := by
  obtain ⟨hd, b1, b2, b3, b4, b5, -, -, -, -, hb⟩ := partition_blocks ex hp hq hs
  obtain ⟨-, s2, -, s4⟩ := cut_split ex hp hq hs hev hu hc
  have hn := hd.count
  set S' := (q.S.blk (fun i : Fin (E.r - gym.r) => gym.r + i.val) fun i : Fin (E.r - gym.r) =>
        gym.r + i.val).map φ
  set T' := (q.T.blk (fun i : Fin (E.r - gym.r) => gym.r + i.val) fun i : Fin (E.r - gym.r) =>
        gym.r + i.val).map φ
  have out : ∀ w, BlockEigen φ q.S q.T gym.r E.r w → Outside w := by
    intro w hw
    obtain ⟨i, h1, h2, rfl⟩ := hev.blocks gym.r E.r (by omega) (by omega) (fun h _ => s4 h)
      (fun _ h => absurd h (by omega)) _ hw
    exact s2 i h1 h2
  have hdet : IsUnit S'.det := by
    rw [isUnit_iff_ne_zero]
    intro h0
    obtain ⟨v, hv, hv0⟩ := Matrix.exists_mulVec_eq_zero_iff.mpr h0
    have := out _ ((trail_eigen (φ := φ) (S := q.S) (T := q.T) (le_of_lt b2) hv).1 0 (by
      rw [zero_smul]; exact hv0)) 0 rfl
    rw [norm_zero] at this
    linarith
  refine ⟨S'⁻¹ * T', ?_, ?_⟩
  · intro z v hv hz
    have hT : T' *ᵥ v = z • (S' *ᵥ v) := by
      rw [← mulVec_smul, ← hz, mulVec_mulVec, ← Matrix.mul_assoc, Matrix.mul_nonsing_inv _ hdet, Matrix.one_mul]
    by_cases hz0 : z = 0
    · rw [hz0, norm_zero]; exact one_pos
    · have := out _ ((trail_eigen (φ := φ) (S := q.S) (T := q.T) (le_of_lt b2) hv).1 z⁻¹ (by
        show S' *ᵥ v = z⁻¹ • (T' *ᵥ v)
        rw [hT, smul_smul, inv_mul_cancel₀ hz0, one_smul])) z⁻¹ rfl
      rw [norm_inv] at this
      have hpos : 0 < ‖z‖ := norm_pos_iff.mpr hz0
      exact (one_lt_inv₀ hpos).mp this
  · intro w w' h
    rw [← mulVec_mulVec, h, mulVec_mulVec, Matrix.nonsing_inv_mul _ hdet, one_mulVec]

/-- the states follow a stable recursion -/
theorem states_bound : ∃ C r : ℝ, 0 ≤ C ∧ 0 < r ∧ r < 1 ∧ ∀ (x b : Nat → Nat → V) (τ : Nat),
    (∀ m < τ, ∀ i < gym.r, x (m + 1) i = (sumTo gym.r fun j => gym.e i j * x m j) + b m i) →
    ∀ B : ℝ, 0 ≤ B → (∀ m < τ, ∑ j ∈ Finset.range gym.r, ‖φ (b m j)‖ ≤ B) →
    ∀ i < gym.r, ‖φ (x τ i)‖ ≤
      C * r ^ τ * (∑ j ∈ Finset.range gym.r, ‖φ (x 0 j)‖) + C * B / (1 - r) := by
  obtain ⟨C, r, hC, hr, hr1, hM⟩ := pow_geom _ (gym_eigen ex hp hq hs hev hu hc)
  refine ⟨C, r, hC, hr, hr1, ?_⟩
  intro x b τ hx B hB0 hB i hi
  have := recursion_bound hC hr.le hr1 hM (x := fun τ (i : Fin gym.r) => φ (x τ i))
    (b := fun τ (i : Fin gym.r) => φ (b τ i)) τ (by
      intro m hm
      funext i
      rw [hx m hm i i.2, map_add, sumTo_enum (IsEnum.fin gym.r), map_sum]
      simp only [mulVec, dotProduct, map_mul, Pi.add_apply, map_apply, Arr.blk_apply]) hB0 (fun m hm => by
      rw [← Finset.sum_range fun j => ‖φ (b m j)‖]; exact hB m hm) ⟨i, hi⟩
  rw [← Finset.sum_range fun j => ‖φ (x 0 j)‖] at this
  exact this

/-- the same, with the effects of the past one by one -/
theorem states_sum : ∃ C r : ℝ, 0 ≤ C ∧ 0 < r ∧ r < 1 ∧ ∀ (x b : Nat → Nat → V) (τ : Nat),
    (∀ m < τ, ∀ i < gym.r, x (m + 1) i = (sumTo gym.r fun j => gym.e i j * x m j) + b m i) →
    ∀ i < gym.r, ‖φ (x τ i)‖ ≤ C * r ^ τ * (∑ j ∈ Finset.range gym.r, ‖φ (x 0 j)‖) +
      ∑ m ∈ Finset.range τ, C * r ^ (τ - 1 - m) * ∑ j ∈ Finset.range gym.r, ‖φ (b m j)‖ := by
  obtain ⟨C, r, hC, hr, hr1, hM⟩ := pow_geom _ (gym_eigen ex hp hq hs hev hu hc)
  refine ⟨C, r, hC, hr, hr1, ?_⟩
  intro x b τ hx i hi
  have := recursion_sum hM (x := fun τ (i : Fin gym.r) => φ (x τ i))
    (b := fun τ (i : Fin gym.r) => φ (b τ i)) τ (by
      intro m hm
      funext i
      rw [hx m hm i i.2, map_add, sumTo_enum (IsEnum.fin gym.r), map_sum]
      simp only [mulVec, dotProduct, map_mul, Pi.add_apply, map_apply, Arr.blk_apply]) ⟨i, hi⟩
  rw [← Finset.sum_range fun j => ‖φ (x 0 j)‖] at this
  refine this.trans (le_of_eq ?_)
  congr 1
  refine Finset.sum_congr rfl fun m _ => ?_
  rw [← Finset.sum_range fun j => ‖φ (b m j)‖]

/-- in a bounded solution of the pencil the forward-looking variables are a function of the states -/
theorem forward_unique (st fw : Nat → Nat → V)
    (h : ∀ τ, ∀ i < E.r, (sumTo gym.r fun j => D.e i j * st (τ + 1) j) +
        (sumTo (E.r - gym.r) fun j => D.e i (gym.r + j) * fw (τ + 1) j) =
      (sumTo gym.r fun j => E.e i j * st τ j) + sumTo (E.r - gym.r) fun j => E.e i (gym.r + j) * fw τ j)
    (B : ℝ) (hB : ∀ τ, (∀ j < gym.r, ‖φ (st τ j)‖ ≤ B) ∧ ∀ j < E.r - gym.r, ‖φ (fw τ j)‖ ≤ B) :
    ∀ τ, ∀ j < gyp.r, fw τ j = sumTo gym.r fun b => gyp.e j b * st τ b := by
  obtain ⟨hd, b1, b2, b3, b4, b5, -, -, -, -, hb⟩ := partition_blocks ex hp hq hs
  obtain ⟨-, -, -, s4⟩ := cut_split ex hp hq hs hev hu hc
  obtain ⟨N, hN, hstep⟩ := trail_matrix ex hp hq hs hev hu hc
  obtain ⟨C, r, hC, hr, hr1, hM⟩ := pow_geom N hN
  obtain ⟨z1, ⟨Zi, hZi⟩, -⟩ := hb (fun i : Fin gym.r => i.val)
    (fun i : Fin (E.r - gym.r) => i.val) (IsEnum.fin _) (IsEnum.fin _)
  set κ := fun i : Fin gym.r => i.val with hκ
  set σ := fun i : Fin (E.r - gym.r) => i.val with hσ
  have hτ : IsEnum (sumIdx κ gym.r σ) E.r := by
    have := (IsEnum.fin gym.r).sum (IsEnum.fin (E.r - gym.r))
    rwa [Nat.add_sub_cancel' (Nat.le_of_lt b2)] at this
  have hZr : q.Zt.r = E.r := (hd.shape _ (by simp)).1
  have hQr : q.Q.r = E.r := (hd.shape _ (by simp)).1
  have oq := (hd.orthQ.mul (κ := sumIdx κ gym.r σ) (by rw [hQr]; exact hτ)).2
  have hfac : ∀ (M X : Arr V), (∀ i < E.r, ∀ j < E.r,
      (sumTo E.r fun y => (sumTo E.r fun l => q.Q.e i l * X.e l y) * q.Zt.e j y) = M.e i j) →
      M.blk (sumIdx κ gym.r σ) (sumIdx κ gym.r σ) = q.Q.blk (sumIdx κ gym.r σ) (sumIdx κ gym.r σ) *
        X.blk (sumIdx κ gym.r σ) (sumIdx κ gym.r σ) * q.Zt.tr.blk (sumIdx κ gym.r σ) (sumIdx κ gym.r σ) := by
    intro M X hM
    ext i j
    simp only [Matrix.mul_apply, Arr.blk_apply, Arr.tr]
    rw [← hM _ (hτ.lt i) _ (hτ.lt j), sumTo_enum hτ]
    refine Finset.sum_congr rfl fun y _ => ?_
    rw [sumTo_enum hτ]
  have hS0 : ∀ x y, gym.r ≤ x → x < E.r → y < gym.r → q.S.e x y = 0 := by
    intro x y hx hxE hy
    by_cases hxy : y + 1 < x
    · exact hd.triS x y hxy hxE
    · have e1 : x = gym.r := by omega
      have e2 : y = gym.r - 1 := by omega
      rw [e1, e2]; exact s4 (by omega)
  let X : Nat → Fin gym.r ⊕ Fin (E.r - gym.r) → V := fun τ => Sum.elim (fun i => st τ i) (fun i => fw τ i)
  have hX : ∀ τ, D.blk (sumIdx κ gym.r σ) (sumIdx κ gym.r σ) *ᵥ X (τ + 1) =
      E.blk (sumIdx κ gym.r σ) (sumIdx κ gym.r σ) *ᵥ X τ := by
    intro τ
    funext i
    have := h τ (sumIdx κ gym.r σ i) (hτ.lt i)
    rw [sumTo_enum (IsEnum.fin gym.r), sumTo_enum (IsEnum.fin (E.r - gym.r)), sumTo_enum (IsEnum.fin gym.r),
      sumTo_enum (IsEnum.fin (E.r - gym.r))] at this
    simp only [mulVec, dotProduct, Fintype.sum_sum_type, X, Sum.elim_inl, Sum.elim_inr, Arr.blk_apply]
    exact this
  let Z := q.Zt.tr.blk (sumIdx κ gym.r σ) (sumIdx κ gym.r σ)
  let w : Nat → Fin gym.r ⊕ Fin (E.r - gym.r) → V := fun τ => Z *ᵥ X τ
  have hw : ∀ τ, q.T.blk (sumIdx κ gym.r σ) (sumIdx κ gym.r σ) *ᵥ w (τ + 1) =
      q.S.blk (sumIdx κ gym.r σ) (sumIdx κ gym.r σ) *ᵥ w τ := by
    intro τ
    have := hX τ
    rw [hfac D q.T hd.right, hfac E q.S hd.left] at this
    have := congrArg (fun v => q.Q.tr.blk (sumIdx κ gym.r σ) (sumIdx κ gym.r σ) *ᵥ v) this
    simp only [mulVec_mulVec, ← Matrix.mul_assoc, oq, Matrix.one_mul] at this
    simp only [w, mulVec_mulVec]
    exact this
  have hlow : ∀ (A : Arr V), (∀ x y, gym.r ≤ x → x < E.r → y < gym.r → A.e x y = 0) →
      ∀ (v : Fin gym.r ⊕ Fin (E.r - gym.r) → V) (i : Fin (E.r - gym.r)),
      (A.blk (sumIdx κ gym.r σ) (sumIdx κ gym.r σ) *ᵥ v) (.inr i) =
        (A.blk (fun i : Fin (E.r - gym.r) => gym.r + i.val) (fun i : Fin (E.r - gym.r) => gym.r + i.val) *ᵥ
          fun j => v (.inr j)) i := by
    intro A hA v i
    have hi := i.2
    simp only [mulVec, dotProduct, Fintype.sum_sum_type, Arr.blk_apply, sumIdx, Sum.elim_inl, Sum.elim_inr]
    rw [Finset.sum_eq_zero fun j _ => by
      rw [hA _ _ (Nat.le_add_right ..) (show gym.r + σ i < E.r by simp only [hσ]; omega) j.2, zero_mul], zero_add]
  have hw2 : ∀ τ, (fun i : Fin (E.r - gym.r) => φ (w τ (.inr i))) =
      N *ᵥ fun i : Fin (E.r - gym.r) => φ (w (τ + 1) (.inr i)) := by
    intro τ
    refine hstep _ _ ?_
    rw [← map_mul_vec, ← map_mul_vec]
    funext i
    rw [← hlow q.S hS0, ← hlow q.T (fun x y hx hxE hy => hd.triT x y (by omega) hxE), hw]
  have hbd : ∀ τ a, ‖φ (X τ a)‖ ≤ B := by
    rintro τ (a | a)
    · exact (hB τ).1 a a.2
    · exact (hB τ).2 a a.2
  have hzero := fun τ => backward_zero hC hr.le hr1 hM hw2
    (B := ∑ i : Fin (E.r - gym.r), ∑ a, ‖φ (Z (.inr i) a)‖ * B) (by
      intro τ
      refine Finset.sum_le_sum fun i _ => ?_
      simp only [w, mulVec, dotProduct, map_sum, map_mul]
      refine (norm_sum_le _ _).trans (Finset.sum_le_sum fun a _ => ?_)
      rw [norm_mul]
      exact mul_le_mul_of_nonneg_left (hbd τ a) (norm_nonneg _)) τ
  intro τ j hj
  have hz : (q.Zt.tr.blk (fun i : Fin (E.r - gym.r) => gym.r + i.val) κ *ᵥ fun i : Fin gym.r => st τ i) +
      (q.Zt.tr.blk (fun i : Fin (E.r - gym.r) => gym.r + i.val) (fun i : Fin (E.r - gym.r) => gym.r + i.val) *ᵥ
        fun i : Fin (E.r - gym.r) => fw τ i) = 0 := by
    funext i
    have := congrFun (hzero τ) i
    simp only [Pi.zero_apply, map_eq_zero] at this
    simp only [w, X, Z, mulVec, dotProduct, Fintype.sum_sum_type, Sum.elim_inl, Sum.elim_inr, Arr.blk_apply,
      sumIdx] at this
    simp only [mulVec, dotProduct, Pi.add_apply, Arr.blk_apply, Pi.zero_apply]
    exact this
  have hf : (fun i : Fin (E.r - gym.r) => fw τ i) = gyp.blk σ κ *ᵥ fun i : Fin gym.r => st τ i := by
    have e1 := congrArg (fun M => M *ᵥ fun i : Fin gym.r => st τ i) z1
    simp only [← mulVec_mulVec, neg_mulVec] at e1
    have e2 := eq_neg_of_add_eq_zero_right hz
    have e3 := e2.trans e1.symm
    have e4 := congrArg (fun v => Zi *ᵥ v) e3
    simp only [mulVec_mulVec] at e4
    rw [hZi, ← Matrix.mul_assoc, hZi, Matrix.one_mul, one_mulVec] at e4
    exact e4
  have := congrFun hf ⟨j, by omega⟩
  rw [sumTo_enum (IsEnum.fin gym.r)]
  exact this

end

end Pynare

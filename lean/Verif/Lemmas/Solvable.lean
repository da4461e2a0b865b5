import Verif.Lemmas.Build
/-!
# Models with exactly one bounded path can be solved
-/

namespace Pynare

open Matrix

set_option linter.unusedSectionVars false

variable {V : Type} [Field V]

/-- a square array that maps nothing but zero to zero has an inverse -/
theorem arr_inv_of_inj {a : Arr V} {n : Nat} (hr : a.r = n) (hc : a.c = n)
    (h : ∀ v : Nat → V, (∀ i < n, (sumTo n fun j => a.e i j * v j) = 0) → ∀ j < n, v j = 0) : ∃ b, a.IsInv b := by
  subst hr
  set M : Matrix (Fin a.r) (Fin a.r) V := Matrix.of fun i j => a.e i j with hM
  have hu : IsUnit M := by
    rw [← Matrix.mulVec_injective_iff_isUnit, ← Matrix.coe_mulVecLin, injective_iff_map_eq_zero]
    intro v hv
    have := h (fun j => if hj : j < a.r then v ⟨j, hj⟩ else 0) (by
      intro i hi
      rw [sumTo_enum (IsEnum.fin a.r)]
      refine Eq.trans ?_ (congrFun hv ⟨i, hi⟩)
      simp only [Matrix.mulVecLin_apply, mulVec, dotProduct, hM, Matrix.of_apply]
      exact Finset.sum_congr rfl fun j _ => by simp)
    funext j
    have := this j j.2
    simpa using this
  have hd : IsUnit M.det := (Matrix.isUnit_iff_isUnit_det _).mp hu
  refine ⟨⟨a.r, a.r, fun i j => if h : i < a.r ∧ j < a.r then M⁻¹ ⟨i, h.1⟩ ⟨j, h.2⟩ else 0⟩,
    ⟨hc, rfl, rfl, ?_⟩, ⟨rfl, rfl, hc.symm, ?_⟩⟩
  · intro i hi j hj
    have := congrFun (congrFun (Matrix.mul_nonsing_inv M hd) ⟨i, hi⟩) ⟨j, hj⟩
    rw [hc, sumTo_enum (IsEnum.fin a.r)]
    refine Eq.trans ?_ (this.trans ?_)
    · simp only [Matrix.mul_apply]
      exact Finset.sum_congr rfl fun k _ => by
        rw [dif_pos ⟨k.2, hj⟩]
        rfl
    · simp only [Matrix.one_apply, Arr.eye, Fin.mk.injEq, Nat.add_zero, eq_comm (a := j)]
  · intro i hi j hj
    have hj' : j < a.r := by rw [← hc]; exact hj
    have hi' : i < a.r := hi
    have := congrFun (congrFun (Matrix.nonsing_inv_mul M hd) ⟨i, hi'⟩) ⟨j, hj'⟩
    show (sumTo a.r _) = _
    rw [sumTo_enum (IsEnum.fin a.r)]
    refine Eq.trans ?_ (this.trans ?_)
    · simp only [Matrix.mul_apply]
      exact Finset.sum_congr rfl fun k _ => by
        rw [dif_pos ⟨hi', k.2⟩]
        rfl
    · simp only [Matrix.one_apply, Arr.eye, Fin.mk.injEq, Nat.add_zero, eq_comm (a := j)]

/-- values of the variables given in decision-rule order -/
theorem dr_fill {t : Typer} (g : Groups t) (w : Nat → V) : ∃ y : Nat → V, ∀ i < t.n, y (t.dr i) = w i := by
  have den := drEnum g (IsEnum.fin t.n)
  refine ⟨fun c => if h : ∃ i : Fin t.n, t.dr i = c then w (Classical.choose h).val else 0, ?_⟩
  intro i hi
  have h : ∃ k : Fin t.n, t.dr k = t.dr i := ⟨⟨i, hi⟩, rfl⟩
  simp only [dif_pos h]
  have := den.inj (a₁ := Classical.choose h) (a₂ := ⟨i, hi⟩) (Classical.choose_spec h)
  rw [this]

theorem rowPart_zero (t : Typer) (J : Arr V) (i r : Nat) : rowPart t J i r (fun _ => 0) = 0 := by
  unfold rowPart
  rw [sumTo_eq]
  refine Finset.sum_eq_zero fun c _ => ?_
  split
  · exact mul_zero _
  · rfl

theorem linearised_none (t : Llx) (nExog : Nat) (J : Arr V) (i : Nat) (ym y yp : Nat → V) :
    linearised t nExog J i ym y yp (fun _ => 0) =
      rowPart t.toTyper J i 2 yp + rowPart t.toTyper J i 1 y + rowPart t.toTyper J i 0 ym := by
  unfold linearised
  rw [sumTo_eq, Finset.sum_eq_zero fun _ _ => mul_zero _, add_zero]

theorem bounded_const_zero (φ : V →+* ℂ) (t : Llx) (nExog : Nat) (J : Arr V) :
    BoundedPath φ t nExog J fun _ _ => 0 := by
  refine ⟨fun τ i _ => ?_, 0, fun _ _ _ => by simp⟩
  rw [linearised_none, rowPart_zero, rowPart_zero, rowPart_zero, add_zero, add_zero]

/-- a bounded path that begins with zeros is zero -/
theorem OneBoundedPath.zero {φ : V →+* ℂ} {t : Llx} {nExog : Nat} {J : Arr V} (h : OneBoundedPath φ t nExog J)
    {y : Nat → Nat → V} (h0 : y 0 = fun _ => 0) (hy : BoundedPath φ t nExog J y) : ∀ τ, ∀ c < J.r, y τ c = 0 := by
  obtain ⟨w, -, -, hu⟩ := h fun _ => 0
  intro τ c hc
  rw [hu y h0 hy τ c hc, ← hu _ rfl (bounded_const_zero φ t nExog J) τ c hc]

/-- in a model with exactly one bounded path the static variables are determined -/
theorem static_inj {φ : V →+* ℂ} {t : Llx} {nExog : Nat} {J : Arr V} (g : Groups t.toTyper) (hJ : J.r = t.n)
    (h : OneBoundedPath φ t nExog J) (v : Nat → V)
    (hv : ∀ i < t.n, (sumTo t.static.length fun j => J.e i (t.col 1 j) * v j) = 0) :
    ∀ j < t.static.length, v j = 0 := by
  have gt := g.total
  obtain ⟨y1, hy1⟩ := dr_fill g fun i => if i < t.static.length then v i else 0
  let y : Nat → Nat → V := fun τ => if τ = 1 then y1 else fun _ => 0
  have hz : ∀ i, t.static.length ≤ i → i < t.n → y1 (t.dr i) = 0 := by
    intro i h1 h2
    rw [hy1 i h2, if_neg (by omega)]
  have hpath : BoundedPath φ t nExog J y := by
    refine ⟨?_, ?_⟩
    · intro τ i hi
      rw [hJ] at hi
      rw [linearised_none]
      have e2 : rowPart t.toTyper J i 2 (y (τ + 2)) = 0 := by
        simp only [y, if_neg (show ¬ τ + 2 = 1 by omega)]
        exact rowPart_zero ..
      have e1 : rowPart t.toTyper J i 1 (y (τ + 1)) = 0 := by
        by_cases hτ : τ = 0
        · simp only [y, hτ, Nat.zero_add, if_true]
          rw [row_cur g, show t.n = t.static.length + (t.n - t.static.length) by omega,
            sumTo_plus (a := t.static.length)]
          refine Eq.trans (congrArg₂ (· + ·) ?_ ?_) (add_zero 0)
          · refine Eq.trans ?_ (hv i hi)
            rw [sumTo_eq, sumTo_eq]
            refine Finset.sum_congr rfl fun j hj => ?_
            have hj := Finset.mem_range.mp hj
            rw [hy1 j (by omega), if_pos hj]
          · rw [sumTo_eq]
            refine Finset.sum_eq_zero fun j hj => ?_
            have hj := Finset.mem_range.mp hj
            rw [hz _ (by omega) (by omega), mul_zero]
        · simp only [y, if_neg (show ¬ τ + 1 = 1 by omega)]
          exact rowPart_zero ..
      have e0 : rowPart t.toTyper J i 0 (y τ) = 0 := by
        by_cases hτ : τ = 1
        · simp only [y, hτ, if_true]
          rw [row_lag g, sumTo_eq]
          refine Finset.sum_eq_zero fun j hj => ?_
          have hj := Finset.mem_range.mp hj
          rw [hz _ (by omega) (by omega), mul_zero]
        · simp only [y, if_neg hτ]
          exact rowPart_zero ..
      rw [e2, e1, e0, add_zero, add_zero]
    · refine ⟨∑ c ∈ Finset.range J.r, ‖φ (y1 c)‖, ?_⟩
      intro τ c hc
      by_cases hτ : τ = 1
      · simp only [y, hτ, if_true]
        exact Finset.single_le_sum (f := fun c => ‖φ (y1 c)‖) (fun _ _ => norm_nonneg _) (Finset.mem_range.mpr hc)
      · simp only [y, if_neg hτ, map_zero, norm_zero]
        exact Finset.sum_nonneg fun _ _ => norm_nonneg _
  intro j hj
  have hd : t.dr j < J.r := by
    rw [hJ]
    exact (drEnum g (IsEnum.fin t.n)).lt ⟨j, by omega⟩
  have := h.zero (y := y) rfl hpath 1 (t.dr j) hd
  have e : y 1 (t.dr j) = y1 (t.dr j) := rfl
  rw [e, hy1 j (by omega), if_pos hj] at this
  exact this

/-- then the static columns are found to be independent -/
theorem rotated_some {la : LinAlg V} (ex : la.Exact) (hrk : la.RankExact) {t : Typer} (g : Groups t)
    (hs : t.nStatic = t.static.length)
    (hd : t.drOrder = t.static ++ t.pureBackward ++ t.mixed ++ t.pureForward) {J : Arr V}
    (hJ : J.r = t.n) (hlt : ∀ r c v, t.cell r c = some v → v < J.c)
    (hqr : t.timed t.static 1 ≠ [] → ∀ js, J.cols (t.timed t.static 1) = .ok js → ∃ QR, la.qr js = .ok QR)
    (hinj : ∀ v : Nat → V, (∀ i < t.n, (sumTo t.static.length fun j => J.e i (t.col 1 j) * v j) = 0) →
      ∀ j < t.static.length, v j = 0) : ∃ A, rotated la t J = .ok A ∧ A.r = t.n ∧ A.c = J.c := by
  have gt := g.total
  by_cases hnil : t.timed t.static 1 = []
  · refine ⟨J, ?_, hJ, rfl⟩
    simp only [rotated, hnil, if_true]
  · obtain ⟨js, hjs⟩ := timed_some hlt t.drOrder (List.range' 0 t.static.length) 1
    obtain ⟨c1, c2, c3⟩ := cols_group hjs (fun j hj => g.cur _ (by omega))
    rw [← static_list t hd] at hjs
    obtain ⟨⟨Q, R⟩, hQR⟩ := hqr hnil js hjs
    obtain ⟨q1, q2, q3, q4⟩ := ex.qr _ _ _ hQR
    have hQr : Q.r = t.n := by rw [q1, c1, hJ]
    have hQc : Q.c = t.n := by have := q2.2.2.2.1; simp only [Arr.eye] at this; omega
    have hRr : R.r = t.n := by have := q3.1; omega
    have hRc : R.c = t.static.length := by have := q3.2.2.1; omega
    have hrank : la.rank R = t.nStatic := by
      rw [hrk, hs, ← hRc]
      rw [rank_inj]
      intro v hv
      have := hinj (fun j => if hj : j < R.c then v ⟨j, hj⟩ else 0) (by
        intro i hi
        have hrow : ∀ j < t.static.length, J.e i (t.col 1 j) = sumTo t.n fun k => Q.e i k * R.e k j := by
          intro j hj
          have e1 := c3 i j hj
          rw [Nat.zero_add] at e1
          rw [← e1, ← q3.2.2.2 i (by omega) j (by omega), hQc]
        have e1 : (sumTo t.static.length fun j => J.e i (t.col 1 j) * if hj : j < R.c then v ⟨j, hj⟩ else 0) =
            sumTo t.n fun k => Q.e i k * sumTo t.static.length fun j => R.e k j * if hj : j < R.c then v ⟨j, hj⟩ else 0 := by
          simp only [sumTo_eq]
          simp only [Finset.mul_sum]
          rw [Finset.sum_comm]
          refine Finset.sum_congr rfl fun j hj => ?_
          have hj := Finset.mem_range.mp hj
          rw [hrow j hj, sumTo_eq, Finset.sum_mul]
          exact Finset.sum_congr rfl fun k _ => mul_assoc _ _ _
        rw [e1, sumTo_eq]
        refine Finset.sum_eq_zero fun k hk => ?_
        have hk := Finset.mem_range.mp hk
        have e2 := congrFun hv ⟨k, by omega⟩
        have e3 : (sumTo t.static.length fun j => R.e k j * if hj : j < R.c then v ⟨j, hj⟩ else 0) = 0 := by
          refine Eq.trans ?_ e2
          rw [← hRc, sumTo_enum (IsEnum.fin R.c)]
          simp only [mulVec, dotProduct, Matrix.of_apply]
          exact Finset.sum_congr rfl fun j _ => by rw [dif_pos j.2]
        rw [e3, mul_zero])
      funext j
      have := this j (by have := j.2; omega)
      rw [dif_pos j.2] at this
      exact this
    obtain ⟨A, hA⟩ := Arr.dot_some (a := Q.tr) (b := J) (by show Q.r = _; omega)
    obtain ⟨a1, a2, a3, -⟩ := Arr.dot_ok hA
    refine ⟨A, ?_, by rw [a2]; exact hQc, a3⟩
    simp only [rotated, if_neg hnil, hjs, hQR, exc_bind, hrank, ne_eq, not_true_eq_false, if_false, hA]

/-! ### the mix of variables -/

theorem sel_countP {t : Typer} {pss : List (List Int)} (hn : t.n = pss.length) {p : Nat → Bool}
    {P : List Int → Bool} (h : ∀ (i : Nat) ps, pss[i]? = some ps → p i = P ps) :
    (t.sel p).length = pss.countP P := by
  unfold Typer.sel
  rw [← List.countP_eq_length_filter, hn]
  have e : pss = (List.range pss.length).map fun i => pss[i]?.getD [] := by
    refine List.ext_getElem (by simp) fun i h1 h2 => ?_
    simp [h1]
  conv_rhs => rw [e, List.countP_map]
  refine List.countP_congr fun i hi => ?_
  have hi := List.mem_range.mp hi
  have := h i pss[i] (List.getElem?_eq_getElem hi)
  simp [this, hi]

theorem supported_iff {pss : List (List Int)} {t : Llx}
    (hps : ∀ ps ∈ pss, 0 ∈ ps ∧ ∀ p ∈ ps, p = -1 ∨ p = 0 ∨ p = 1) (ht : buildLlx pss = .ok t) :
    SupportedMix pss ↔ 0 < t.nForward ∧ (0 < t.pureBackward.length ∨ t.mixed.length = 1) := by
  obtain ⟨t', ht', hn, hcell, -⟩ := C28_numbering pss (fun ps h h0 => by
    have := (hps ps h).1; rw [h0] at this; cases this) (fun ps h => (hps ps h).2)
  rw [ht] at ht'
  have := Except.ok.inj ht'
  subst this
  have h0 : ∀ (i : Nat) ps, pss[i]? = some ps → t.has 0 i = decide (-1 ∈ ps) := by
    intro i ps hi
    have := hcell i ps (-1) hi (by omega)
    rw [Bool.eq_iff_iff, decide_eq_true_eq, ← this]
    exact Option.isSome_iff_exists
  have h2 : ∀ (i : Nat) ps, pss[i]? = some ps → t.has 2 i = decide (1 ∈ ps) := by
    intro i ps hi
    have := hcell i ps 1 hi (by omega)
    rw [Bool.eq_iff_iff, decide_eq_true_eq, ← this]
    exact Option.isSome_iff_exists
  obtain ⟨hnf, -⟩ := C31_sizes t.toTyper
  unfold SupportedMix
  rw [hnf]
  refine and_congr ?_ (or_congr ?_ ?_)
  · unfold Typer.forward
    rw [sel_countP hn (P := fun ps => decide (1 ∈ ps)) h2, List.countP_pos_iff]
    simp
  · unfold Typer.pureBackward
    rw [sel_countP hn (P := fun ps => decide (-1 ∈ ps) && !decide (1 ∈ ps)) (fun i ps hi => by
      rw [h0 i ps hi, h2 i ps hi]), List.countP_pos_iff]
    simp
  · unfold Typer.mixed
    rw [sel_countP hn (P := fun ps => decide (-1 ∈ ps ∧ 1 ∈ ps)) (fun i ps hi => by
      rw [h0 i ps hi, h2 i ps hi]; simp)]

/-! ### the solver -/

theorem create_parts {la : LinAlg V} {t : Typer} {J : Arr V} {s : Space V} {q : QZ V}
    (h : Space.create la t J = .ok s) (hq : la.ordqz s.rhs s.lhs = .ok q) :
    ∃ expl, findFirst (q.eigs.map fun x => x.gt1 || x.inf) = .ok expl ∧ rotated la t J = .ok s.jac ∧
      s.parts.Z11 = q.Zt.tr.slice 0 (cutAt q.Zt.r expl) 0 (cutAt q.Zt.r expl) ∧
      s.parts.Z21 = q.Zt.tr.slice (cutAt q.Zt.r expl) q.Zt.r 0 (cutAt q.Zt.r expl) ∧
      s.parts.Z22 = q.Zt.tr.slice (cutAt q.Zt.r expl) q.Zt.r (cutAt q.Zt.r expl) q.Zt.r ∧
      s.parts.T11 = q.T.slice 0 (cutAt q.Zt.r expl) 0 (cutAt q.Zt.r expl) ∧
      s.parts.S11 = q.S.slice 0 (cutAt q.Zt.r expl) 0 (cutAt q.Zt.r expl) := by
  unfold Space.create at h
  obtain ⟨⟨D, E, A⟩, hst, h⟩ := Except.bind_eq_ok h
  obtain ⟨p, hp, h⟩ := Except.bind_eq_ok h
  have := Except.ok.inj h
  subst this
  unfold partitionedQZ at hp
  obtain ⟨q', hq', hp⟩ := Except.bind_eq_ok hp
  unfold LinAlg.ordqzChecked at hq'
  split at hq'
  case isFalse => cases hq'
  simp only at hq
  rw [hq] at hq'
  have := Except.ok.inj hq'
  subst this
  obtain ⟨expl, hexpl, hp⟩ := Except.bind_eq_ok hp
  have hp' := Except.ok.inj hp
  subst hp'
  refine ⟨expl, hexpl, ?_, rfl, rfl, rfl, rfl, rfl⟩
  unfold structSpace at hst
  obtain ⟨A', hr, hst⟩ := Except.bind_eq_ok hst
  obtain ⟨_, _, hst⟩ := Except.bind_eq_ok hst
  obtain ⟨_, _, hst⟩ := Except.bind_eq_ok hst
  obtain ⟨_, _, hst⟩ := Except.bind_eq_ok hst
  obtain ⟨_, _, hst⟩ := Except.bind_eq_ok hst
  obtain ⟨⟨_, _⟩, _, hst⟩ := Except.bind_eq_ok hst
  have := Except.ok.inj hst
  simp only [Prod.mk.injEq] at this
  rw [← this.2.2]; exact hr

theorem rotated_cols {la : LinAlg V} {t : Typer} {J A : Arr V} (h : rotated la t J = .ok A) : A.c = J.c := by
  unfold rotated at h
  simp only at h
  split at h
  · rw [Except.ok.inj h]
  · obtain ⟨js, hjs, h⟩ := Except.bind_eq_ok h
    obtain ⟨⟨Q, R⟩, hqr, h⟩ := Except.bind_eq_ok h
    split at h
    · cases h
    · exact (Arr.dot_ok h).2.2.1

/-- the responses of the variables that are not static -/
theorem nonstatic_some {φ : V →+* ℂ} {la : LinAlg V} (ex : la.Exact) (iv : la.Inverts) {D E : Arr V} {q : QZ V}
    (hd : q.Decomposes E D) {ev : Nat → Option ℂ} (hev : q.Eigen φ ev) (hu : NoUnitRoot q.eigs.length ev) {k : Nat}
    (hk : k ≤ E.r) (hc : (q.eigs.countP fun x => x.big || x.inf) = E.r - k)
    (hreg : ∀ v : Nat → V, (∀ i, k ≤ i → i < E.r → ∑ j ∈ Finset.Ico k E.r, q.Zt.e j i * v j = 0) →
      ∀ j, k ≤ j → j < E.r → v j = 0) {p : QZParts V}
    (p11 : p.Z11 = q.Zt.tr.slice 0 k 0 k) (p21 : p.Z21 = q.Zt.tr.slice k E.r 0 k)
    (p22 : p.Z22 = q.Zt.tr.slice k E.r k E.r) (pT : p.T11 = q.T.slice 0 k 0 k) (pS : p.S11 = q.S.slice 0 k 0 k) :
    ∃ gym gyp, solveNonstatic la p = .ok (gym, gyp) ∧ gym.r = k ∧ gym.c = k ∧ gyp.r = E.r - k ∧ gyp.c = k ∧
      ∀ i, k ≤ i → i < E.r → ∀ j < k,
        (∑ m ∈ Finset.Ico k E.r, q.Zt.e m i * gyp.e (m - k) j) + q.Zt.e j i = 0 := by
  -- the block of the explosive part
  obtain ⟨i22, h22⟩ := arr_inv_of_inj (a := p.Z22) (n := E.r - k) (by rw [p22]; rfl) (by rw [p22]; rfl) (by
    intro v hv j hj
    have := hreg (fun j => v (j - k)) (by
      intro i h1 h2
      refine Eq.trans ?_ (hv (i - k) (by omega))
      rw [sumTo_eq, Finset.sum_Ico_eq_sum_range]
      refine Finset.sum_congr rfl fun m _ => ?_
      rw [p22]
      simp only [Arr.slice, Arr.tr, Nat.add_sub_cancel_left, Nat.sub_add_cancel h1, Nat.add_comm m k]) (k + j) (by omega)
        (by omega)
    simpa using this)
  have r22 : p.Z22.r = p.Z22.c := by rw [p22]; rfl
  have r21 : p.Z21.r = p.Z22.r := by rw [p21, p22]; rfl
  obtain ⟨x, hx⟩ := iv.solve p.Z22 p.Z21 i22 r22 r21 h22
  obtain ⟨⟨x1, x2, x3, x4⟩, -⟩ := ex.solve _ _ _ r22 r21 hx
  have hx' : la.solveChecked p.Z22 p.Z21 = .ok x := by
    unfold LinAlg.solveChecked
    rw [if_pos ⟨r22, r21⟩, hx]
  -- the triangular factor
  obtain ⟨hdet, -⟩ := lead_forward hd hev hu hk hc
  obtain ⟨iT, hT⟩ := arr_inv_of_inj (a := p.T11) (n := k) (by rw [pT]; rfl) (by rw [pT]; rfl) (by
    intro v hv j hj
    have hinj := Matrix.mulVec_injective_iff_isUnit.mpr ((Matrix.isUnit_iff_isUnit_det _).mpr hdet)
    have h0 : (q.T.blk (fun i : Fin k => i.val) fun i : Fin k => i.val) *ᵥ (fun j => v j) = 0 := by
      funext i
      refine Eq.trans ?_ (hv i i.2)
      rw [sumTo_enum (IsEnum.fin k), pT]
      simp only [mulVec, dotProduct, Arr.blk_apply, Arr.slice, Nat.add_zero]
    exact congrFun (hinj (h0.trans (mulVec_zero _).symm)) ⟨j, hj⟩)
  have rT : p.T11.r = p.T11.c := by rw [pT]; rfl
  obtain ⟨T, hTi⟩ := iv.inv p.T11 iT rT hT
  have hTe := ex.inv _ _ rT hTi
  have hT' : la.invChecked p.T11 = .ok T := by
    unfold LinAlg.invChecked
    rw [if_pos rT, hTi]
  have Tr : T.r = k := by rw [← hTe.1.1, pT]; rfl
  have Tc : T.c = k := by rw [hTe.2.1, pT]; rfl
  -- the block of the stable part
  obtain ⟨iZ, hZ⟩ := arr_inv_of_inj (a := p.Z11.tr) (n := k) (by rw [p11]; rfl) (by rw [p11]; rfl) (by
    intro v hv j hj
    have hv' : ∀ i < k, (sumTo k fun j => q.Zt.e i j * v j) = 0 := by
      intro i hi
      refine Eq.trans ?_ (hv i hi)
      rw [p11]
      simp only [Arr.tr, Arr.slice, Nat.add_zero]
    set w : Nat → V := fun l => if l < k then v l else 0 with hw
    have hun : ∀ i, uncoord q E.r w i = sumTo k fun j => q.Zt.e i j * v j := by
      intro i
      unfold uncoord
      rw [sumTo_split E.r k hk, Finset.sum_eq_zero (s := Finset.Ico k E.r) (fun m hm => by
        rw [hw]; simp only [if_neg (show ¬ m < k by have := (Finset.mem_Ico.mp hm).1; omega), mul_zero]), add_zero, sumTo_eq]
      exact Finset.sum_congr rfl fun m hm => by
        rw [hw]; simp only [if_pos (Finset.mem_range.mp hm)]
    have hlow : ∀ i < k, uncoord q E.r w i = 0 := fun i hi => by rw [hun i, hv' i hi]
    have hhigh := hreg (uncoord q E.r w) (by
      intro i h1 h2
      have := coord_uncoord hd w h2
      unfold coord at this
      rw [sumTo_split E.r k hk, Finset.sum_eq_zero (s := Finset.range k) (fun m hm => by
        rw [hlow m (Finset.mem_range.mp hm), mul_zero]), zero_add] at this
      rw [this, hw]
      simp only [if_neg (show ¬ i < k by omega)])
    have := coord_uncoord hd w (show j < E.r by omega)
    rw [hw] at this
    simp only [if_pos hj] at this
    rw [← this]
    unfold coord
    rw [sumTo_eq]
    refine Finset.sum_eq_zero fun m hm => ?_
    have hm := Finset.mem_range.mp hm
    by_cases hmk : m < k
    · exact (congrArg _ (hlow m hmk)).trans (mul_zero _)
    · exact (congrArg _ (hhigh m (by omega) hm)).trans (mul_zero _))
  have rZ : p.Z11.tr.r = p.Z11.tr.c := by rw [p11]; rfl
  obtain ⟨Z, hZi⟩ := iv.inv p.Z11.tr iZ rZ hZ
  have hZe := ex.inv _ _ rZ hZi
  have hZ' : la.invChecked p.Z11.tr = .ok Z := by
    unfold LinAlg.invChecked
    rw [if_pos rZ, hZi]
  have Zr : Z.r = k := by rw [← hZe.1.1, p11]; rfl
  have Zc : Z.c = k := by rw [hZe.2.1, p11]; rfl
  obtain ⟨l, hl⟩ := Arr.dot_some (a := p.Z11.tr) (b := T) (by rw [p11, Tr]; rfl)
  obtain ⟨-, l2, l3, -⟩ := Arr.dot_ok hl
  obtain ⟨r, hr⟩ := Arr.dot_some (a := p.S11) (b := Z) (by rw [pS, Zr]; rfl)
  obtain ⟨-, r2, r3, -⟩ := Arr.dot_ok hr
  have lr : l.r = k := by rw [l2, p11]; rfl
  have rr : r.r = k := by rw [r2, pS]; rfl
  obtain ⟨gym, hg⟩ := Arr.dot_some (a := l) (b := r) (by rw [l3, Tc, rr])
  obtain ⟨-, g2, g3, -⟩ := Arr.dot_ok hg
  have xr : x.r = E.r - k := by rw [← x1, p22]; rfl
  have xc : x.c = k := by rw [← x3, p21]; rfl
  refine ⟨gym, x.neg, ?_, by rw [g2, lr], by rw [g3, r3, Zc], xr, xc, ?_⟩
  · simp only [solveNonstatic, hx', hT', hl, hZ', hr, hg, exc_bind]
  · intro i h1 h2 j hj
    have := x4 (i - k) (by rw [p22]; show i - k < E.r - k; omega) j (by omega)
    rw [p22, p21, show (q.Zt.tr.slice k E.r k E.r).c = E.r - k from rfl, sumTo_eq] at this
    simp only [Arr.slice, Arr.tr, Nat.sub_add_cancel h1, Nat.add_zero] at this
    rw [← this, Finset.sum_Ico_eq_sum_range, ← Finset.sum_add_distrib]
    refine Finset.sum_eq_zero fun m _ => ?_
    rw [Nat.add_sub_cancel_left, Nat.add_comm k m]
    simp only [Arr.neg]
    ring

set_option maxHeartbeats 1000000 in
/-- the responses of the static variables -/
theorem static_some {la : LinAlg V} (ex : la.Exact) (iv : la.Inverts) {t : Typer} (g : Groups t)
    (hs : t.nStatic = t.static.length) {A gym gyp : Arr V} (hA : A.r = t.n)
    (hlt : ∀ r c v, t.cell r c = some v → v < A.c)
    (hblk : IsUnit (Matrix.of fun (i j : Fin t.static.length) => A.e i (t.col 1 j)))
    (m1 : gym.r = t.pureBackward.length + t.mixed.length) (m2 : gym.c = t.pureBackward.length + t.mixed.length)
    (y1 : gyp.r = t.mixed.length + t.pureForward.length) (y2 : gyp.c = t.pureBackward.length + t.mixed.length) :
    ∃ gys, solveStatic la t A gym gyp = .ok gys ∧ gys.c = gym.c := by
  have gt := g.total
  obtain ⟨hnf, hnb, hnm, hnb', hnf', _⟩ := C31_sizes t
  have hltb : ∀ r c v, t.cell r c = some v → v < (A.top t.nStatic).c := hlt
  have hr : (A.top t.nStatic).r = t.static.length := by
    show min _ _ = _
    rw [hs, hA]; omega
  obtain ⟨Ap, hAp⟩ := timed_some hltb t.drOrder (t.permute t.drOrder).forward 2
  obtain ⟨Am, hAm⟩ := timed_some hltb t.drOrder (t.permute t.drOrder).state 0
  obtain ⟨A0s, hA0s⟩ := timed_some hltb t.drOrder (t.permute t.drOrder).static 1
  obtain ⟨A0d, hA0d⟩ := timed_some hltb t.drOrder (t.permute t.drOrder).dynamic 1
  have gp : Ap.r = t.static.length ∧ Ap.c = t.mixed.length + t.pureForward.length := by
    have h := hAp
    rw [g.forward] at h
    obtain ⟨h1, h2, -⟩ := cols_group h g.lead
    exact ⟨h1.trans hr, h2⟩
  have gm : Am.r = t.static.length ∧ Am.c = t.pureBackward.length + t.mixed.length := by
    have h := hAm
    rw [g.state] at h
    obtain ⟨h1, h2, -⟩ := cols_group h g.lag
    exact ⟨h1.trans hr, h2⟩
  have gs : A0s.r = t.static.length ∧ A0s.c = t.static.length ∧
      ∀ i j, j < t.static.length → A0s.e i j = A.e i (t.col 1 j) := by
    have h := hA0s
    rw [g.static] at h
    obtain ⟨h1, h2, h3⟩ := cols_group h (fun j hj => g.cur _ (by omega))
    refine ⟨h1.trans hr, h2, fun i j hj => (h3 i j hj).trans ?_⟩
    rw [Nat.zero_add]; rfl
  have gd : A0d.r = t.static.length ∧ A0d.c = t.pureBackward.length + t.mixed.length + t.pureForward.length := by
    have h := hA0d
    rw [g.dynamic] at h
    obtain ⟨h1, h2, -⟩ := cols_group h (fun j hj => g.cur _ (by omega))
    exact ⟨h1.trans hr, h2⟩
  obtain ⟨gyd, hgyd⟩ := arrayShingle_some (a := gym) (b := gyp) (k := t.nMixed) (by omega) (by omega)
  obtain ⟨-, d2, d3, -⟩ := arrayShingle_ok (by omega) hgyd
  obtain ⟨x, hx⟩ := Arr.dot_some (a := Ap) (b := gyp) (by omega)
  obtain ⟨-, x2, x3, -⟩ := Arr.dot_ok hx
  obtain ⟨Agp, hAgp⟩ := Arr.dot_some (a := x) (b := gym) (by omega)
  obtain ⟨-, p2, p3, -⟩ := Arr.dot_ok hAgp
  obtain ⟨Agd, hAgd⟩ := Arr.dot_some (a := A0d) (b := gyd) (by omega)
  obtain ⟨-, q2, q3, -⟩ := Arr.dot_ok hAgd
  obtain ⟨iA, hiA⟩ := arr_inv_of_inj gs.1 gs.2.1 (by
    intro v hv j hj
    have hinj := Matrix.mulVec_injective_iff_isUnit.mpr hblk
    have h0 : (Matrix.of fun (i j : Fin t.static.length) => A.e i (t.col 1 j)) *ᵥ (fun j => v j) = 0 := by
      funext i
      refine Eq.trans ?_ (hv i i.2)
      rw [sumTo_enum (IsEnum.fin _)]
      simp only [mulVec, dotProduct, Matrix.of_apply]
      exact Finset.sum_congr rfl fun m _ => by rw [gs.2.2 i m m.2]
    exact congrFun (hinj (h0.trans (mulVec_zero _).symm)) ⟨j, hj⟩)
  have rA : A0s.r = A0s.c := by rw [gs.1, gs.2.1]
  obtain ⟨Ai, hAi⟩ := iv.inv A0s iA rA hiA
  have hAe := ex.inv _ _ rA hAi
  have hAi' : la.invChecked A0s = .ok Ai := by
    unfold LinAlg.invChecked
    rw [if_pos rA, hAi]
  have Aic : Ai.c = t.static.length := by rw [hAe.2.1, gs.1]
  obtain ⟨s1, hs1⟩ := Arr.add_some (a := Agp) (b := Agd) (by omega) (by omega)
  obtain ⟨-, -, u3, u4, -⟩ := Arr.add_ok hs1
  obtain ⟨s2, hs2⟩ := Arr.add_some (a := s1) (b := Am) (by omega) (by omega)
  obtain ⟨-, -, v3, v4, -⟩ := Arr.add_ok hs2
  obtain ⟨y, hy⟩ := Arr.dot_some (a := Ai) (b := s2) (by omega)
  obtain ⟨-, w2, w3, -⟩ := Arr.dot_ok hy
  refine ⟨y.neg, ?_, ?_⟩
  · simp only [solveStatic, hAp, hAm, hA0s, hA0d, hgyd, hx, hAgp, hAgd, hAi', hs1, hs2, hy, exc_bind]
  · show y.c = _
    omega

/-- the responses to shocks -/
theorem exo_some {la : LinAlg V} (iv : la.Inverts) {t : Typer} (g : Groups t) {A gyp fu : Arr V} (hA : A.r = t.n)
    (hlt : ∀ r c v, t.cell r c = some v → v < A.c)
    (y1 : gyp.r = t.mixed.length + t.pureForward.length) (y2 : gyp.c = t.pureBackward.length + t.mixed.length)
    (hfu : fu.r = t.n)
    (hinj : ∀ y : Nat → V, (∀ i < t.n,
        rowPart t A i 1 y + (cAP t A (fun _ : Unit => i) *ᵥ (gyp.blk (fwIdx t) (stIdx t) *ᵥ
          pick t (fun b => t.static.length + stIdx t b) y)) () = 0) → ∀ c < t.n, y c = 0) :
    ∃ gu, solveExo la t A gyp fu = .ok gu := by
  have gt := g.total
  obtain ⟨hnf, hnb, hnm, hnb', hnf', _⟩ := C31_sizes t
  obtain ⟨cs, hcs⟩ := timed_some hlt t.drOrder (t.permute t.drOrder).static 1
  obtain ⟨cb, hcb⟩ := timed_some hlt t.drOrder (t.permute t.drOrder).state 1
  obtain ⟨cf, hcf⟩ := timed_some hlt t.drOrder (t.permute t.drOrder).pureForward 1
  obtain ⟨Ap, hAp⟩ := timed_some hlt t.drOrder (t.permute t.drOrder).forward 2
  have hcs' := hcs
  have hcb' := hcb
  have hcf' := hcf
  have hAp' := hAp
  rw [g.static] at hcs'
  rw [g.state] at hcb'
  rw [g.pureForward] at hcf'
  rw [g.forward] at hAp'
  obtain ⟨s1, s2, s3⟩ := cols_group hcs' (fun j hj => g.cur _ (by omega))
  obtain ⟨b1, b2, b3⟩ := cols_group hcb' (fun j hj => g.cur _ (by omega))
  obtain ⟨f1, f2, f3⟩ := cols_group hcf' (fun j hj => g.cur _ (by omega))
  obtain ⟨p1, p2, p3⟩ := cols_group hAp' g.lead
  obtain ⟨x, hx⟩ := Arr.dot_some (a := Ap) (b := gyp) (by omega)
  obtain ⟨x1, x2, x3, x4⟩ := Arr.dot_ok hx
  obtain ⟨ib, hib⟩ := Arr.add_some (a := x) (b := cb) (by omega) (by omega)
  obtain ⟨i1, i2, i3, i4, i5⟩ := Arr.add_ok hib
  obtain ⟨U1, hU1⟩ := Arr.hstack_some (a := cs) (b := ib) (by omega)
  obtain ⟨v1, v2, v3, v4, v5⟩ := Arr.hstack_ok hU1
  obtain ⟨U, hU⟩ := Arr.hstack_some (a := U1) (b := cf) (by omega)
  obtain ⟨w1, w2, w3, w4, w5⟩ := Arr.hstack_ok hU
  have hUr : U.r = t.n := by rw [w2, v2, s1, hA]
  have hibc : ib.c = t.pureBackward.length + t.mixed.length := by rw [i4, x3, y2]
  have hUc : U.c = t.n := by omega
  have hUb : ∀ ρ : Unit → Nat, U.blk ρ (allIdx t) = fromCols (fromCols (cAS t A ρ)
      (cAP t A ρ * gyp.blk (fwIdx t) (stIdx t) + cAB t A ρ)) (cAF t A ρ) := by
    intro ρ
    have e1 : ib.blk ρ (stIdx t) = cAP t A ρ * gyp.blk (fwIdx t) (stIdx t) + cAB t A ρ := by
      rw [i5, x4 ρ (fwIdx t) (stIdx t) (by rw [p2]; exact fwEnum t)]
      congr 1
      · congr 1
        ext i j; exact p3 _ _ ((fwEnum t).lt j)
      · ext i j; exact b3 _ _ ((stEnum t).lt j)
    ext i ((j | j) | j)
    · simp only [Arr.blk_apply, allIdx, sumIdx, Sum.elim_inl, fromCols_apply_inl]
      rw [w4 _ _ (by have := j.2; omega), v4 _ _ (by have := j.2; omega), s3 _ _ j.2]
      simp [cAS, Arr.blk_apply]
    · simp only [fromCols_apply_inl, fromCols_apply_inr, ← e1, Arr.blk_apply, allIdx, sumIdx, Sum.elim_inl,
        Sum.elim_inr]
      rw [w4 _ _ (by have := (stEnum t).lt j; omega), ← s2, v5]
    · simp only [fromCols_apply_inr, Arr.blk_apply, allIdx, sumIdx, Sum.elim_inr]
      rw [show t.static.length + (t.pureBackward.length + t.mixed.length) = U1.c by omega, w5, f3 _ _ j.2]
      rfl
  obtain ⟨iU, hiU⟩ := arr_inv_of_inj hUr hUc (by
    intro v hv j hj
    obtain ⟨y, hy⟩ := dr_fill g v
    have hz := hinj y (by
      intro i hi
      refine Eq.trans ?_ (hv i hi)
      have e : (sumTo t.n fun j => U.e i j * v j) = (U.blk (fun _ : Unit => i) (allIdx t) *ᵥ fun a => v (allIdx t a)) () := by
        rw [sumTo_enum (allEnum g)]
        rfl
      have ev : (fun a => v (allIdx t a)) = Sum.elim (Sum.elim (pick t (fun s : Fin t.static.length => s.val) y)
          (pick t (fun b => t.static.length + stIdx t b) y)) (pick t (fun f : Fin t.pureForward.length =>
            t.static.length + (t.pureBackward.length + t.mixed.length) + f) y) := by
        funext a
        have ha := (allEnum g).lt a
        rw [← hy _ ha]
        rcases a with ((a | a) | a) <;> rfl
      rw [e, ev, hUb, fromCols_mulVec_sumElim, fromCols_mulVec_sumElim, add_mulVec, ← mulVec_mulVec, rowPart_cur g]
      simp only [Pi.add_apply]
      ring)
    rw [← hy j hj]
    exact hz _ ((drEnum g (IsEnum.fin t.n)).lt ⟨j, hj⟩))
  have rU : U.r = U.c := by rw [hUr, hUc]
  have rf : fu.r = U.r := by rw [hUr, hfu]
  obtain ⟨y, hy⟩ := iv.solve U fu iU rU rf hiU
  have hy' : la.solveChecked U fu = .ok y := by
    unfold LinAlg.solveChecked
    rw [if_pos ⟨rU, rf⟩, hy]
  exact ⟨y.neg, by simp only [solveExo, hcs, hcb, hcf, hAp, hx, hib, hU1, hU, hy', exc_bind]⟩

/-- a path that begins one period later -/
theorem later_path {φ : V →+* ℂ} {t : Llx} {nExog : Nat} {J : Arr V} {y : Nat → Nat → V}
    (h : BoundedPath φ t nExog J y)
    (h0 : ∀ i < J.r, linearised t nExog J i (fun _ => 0) (y 0) (y 1) (fun _ => 0) = 0) :
    BoundedPath φ t nExog J fun τ => match τ with
      | 0 => fun _ => 0
      | τ + 1 => y τ := by
  obtain ⟨h1, B, hB⟩ := h
  refine ⟨?_, max B 0, ?_⟩
  · rintro (_ | τ) i hi
    · exact h0 i hi
    · exact h1 τ i hi
  · rintro (_ | τ) c hc
    · simp
    · exact le_trans (hB τ c hc) (le_max_left _ _)

/-- models with exactly one bounded path are solved -/
theorem solve_some {φ : V →+* ℂ} {la : LinAlg V} (ex : la.Exact) (rk : la.RankExact) (iv : la.Inverts)
    {pss : List (List Int)} {t : Llx} {nExog : Nat} {J : Arr V} {s : Space V} {q : QZ V} {ev : Nat → Option ℂ}
    (h : Examined φ la pss t J s q ev) (hx : 0 < nExog) (hJc : J.c = t.count + nExog) (hf : 0 < t.nForward)
    (hre : ∀ i < q.eigs.length, ∀ z, ev i = some z → 1 < ‖z‖ → 1 < z.re)
    (hone : OneBoundedPath φ t nExog J) : ∃ gy gu, solveFirstOrder la t nExog s = .ok (gy, gu) := by
  obtain ⟨hR, hn⟩ := h.ready ex rk
  have g := groups hR.cur
  have gt := g.total
  have hN := hR.size
  have hcnt := hR.dec.count
  obtain ⟨hnf, hnb, hnm, hnb', hnf', _⟩ := C31_sizes t.toTyper
  have hst := hR.pen.some_state
  have hs := (C32_static_count_with_lag_partial h.table (by
    intro h0
    rw [h0] at hnb
    simp only [List.length_nil] at hnb
    omega)).1
  have hlt : ∀ r c v, t.cell r c = some v → v < t.count := by
    obtain ⟨-, b2, -, -, b5⟩ := buildLlx_spec h.table
    intro r c v hv
    exact (b5 v).mpr ⟨r, c, hv⟩
  have hle : (q.eigs.countP fun x => x.big || x.inf) ≤ s.rhs.r := by
    rw [← hcnt]; exact List.countP_le_length
  obtain ⟨k, hk, hc⟩ : ∃ k, k ≤ s.rhs.r ∧ (q.eigs.countP fun x => x.big || x.inf) = s.rhs.r - k :=
    ⟨s.rhs.r - (q.eigs.countP fun x => x.big || x.inf), Nat.sub_le _ _, by omega⟩
  obtain ⟨hkk, hreg⟩ := (hR.paths_iff h.eigen h.noUnit hk hc nExog).mp hone
  obtain ⟨expl, hexpl, hrot, p11, p21, p22, pT, pS⟩ := create_parts h.space h.decomposed
  have hcut := hR.cut_eq h.eigen h.noUnit hk hc (by omega) hre hexpl
  have hZr : q.Zt.r = s.rhs.r := (hR.dec.shape _ (by simp)).1
  rw [hcut] at p11 p21 p22 pT pS
  rw [hZr] at p21 p22
  obtain ⟨gym, gyp, hns, m1, m2, y1, y2, hgyp⟩ := nonstatic_some ex iv hR.dec h.eigen h.noUnit hk hc hreg p11 p21 p22 pT pS
  have hAc := rotated_cols hrot
  have hltA : ∀ r c v, t.cell r c = some v → v < s.jac.c := by
    intro r c v hv
    have := hlt r c v hv
    omega
  obtain ⟨gys, hgys, hgysc⟩ := static_some ex iv g hs hR.jr hltA hR.block (by omega) (by omega) (gyp := gyp)
    (gym := gym) (by omega) (by omega)
  obtain ⟨gyd, hgyd⟩ := arrayShingle_some (a := gym) (b := gyp) (k := t.nMixed) (by omega) (by omega)
  obtain ⟨-, d2, d3, -⟩ := arrayShingle_ok (by omega) hgyd
  obtain ⟨gy, hgy⟩ := Arr.vstack_some (a := gys) (b := gyd) (by omega)
  obtain ⟨fu, hfu⟩ := Arr.cols_some (a := s.jac) (cs := t.exogJacobian nExog) (by
    intro c hc
    unfold Llx.exogJacobian at hc
    obtain ⟨i, hi, rfl⟩ := List.mem_map.mp hc
    have := List.mem_range.mp hi
    omega)
  obtain ⟨fu1, -, -⟩ := Arr.cols_ok hfu
  -- the responses of forward-looking variables along a bounded path
  have hfw : ∀ x : Nat → Nat → V, PencilPath s.lhs s.rhs s.rhs.r x → PathBounded φ s.rhs.r x →
      ∀ f < s.rhs.r - k, x 0 (k + f) = sumTo k fun j => gyp.e f j * x 0 j := by
    intro x hx hb f hfk
    have htr := bounded_trail hR.dec h.eigen h.noUnit hk hc hx hb 0
    have := hreg (fun m => x 0 m - sumTo k fun j => gyp.e (m - k) j * x 0 j) (by
      intro i h1 h2
      have e := htr i h1 h2
      unfold coord at e
      rw [sumTo_split s.rhs.r k hk] at e
      have e2 : ∑ m ∈ Finset.Ico k s.rhs.r, q.Zt.e m i * (sumTo k fun j => gyp.e (m - k) j * x 0 j) =
          - ∑ j ∈ Finset.range k, q.Zt.e j i * x 0 j := by
        simp only [sumTo_eq, Finset.mul_sum]
        rw [Finset.sum_comm, ← Finset.sum_neg_distrib]
        refine Finset.sum_congr rfl fun j hj => ?_
        have := hgyp i h1 h2 j (Finset.mem_range.mp hj)
        have e3 : ∑ m ∈ Finset.Ico k s.rhs.r, q.Zt.e m i * (gyp.e (m - k) j * x 0 j) =
            (∑ m ∈ Finset.Ico k s.rhs.r, q.Zt.e m i * gyp.e (m - k) j) * x 0 j := by
          rw [Finset.sum_mul]
          exact Finset.sum_congr rfl fun m _ => (mul_assoc _ _ _).symm
        rw [e3]
        linear_combination this * x 0 j
      simp only [mul_sub, Finset.sum_sub_distrib, e2]
      linear_combination e) (k + f) (by omega) (by omega)
    simp only [Nat.add_sub_cancel_left] at this
    exact sub_eq_zero.mp this
  obtain ⟨gu, hgu⟩ := exo_some iv g (fu := fu) (gyp := gyp) hR.jr hltA (by omega) (by omega) (by rw [fu1, hR.jr]) (by
    intro y0 hy0 c hcn
    obtain ⟨w, hw0, hw, -⟩ := hone y0
    have hpen := hR.project (fun τ i hi => hw.1 τ i (by rw [hR.square]; exact hi))
    have hbnd := hR.project_bounded (φ := φ) (y := w) (by
      have := hw.2
      rw [hR.square] at this
      exact this)
    have hlead := hfw _ hpen hbnd
    have hz := hone.zero rfl (later_path hw (by
      rw [hR.square]
      refine (hR.rows nExog _ _ _).mpr fun i hi => ?_
      rw [rowPart_zero, add_zero, hw0, add_comm]
      refine Eq.trans ?_ (hy0 i hi)
      congr 1
      rw [rowPart_lead g]
      refine congrFun (congrArg _ ?_) ()
      funext f
      have hfl := (fwEnum t.toTyper).lt f
      have := hlead (fwIdx t.toTyper f) (by omega)
      rw [hkk] at this
      rw [pencilOf, if_neg (by omega), Nat.add_sub_cancel_left, sumTo_enum (stEnum t.toTyper)] at this
      refine this.trans ?_
      simp only [mulVec, dotProduct, Arr.blk_apply, pick]
      refine Finset.sum_congr rfl fun b _ => ?_
      rw [pencilOf, if_pos ((stEnum t.toTyper).lt b), hw0])) 1 c (by rw [hR.square]; exact hcn)
    rw [← hw0]
    exact hz)
  refine ⟨gy, gu, ?_⟩
  simp only [solveFirstOrder, hns, hgyd, hgys, hgy, exc_bind, if_neg (show ¬ nExog = 0 by omega), hfu, hgu]

end Pynare

import Verif.Lemmas.Paths
import Verif.Examples.StabilitySecond
/-!
# What the check of the state space says about the model (C148)
-/

namespace Pynare

variable {V : Type} [Field V]

/-- **C148** (partial: the arithmetic, the rank and the comparisons of eigenvalues are exact; no eigenvalue
has modulus one; the model has a forward-looking variable; and every finite eigenvalue outside the unit
circle has a real part above one).  The check accepts a model exactly if, from every initial values, there is
exactly one path that solves the linearised equations without shocks and stays bounded. -/
theorem C148_check_iff_partial (φ : V →+* ℂ) (la : LinAlg V) (ex : la.Exact) (rk : la.RankExact)
    (pss : List (List Int)) (t : Llx) (nExog : Nat) (J : Arr V) (s : Space V) (q : QZ V) (ev : Nat → Option ℂ)
    (h : Examined φ la pss t J s q ev) (hf : 0 < t.nForward)
    (hre : ∀ i < q.eigs.length, ∀ z, ev i = some z → 1 < ‖z‖ → 1 < z.re) :
    s.verify la t.toTyper = .ok () ↔ OneBoundedPath φ t nExog J := by
  obtain ⟨hR, -⟩ := h.ready ex rk
  have hcnt := hR.dec.count
  have hle : (q.eigs.countP fun x => x.big || x.inf) ≤ s.rhs.r := by
    rw [← hcnt]; exact List.countP_le_length
  have hk : s.rhs.r - (q.eigs.countP fun x => x.big || x.inf) ≤ s.rhs.r := Nat.sub_le _ _
  have hc : (q.eigs.countP fun x => x.big || x.inf) =
      s.rhs.r - (s.rhs.r - (q.eigs.countP fun x => x.big || x.inf)) := by omega
  rw [hR.verify_iff rk h.eigen h.noUnit hk hc hf hre, hR.paths_iff h.eigen h.noUnit hk hc nExog]

/-! ### examples -/

/-- a rearrangement of the variables -/
def permArr (σ : List Nat) : Arr ℚ := ⟨σ.length, σ.length, fun i j => if σ[i]?.getD 0 = j then 1 else 0⟩

/-- the decomposition of a diagonal state space whose eigenvalues come in another order -/
def permQz (ls : List ℚ) (σ : List Nat) : QZ ℚ := { diagQz ls with Q := permArr σ, Zt := permArr σ }

theorem perm_eigen (ls : List ℚ) (σ : List Nat)
    (h : ∀ i j : Nat, i ≤ j → j < ls.length → |ls[j]?.getD 0| < 1 → |ls[i]?.getD 0| < 1) :
    (permQz ls σ).Eigen (Rat.castHom ℂ) (diagEv ls) :=
  have e := diag_eigen ls h
  ⟨e.infinite, e.big, e.gt1, e.sorted, e.blocks⟩

/-- exact linear algebra, the rank included -/
noncomputable def rankLa (q : QZ ℚ) : LinAlg ℚ := { ratLa 0 q with
  rank := fun a => (Matrix.of fun (i : Fin a.r) (j : Fin a.c) => a.e i j).rank }

theorem rankLa_exact (q : QZ ℚ) : (rankLa q).Exact :=
  have e := ratLa_exact 0 q
  ⟨e.qr, e.inv, e.solve, e.ordqz⟩

theorem rankLa_rank (q : QZ ℚ) : (rankLa q).RankExact := fun _ => rfl

/-- `x = a*x(-1) + e`, `z1(+1) = b*z1`, `z2(+1) = c*z2` -/
def ckJ (a b c : ℚ) : Arr ℚ :=
  listArr [[-a, 1, 0, 0, 0, 0, -1], [0, 0, -b, 0, 1, 0, 0], [0, 0, 0, -c, 0, 1, 0]] 7

/-- its table -/
def ckT : Llx := match buildLlx [[-1, 0], [0, 1], [0, 1]] with
  | .ok t => t
  | .error _ => ⟨⟨0, fun _ _ => none⟩, 0⟩

theorem ck_sorted : ∀ i j : Nat, i ≤ j → j < [1/2, -2, (3 : ℚ)].length → |[1/2, -2, (3 : ℚ)][j]?.getD 0| < 1 →
    |[1/2, -2, (3 : ℚ)][i]?.getD 0| < 1 := by
  intro i j hij hj
  simp only [List.length_cons, List.length_nil] at hj
  have hi : i < 3 := by omega
  interval_cases j <;> interval_cases i <;> norm_num [abs_lt]

theorem ck_noUnit : NoUnitRoot 3 (diagEv [1/2, -2, 3]) :=
  diag_noUnit (ls := [1/2, -2, 3]) (by
    intro l hl
    simp only [List.mem_cons, List.not_mem_nil, or_false] at hl
    rcases hl with rfl | rfl | rfl
    · left; rw [abs_lt]; norm_num
    · right; rw [lt_abs]; norm_num
    · right; rw [lt_abs]; norm_num)

theorem one_rank {a : Arr ℚ} (hr : a.r = 1) (hc : a.c = 1) :
    (Matrix.of fun (i : Fin a.r) (j : Fin a.c) => a.e i j).rank = 1 ↔ a.e 0 0 ≠ 0 := by
  have h := rank_inj (Matrix.of fun (i : Fin a.r) (j : Fin a.c) => a.e i j)
  rw [hc] at h
  obtain ⟨r, c, e⟩ := a
  simp only at hr hc
  subst hr hc
  refine h.trans ?_
  constructor
  · intro h0 he
    have := congrFun (h0 (fun _ => 1) (by
      funext i
      simp only [Matrix.mulVec, dotProduct, Matrix.of_apply, Fin.sum_univ_one, mul_one]
      rw [Fin.eq_zero i]
      exact he)) 0
    simp at this
  · intro he v hv
    have := congrFun hv 0
    simp only [Matrix.mulVec, dotProduct, Matrix.of_apply, Fin.sum_univ_one, Pi.zero_apply, mul_eq_zero] at this
    funext j
    rw [Fin.eq_zero j]
    exact this.resolve_left he

/-- the two rearranged models -/
theorem ck_examined (a b c : ℚ) (σ : List Nat) (z : ℚ)
    (h : okAnd (Space.create (rankLa (permQz [1/2, -2, 3] σ)) ckT.toTyper (ckJ a b c)) (fun s =>
      qzB (permQz [1/2, -2, 3] σ) s.rhs s.lhs && decide (s.rhs.r = 3) && decide (s.parts.Z22.r = 1) &&
        decide (s.parts.Z22.c = 1) && decide (s.parts.Z22.e 0 0 = z) &&
        decide ((s.parts.eigs.countP fun x => x.big || x.inf) = ckT.nForward)) = true) :
    ∃ s : Space ℚ, Examined (Rat.castHom ℂ) (rankLa (permQz [1/2, -2, 3] σ)) [[-1, 0], [0, 1], [0, 1]] ckT
        (ckJ a b c) s (permQz [1/2, -2, 3] σ) (diagEv [1/2, -2, 3]) ∧ s.rhs.r = 3 ∧
      (s.verify (rankLa (permQz [1/2, -2, 3] σ)) ckT.toTyper = .ok () ↔ z ≠ 0) := by
  obtain ⟨s, hs, h'⟩ := ok_of_check h
  simp only [Bool.and_eq_true, decide_eq_true_eq] at h'
  obtain ⟨⟨⟨⟨⟨h1, h2⟩, h3⟩, h4⟩, h5⟩, h6⟩ := h'
  refine ⟨s, ⟨by decide, rfl, rfl, hs, ?_, perm_eigen _ _ ck_sorted, ck_noUnit⟩, h2, ?_⟩
  · show (if qzB _ _ _ then _ else _) = _
    rw [if_pos h1]
  · have h7 := one_rank h3 h4
    rw [h5] at h7
    unfold Space.verify
    rw [if_neg (by rw [not_not]; exact h6), h3, ← h7]
    show (if (Matrix.of _).rank ≠ 1 then _ else _) = _ ↔ _
    constructor
    · intro h
      split at h
      · cases h
      · rename_i hne; exact not_not.mp hne
    · intro h
      rw [if_neg (by rw [not_not]; exact h)]

/-- **C148 is false.**  Explosive eigenvalues that are negative are counted, but not where the state space is
cut.  So the check accepts `x = -2*x(-1) + e`, `z1(+1) = z1/2`, `z2(+1) = 3*z2`, in which `x` explodes and `z1`
is arbitrary; and it refuses `x = x(-1)/2 + e`, `z1(+1) = 3*z1`, `z2(+1) = -2*z2`, which has exactly one bounded
path from everywhere.  (The eigenvalues come in the order 1/2, -2, 3: inside the unit circle first.) -/
theorem C148_false :
    (∃ (la : LinAlg ℚ) (s : Space ℚ) (q : QZ ℚ) (ev : Nat → Option ℂ), la.Exact ∧ la.RankExact ∧
      Examined (Rat.castHom ℂ) la [[-1, 0], [0, 1], [0, 1]] ckT (ckJ (-2) (1/2) 3) s q ev ∧
      s.verify la ckT.toTyper = .ok () ∧ ¬ OneBoundedPath (Rat.castHom ℂ) ckT 1 (ckJ (-2) (1/2) 3)) ∧
    ∃ (la : LinAlg ℚ) (s : Space ℚ) (q : QZ ℚ) (ev : Nat → Option ℂ), la.Exact ∧ la.RankExact ∧
      Examined (Rat.castHom ℂ) la [[-1, 0], [0, 1], [0, 1]] ckT (ckJ (1/2) 3 (-2)) s q ev ∧
      s.verify la ckT.toTyper ≠ .ok () ∧ OneBoundedPath (Rat.castHom ℂ) ckT 1 (ckJ (1/2) 3 (-2)) := by
  constructor
  · obtain ⟨s, hs, hr, hv⟩ := ck_examined (-2) (1/2) 3 [1, 0, 2] 1 (by decide +kernel)
    refine ⟨_, s, _, _, rankLa_exact _, rankLa_rank _, hs, hv.mpr one_ne_zero, ?_⟩
    obtain ⟨hR, -⟩ := hs.ready (rankLa_exact _) (rankLa_rank _)
    rw [hR.paths_iff hs.eigen hs.noUnit (k := 1) (by omega) (by rw [hr]; decide +kernel) 1, hr]
    rintro ⟨-, h⟩
    have := h (fun j => if j = 1 then 1 else 0) (by
      intro i h1 h2
      rw [show Finset.Ico 1 3 = {1, 2} from rfl]
      interval_cases i <;> simp [permQz, permArr]) 1 le_rfl (by omega)
    simp at this
  · obtain ⟨s, hs, hr, hv⟩ := ck_examined (1/2) 3 (-2) [0, 2, 1] 0 (by decide +kernel)
    refine ⟨_, s, _, _, rankLa_exact _, rankLa_rank _, hs, fun h => hv.mp h rfl, ?_⟩
    obtain ⟨hR, -⟩ := hs.ready (rankLa_exact _) (rankLa_rank _)
    rw [hR.paths_iff hs.eigen hs.noUnit (k := 1) (by omega) (by rw [hr]; decide +kernel) 1, hr]
    refine ⟨by decide, ?_⟩
    intro v hv j h1 h2
    have e1 := hv 1 (by omega) (by omega)
    have e2 := hv 2 (by omega) (by omega)
    rw [show Finset.Ico 1 3 = {1, 2} from rfl] at e1 e2
    simp [permQz, permArr] at e1 e2
    interval_cases j
    · exact e2
    · exact e1

/-- a model that meets the hypotheses of C148 and is accepted -/
example : ∃ s : Space ℚ, Examined (Rat.castHom ℂ) (rankLa (diagQz [1/2, 2])) [[-1, 0], [0, 1]]
      (match buildLlx [[-1, 0], [0, 1]] with | .ok t => t | .error _ => ckT)
      (listArr [[-1/2, 1, 0, 0, -1], [0, 0, -2, 1, 0]] 5) s (diagQz [1/2, 2]) (diagEv [1/2, 2]) ∧
    (∀ i < (diagQz [1/2, 2]).eigs.length, ∀ z, diagEv [1/2, 2] i = some z → 1 < ‖z‖ → 1 < z.re) ∧
    s.verify (rankLa (diagQz [1/2, 2])) (match buildLlx [[-1, 0], [0, 1]] with | .ok t => t | .error _ => ckT).toTyper =
      .ok () := by
  obtain ⟨s, hs, h'⟩ := ok_of_check (x := Space.create (rankLa (diagQz [1/2, 2]))
      (match buildLlx [[-1, 0], [0, 1]] with | .ok t => t | .error _ => ckT).toTyper
      (listArr [[-1/2, 1, 0, 0, -1], [0, 0, -2, 1, 0]] 5))
    (p := fun s => qzB (diagQz [1/2, 2]) s.rhs s.lhs && decide (s.parts.Z22.r = 1) &&
        decide (s.parts.Z22.c = 1) && decide (s.parts.Z22.e 0 0 = 1) &&
        decide ((s.parts.eigs.countP fun x => x.big || x.inf) = 1)) (by decide +kernel)
  simp only [Bool.and_eq_true, decide_eq_true_eq] at h'
  obtain ⟨⟨⟨⟨h1, h3⟩, h4⟩, h5⟩, h6⟩ := h'
  refine ⟨s, ⟨by decide, rfl, rfl, hs, ?_, diag_eigen _ ?_, ?_⟩, ?_, ?_⟩
  · show (if qzB _ _ _ then _ else _) = _
    rw [if_pos h1]
  · intro i j hij hj
    simp only [List.length_cons, List.length_nil] at hj
    have hi : i < 2 := by omega
    interval_cases j <;> interval_cases i <;> norm_num [abs_lt]
  · exact diag_noUnit (ls := [1/2, 2]) (by
      intro l hl
      simp only [List.mem_cons, List.not_mem_nil, or_false] at hl
      rcases hl with rfl | rfl
      · left; rw [abs_lt]; norm_num
      · right; rw [lt_abs]; norm_num)
  · intro i hi z hz h
    have hi : i < 2 := hi
    rw [← Option.some.inj hz] at h ⊢
    interval_cases i
    · exfalso
      simp at h
      norm_num at h
    · simp
  · have h7 := (one_rank h3 h4).mpr (by rw [h5]; exact one_ne_zero)
    unfold Space.verify
    rw [if_neg (by rw [not_not]; exact h6), h3]
    show (if (Matrix.of _).rank ≠ 1 then _ else _) = _
    rw [if_neg (by rw [not_not]; exact h7)]

#print axioms C148_check_iff_partial
#print axioms C148_false

end Pynare

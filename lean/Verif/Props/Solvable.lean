import Verif.Lemmas.Solvable
import Verif.Props.Check
/-!
# Which models with exactly one bounded path are solved (C73)
-/

namespace Pynare

variable {V : Type} [Field V]

/-- **C73** (partial: the model has a shock, its mix of variables is supported, and the guards of C148).
A model that has exactly one bounded path from every initial values gets a state space, passes the check and
is solved, if the library answers whenever there is an answer. -/
theorem C73_accepted_partial (φ : V →+* ℂ) (la : LinAlg V) (ex : la.Exact) (rk : la.RankExact) (iv : la.Inverts)
    (pss : List (List Int)) (hps : ∀ ps ∈ pss, 0 ∈ ps ∧ ∀ p ∈ ps, p = -1 ∨ p = 0 ∨ p = 1)
    (mix : SupportedMix pss) (t : Llx) (ht : buildLlx pss = .ok t) (nExog : Nat) (hx : 0 < nExog) (J : Arr V)
    (hJ : J.r = pss.length) (hJc : J.c = t.count + nExog) (ans : la.Answers φ t J)
    (hone : OneBoundedPath φ t nExog J) :
    ∃ s gy gu, Space.create la t.toTyper J = .ok s ∧ s.verify la t.toTyper = .ok () ∧
      solveFirstOrder la t nExog s = .ok (gy, gu) := by
  obtain ⟨hf, hst⟩ := (supported_iff hps ht).mp mix
  obtain ⟨t', ht', hn, hcell, -⟩ := C28_numbering pss (fun ps h h0 => by
    have := (hps ps h).1; rw [h0] at this; cases this) (fun ps h => (hps ps h).2)
  rw [ht] at ht'
  have := Except.ok.inj ht'
  subst this
  have hcur : ∀ c < t.n, t.has 1 c = true := by
    intro c hcn
    have hc' : c < pss.length := by omega
    exact Option.isSome_iff_exists.mpr ((hcell c pss[c] 0 (List.getElem?_eq_getElem hc') (by omega)).mpr
      (hps _ (List.getElem_mem hc')).1)
  have g := groups hcur
  have gt := g.total
  obtain ⟨hnf, hnb, hnm, hnb', hnf', _⟩ := C31_sizes t.toTyper
  have hs := (C32_static_count_with_lag_partial ht (by
    intro h0
    rw [h0] at hnb
    simp only [List.length_nil] at hnb
    omega)).1
  have hJn : J.r = t.n := by omega
  have hdr : t.drOrder = t.static ++ t.pureBackward ++ t.mixed ++ t.pureForward :=
    (C31_dr_order_groups_partial t.toTyper (by
      intro c hc h; have := hcur c hc; rw [h.2.2] at this; cases this)).1
  have hlt : ∀ r c v, t.cell r c = some v → v < J.c := by
    obtain ⟨-, -, -, -, b5⟩ := buildLlx_spec ht
    intro r c v hv
    have := (b5 v).mpr ⟨r, c, hv⟩
    omega
  obtain ⟨A, hrot, hA, hAc⟩ := rotated_some ex rk g hs hdr hJn hlt ans.qr (static_inj g hJn hone)
  obtain ⟨D, E, hDE, d1, e1, de, e0⟩ := structSpace_some g hs hrot hA (by rw [hAc]; exact hlt) hst
  obtain ⟨q, hq⟩ := ans.qz D E A hDE
  obtain ⟨s, hc, rfl, rfl⟩ := create_some ex hDE d1 e1 de e0 hq
  obtain ⟨ev, hev, hu, hre⟩ := ans.eigen s q hc hq
  have hex : Examined φ la pss t J s q ev := ⟨hps, ht, hJ, hc, hq, hev, hu⟩
  obtain ⟨gy, gu, hsol⟩ := solve_some ex rk iv hex hx hJc hf hre hone
  exact ⟨s, gy, gu, hc, (C148_check_iff_partial φ la ex rk pss t nExog J s q ev hex hf hre).mpr hone, hsol⟩

/-- **C73** (partial: as `C73_accepted_partial`, except that the mix of variables may be any).  A model that has
exactly one bounded path is solved if and only if its mix of variables is supported. -/
theorem C73_iff_partial (φ : V →+* ℂ) (la : LinAlg V) (ex : la.Exact) (rk : la.RankExact) (iv : la.Inverts)
    (pss : List (List Int)) (hps : ∀ ps ∈ pss, 0 ∈ ps ∧ ∀ p ∈ ps, p = -1 ∨ p = 0 ∨ p = 1)
    (t : Llx) (ht : buildLlx pss = .ok t) (nExog : Nat) (hx : 0 < nExog) (J : Arr V)
    (hJ : J.r = pss.length) (hJc : J.c = t.count + nExog) (ans : la.Answers φ t J)
    (hone : OneBoundedPath φ t nExog J) :
    (∃ s gy gu, Space.create la t.toTyper J = .ok s ∧ solveFirstOrder la t nExog s = .ok (gy, gu)) ↔
      SupportedMix pss := by
  constructor
  · rintro ⟨s, gy, gu, hc, hsol⟩
    obtain ⟨t', ht', hn, hcell, -⟩ := C28_numbering pss (fun ps h h0 => by
      have := (hps ps h).1; rw [h0] at this; cases this) (fun ps h => (hps ps h).2)
    rw [ht] at ht'
    have := Except.ok.inj ht'
    subst this
    obtain ⟨-, h1, h2⟩ := C73_refused la ex t nExog (by
      intro c hcn
      have hc' : c < pss.length := by omega
      exact Option.isSome_iff_exists.mpr ((hcell c pss[c] 0 (List.getElem?_eq_getElem hc') (by omega)).mpr
        (hps _ (List.getElem_mem hc')).1)) J s gy gu hc hsol
    exact (supported_iff hps ht).mpr ⟨h1, h2⟩
  · intro mix
    obtain ⟨s, gy, gu, h1, -, h2⟩ :=
      C73_accepted_partial φ la ex rk iv pss hps mix t ht nExog hx J hJ hJc ans hone
    exact ⟨s, gy, gu, h1, h2⟩

/-! ### an example -/

open Classical in
/-- exact linear algebra that finds every inverse -/
noncomputable def fullLa (q : QZ ℚ) : LinAlg ℚ := { rankLa q with
  inv := fun a => if h : ∃ b, a.IsInv b then .ok (Classical.choose h) else .error .valueError
  solve := fun a b => if h : ∃ i, a.IsInv i then
      .ok ⟨a.r, b.c, fun i j => sumTo a.r fun k => (Classical.choose h).e i k * b.e k j⟩ else .error .valueError }

theorem fullLa_exact (q : QZ ℚ) : (fullLa q).Exact := by
  have e := rankLa_exact q
  refine ⟨e.qr, ?_, ?_, e.ordqz⟩
  · intro a b _ h
    simp only [fullLa] at h
    split at h
    · rename_i hi
      rw [← Except.ok.inj h]
      exact Classical.choose_spec hi
    · cases h
  · intro a b x hsq hr h
    simp only [fullLa] at h
    split at h
    · rename_i hi
      have hinv := Classical.choose_spec hi
      refine ⟨?_, _, hinv⟩
      rw [← Except.ok.inj h]
      refine ⟨hsq.symm, hr, rfl, fun i hin j hj => ?_⟩
      show (sumTo a.c fun k => a.e i k * sumTo a.r fun m => (Classical.choose hi).e k m * b.e m j) = b.e i j
      have hm := hinv.1.2.2.2 i hin
      have hcc : (Classical.choose hi).c = a.r := hinv.2.1
      simp only [sumTo_eq, Finset.mul_sum]
      rw [Finset.sum_comm]
      have : ∀ m ∈ Finset.range a.r, ∑ k ∈ Finset.range a.c, a.e i k * ((Classical.choose hi).e k m * b.e m j) =
          (if m = i then 1 else 0) * b.e m j := by
        intro m hmr
        have hmr := Finset.mem_range.mp hmr
        have := hm m (by omega)
        rw [sumTo_eq] at this
        simp only [Arr.eye, Nat.add_zero] at this
        rw [← this, Finset.sum_mul]
        exact Finset.sum_congr rfl fun k _ => (mul_assoc _ _ _).symm
      rw [Finset.sum_congr rfl this]
      simp [hin]
    · cases h

theorem fullLa_inverts (q : QZ ℚ) : (fullLa q).Inverts := by
  refine ⟨fun a b _ h => ?_, fun a b i _ _ h => ?_⟩
  · exact ⟨_, dif_pos ⟨b, h⟩⟩
  · exact ⟨_, dif_pos ⟨i, h⟩⟩

/-- the table of `x = x(-1)/2 + e`, `w(+1) = 2*w` -/
def svT : Llx := match buildLlx [[-1, 0], [0, 1]] with | .ok t => t | .error _ => ckT
/-- its jacobian -/
def svJ : Arr ℚ := listArr [[-1/2, 1, 0, 0, -1], [0, 0, -2, 1, 0]] 5

/-- `x = x(-1)/2 + e`, `w(+1) = 2*w` -/
theorem sv_facts : (fullLa (diagQz [1/2, 2])).Answers (Rat.castHom ℂ) svT svJ ∧
    OneBoundedPath (Rat.castHom ℂ) svT 1 svJ := by
  set t : Llx := svT with ht
  set J : Arr ℚ := svJ with hJ
  obtain ⟨s, hs, h'⟩ := ok_of_check (x := Space.create (fullLa (diagQz [1/2, 2])) t.toTyper J)
    (p := fun s => qzB (diagQz [1/2, 2]) s.rhs s.lhs && decide (s.parts.Z22.r = 1) &&
        decide (s.parts.Z22.c = 1) && decide (s.parts.Z22.e 0 0 = 1) &&
        decide ((s.parts.eigs.countP fun x => x.big || x.inf) = 1)) (by decide +kernel)
  simp only [Bool.and_eq_true, decide_eq_true_eq] at h'
  obtain ⟨⟨⟨⟨h1, h3⟩, h4⟩, h5⟩, h6⟩ := h'
  have hq : (fullLa (diagQz [1/2, 2])).ordqz s.rhs s.lhs = .ok (diagQz [1/2, 2]) := by
    show (if qzB _ _ _ then _ else _) = _
    rw [if_pos h1]
  have hev : (diagQz [1/2, 2]).Eigen (Rat.castHom ℂ) (diagEv [1/2, 2]) := diag_eigen _ (by
    intro i j hij hj
    simp only [List.length_cons, List.length_nil] at hj
    have hi : i < 2 := by omega
    interval_cases j <;> interval_cases i <;> norm_num [abs_lt])
  have hu : NoUnitRoot 2 (diagEv [1/2, 2]) := diag_noUnit (ls := [1/2, 2]) (by
      intro l hl
      simp only [List.mem_cons, List.not_mem_nil, or_false] at hl
      rcases hl with rfl | rfl
      · left; rw [abs_lt]; norm_num
      · right; rw [lt_abs]; norm_num)
  have hre : ∀ i < (diagQz [1/2, 2]).eigs.length, ∀ z, diagEv [1/2, 2] i = some z → 1 < ‖z‖ → 1 < z.re := by
    intro i hi z hz h
    have hi : i < 2 := hi
    rw [← Option.some.inj hz] at h ⊢
    interval_cases i
    · exfalso
      simp at h
      norm_num at h
    · simp
  have hver : s.verify (fullLa (diagQz [1/2, 2])) t.toTyper = .ok () := by
    have h7 := (one_rank h3 h4).mpr (by rw [h5]; exact one_ne_zero)
    unfold Space.verify
    rw [if_neg (by rw [not_not]; exact h6), h3]
    show (if (Matrix.of _).rank ≠ 1 then _ else _) = _
    rw [if_neg (by rw [not_not]; exact h7)]
  refine ⟨⟨?_, ?_, ?_⟩, ?_⟩
  · intro h
    exact absurd (by decide) h
  · intro D E A h
    unfold Space.create at hs
    rw [h] at hs
    obtain ⟨p, hp, hs⟩ := Except.bind_eq_ok (x := partitionedQZ _ D E) hs
    have := Except.ok.inj hs
    subst this
    exact ⟨_, hq⟩
  · intro s' q' hs' hq'
    rw [hs] at hs'
    have := Except.ok.inj hs'
    subst this
    rw [hq] at hq'
    have := Except.ok.inj hq'
    subst this
    exact ⟨_, hev, hu, hre⟩
  · exact (C148_check_iff_partial _ _ (fullLa_exact _) (fun _ => rfl) [[-1, 0], [0, 1]] t 1 J s _ _
      ⟨by decide, rfl, rfl, hs, hq, hev, hu⟩ (by decide) hre).mp hver

/-- `x = x(-1)/2 + e`, `w(+1) = 2*w` meets the hypotheses of C73 -/
example : ∃ (t : Llx) (J : Arr ℚ) (la : LinAlg ℚ), la.Exact ∧ la.RankExact ∧ la.Inverts ∧
    SupportedMix [[-1, 0], [0, 1]] ∧ buildLlx [[-1, 0], [0, 1]] = .ok t ∧ J.r = 2 ∧ J.c = t.count + 1 ∧
    la.Answers (Rat.castHom ℂ) t J ∧ OneBoundedPath (Rat.castHom ℂ) t 1 J :=
  ⟨svT, svJ, fullLa (diagQz [1/2, 2]), fullLa_exact _, fun _ => rfl, fullLa_inverts _, by
    unfold SupportedMix; decide, rfl, rfl, rfl, sv_facts⟩

#print axioms C73_accepted_partial
#print axioms C73_iff_partial

end Pynare

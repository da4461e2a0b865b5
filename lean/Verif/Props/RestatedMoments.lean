import Verif.Props.Restated
import Mathlib.LinearAlgebra.Dual.Lemmas
/-!
# C180: covariances and correlations of model files written in other variables
-/

namespace Pynare

set_option linter.unusedSectionVars false

variable {V : Type} [Field V] [LinearOrder V] [IsStrictOrderedRing V]

/-- a process that follows the policy functions of one model, measured differently, follows those of the other, if that
holds of numbers -/
theorem process_restated {t t' : Typer} (hp : t.drOrder.Perm (List.range t.n)) (hp' : t'.drOrder.Perm (List.range t'.n))
    {endo exo endo' exo' : List String} (hd : endo.Nodup) (hdx : exo.Nodup) (hl : endo.length = t.n)
    (hl' : endo'.length = t'.n) (hv : endo' ⊆ endo) (he : exo' ⊆ exo) {k j : String → V}
    {gy gu gy' gu' sigma sigma' : Arr V}
    (key : ∀ ym u y : String → V, FollowsPolicy t exo.length gy gu (byName endo ym) (byName exo u) (byName endo y) →
      FollowsPolicy t' exo'.length gy' gu' (byName endo' fun x => k x * ym x) (byName exo' fun x => j x * u x)
        (byName endo' fun x => k x * y x))
    (hsig : ScaledSquare j exo exo' sigma sigma')
    {M : Type} [AddCommGroup M] [Module V M] {cov : M →ₗ[V] M →ₗ[V] V} {y u : Nat → Nat → M}
    (p : LinearProcess t exo.length gy gu sigma cov y u) :
    LinearProcess t' exo'.length gy' gu' sigma' cov
      (fun i c => k (endo'[c]?.getD "") • y i (endo.idxOf (endo'[c]?.getD "")))
      (fun i l => j (exo'[l]?.getD "") • u i (exo.idxOf (exo'[l]?.getD ""))) := by
  have hx : ∀ l < exo'.length, ∃ z, exo'[l]? = some z ∧ exo'[l]?.getD "" = z ∧ exo[exo.idxOf z]? = some z ∧
      exo.idxOf z < exo.length := by
    intro l hl
    have hm : exo'[l] ∈ exo := he (List.getElem_mem hl)
    exact ⟨_, List.getElem?_eq_getElem hl, by rw [List.getElem?_eq_getElem hl, Option.getD_some], List.getElem?_idxOf hm,
      List.idxOf_lt_length_iff.mpr hm⟩
  have back : ∀ {l : List String} (w : Nat → V), l.Nodup → ∀ c < l.length, byName l (fun x => w (l.idxOf x)) c = w c := by
    intro l w hl c hc
    rw [byName_get (List.getElem?_eq_getElem hc), hl.idxOf_getElem]
  have row : ∀ {t : Typer}, t.drOrder.Perm (List.range t.n) → ∀ j < t.nBackward,
      t.drOrder[(t.permute t.drOrder).state[j]?.getD 0]?.getD 0 = t.drState[j]?.getD 0 := by
    intro t hp j hj
    have := drState_row hp hj
    rw [show t.drOrder[(t.permute t.drOrder).state[j]?.getD 0]? = some (t.drState[j]?.getD 0) from this, Option.getD_some]
  refine ⟨?_, p.symm, ?_, ?_, ?_⟩
  · intro i r c hr
    rw [← sub_eq_zero, ← Module.forall_dual_apply_eq_zero_iff V]
    intro f
    have src : FollowsPolicy t exo.length gy gu (byName endo fun x => f (y i (endo.idxOf x)))
        (byName exo fun x => f (u (i + 1) (exo.idxOf x))) (byName endo fun x => f (y (i + 1) (endo.idxOf x))) := by
      have g : FollowsPolicy t exo.length gy gu (fun c => f (y i c)) (fun l => f (u (i + 1) l)) fun c => f (y (i + 1) c) := by
        intro r c hr
        show f (y (i + 1) c) = _
        rw [p.policy i r c hr, map_add, sumTo_eq, sumTo_eq, sumTo_eq, sumTo_eq, map_sum, map_sum]
        congr 1
        · refine Finset.sum_congr rfl fun j hj => ?_
          rw [map_smul, smul_eq_mul, row hp j (Finset.mem_range.mp hj)]
        · refine Finset.sum_congr rfl fun j hj => ?_
          rw [map_smul, smul_eq_mul]
      exact followsPolicy_congr hp g (fun c hc => (back (fun c => f (y i c)) hd c (by omega)).symm)
        (fun c hc => (back (fun c => f (u (i + 1) c)) hdx c (by omega)).symm)
        (fun c hc => (back (fun c => f (y (i + 1) c)) hd c (by omega)).symm)
    have dst := key _ _ _ src r c hr
    rw [map_sub, map_add, map_smul, sub_eq_zero]
    refine dst.trans ?_
    rw [sumTo_eq, sumTo_eq, sumTo_eq, sumTo_eq, map_sum, map_sum]
    congr 1
    · refine Finset.sum_congr rfl fun j hj => ?_
      rw [map_smul, map_smul, smul_eq_mul, smul_eq_mul, row hp' j (Finset.mem_range.mp hj)]
      rfl
    · refine Finset.sum_congr rfl fun j hj => ?_
      rw [map_smul, map_smul, smul_eq_mul, smul_eq_mul]
      rfl
  · intro i l hl l' hl'
    obtain ⟨z, z1, z2, z3, z4⟩ := hx l hl
    obtain ⟨w, w1, w2, w3, w4⟩ := hx l' hl'
    simp only [z2, w2, map_smul, LinearMap.smul_apply, smul_eq_mul]
    rw [p.within i _ z4 _ w4, hsig _ _ _ _ z w z3 z1 w3 w1]
    ring
  · intro i i' hi l hl l' hl'
    obtain ⟨z, z1, z2, z3, z4⟩ := hx l hl
    obtain ⟨w, w1, w2, w3, w4⟩ := hx l' hl'
    simp only [z2, w2, map_smul, LinearMap.smul_apply, smul_eq_mul]
    rw [p.across i i' hi _ z4 _ w4, mul_zero, mul_zero]
  · intro i c l hl
    obtain ⟨z, z1, z2, z3, z4⟩ := hx l hl
    simp only [z2, map_smul, LinearMap.smul_apply, smul_eq_mul]
    rw [p.start i _ _ z4, mul_zero, mul_zero]

/-- **C180** (partial as C175).  A file says about `T x` of its variables and `U x` of its shocks what another says about
them directly.  If the covariances of the shocks are related by the derivatives of `U`, then the covariance of two
variables `x` and `z` in the second file is that in the first times the derivatives of `T x` and `T z` at the steady
state.  The shocks may be correlated. -/
theorem C180_covariance_partial {SS S : Type} (ψ : V →+* ℝ) (hψ : Monotone ψ) (r : ReadEnv V SS S) (lib lib' : Libs V)
    (ex : lib.la.Exact)
    (ex' : lib'.la.Exact) (had : lib.ad.Exact) (had' : lib'.ad.Exact) (hopt : FindsMinimum lib.opt)
    (hopt' : FindsMinimum lib'.opt) (hsub : ∀ a b, r.env.ops.bin .sub a b = .ok (a - b)) {text text' : List Char}
    {m m' : ModelFile V} (hw : WellPosed m) (hw' : WellPosed m') {ρ σ ρ' σ' : String → Option V}
    (hσ : FileVals r.env.ops m ρ σ) (hσ' : FileVals r.env.ops m' ρ' σ') {a k j : String → V} {T U : String → V → V}
    (hone : OneRest r.env.ops m σ a) (hone' : OneRest r.env.ops m' σ' fun x => T x (a x))
    {md md₁ md' md₁' : MState V (ModelSpace V) (Arr V × Arr V)}
    (h : ReadFrom (r.first lib) text m ρ md) (h' : ReadFrom (r.first lib') text' m' ρ' md')
    {gy gu gy' gu' : Arr V} (hsol : md.solve (r.env.first lib) = (md₁, .ok (gy, gu)))
    (hsol' : md'.solve (r.env.first lib') = (md₁', .ok (gy', gu')))
    (hc : PassesCheck (Complex.ofRealHom.comp ψ) lib.la md) (hc' : PassesCheck (Complex.ofRealHom.comp ψ) lib'.la md')
    (hvar : m'.names "var" ⊆ m.names "var") (hexo : m'.names "varexo" ⊆ m.names "varexo")
    (himp : RestatedNear r.env.ops m σ m' σ' a T U)
    (hT : ∀ x ∈ m'.names "var", HasSlope (T x) (a x) (k x))
    (hU : ∀ x ∈ m'.names "varexo", U x 0 = 0 ∧ HasSlope (U x) 0 (j x))
    (lyap lyap' : Lyap V) (ly : LyapExact lyap) (ly' : LyapExact lyap') (sigma sigma' C C' : Arr V)
    (hsym : ∀ i j, sigma.e i j = sigma.e j i)
    (hsig : ScaledSquare j (m.names "varexo") (m'.names "varexo") sigma sigma')
    (hC : covArr lib.la lyap md.indexes.toTyper md.statespace.space gy gu sigma = .ok C)
    (hC' : covArr lib'.la lyap' md'.indexes.toTyper md'.statespace.space gy' gu' sigma' = .ok C') :
    ScaledSquare k (m.names "var") (m'.names "var") C C' := by
  obtain ⟨ss, ss', key⟩ := C175_restated_partial _ r lib lib' ex ex' had had' hopt hopt' hsub hw hw' hσ hσ' hone hone' h h'
    hsol hsol' hc hc' hvar hexo himp hT hU
  obtain ⟨_, _, _, -, -, hm⟩ := read_solved hopt hsub hw hσ hone h hsol hc
  obtain ⟨_, _, _, -, -, hm'⟩ := read_solved hopt' hsub hw' hσ' hone' h' hsol' hc'
  obtain ⟨_, hn, pss, hl, hd⟩ := hm.determinate had
  obtain ⟨_, hn', pss', hl', hd'⟩ := hm'.determinate had'
  have hdd := (hd.det ex).1
  have hp := (groups hdd.cur).perm
  have hp' := (groups (hd'.det ex').1.cur).perm
  obtain ⟨sh, hg, -⟩ := hdd.stable hψ ex
  obtain ⟨M, _, _, cov, y, u, p, -⟩ := C62_exists (t := md.indexes.toTyper) (gy := gy) (gu := gu) (sigma := sigma) sh
    (X := ⟨0, 0, fun _ _ => 0⟩) (fun _ _ => rfl) hsym
  rw [hg] at p
  have p' := process_restated hp hp' hm.plain.distinct hm.plain.shocks (by omega) (by omega) hvar hexo key hsig p
  have e := (C146_moments_partial ψ hψ lib.la ex lyap ly pss _ _ _ gy gu sigma C _ _ _ hd hC).1 p
  have e' := (C146_moments_partial ψ hψ lib'.la ex' lyap' ly' pss' _ _ _ gy' gu' sigma' C' _ _ _ hd' hC').1 p'
  intro i i' c c' x z hx hx' hz hz'
  have il := List.getElem?_eq_some_iff.mp hx
  have jl := List.getElem?_eq_some_iff.mp hz
  have a := e i (by rw [hl]; exact il.1) c (by rw [hl]; exact jl.1)
  have b := e' i' (by rw [hl']; exact (List.getElem?_eq_some_iff.mp hx').1) c'
    (by rw [hl']; exact (List.getElem?_eq_some_iff.mp hz').1)
  have ei : (m.names "var").idxOf x = i := by rw [← il.2, hm.plain.distinct.idxOf_getElem]
  have ec : (m.names "var").idxOf z = c := by rw [← jl.2, hm.plain.distinct.idxOf_getElem]
  refine (sub_eq_zero.mp (zero_of_small fun ε hε => ?_)).symm
  have hpos : 0 < |k x * k z| + 1 := by positivity
  obtain ⟨n1, h1⟩ := a (ε / 2 / (|k x * k z| + 1)) (by positivity)
  obtain ⟨n2, h2⟩ := b (ε / 2) (by positivity)
  have h1 := h1 (max n1 n2) (le_max_left ..)
  have h2 := h2 (max n1 n2) (le_max_right ..)
  simp only [hx', hz', Option.getD_some, ei, ec, map_smul, LinearMap.smul_apply, smul_eq_mul] at h2
  rw [lt_div_iff₀ hpos] at h1
  set w := cov (y (max n1 n2 + 1) i) (y (max n1 n2 + 1) c)
  have h3 : |k x * k z * (w - C.e i c)| ≤ ε / 2 := by
    rw [abs_mul]
    nlinarith [abs_nonneg (w - C.e i c), abs_nonneg (k x * k z)]
  have : k x * k z * C.e i c - C'.e i' c' = (k x * (k z * w) - C'.e i' c') - k x * k z * (w - C.e i c) := by ring
  rw [this]
  calc _ ≤ |k x * (k z * w) - C'.e i' c'| + |k x * k z * (w - C.e i c)| := abs_sub ..
    _ < ε := by
      rw [show k x * (k z * w) = k z * (k x * w) by ring]
      linarith

/-- **C180** (partial as above).  The correlation of two variables changes its sign if one of them, and not the other, is
measured by a falling function.  Otherwise it is the same, or undefined in both. -/
theorem C180_correlation_partial {SS S : Type} (ψ : V →+* ℝ) (hψ : Monotone ψ) (r : ReadEnv V SS S) (lib lib' : Libs V)
    (ex : lib.la.Exact)
    (ex' : lib'.la.Exact) (had : lib.ad.Exact) (had' : lib'.ad.Exact) (hopt : FindsMinimum lib.opt)
    (hopt' : FindsMinimum lib'.opt) (hsub : ∀ a b, r.env.ops.bin .sub a b = .ok (a - b)) {text text' : List Char}
    {m m' : ModelFile V} (hw : WellPosed m) (hw' : WellPosed m') {ρ σ ρ' σ' : String → Option V}
    (hσ : FileVals r.env.ops m ρ σ) (hσ' : FileVals r.env.ops m' ρ' σ') {a k j : String → V} {T U : String → V → V}
    (hone : OneRest r.env.ops m σ a) (hone' : OneRest r.env.ops m' σ' fun x => T x (a x))
    {md md₁ md' md₁' : MState V (ModelSpace V) (Arr V × Arr V)}
    (h : ReadFrom (r.first lib) text m ρ md) (h' : ReadFrom (r.first lib') text' m' ρ' md')
    {gy gu gy' gu' : Arr V} (hsol : md.solve (r.env.first lib) = (md₁, .ok (gy, gu)))
    (hsol' : md'.solve (r.env.first lib') = (md₁', .ok (gy', gu')))
    (hc : PassesCheck (Complex.ofRealHom.comp ψ) lib.la md) (hc' : PassesCheck (Complex.ofRealHom.comp ψ) lib'.la md')
    (hvar : m'.names "var" ⊆ m.names "var") (hexo : m'.names "varexo" ⊆ m.names "varexo")
    (himp : RestatedNear r.env.ops m σ m' σ' a T U)
    (hT : ∀ x ∈ m'.names "var", HasSlope (T x) (a x) (k x)) (hk : ∀ x ∈ m'.names "var", k x ≠ 0)
    (hU : ∀ x ∈ m'.names "varexo", U x 0 = 0 ∧ HasSlope (U x) 0 (j x))
    (lyap lyap' : Lyap V) (ly : LyapExact lyap) (ly' : LyapExact lyap') (sq sq' : V → Option V)
    (sigma sigma' C C' : Arr V) (R R' : Arr (Option V)) (hsym : ∀ i j, sigma.e i j = sigma.e j i)
    (hsig : ScaledSquare j (m.names "varexo") (m'.names "varexo") sigma sigma')
    (hC : covArr lib.la lyap md.indexes.toTyper md.statespace.space gy gu sigma = .ok C)
    (hC' : covArr lib'.la lyap' md'.indexes.toTyper md'.statespace.space gy' gu' sigma' = .ok C')
    (hsq : ∀ c < (m.names "var").length, RootOf sq (C.e c c)) (hsq' : ∀ c < (m'.names "var").length, RootOf sq' (C'.e c c))
    (hR : corrArr lib.la lyap sq md.indexes.toTyper md.statespace.space gy gu sigma = .ok R)
    (hR' : corrArr lib'.la lyap' sq' md'.indexes.toTyper md'.statespace.space gy' gu' sigma' = .ok R') :
    ∀ (i i' c c' : Nat) x z, (m.names "var")[i]? = some x → (m'.names "var")[i']? = some x → (m.names "var")[c]? = some z →
      (m'.names "var")[c']? = some z → R'.e i' c' = (R.e i c).map fun v => if 0 < k x * k z then v else -v := by
  have key := C180_covariance_partial ψ hψ r lib lib' ex ex' had had' hopt hopt' hsub hw hw' hσ hσ' hone hone' h h'
    hsol hsol' hc hc' hvar hexo himp hT hU lyap lyap' ly ly' sigma sigma' C C' hsym hsig hC hC'
  simp only [corrArr, hC, hC', exc_bind] at hR hR'
  obtain rfl := Except.ok.inj hR
  obtain rfl := Except.ok.inj hR'
  have root : ∀ {i i' x}, (m.names "var")[i]? = some x → (m'.names "var")[i']? = some x →
      k x ≠ 0 ∧ ∃ r, sq (C.e i i) = some r ∧ sq' (C'.e i' i') = some (|k x| * r) := by
    intro i i' x hx hx'
    obtain ⟨r, e1, e2, e3⟩ := hsq i (List.getElem?_eq_some_iff.mp hx).1
    obtain ⟨r', e1', e2', e3'⟩ := hsq' i' (List.getElem?_eq_some_iff.mp hx').1
    refine ⟨hk x (List.mem_of_getElem? hx'), r, e1, ?_⟩
    rw [e1', Option.some.injEq]
    refine (mul_self_inj e2' (mul_nonneg (abs_nonneg _) e2)).mp ?_
    rw [e3', key i i' i i' x x hx hx' hx hx', ← e3, mul_mul_mul_comm |k x|, abs_mul_abs_self]
  intro i i' c c' x z hx hx' hz hz'
  obtain ⟨hkx, r, e1, e2⟩ := root hx hx'
  obtain ⟨hkz, q, e3, e4⟩ := root hz hz'
  show scaled _ _ _ = (scaled _ _ _).map _
  rw [e1, e2, e3, e4, key i i' c c' x z hx hx' hz hz']
  have hkk : |k x * k z| ≠ 0 := abs_ne_zero.mpr (mul_ne_zero hkx hkz)
  have e : |k x| * r * (|k z| * q) = |k x * k z| * (r * q) := by rw [abs_mul]; ring
  simp only [scaled, e, mul_eq_zero_iff_left hkk]
  split
  · rfl
  rw [Option.map_some, Option.some.injEq]
  split
  · rename_i hs
    rw [abs_of_pos hs] at hkk ⊢
    rw [mul_div_mul_left _ _ hkk]
  · rename_i hs
    rw [abs_of_nonpos (not_lt.mp hs)] at hkk ⊢
    rw [neg_mul, div_neg, mul_div_mul_left _ _ (neg_ne_zero.mp hkk)]

#print axioms C180_covariance_partial
#print axioms C180_correlation_partial

end Pynare

import Verif.Lemmas.Combined
import Verif.Props.RewrittenSecond
/-!
# C170: model files whose equations are linear combinations of those of others
-/

namespace Pynare

set_option linter.unusedSectionVars false

variable {V : Type} [Field V] [LinearOrder V] [IsStrictOrderedRing V]

namespace SecondText
variable {S S' : Type} {φ : V →+* ℂ} {ops : Ops V} {okName : String → Bool} {lib lib' : Libs V} {m m' : ModelFile V}
    {σ σ' : String → Option V} {a : String → V} {md : MState V (ModelSpace V) S} {md' : MState V (ModelSpace V) S'}
    {H sigma gy gu H' sigma' gy' gu' : Arr V} {so so' : SecondNd V} {q q' : QZ V} {ev ev' : Nat → Option ℂ}

/-- the equations, expanded to second order -/
theorem taylor (h : SecondText φ ops okName lib m σ a md H sigma gy gu so q ev) :
    ∀ (i : Nat) f, md.dynamic[i]? = some f → IsTaylorAt f (linPoint md.indexes.toTyper (m.names "varexo").length
      ((m.names "var").map a)) (md.statespace.jacobian.e i) (H.e i) := by
  obtain ⟨ρ, pt, tf⟩ := h.facts
  have hJ := (modelSpace_ok tf.space).2.2.2.2.2.1
  obtain ⟨h1, h2, h3, J, hJ', h4⟩ := hessian_taylor lib.ad h.ad tf.table _ _ _ h.twice _ h.hessian
  rw [hJ] at hJ'
  cases hJ'
  rw [h.steady] at h4
  exact h4

theorem rows_H (h : SecondText φ ops okName lib m σ a md H sigma gy gu so q ev) {pss : List (List Int)}
    (hp : pss.length = (m.names "var").length) : H.r = pss.length := by
  have := (modelHessian_get h.ad h.hessian).1
  obtain ⟨ρ, pt, tf⟩ := h.facts
  have h1 := tf.rep.dynamicLength
  have h2 := h.posed.square
  omega

/-- the derivatives of equations that are combinations of those of another file -/
theorem rows (hsub : ∀ a b, ops.bin .sub a b = .ok (a - b))
    (h : SecondText φ ops okName lib m σ a md H sigma gy gu so q ev)
    (h' : SecondText φ ops okName lib' m' σ' a md' H' sigma' gy' gu' so' q' ev')
    (hc : CombinesNear ops m' σ' m σ a) {i : Nat} (hi : i < md.indexes.n) :
    ∃ c : Nat → V,
      (∀ d : Around V, linearised md.indexes (m.names "varexo").length md.statespace.jacobian i d.before d.now d.after d.shock =
        sumTo md'.indexes.n fun i' => c i' *
          linearised md'.indexes (m'.names "varexo").length md'.statespace.jacobian i'
            (reorder (m.names "var") (m'.names "var") d.before) (reorder (m.names "var") (m'.names "var") d.now)
            (reorder (m.names "var") (m'.names "var") d.after) (reorder (m.names "varexo") (m'.names "varexo") d.shock)) ∧
      ∀ d e : Around V, curvature md.indexes (m.names "varexo").length H i d e =
        sumTo md'.indexes.n fun i' => c i' *
          curvature md'.indexes (m'.names "varexo").length H' i'
            (d.reorder (m.names "var") (m.names "varexo") (m'.names "var") (m'.names "varexo"))
            (e.reorder (m.names "var") (m.names "varexo") (m'.names "var") (m'.names "varexo")) := by
  obtain ⟨ρ, pt, tf⟩ := h.facts
  obtain ⟨ρ', pt', tf'⟩ := h'.facts
  obtain ⟨-, hn, pss, hp, -⟩ := h.model.toSolvedModel.determinate h.ad
  obtain ⟨-, hn', pss', hp', -⟩ := h'.model.toSolvedModel.determinate h'.ad
  have hsq := h.posed.square
  have hsq' := h'.posed.square
  have d1 := h.model.plain.distinct
  have dx := h.model.plain.shocks
  obtain ⟨⟨l, r⟩, hlr⟩ : ∃ p, (equations m.stmts)[i]? = some p := ⟨_, List.getElem?_eq_getElem (by omega)⟩
  obtain ⟨c, key⟩ := hc.rows hsub tf'.toTextBase tf.toTextBase h'.plain h.plain h'.posed h.posed h'.taylor h.taylor h'.rest
    h.rest hlr
  have e : (equations m'.stmts).length = md'.indexes.n := by omega
  rw [e] at key
  have self : ∀ {l : List String} (w : Nat → V), l.Nodup → ∀ c < l.length, w c = byName l (fun x => w (l.idxOf x)) c := by
    intro l w hl c hc
    rw [byName_get (List.getElem?_eq_getElem hc), hl.idxOf_getElem]
  have sq : ∀ d : Around V, curvature md.indexes (m.names "varexo").length H i d d =
        sumTo md'.indexes.n fun i' => c i' *
          curvature md'.indexes (m'.names "varexo").length H' i'
            (d.reorder (m.names "var") (m.names "varexo") (m'.names "var") (m'.names "varexo"))
            (d.reorder (m.names "var") (m.names "varexo") (m'.names "var") (m'.names "varexo")) := by
    intro d
    refine Eq.trans ?_ (key (fun x => d.before ((m.names "var").idxOf x)) (fun x => d.now ((m.names "var").idxOf x))
      (fun x => d.after ((m.names "var").idxOf x)) (fun x => d.shock ((m.names "varexo").idxOf x))).2
    exact curvature_within (fun c hc => self _ d1 c (by omega)) (fun c hc => self _ d1 c (by omega))
        (fun c hc => self _ d1 c (by omega)) (fun k hk => self _ dx k hk)
        (fun c hc => self _ d1 c (by omega)) (fun c hc => self _ d1 c (by omega))
        (fun c hc => self _ d1 c (by omega)) (fun k hk => self _ dx k hk)
  refine ⟨c, fun d => ?_, fun d e => ?_⟩
  · refine Eq.trans ?_ (key (fun x => d.before ((m.names "var").idxOf x)) (fun x => d.now ((m.names "var").idxOf x))
      (fun x => d.after ((m.names "var").idxOf x)) (fun x => d.shock ((m.names "varexo").idxOf x))).1
    exact linearised_within (fun c hc => self _ d1 c (by omega)) (fun c hc => self _ d1 c (by omega))
        (fun c hc => self _ d1 c (by omega)) (fun k hk => self _ dx k hk)
  · have p := curvature_polar tf.table (h.model.symmetric i hi) d e
    rw [sq, sq, sq] at p
    have p' : (2 : V) * (sumTo md'.indexes.n fun i' => c i' *
          curvature md'.indexes (m'.names "varexo").length H' i'
            (d.reorder (m.names "var") (m.names "varexo") (m'.names "var") (m'.names "varexo"))
            (e.reorder (m.names "var") (m.names "varexo") (m'.names "var") (m'.names "varexo"))) =
        (sumTo md'.indexes.n fun i' => c i' *
          curvature md'.indexes (m'.names "varexo").length H' i'
            ((d.plus e).reorder (m.names "var") (m.names "varexo") (m'.names "var") (m'.names "varexo"))
            ((d.plus e).reorder (m.names "var") (m.names "varexo") (m'.names "var") (m'.names "varexo"))) -
        (sumTo md'.indexes.n fun i' => c i' *
          curvature md'.indexes (m'.names "varexo").length H' i'
            (d.reorder (m.names "var") (m.names "varexo") (m'.names "var") (m'.names "varexo"))
            (d.reorder (m.names "var") (m.names "varexo") (m'.names "var") (m'.names "varexo"))) -
        (sumTo md'.indexes.n fun i' => c i' *
          curvature md'.indexes (m'.names "varexo").length H' i'
            (e.reorder (m.names "var") (m.names "varexo") (m'.names "var") (m'.names "varexo"))
            (e.reorder (m.names "var") (m.names "varexo") (m'.names "var") (m'.names "varexo"))) := by
      simp only [sumTo_eq, Finset.mul_sum, ← Finset.sum_sub_distrib]
      refine Finset.sum_congr rfl fun i' hi' => ?_
      have := curvature_polar tf'.table (h'.model.symmetric i' (Finset.mem_range.mp hi'))
        (d.reorder (m.names "var") (m.names "varexo") (m'.names "var") (m'.names "varexo"))
        (e.reorder (m.names "var") (m.names "varexo") (m'.names "var") (m'.names "varexo"))
      rw [← mul_sub, ← mul_sub]
      show _ = c i' * (curvature md'.indexes (m'.names "varexo").length H' i'
        ((d.reorder (m.names "var") (m.names "varexo") (m'.names "var") (m'.names "varexo")).plus
          (e.reorder (m.names "var") (m.names "varexo") (m'.names "var") (m'.names "varexo")))
        ((d.reorder (m.names "var") (m.names "varexo") (m'.names "var") (m'.names "varexo")).plus
          (e.reorder (m.names "var") (m.names "varexo") (m'.names "var") (m'.names "varexo"))) - _ - _)
      rw [← this]
      ring
    rw [← p'] at p
    exact mul_left_cancel₀ two_ne_zero p

/-- the correction for risk of one file is that of the other -/
theorem risk (hsub : ∀ a b, ops.bin .sub a b = .ok (a - b))
    (h : SecondText φ ops okName lib m σ a md H sigma gy gu so q ev)
    (h' : SecondText φ ops okName lib' m' σ' a md' H' sigma' gy' gu' so' q' ev')
    (hvar : ∀ x, x ∈ m'.names "var" ↔ x ∈ m.names "var") (hexo : ∀ x, x ∈ m'.names "varexo" ↔ x ∈ m.names "varexo")
    (hc : CombinesNear ops m σ m' σ' a) (hc' : CombinesNear ops m' σ' m σ a)
    (hs : SameSquare (m.names "varexo") (m'.names "varexo") sigma sigma') (c : String → V)
    (hr : RiskTerm md'.indexes.toTyper (so'.stored (1 / 2)) (byName (m'.names "var") c)) :
    RiskTerm md.indexes.toTyper (so.stored (1 / 2)) (byName (m.names "var") c) := by
  have P := onePolicy hsub h h' hvar hexo hc.implies hc'.implies
  have hF := h.terms hsub h' hvar hexo hc.implies hc'.implies
  obtain ⟨-, hn, pss, hp, hd⟩ := h.model.toSolvedModel.determinate h.ad
  obtain ⟨-, hn', pss', hp', hd'⟩ := h'.model.toSolvedModel.determinate h'.ad
  have half : (2 : V) * (1 / 2) = 1 := by norm_num
  have hF' := secondFun_terms P.perm' (m'.names "varexo").length (so'.stored (1 / 2))
  have r' := (C153_risk_partial φ lib'.la h'.la lib'.qz h'.qz (1 / 2) half pss' md'.indexes _ _ H' sigma' gy' gu' _ q' ev'
    hd' (h'.rows_H hp') ⟨h'.model.sigma_rows, h'.model.sigma_cols⟩ h'.model.sigma_symm so' h'.model.second _ hF' _).mpr hr
  have r := (C153_risk_partial φ lib.la h.la lib.qz h.qz (1 / 2) half pss md.indexes _ _ H sigma gy gu _ q ev
    hd (h.rows_H hp) ⟨h.model.sigma_rows, h.model.sigma_cols⟩ h.model.sigma_symm so h.model.second _ hF _).mp
    (P.risk hs secondFun_ext r' (by
      intro lead c e hz i hi
      obtain ⟨k, k1, k2⟩ := h.rows hsub h' hc' hi
      have e1 := k1 ⟨fun _ => 0, c, e, fun _ => 0⟩
      simp only at e1
      rw [e1]
      have e2 : overShocks (m.names "varexo").length sigma (fun j l => curvature md.indexes (m.names "varexo").length H i
          ⟨fun _ => 0, fun _ => 0, lead j, fun _ => 0⟩ ⟨fun _ => 0, fun _ => 0, lead l, fun _ => 0⟩) =
          sumTo md'.indexes.n fun i' => k i' * overShocks (m.names "varexo").length sigma fun j l =>
            curvature md'.indexes (m'.names "varexo").length H' i'
              ((⟨fun _ => 0, fun _ => 0, lead j, fun _ => 0⟩ : Around V).reorder (m.names "var") (m.names "varexo")
                (m'.names "var") (m'.names "varexo"))
              ((⟨fun _ => 0, fun _ => 0, lead l, fun _ => 0⟩ : Around V).reorder (m.names "var") (m.names "varexo")
                (m'.names "var") (m'.names "varexo")) := by
        unfold overShocks
        simp only [k2, sumTo_eq, Finset.mul_sum]
        rw [Finset.sum_comm' (s := Finset.range md'.indexes.n) (t := fun _ => Finset.range (m.names "varexo").length)
          (t' := Finset.range (m.names "varexo").length) (s' := fun _ => Finset.range md'.indexes.n) (by simp)]
        refine Finset.sum_congr rfl fun j _ => ?_
        rw [Finset.sum_comm]
        exact Finset.sum_congr rfl fun l _ => Finset.sum_congr rfl fun i' _ => by ring
      rw [e2]
      simp only [sumTo_eq, Finset.mul_sum, ← Finset.sum_add_distrib]
      refine Finset.sum_eq_zero fun i' hi' => ?_
      refine Eq.trans ?_ ((congrArg (k i' * ·) (hz i' (Finset.mem_range.mp hi'))).trans (mul_zero _))
      have hz' : ∀ l l' : List String, reorder l l' (fun _ => (0 : V)) = fun _ => 0 := fun _ _ => rfl
      rw [hz', hz']
      ring))
  exact riskTerm_within P.perm r fun v hv => reorder_byName P.permNames.symm c (by omega)

end SecondText

/-- **C170** (partial: for files whose shocks block the covariance matrix can represent, with equations that the
differentiation routine differentiates twice exactly, solved to second order, whose state spaces pass the check and have no
eigenvalue of modulus one).  Two model files declare the same variables and shocks and make the same statements about the
shocks, in whatever order.  Near the steady state `a` reported for both, which satisfies the equations, the equations of
each are linear combinations with constant coefficients of those of the other.  Then they have the same second-order
solution: values of last period, shocks and present values, all given by name, are related by one, with the correction for
risk multiplied by any number `κ`, if and only if they are by the other. -/
theorem C170_combined_partial {SS S : Type} (φ : V →+* ℂ) (r : ReadEnv V SS S) (lib lib' : Libs V) (ex : lib.la.Exact)
    (ex' : lib'.la.Exact) (had : lib.ad.Exact) (had' : lib'.ad.Exact) (hqz : GQZExact lib.qz) (hqz' : GQZExact lib'.qz)
    (hsub : ∀ a b, r.env.ops.bin .sub a b = .ok (a - b)) {text text' : List Char} {m m' : ModelFile V}
    (hw : WellPosed m) (hw' : WellPosed m') {ρ σ σ' : String → Option V}
    (hσ : FileVals r.env.ops m ρ σ) (hσ' : FileVals r.env.ops m' ρ σ')
    {md md₁ md' md₁' : MState V (ModelSpace V) ((Arr V × Arr V) × SecondNd V)}
    (h : ReadFrom (r.second lib (1 / 2)) text m ρ md) (h' : ReadFrom (r.second lib' (1 / 2)) text' m' ρ md')
    (had2 : ∀ f ∈ md.dynamic,
      lib.ad.SecondExactAt f (linPoint md.indexes.toTyper (m.names "varexo").length md.statespace.steady))
    (had2' : ∀ f ∈ md'.dynamic,
      lib'.ad.SecondExactAt f (linPoint md'.indexes.toTyper (m'.names "varexo").length md'.statespace.steady))
    {b b' : Shocks V} (hb : m.actions.shocks = some b) (hb' : m'.actions.shocks = some b') (hbs : b'.shocks.Perm b.shocks)
    (hp : PlainShocks (m.names "varexo") b.shocks)
    (hval : ∀ s ∈ b.shocks, ∀ x, s.isVarOf x → ∃ v, SetsVar r.env.ops r.sq ρ s x v)
    (hpair : ∀ x y e, Shock.corr x y e ∈ b.shocks ∨ Shock.cov x y e ∈ b.shocks → ∃ v, Evals r.env.ops ρ e v)
    {gy gu gy' gu' : Arr V} {so so' : SecondNd V}
    (hsol : md.solve (r.env.second lib (1 / 2)) = (md₁, .ok ((gy, gu), so)))
    (hsol' : md'.solve (r.env.second lib' (1 / 2)) = (md₁', .ok ((gy', gu'), so')))
    (hc : PassesCheck φ lib.la md) (hc' : PassesCheck φ lib'.la md')
    (hvar : (m'.names "var").Perm (m.names "var")) (hexo : (m'.names "varexo").Perm (m.names "varexo"))
    {a : String → V} (hss : md.statespace.steady = (m.names "var").map a)
    (hss' : md'.statespace.steady = (m'.names "var").map a)
    (hrest : ∀ l r', (l, r') ∈ equations m.stmts →
      GapIs r.env.ops m σ (levelsAt ((m.names "var").map a) noDev) l r' 0)
    (hcom : CombinesNear r.env.ops m σ m' σ' a) (hcom' : CombinesNear r.env.ops m' σ' m σ a) (κ : V) (ym u y : String → V) :
    FollowsRisk md.indexes.toTyper (m.names "varexo").length so gy gu κ (byName (m.names "var") ym)
        (byName (m.names "varexo") u) (byName (m.names "var") y) ↔
      FollowsRisk md'.indexes.toTyper (m'.names "varexo").length so' gy' gu' κ (byName (m'.names "var") ym)
        (byName (m'.names "varexo") u) (byName (m'.names "var") y) := by
  have hp' : PlainShocks (m'.names "varexo") b'.shocks := hp.perm hbs hexo
  obtain ⟨σ₁, H, sig, so₀, q, ev, v1, rfl, v3, hm, hH⟩ := read_second had hw h had2 hb hp hval hpair hsol hc
  obtain ⟨σ₁', H', sig', so₀', q', ev', v1', rfl, v3', hm', hH'⟩ := read_second had' hw' h' had2' hb' hp'
    (fun s hs => hval s (hbs.mem_iff.mp hs))
    (fun x y e he => hpair x y e (he.imp hbs.mem_iff.mp hbs.mem_iff.mp)) hsol' hc'
  obtain rfl : σ₁ = σ := exec_unique v1.model hσ.model
  obtain rfl : σ₁' = σ' := exec_unique v1'.model hσ'.model
  obtain ⟨σ₂, pt, tf⟩ := text_facts (lib := lib) rfl h
  obtain ⟨σ₂', pt', tf'⟩ := text_facts (lib := lib') rfl h'
  obtain rfl : σ₁ = σ₂ := exec_unique v1.model tf.vals.model
  obtain rfl : σ₁' = σ₂' := exec_unique v1'.model tf'.vals.model
  have T : SecondText φ r.env.ops r.env.okName lib m σ₁ a md H _ gy gu so₀ q ev :=
    ⟨ex, had, hqz, hw, h.equations, ⟨ρ, pt, tf⟩, hss, hrest, had2, hm, hH⟩
  have T' : SecondText φ r.env.ops r.env.okName lib' m' σ₁' a md' H' _ gy' gu' so₀' q' ev' :=
    ⟨ex', had', hqz', hw', h'.equations, ⟨ρ, pt', tf'⟩, hss', hcom.implies.rest hrest, had2', hm', hH'⟩
  have hsig : SameSquare (m.names "varexo") (m'.names "varexo")
      ⟨(m.names "varexo").length, (m.names "varexo").length, sig⟩
      ⟨(m'.names "varexo").length, (m'.names "varexo").length, sig'⟩ := by
    intro i i' j j' x y hi hi' hj hj'
    obtain ⟨v, hv⟩ := sigma_values (sqrt := r.env.sqrt) hm.plain.shocks hp hval hpair x y
    exact (hv (.refl _) (.refl _) v3 i j hi hj).1.trans (hv hexo hbs v3' i' j' hi' hj').1.symm
  have v1 := fun x => hvar.mem_iff (a := x)
  have v2 := fun x => hexo.mem_iff (a := x)
  have w1 := fun x => (v1 x).symm
  have w2 := fun x => (v2 x).symm
  have i1 := hcom.implies
  have i2 := hcom'.implies
  have P := T.onePolicy hsub T' v1 v2 i1 i2
  have P' := T'.onePolicy hsub T w1 w2 i2 i1
  exact ⟨followsRisk_relay P.perm P'.perm P.size P'.size P.nodup P.permNames (fun y => (P.policy ym u y).mp)
      (fun w => P'.terms (T'.terms hsub T w1 w2 i2 i1) ym u w)
      (T'.risk hsub T w1 w2 hcom' hcom fun i i' j j' x y h1 h2 h3 h4 => (hsig i' i j' j x y h2 h1 h4 h3).symm),
    followsRisk_relay P'.perm P.perm P'.size P.size P'.nodup P'.permNames (fun y => (P'.policy ym u y).mp)
      (fun w => P.terms (T.terms hsub T' v1 v2 i1 i2) ym u w) (T.risk hsub T' v1 v2 hcom hcom' hsig)⟩

/-! ### exchanging the sides of equations -/

theorem sumTo_single {n : Nat} {f : Nat → V} {j : Nat} (hj : j < n) (h : ∀ i < n, i ≠ j → f i = 0) : sumTo n f = f j := by
  rw [sumTo_eq]
  refine Finset.sum_eq_single_of_mem j (Finset.mem_range.mpr hj) fun i hi hij => h i (Finset.mem_range.mp hi) hij

theorem SidesExchanged.combines {ops : Ops V} {m m' : ModelFile V} (h : SidesExchanged m m') (σ : String → Option V)
    (a : String → V) : CombinesNear ops m σ m' σ a := by
  intro l' r' hlr
  have side : ∀ {L : Around V} {e : Expr V} {v : V}, SideValue ops m σ L e v → SideValue ops m' σ L e v := by
    intro L e v he
    unfold SideValue at he ⊢
    rwa [h.names, h.names]
  have nm : ∀ ym y yp u, named m' ym y yp u = named m ym y yp u := by
    intro ym y yp u
    unfold named
    rw [h.names, h.names]
  have one : ∀ {j : Nat} (k : V) (w : Nat → V), j < (Pynare.equations m.stmts).length →
      (sumTo (Pynare.equations m.stmts).length fun i => (if i = j then k else 0) * w i) = k * w j := by
    intro j k w hj
    rw [sumTo_single hj fun i _ hij => by rw [if_neg hij, zero_mul], if_pos rfl]
  rcases h.mem hlr with h1 | h1
  · obtain ⟨j, hj⟩ := List.getElem?_of_mem h1
    refine ⟨fun i => if i = j then 1 else 0, 1, one_pos, fun ym y yp u _ _ w hw => ?_⟩
    rw [one _ _ (List.getElem?_eq_some_iff.mp hj).1, nm, one_mul]
    obtain ⟨x, y, a, b, c⟩ := hw j _ _ hj
    exact ⟨x, y, side a, side b, c⟩
  · obtain ⟨j, hj⟩ := List.getElem?_of_mem h1
    refine ⟨fun i => if i = j then -1 else 0, 1, one_pos, fun ym y yp u _ _ w hw => ?_⟩
    rw [one _ _ (List.getElem?_eq_some_iff.mp hj).1, nm]
    obtain ⟨x, y, a, b, c⟩ := hw j _ _ hj
    exact ⟨y, x, side b, side a, by rw [← c]; ring⟩

/-- **C170** (partial as above).  Exchanging the two sides of some equations of a file, or the order of the statements about
the shocks, does not change the second-order solution, with the correction for risk. -/
theorem C170_exchanged_partial {SS S : Type} (φ : V →+* ℂ) (r : ReadEnv V SS S) (lib lib' : Libs V) (ex : lib.la.Exact)
    (ex' : lib'.la.Exact) (had : lib.ad.Exact) (had' : lib'.ad.Exact) (hqz : GQZExact lib.qz) (hqz' : GQZExact lib'.qz)
    (hsub : ∀ a b, r.env.ops.bin .sub a b = .ok (a - b)) {text text' : List Char} {m m' : ModelFile V}
    (hex : SidesExchanged m m') (hw : WellPosed m) {ρ σ : String → Option V} (hσ : FileVals r.env.ops m ρ σ)
    {md md₁ md' md₁' : MState V (ModelSpace V) ((Arr V × Arr V) × SecondNd V)}
    (h : ReadFrom (r.second lib (1 / 2)) text m ρ md) (h' : ReadFrom (r.second lib' (1 / 2)) text' m' ρ md')
    (had2 : ∀ f ∈ md.dynamic,
      lib.ad.SecondExactAt f (linPoint md.indexes.toTyper (m.names "varexo").length md.statespace.steady))
    (had2' : ∀ f ∈ md'.dynamic,
      lib'.ad.SecondExactAt f (linPoint md'.indexes.toTyper (m.names "varexo").length md'.statespace.steady))
    {b b' : Shocks V} (hb : m.actions.shocks = some b) (hb' : m'.actions.shocks = some b') (hbs : b'.shocks.Perm b.shocks)
    (hp : PlainShocks (m.names "varexo") b.shocks)
    (hval : ∀ s ∈ b.shocks, ∀ x, s.isVarOf x → ∃ v, SetsVar r.env.ops r.sq ρ s x v)
    (hpair : ∀ x y e, Shock.corr x y e ∈ b.shocks ∨ Shock.cov x y e ∈ b.shocks → ∃ v, Evals r.env.ops ρ e v)
    {gy gu gy' gu' : Arr V} {so so' : SecondNd V}
    (hsol : md.solve (r.env.second lib (1 / 2)) = (md₁, .ok ((gy, gu), so)))
    (hsol' : md'.solve (r.env.second lib' (1 / 2)) = (md₁', .ok ((gy', gu'), so')))
    (hc : PassesCheck φ lib.la md) (hc' : PassesCheck φ lib'.la md')
    {a : String → V} (hss : md.statespace.steady = (m.names "var").map a)
    (hss' : md'.statespace.steady = (m.names "var").map a)
    (hrest : ∀ l r', (l, r') ∈ equations m.stmts →
      GapIs r.env.ops m σ (levelsAt ((m.names "var").map a) noDev) l r' 0) (κ : V) (ym u y : String → V) :
    FollowsRisk md.indexes.toTyper (m.names "varexo").length so gy gu κ (byName (m.names "var") ym)
        (byName (m.names "varexo") u) (byName (m.names "var") y) ↔
      FollowsRisk md'.indexes.toTyper (m.names "varexo").length so' gy' gu' κ (byName (m.names "var") ym)
        (byName (m.names "varexo") u) (byName (m.names "var") y) := by
  have := C170_combined_partial φ r lib lib' ex ex' had had' hqz hqz' hsub hw (hex.posed hw) hσ (hex.vals hσ) h h' had2
    (by rw [hex.names]; exact had2') hb hb' hbs hp hval hpair hsol hsol' hc hc' (by rw [hex.names]) (by rw [hex.names]) hss
    (by rw [hex.names]; exact hss') hrest (hex.combines σ a) (hex.symm.combines σ a) κ ym u y
  rwa [hex.names, hex.names] at this

#print axioms C170_combined_partial
#print axioms C170_exchanged_partial

end Pynare

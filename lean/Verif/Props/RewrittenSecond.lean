import Verif.Lemmas.RewrittenSecond
import Verif.Props.Rewritten
import Verif.Props.WholeOrderSecond
/-!
# C169: model files written with other equations, solved to second order
-/

namespace Pynare

set_option linter.unusedSectionVars false

variable {V : Type} [Field V] [LinearOrder V] [IsStrictOrderedRing V]

/-- the equations that are implied hold where the others do -/
theorem ImpliesNear.rest {ops : Ops V} {m m' : ModelFile V} {σ σ' : String → Option V} {a : String → V}
    (h : ImpliesNear ops m σ m' σ' a)
    (hr : ∀ l r, (l, r) ∈ equations m.stmts → GapIs ops m σ (levelsAt ((m.names "var").map a) noDev) l r 0) :
    ∀ l r, (l, r) ∈ equations m'.stmts → GapIs ops m' σ' (levelsAt ((m'.names "var").map a) noDev) l r 0 := by
  obtain ⟨K, δ, hδ, h⟩ := h
  have lv : ∀ m : ModelFile V, (∀ c < (m.names "var").length,
      (levelsAt ((m.names "var").map a) noDev).before c = (named m a a a fun _ => 0).before c ∧
      (levelsAt ((m.names "var").map a) noDev).now c = (named m a a a fun _ => 0).now c ∧
      (levelsAt ((m.names "var").map a) noDev).after c = (named m a a a fun _ => 0).after c) ∧
      ∀ k < (m.names "varexo").length, (levelsAt ((m.names "var").map a) noDev).shock k =
        (named m a a a fun _ => 0).shock k := by
    intro m
    refine ⟨fun c hc => ?_, fun k hk => ?_⟩
    · simp [levelsAt, named, noDev, byName, vecEntry, hc]
    · simp [levelsAt, named, noDev, byName]
  have := h a a a (fun _ => 0) (fun x _ => by simp [hδ.le]) (fun x _ => by simp [hδ.le]) 0
    (metWithin_within (lv m).1 (lv m).2 (met_zero.mpr hr))
  rw [mul_zero] at this
  exact met_zero.mp (metWithin_within (fun c hc => ⟨((lv m').1 c hc).1.symm, ((lv m').1 c hc).2.1.symm, ((lv m').1 c hc).2.2.symm⟩)
    (fun k hk => ((lv m').2 k hk).symm) this)

/-- what is known of a file that was read and solved to second order -/
structure SecondText {S : Type} (φ : V →+* ℂ) (ops : Ops V) (okName : String → Bool) (lib : Libs V) (m : ModelFile V)
    (σ : String → Option V) (a : String → V) (md : MState V (ModelSpace V) S) (H sigma gy gu : Arr V)
    (so : SecondNd V) (q : QZ V) (ev : Nat → Option ℂ) : Prop where
  la : lib.la.Exact
  ad : lib.ad.Exact
  qz : GQZExact lib.qz
  posed : WellPosed m
  plain : PlainEquations m
  facts : ∃ ρ pt, TextFacts ops lib m ρ σ md pt
  steady : md.statespace.steady = (m.names "var").map a
  rest : ∀ l r, (l, r) ∈ equations m.stmts → GapIs ops m σ (levelsAt ((m.names "var").map a) noDev) l r 0
  twice : ∀ f ∈ md.dynamic,
    lib.ad.SecondExactAt f (linPoint md.indexes.toTyper (m.names "varexo").length md.statespace.steady)
  model : SecondModel φ ops okName lib.ad lib.la lib.qz (1 / 2) σ (m.names "var") (m.names "varexo")
        ((equations m.stmts).map fun p => .bin .sub p.1 p.2) md.statespace.steady md.indexes md.statespace.jacobian H
        sigma gy gu so md.statespace.space q ev
  hessian : modelHessian lib.ad md.indexes.toTyper (m.names "varexo").length md.dynamic md.statespace.steady = .ok H

namespace SecondText
variable {S S' : Type} {φ : V →+* ℂ} {ops : Ops V} {okName : String → Bool} {lib lib' : Libs V} {m m' : ModelFile V}
    {σ σ' : String → Option V} {a : String → V} {md : MState V (ModelSpace V) S} {md' : MState V (ModelSpace V) S'}
    {H sigma gy gu H' sigma' gy' gu' : Arr V} {so so' : SecondNd V} {q q' : QZ V} {ev ev' : Nat → Option ℂ}

/-- paths that follow the solution satisfy the linearised equations -/
theorem linear (h : SecondText φ ops okName lib m σ a md H sigma gy gu so q ev) {ym u y yp : Nat → V}
    (hy : FollowsPolicy md.indexes.toTyper (m.names "varexo").length gy gu ym u y)
    (hyp : FollowsPolicy md.indexes.toTyper (m.names "varexo").length gy gu y (fun _ => 0) yp) :
    ∀ i < md.statespace.jacobian.r,
      linearised md.indexes (m.names "varexo").length md.statespace.jacobian i ym y yp u = 0 := by
  obtain ⟨hr, hn, pss, hp, hd⟩ := h.model.toSolvedModel.determinate h.ad
  obtain ⟨d, -⟩ := hd.det h.la
  intro i hi
  exact linearised_zero h.la d.cur d.static d.square d.space (d.separated h.la) d.solved hy hyp i (by rw [← d.square]; exact hi)

/-- the curves that satisfy the equations to second order -/
theorem second (hsub : ∀ a b, ops.bin .sub a b = .ok (a - b))
    (h : SecondText φ ops okName lib m σ a md H sigma gy gu so q ev) (d e : Around V)
    (hd : ∀ i < md.statespace.jacobian.r, linearised md.indexes (m.names "varexo").length md.statespace.jacobian i
      d.before d.now d.after d.shock = 0) :
    SolvesToSecondOrder ops m σ ((m.names "var").map a) d e ↔
      ∀ i < md.statespace.jacobian.r, 1 / 2 * curvature md.indexes (m.names "varexo").length H i d d +
        linearised md.indexes (m.names "varexo").length md.statespace.jacobian i e.before e.now e.after e.shock = 0 := by
  obtain ⟨ρ, pt, tf⟩ := h.facts
  have hJ := (modelSpace_ok tf.space).2.2.2.2.2.1
  obtain ⟨h1, h2, h3, J, hJ', h4⟩ := hessian_taylor lib.ad h.ad tf.table _ _ _ h.twice _ h.hessian
  rw [hJ] at hJ'
  cases hJ'
  rw [h.steady] at h4 hJ
  exact tf.toTextBase.second_iff hsub h.plain h.posed (C109_jacobian lib.ad h.ad tf.table _ _ _ _ hJ).1 h4 h.rest d e hd

/-- the first-order solutions are the same by name -/
theorem onePolicy (hsub : ∀ a b, ops.bin .sub a b = .ok (a - b))
    (h : SecondText φ ops okName lib m σ a md H sigma gy gu so q ev)
    (h' : SecondText φ ops okName lib' m' σ' a md' H' sigma' gy' gu' so' q' ev')
    (hvar : ∀ x, x ∈ m'.names "var" ↔ x ∈ m.names "var") (hexo : ∀ x, x ∈ m'.names "varexo" ↔ x ∈ m.names "varexo")
    (himp : ImpliesNear ops m σ m' σ' a) (himp' : ImpliesNear ops m' σ' m σ a) :
    OnePolicy (m.names "var") (m.names "varexo") (m'.names "var") (m'.names "varexo") md.indexes md'.indexes gy gu gy' gu' := by
  obtain ⟨ρ, pt, tf⟩ := h.facts
  obtain ⟨ρ', pt', tf'⟩ := h'.facts
  obtain ⟨-, hn, pss, -, hd⟩ := h.model.toSolvedModel.determinate h.ad
  obtain ⟨-, hn', pss', -, hd'⟩ := h'.model.toSolvedModel.determinate h'.ad
  refine ⟨hn, hn', h.model.plain.distinct, h.model.plain.shocks,
    (List.perm_ext_iff_of_nodup h'.model.plain.distinct h.model.plain.distinct).mpr fun x => hvar x,
    (List.perm_ext_iff_of_nodup h'.model.plain.shocks h.model.plain.shocks).mpr fun x => hexo x,
    (groups (hd.det h.la).1.cur).perm, (groups (hd'.det h'.la).1.cur).perm, fun ym u y => ⟨?_, ?_⟩⟩
  · exact solved_implied h.la h'.la h.ad h'.ad hsub h.posed h'.posed h.plain h'.plain tf tf' h.steady h'.steady h.rest h'.rest
      h.model.toSolvedModel h'.model.toSolvedModel (fun x => (hvar x).mp) (fun x => (hexo x).mp) himp ym u y
  · exact solved_implied h'.la h.la h'.ad h.ad hsub h'.posed h.posed h'.plain h.plain tf' tf h'.steady h.steady h'.rest h.rest
      h'.model.toSolvedModel h.model.toSolvedModel (fun x => (hvar x).mpr) (fun x => (hexo x).mpr) himp' ym u y

/-- what the second-order solution of one file adds to the first-order one is what that of the other adds -/
theorem terms (hsub : ∀ a b, ops.bin .sub a b = .ok (a - b))
    (h : SecondText φ ops okName lib m σ a md H sigma gy gu so q ev)
    (h' : SecondText φ ops okName lib' m' σ' a md' H' sigma' gy' gu' so' q' ev')
    (hvar : ∀ x, x ∈ m'.names "var" ↔ x ∈ m.names "var") (hexo : ∀ x, x ∈ m'.names "varexo" ↔ x ∈ m.names "varexo")
    (himp : ImpliesNear ops m σ m' σ' a) (himp' : ImpliesNear ops m' σ' m σ a) (ym u : Nat → V) :
    SecondTerms md.indexes.toTyper (m.names "varexo").length (so.stored (1 / 2)) ym u
      (reorderFun (m.names "var") (m.names "varexo") (m'.names "var") (m'.names "varexo")
        (secondFun md'.indexes.toTyper (m'.names "varexo").length (so'.stored (1 / 2))) ym u) := by
  have P := onePolicy hsub h h' hvar hexo himp himp'
  obtain ⟨hr, hn, pss, hp, hd⟩ := h.model.toSolvedModel.determinate h.ad
  obtain ⟨hr', hn', pss', hp', hd'⟩ := h'.model.toSolvedModel.determinate h'.ad
  have hHr : H.r = pss.length := by
    have := (modelHessian_get h.ad h.hessian).1
    obtain ⟨ρ, pt, tf⟩ := h.facts
    have h1 := tf.rep.dynamicLength
    have h2 := h.posed.square
    omega
  have hHr' : H'.r = pss'.length := by
    have := (modelHessian_get h'.ad h'.hessian).1
    obtain ⟨ρ, pt, tf⟩ := h'.facts
    have h1 := tf.rep.dynamicLength
    have h2 := h'.posed.square
    omega
  have half : (2 : V) * (1 / 2) = 1 := by norm_num
  have hF' := secondFun_terms P.perm' (m'.names "varexo").length (so'.stored (1 / 2))
  obtain ⟨f1, f2⟩ := (C153_unique_partial φ lib'.la h'.la lib'.qz h'.qz (1 / 2) half pss' md'.indexes _ _ H' sigma' gy' gu'
    _ q' ev' hd' hHr' h'.model.symmetric ⟨h'.model.sigma_rows, h'.model.sigma_cols⟩ so' h'.model.second _).mpr hF'
  rw [hp', ← hn'] at f2
  have J := hd.square
  have J' := hd'.square
  have self : ∀ {l : List String} (w : Nat → V), l.Nodup → ∀ c < l.length, w c = byName l (fun x => w (l.idxOf x)) c := by
    intro l w hl c hc
    rw [byName_get (List.getElem?_eq_getElem hc), hl.idxOf_getElem]
  have hs : SolvesSecond md.indexes (m.names "varexo").length (1 / 2) md.statespace.jacobian H gy gu
      (reorderFun (m.names "var") (m.names "varexo") (m'.names "var") (m'.names "varexo")
        (secondFun md'.indexes.toTyper (m'.names "varexo").length (so'.stored (1 / 2)))) := by
    refine P.solves f1 fun ym u y yp w w' hy hyp hz i hi => ?_
    have hz' : reorder (m.names "varexo") (m'.names "varexo") (fun _ => (0 : V)) = fun _ => 0 := rfl
    have l' := h'.linear (P.follows hy) (by rw [← hz']; exact P.follows hyp)
    have s' := (h'.second hsub ((⟨ym, y, yp, u⟩ : Around V).reorder (m.names "var") (m.names "varexo") (m'.names "var")
        (m'.names "varexo")) ((⟨fun _ => 0, w, w', fun _ => 0⟩ : Around V).reorder (m.names "var") (m.names "varexo")
        (m'.names "var") (m'.names "varexo")) l').mpr fun i hi => by
      refine Eq.trans ?_ (hz i (by omega))
      rfl
    have s := himp'.solvesSecond (ym := fun x => ym ((m.names "var").idxOf x)) (y := fun x => y ((m.names "var").idxOf x))
      (yp := fun x => yp ((m.names "var").idxOf x)) (u := fun x => u ((m.names "varexo").idxOf x)) (ym' := fun _ => 0)
      (y' := fun x => w ((m.names "var").idxOf x)) (yp' := fun x => w' ((m.names "var").idxOf x)) (u' := fun _ => 0) s'
    have d := h.model.plain.distinct
    have dx := h.model.plain.shocks
    have := (h.second hsub _ _ fun i hi => by
      refine Eq.trans ?_ (h.linear hy hyp i hi)
      exact (linearised_within (fun c hc => self ym d c (by omega)) (fun c hc => self y d c (by omega))
        (fun c hc => self yp d c (by omega)) fun k hk => self u dx k hk).symm).mp s i (by omega)
    refine Eq.trans ?_ this
    congr 1
    · congr 1
      exact curvature_within (fun c hc => self ym d c (by omega)) (fun c hc => self y d c (by omega))
        (fun c hc => self yp d c (by omega)) (fun k hk => self u dx k hk)
        (fun c hc => self ym d c (by omega)) (fun c hc => self y d c (by omega))
        (fun c hc => self yp d c (by omega)) (fun k hk => self u dx k hk)
    · exact linearised_within (fun c hc => self (fun _ => 0) d c (by omega)) (fun c hc => self w d c (by omega))
        (fun c hc => self w' d c (by omega)) (fun k hk => self (fun _ => 0) dx k hk)
  exact (C153_unique_partial φ lib.la h.la lib.qz h.qz (1 / 2) half pss md.indexes _ _ H sigma gy gu
    _ q ev hd hHr h.model.symmetric ⟨h.model.sigma_rows, h.model.sigma_cols⟩ so h.model.second _).mp
    ⟨hs, by rw [hp, ← hn]; exact P.bounded f2⟩ ym u

end SecondText

/-- what is added to the first-order solution, by name -/
theorem OnePolicy.terms {endo exo endo' exo' : List String} {t t' : Llx} {gy gu gy' gu' : Arr V} {so so' : SecondNd V}
    (P : OnePolicy endo exo endo' exo' t t' gy gu gy' gu')
    (hF : ∀ ym u, SecondTerms t.toTyper exo.length so ym u
      (reorderFun endo exo endo' exo' (secondFun t'.toTyper exo'.length so') ym u)) (ym u w : String → V)
    (hw : SecondTerms t'.toTyper exo'.length so' (byName endo' ym) (byName exo' u) (byName endo' w)) :
    SecondTerms t.toTyper exo.length so (byName endo ym) (byName exo u) (byName endo w) := by
  have en := P.size
  have en' := P.size'
  refine secondTerms_within P.perm (hF (byName endo ym) (byName exo u)) (fun _ _ => rfl) (fun _ _ => rfl) ?_
  intro c hc
  refine Eq.trans ?_ (reorder_byName P.permNames.symm w (by omega))
  unfold reorderFun
  have hin : ∀ v < t'.n, secondFun t'.toTyper exo'.length so' (reorder endo endo' (byName endo ym))
      (reorder exo exo' (byName exo u)) v = byName endo' w v := by
    intro v hv
    obtain ⟨i, hi⟩ := List.getElem?_of_mem (P.perm'.mem_iff.mpr (List.mem_range.mpr hv))
    have e1 := secondTerms_within P.perm' (secondFun_terms P.perm' exo'.length so'
      (reorder endo endo' (byName endo ym)) (reorder exo exo' (byName exo u)))
      (fun c hc => reorder_byName P.permNames ym (by omega)) (fun k hk => reorder_byName P.permShocks u hk) (fun _ _ => rfl)
    rw [e1 i v hi, hw i v hi]
  have hm : endo[c]'(by omega) ∈ endo' := P.permNames.mem_iff.mpr (List.getElem_mem _)
  unfold reorder
  rw [byName_get (List.getElem?_eq_getElem (by omega)), byName_get (List.getElem?_eq_getElem (by omega))]
  exact hin _ (by rw [en']; exact List.idxOf_lt_length_iff.mpr hm)

/-- the second-order rule without the constant for risk is the first-order one and what is added to it -/
theorem followsSecond_iff {t : Typer} (hp : t.drOrder.Perm (List.range t.n)) {nExog : Nat} {so : SecondNd V} {gy gu : Arr V}
    {ym u y : Nat → V} :
    FollowsSecond t nExog so gy gu ym u y ↔ ∃ y₁ w : Nat → V, FollowsPolicy t nExog gy gu ym u y₁ ∧
      SecondTerms t nExog so ym u w ∧ ∀ v < t.n, y v = y₁ v + w v := by
  have hlt : ∀ {i c : Nat}, t.drOrder[i]? = some c → c < t.n := fun hi =>
    List.mem_range.mp (hp.mem_iff.mp (List.mem_of_getElem? hi))
  constructor
  · intro h
    refine ⟨fun v => (sumTo t.nBackward fun b => gy.e (t.drOrder.idxOf v) b * stateVals t ym b) +
        (sumTo nExog fun k => gu.e (t.drOrder.idxOf v) k * u k), secondFun t nExog so ym u, ?_, secondFun_terms hp _ _ _ _, ?_⟩
    · intro i c hi
      simp only [idxOf_dr hp hi]
      rfl
    · intro v hv
      have hm : v ∈ t.drOrder := hp.mem_iff.mpr (List.mem_range.mpr hv)
      obtain ⟨i, hi⟩ := List.getElem?_of_mem hm
      rw [h i v hi, secondFun_terms hp nExog so ym u i v hi]
      simp only [idxOf_dr hp hi]
      ring
  · rintro ⟨y₁, w, h1, h2, h4⟩ i v hi
    rw [h4 v (hlt hi), h1 i v hi, h2 i v hi]
    show (sumTo t.nBackward fun b => gy.e i b * stateVals t ym b) + _ + _ = _
    ring

theorem followsSecond_relay {t t' : Llx} (hp : t.drOrder.Perm (List.range t.n)) (hp' : t'.drOrder.Perm (List.range t'.n))
    {endo exo endo' exo' : List String} (hn : t.n = endo.length) (hn' : t'.n = endo'.length) (hd : endo.Nodup)
    (pe : endo'.Perm endo) {so so' : SecondNd V} {gy gu gy' gu' : Arr V} {ym u : String → V}
    (h1 : ∀ y, FollowsPolicy t.toTyper exo.length gy gu (byName endo ym) (byName exo u) (byName endo y) →
      FollowsPolicy t'.toTyper exo'.length gy' gu' (byName endo' ym) (byName exo' u) (byName endo' y))
    (h2 : ∀ w, SecondTerms t.toTyper exo.length so (byName endo ym) (byName exo u) (byName endo w) →
      SecondTerms t'.toTyper exo'.length so' (byName endo' ym) (byName exo' u) (byName endo' w)) {y : String → V}
    (h : FollowsSecond t.toTyper exo.length so gy gu (byName endo ym) (byName exo u) (byName endo y)) :
    FollowsSecond t'.toTyper exo'.length so' gy' gu' (byName endo' ym) (byName exo' u) (byName endo' y) := by
  have key : ∀ (w : Nat → V), ∀ c < endo.length, w c = byName endo (fun x => w (endo.idxOf x)) c := by
    intro w c hc
    rw [byName_get (List.getElem?_eq_getElem hc), hd.idxOf_getElem]
  have hlt : ∀ {i c : Nat}, t.drOrder[i]? = some c → c < endo.length := fun hi => by
    rw [← hn]; exact List.mem_range.mp (hp.mem_iff.mp (List.mem_of_getElem? hi))
  obtain ⟨y₁, w, g1, g2, g4⟩ := (followsSecond_iff hp).mp h
  refine (followsSecond_iff hp').mpr ⟨_, _, h1 (fun x => y₁ (endo.idxOf x)) fun i v hi => ?_,
    h2 (fun x => w (endo.idxOf x)) fun i v hi => ?_, fun v hv => ?_⟩
  · rw [← key y₁ v (hlt hi)]; exact g1 i v hi
  · rw [← key w v (hlt hi)]; exact g2 i v hi
  · have hv : v < endo'.length := by rw [← hn']; exact hv
    have hm : endo'[v] ∈ endo := pe.mem_iff.mp (List.getElem_mem hv)
    have := g4 (endo.idxOf endo'[v]) (by rw [hn]; exact List.idxOf_lt_length_iff.mpr hm)
    rw [byName_get (List.getElem?_idxOf hm)] at this
    simp only [byName_get (List.getElem?_eq_getElem hv)]
    exact this

/-- **C169** (partial: for files whose shocks block the covariance matrix can represent, with equations that the
differentiation routine differentiates twice exactly, solved to second order, whose state spaces pass the check and have no
eigenvalue of modulus one; without the correction for risk, see `C169_risk_differs`).  Two model files that declare the
same variables and shocks, in whatever order, and whose equations imply each other near the steady state `a` reported for
both, which satisfies the equations, have the same second-order solution: values of last period, shocks and present values,
all given by name, are related by one if and only if they are by the other. -/
theorem C169_rewritten_partial {SS S : Type} (φ : V →+* ℂ) (r : ReadEnv V SS S) (lib lib' : Libs V) (ex : lib.la.Exact)
    (ex' : lib'.la.Exact) (had : lib.ad.Exact) (had' : lib'.ad.Exact) (hqz : GQZExact lib.qz) (hqz' : GQZExact lib'.qz)
    (hsub : ∀ a b, r.env.ops.bin .sub a b = .ok (a - b)) {text text' : List Char} {m m' : ModelFile V}
    (hw : WellPosed m) (hw' : WellPosed m') {ρ ρ' σ σ' : String → Option V}
    (hσ : FileVals r.env.ops m ρ σ) (hσ' : FileVals r.env.ops m' ρ' σ')
    {md md₁ md' md₁' : MState V (ModelSpace V) ((Arr V × Arr V) × SecondNd V)}
    (h : ReadFrom (r.second lib (1 / 2)) text m ρ md) (h' : ReadFrom (r.second lib' (1 / 2)) text' m' ρ' md')
    (had2 : ∀ f ∈ md.dynamic,
      lib.ad.SecondExactAt f (linPoint md.indexes.toTyper (m.names "varexo").length md.statespace.steady))
    (had2' : ∀ f ∈ md'.dynamic,
      lib'.ad.SecondExactAt f (linPoint md'.indexes.toTyper (m'.names "varexo").length md'.statespace.steady))
    {b b' : Shocks V} (hb : m.actions.shocks = some b) (hb' : m'.actions.shocks = some b')
    (hp : PlainShocks (m.names "varexo") b.shocks) (hp' : PlainShocks (m'.names "varexo") b'.shocks)
    (hval : ∀ s ∈ b.shocks, ∀ x, s.isVarOf x → ∃ v, SetsVar r.env.ops r.sq ρ s x v)
    (hval' : ∀ s ∈ b'.shocks, ∀ x, s.isVarOf x → ∃ v, SetsVar r.env.ops r.sq ρ' s x v)
    (hpair : ∀ x y e, Shock.corr x y e ∈ b.shocks ∨ Shock.cov x y e ∈ b.shocks → ∃ v, Evals r.env.ops ρ e v)
    (hpair' : ∀ x y e, Shock.corr x y e ∈ b'.shocks ∨ Shock.cov x y e ∈ b'.shocks → ∃ v, Evals r.env.ops ρ' e v)
    {gy gu gy' gu' : Arr V} {so so' : SecondNd V}
    (hsol : md.solve (r.env.second lib (1 / 2)) = (md₁, .ok ((gy, gu), so)))
    (hsol' : md'.solve (r.env.second lib' (1 / 2)) = (md₁', .ok ((gy', gu'), so')))
    (hc : PassesCheck φ lib.la md) (hc' : PassesCheck φ lib'.la md')
    (hvar : ∀ x, x ∈ m'.names "var" ↔ x ∈ m.names "var") (hexo : ∀ x, x ∈ m'.names "varexo" ↔ x ∈ m.names "varexo")
    {a : String → V} (hss : md.statespace.steady = (m.names "var").map a)
    (hss' : md'.statespace.steady = (m'.names "var").map a)
    (hrest : ∀ l r', (l, r') ∈ equations m.stmts →
      GapIs r.env.ops m σ (levelsAt ((m.names "var").map a) noDev) l r' 0)
    (himp : ImpliesNear r.env.ops m σ m' σ' a) (himp' : ImpliesNear r.env.ops m' σ' m σ a) (ym u y : String → V) :
    FollowsSecond md.indexes.toTyper (m.names "varexo").length so gy gu (byName (m.names "var") ym)
        (byName (m.names "varexo") u) (byName (m.names "var") y) ↔
      FollowsSecond md'.indexes.toTyper (m'.names "varexo").length so' gy' gu' (byName (m'.names "var") ym)
        (byName (m'.names "varexo") u) (byName (m'.names "var") y) := by
  obtain ⟨σ₁, H, sig, so₀, q, ev, v1, rfl, v3, hm, hH⟩ := read_second had hw h had2 hb hp hval hpair hsol hc
  obtain ⟨σ₁', H', sig', so₀', q', ev', v1', rfl, v3', hm', hH'⟩ := read_second had' hw' h' had2' hb' hp' hval' hpair' hsol' hc'
  obtain rfl : σ₁ = σ := exec_unique v1.model hσ.model
  obtain rfl : σ₁' = σ' := exec_unique v1'.model hσ'.model
  obtain ⟨σ₂, pt, tf⟩ := text_facts (lib := lib) rfl h
  obtain ⟨σ₂', pt', tf'⟩ := text_facts (lib := lib') rfl h'
  obtain rfl : σ₁ = σ₂ := exec_unique v1.model tf.vals.model
  obtain rfl : σ₁' = σ₂' := exec_unique v1'.model tf'.vals.model
  have T : SecondText φ r.env.ops r.env.okName lib m σ₁ a md H _ gy gu so₀ q ev :=
    ⟨ex, had, hqz, hw, h.equations, ⟨ρ, pt, tf⟩, hss, hrest, had2, hm, hH⟩
  have T' : SecondText φ r.env.ops r.env.okName lib' m' σ₁' a md' H' _ gy' gu' so₀' q' ev' :=
    ⟨ex', had', hqz', hw', h'.equations, ⟨ρ', pt', tf'⟩, hss', himp.rest hrest, had2', hm', hH'⟩
  have hvar' := fun x => (hvar x).symm
  have hexo' := fun x => (hexo x).symm
  have P := T.onePolicy hsub T' hvar hexo himp himp'
  have P' := T'.onePolicy hsub T hvar' hexo' himp' himp
  exact ⟨followsSecond_relay P.perm P'.perm P.size P'.size P.nodup P.permNames (fun y => (P.policy ym u y).mp)
      (fun w => P'.terms (T'.terms hsub T hvar' hexo' himp' himp) ym u w),
    followsSecond_relay P'.perm P.perm P'.size P.size P'.nodup P'.permNames (fun y => (P'.policy ym u y).mp)
      (fun w => P.terms (T.terms hsub T' hvar hexo himp himp') ym u w)⟩

#print axioms C169_rewritten_partial

end Pynare

import Verif.Props.WholeOrder
import Verif.Props.OrderSecond
import Verif.Props.RiskText
/-!
# C168: model files written in another order, solved to second order
-/

namespace Pynare

set_option linter.unusedSectionVars false

variable {V : Type} [Field V] [LinearOrder V] [IsStrictOrderedRing V]

/-- the second-order rule is the first-order one and what is added to it -/
theorem followsRisk_iff {t : Typer} (hp : t.drOrder.Perm (List.range t.n)) {nExog : Nat} {so : SecondNd V} {gy gu : Arr V}
    {κ : V} {ym u y : Nat → V} :
    FollowsRisk t nExog so gy gu κ ym u y ↔ ∃ y₁ w c : Nat → V, FollowsPolicy t nExog gy gu ym u y₁ ∧
      SecondTerms t nExog so ym u w ∧ RiskTerm t so c ∧ ∀ v < t.n, y v = y₁ v + w v + κ * c v := by
  have hlt : ∀ {i c : Nat}, t.drOrder[i]? = some c → c < t.n := fun hi =>
    List.mem_range.mp (hp.mem_iff.mp (List.mem_of_getElem? hi))
  constructor
  · intro h
    refine ⟨fun v => (sumTo t.nBackward fun b => gy.e (t.drOrder.idxOf v) b * stateVals t ym b) +
        (sumTo nExog fun k => gu.e (t.drOrder.idxOf v) k * u k), secondFun t nExog so ym u,
      fun v => so.del2.to2.e (t.drOrder.idxOf v) 0, ?_, secondFun_terms hp _ _ _ _, ?_, ?_⟩
    · intro i c hi
      simp only [idxOf_dr hp hi]
      rfl
    · intro i c hi
      simp only [idxOf_dr hp hi]
    · intro v hv
      have hm : v ∈ t.drOrder := hp.mem_iff.mpr (List.mem_range.mpr hv)
      obtain ⟨i, hi⟩ := List.getElem?_of_mem hm
      rw [h i v hi, secondFun_terms hp nExog so ym u i v hi]
      simp only [idxOf_dr hp hi]
      ring
  · rintro ⟨y₁, w, c, h1, h2, h3, h4⟩ i v hi
    rw [h4 v (hlt hi), h1 i v hi, h2 i v hi, h3 i v hi]
    show (sumTo t.nBackward fun b => gy.e i b * stateVals t ym b) + _ + _ + _ = _
    ring

theorem followsRisk_relay {t t' : Llx} (hp : t.drOrder.Perm (List.range t.n)) (hp' : t'.drOrder.Perm (List.range t'.n))
    {endo exo endo' exo' : List String} (hn : t.n = endo.length) (hn' : t'.n = endo'.length) (hd : endo.Nodup)
    (pe : endo'.Perm endo) {so so' : SecondNd V} {gy gu gy' gu' : Arr V} {ym u : String → V}
    (h1 : ∀ y, FollowsPolicy t.toTyper exo.length gy gu (byName endo ym) (byName exo u) (byName endo y) →
      FollowsPolicy t'.toTyper exo'.length gy' gu' (byName endo' ym) (byName exo' u) (byName endo' y))
    (h2 : ∀ w, SecondTerms t.toTyper exo.length so (byName endo ym) (byName exo u) (byName endo w) →
      SecondTerms t'.toTyper exo'.length so' (byName endo' ym) (byName exo' u) (byName endo' w))
    (h3 : ∀ c, RiskTerm t.toTyper so (byName endo c) → RiskTerm t'.toTyper so' (byName endo' c)) {κ : V} {y : String → V}
    (h : FollowsRisk t.toTyper exo.length so gy gu κ (byName endo ym) (byName exo u) (byName endo y)) :
    FollowsRisk t'.toTyper exo'.length so' gy' gu' κ (byName endo' ym) (byName exo' u) (byName endo' y) := by
  have key : ∀ (w : Nat → V), ∀ c < endo.length, w c = byName endo (fun x => w (endo.idxOf x)) c := by
    intro w c hc
    rw [byName_get (List.getElem?_eq_getElem hc), hd.idxOf_getElem]
  have hlt : ∀ {i c : Nat}, t.drOrder[i]? = some c → c < endo.length := fun hi => by
    rw [← hn]; exact List.mem_range.mp (hp.mem_iff.mp (List.mem_of_getElem? hi))
  obtain ⟨y₁, w, c, g1, g2, g3, g4⟩ := (followsRisk_iff hp).mp h
  refine (followsRisk_iff hp').mpr ⟨_, _, _, h1 (fun x => y₁ (endo.idxOf x)) fun i v hi => ?_,
    h2 (fun x => w (endo.idxOf x)) fun i v hi => ?_, h3 (fun x => c (endo.idxOf x)) fun i v hi => ?_, fun v hv => ?_⟩
  · rw [← key y₁ v (hlt hi)]; exact g1 i v hi
  · rw [← key w v (hlt hi)]; exact g2 i v hi
  · rw [← key c v (hlt hi)]; exact g3 i v hi
  · have hv : v < endo'.length := by rw [← hn']; exact hv
    have hm : endo'[v] ∈ endo := pe.mem_iff.mp (List.getElem_mem hv)
    have := g4 (endo.idxOf endo'[v]) (by rw [hn]; exact List.idxOf_lt_length_iff.mpr hm)
    rw [byName_get (List.getElem?_idxOf hm)] at this
    simp only [byName_get (List.getElem?_eq_getElem hv)]
    exact this

/-! ### the covariance matrix -/

theorem pairwise_split {α : Type} {R : α → α → Prop} {l : List α} :
    l.Pairwise R ↔ ∀ pre s post, l = pre ++ s :: post → ∀ t ∈ post, R s t := by
  induction l with
  | nil => simp
  | cons a l ih =>
    rw [List.pairwise_cons, ih]
    constructor
    · rintro ⟨h1, h2⟩ pre s post e t ht
      match pre, e with
      | [], e => cases e; exact h1 t ht
      | p :: pre, e =>
        simp only [List.cons_append, List.cons.injEq] at e
        exact h2 pre s post e.2 t ht
    · intro h
      exact ⟨fun t ht => h [] a l rfl t ht, fun pre s post e t ht => h (a :: pre) s post (by rw [e]; rfl) t ht⟩

/-- the order of the statements does not matter -/
theorem PlainShocks.perm {names names' : List String} {ss ss' : List (Shock V)} (h : PlainShocks names ss)
    (hs : ss'.Perm ss) (hn : names'.Perm names) : PlainShocks names' ss' where
  oneVar pre s post e x hx t ht := by
    have : ss.Pairwise fun s t => ∀ x : String, s.isVarOf x → ¬ t.isVarOf x :=
      pairwise_split.mpr fun pre s post e t ht x hx => h.oneVar pre s post e x hx t ht
    have := (hs.pairwise_iff (fun {a b} hab x hb ha => hab x ha hb)).mpr this
    exact pairwise_split.mp this pre s post e t ht x hx
  onePair pre s post e x hx t ht := by
    have : ss.Pairwise fun s t => ∀ x : String, s.isPairOf x → ¬ t.isPairOf x :=
      pairwise_split.mpr fun pre s post e t ht x hx => h.onePair pre s post e x hx t ht
    have := (hs.pairwise_iff (fun {a b} hab x hb ha => hab x ha hb)).mpr this
    exact pairwise_split.mp this pre s post e t ht x hx
  hasVar s hm x hx := by
    obtain ⟨t, a, b⟩ := h.hasVar s (hs.mem_iff.mp hm) x hx
    exact ⟨t, hs.mem_iff.mpr a, b⟩
  declared s hm x y hx := by
    rw [hn.mem_iff, hn.mem_iff]
    exact h.declared s (hs.mem_iff.mp hm) x y hx
  proper s hm x y hx := by
    obtain ⟨a, b⟩ := h.proper s (hs.mem_iff.mp hm) x y hx
    exact ⟨a, fun t ht => b t (hs.mem_iff.mp ht)⟩

/-- what C118 says about the covariance matrix -/
structure StatesSigma (ops : Ops V) (sq : V → Except Err V) (sqrt : V → V) (names : List String) (ρ : String → Option V)
    (ss : List (Shock V)) (sig : Nat → Nat → V) : Prop where
  var : ∀ (i : Nat) x v, names[i]? = some x → VarOf ops sq ρ ss x v → sig i i = v
  corr : ∀ (i j : Nat) x y e c vx vy, names[i]? = some x → names[j]? = some y → Shock.corr x y e ∈ ss → Evals ops ρ e c →
    VarOf ops sq ρ ss x vx → VarOf ops sq ρ ss y vy → sig i j = sqrt (vx * vy) * c ∧ sig j i = sqrt (vx * vy) * c
  cov : ∀ (i j : Nat) x y e c, names[i]? = some x → names[j]? = some y → Shock.cov x y e ∈ ss → Evals ops ρ e c →
    sig i j = c ∧ sig j i = c
  none : ∀ (i j : Nat) x y, i ≠ j → names[i]? = some x → names[j]? = some y →
    (∀ s ∈ ss, ¬ s.isPair x y ∧ ¬ s.isPair y x) → sig i j = 0

/-- every pair of shocks has one covariance, whatever the order of the names and statements -/
theorem sigma_values {ops : Ops V} {sq : V → Except Err V} {sqrt : V → V} {names : List String} (hd : names.Nodup)
    {ρ : String → Option V} {ss : List (Shock V)} (hp : PlainShocks names ss)
    (hval : ∀ s ∈ ss, ∀ x, s.isVarOf x → ∃ v, SetsVar ops sq ρ s x v)
    (hpair : ∀ x y e, Shock.corr x y e ∈ ss ∨ Shock.cov x y e ∈ ss → ∃ v, Evals ops ρ e v) (x y : String) :
    ∃ v, ∀ {names' : List String} {ss' : List (Shock V)} {sig : Nat → Nat → V}, names'.Perm names → ss'.Perm ss →
      StatesSigma ops sq sqrt names' ρ ss' sig → ∀ i j : Nat, names'[i]? = some x → names'[j]? = some y →
        sig i j = v ∧ sig j i = v := by
  have hvar : ∀ x, ∃ v, VarOf ops sq ρ ss x v := by
    intro x
    by_cases h : ∃ s ∈ ss, s.isVarOf x
    · obtain ⟨s, hs, hx⟩ := h
      obtain ⟨v, hv⟩ := hval s hs x hx
      exact ⟨v, .stated hs hv⟩
    · refine ⟨1, .omitted fun s hs => ⟨fun hx => h ⟨s, hs, hx⟩, fun hx => h ?_⟩⟩
      obtain ⟨t, ht, hx⟩ := hp.hasVar s hs x hx
      exact ⟨t, ht, hx⟩
  have move : ∀ {ss' : List (Shock V)} {x : String} {v : V}, ss'.Perm ss → VarOf ops sq ρ ss x v → VarOf ops sq ρ ss' x v := by
    intro ss' x v hs h
    cases h with
    | stated a b => exact .stated (hs.mem_iff.mpr a) b
    | omitted h => exact .omitted fun s hm => h s (hs.mem_iff.mp hm)
  obtain ⟨vx, hvx⟩ := hvar x
  obtain ⟨vy, hvy⟩ := hvar y
  by_cases hxy : x = y
  · subst hxy
    refine ⟨vx, fun {names' ss' sig} hn hs h i j hi hj => ?_⟩
    have hij : i = j := by
      have hd' := hn.nodup_iff.mpr hd
      have a := List.getElem?_eq_some_iff.mp hi
      have b := List.getElem?_eq_some_iff.mp hj
      exact (hd'.getElem_inj_iff (hi := a.1) (hj := b.1)).mp (a.2.trans b.2.symm)
    subst hij
    have := h.var i x vx hi (move hs hvx)
    exact ⟨this, this⟩
  · by_cases hm : ∃ s ∈ ss, s.isPair x y ∨ s.isPair y x
    · obtain ⟨s, hs, hb⟩ := hm
      have one : ∀ {x y : String} {vx vy : V}, VarOf ops sq ρ ss x vx → VarOf ops sq ρ ss y vy → s.isPair x y →
          ∃ v, ∀ {names' : List String} {ss' : List (Shock V)} {sig : Nat → Nat → V}, names'.Perm names → ss'.Perm ss →
          StatesSigma ops sq sqrt names' ρ ss' sig → ∀ i j : Nat, names'[i]? = some x → names'[j]? = some y →
            sig i j = v ∧ sig j i = v := by
        intro x y vx vy hvx hvy hb
        match s, hs, hb with
        | .corr _ _ e, hs, ⟨rfl, rfl⟩ =>
          obtain ⟨c, hc⟩ := hpair _ _ e (.inl hs)
          exact ⟨_, fun hn hp h i j hi hj => h.corr i j _ _ e c vx vy hi hj (hp.mem_iff.mpr hs) hc (move hp hvx) (move hp hvy)⟩
        | .cov _ _ e, hs, ⟨rfl, rfl⟩ =>
          obtain ⟨c, hc⟩ := hpair _ _ e (.inr hs)
          exact ⟨_, fun hn hp h i j hi hj => h.cov i j _ _ e c hi hj (hp.mem_iff.mpr hs) hc⟩
      rcases hb with hb | hb
      · exact one hvx hvy hb
      · obtain ⟨v, hv⟩ := one hvy hvx hb
        exact ⟨v, fun hn hp h i j hi hj => (hv hn hp h j i hj hi).symm⟩
    · push Not at hm
      refine ⟨0, fun {names' ss' sig} hn hs h i j hi hj => ?_⟩
      have hij : i ≠ j := by
        rintro rfl
        exact hxy (Option.some.inj (hi.symm.trans hj))
      exact ⟨h.none i j x y hij hi hj fun s hm' => hm s (hs.mem_iff.mp hm'),
        h.none j i y x hij.symm hj hi fun s hm' => (hm s (hs.mem_iff.mp hm')).symm⟩

/-- the model made from a file, solved to second order -/
theorem read_second {SS S : Type} {φ : V →+* ℂ} {r : ReadEnv V SS S} {lib : Libs V} (had : lib.ad.Exact)
    {text : List Char} {m : ModelFile V} (hw : WellPosed m) {ρ : String → Option V}
    {md md₁ : MState V (ModelSpace V) ((Arr V × Arr V) × SecondNd V)} (h : ReadFrom (r.second lib (1 / 2)) text m ρ md)
    (had2 : ∀ f ∈ md.dynamic,
      lib.ad.SecondExactAt f (linPoint md.indexes.toTyper (m.names "varexo").length md.statespace.steady))
    {b : Shocks V} (hb : m.actions.shocks = some b) (hp : PlainShocks (m.names "varexo") b.shocks)
    (hval : ∀ s ∈ b.shocks, ∀ x, s.isVarOf x → ∃ v, SetsVar r.env.ops r.sq ρ s x v)
    (hpair : ∀ x y e, Shock.corr x y e ∈ b.shocks ∨ Shock.cov x y e ∈ b.shocks → ∃ v, Evals r.env.ops ρ e v)
    {gy gu : Arr V} {so : SecondNd V} (hsol : md.solve (r.env.second lib (1 / 2)) = (md₁, .ok ((gy, gu), so)))
    (hc : PassesCheck φ lib.la md) :
    ∃ σ H sig so₀ q ev, FileVals r.env.ops m ρ σ ∧ so = so₀.stored (1 / 2) ∧
      StatesSigma r.env.ops r.sq r.env.sqrt (m.names "varexo") ρ b.shocks sig ∧
      SecondModel φ r.env.ops r.env.okName lib.ad lib.la lib.qz (1 / 2) σ (m.names "var") (m.names "varexo")
        ((equations m.stmts).map fun p => .bin .sub p.1 p.2) md.statespace.steady md.indexes md.statespace.jacobian H
        ⟨(m.names "varexo").length, (m.names "varexo").length, sig⟩ gy gu so₀ md.statespace.space q ev ∧
      modelHessian lib.ad md.indexes.toTyper (m.names "varexo").length md.dynamic md.statespace.steady = .ok H := by
  obtain ⟨σ, pss, tf⟩ := text_facts (lib := lib) rfl h
  obtain ⟨s1, s2, s3, s4, s5, s6, s7⟩ := modelSpace_ok tf.space
  obtain ⟨sg, hs, hsg⟩ := solve_fresh tf.fresh hsol
  have hs : secondSolution lib (1 / 2) md.statespace sg = .ok ((gy, gu), so) := hs
  unfold secondSolution at hs
  obtain ⟨⟨gy', gu'⟩, hs1, hs⟩ := Except.bind_eq_ok hs
  obtain ⟨H, hs2, hs⟩ := Except.bind_eq_ok hs
  obtain ⟨so', hs3, hs⟩ := Except.bind_eq_ok hs
  cases hs
  rw [s1, s2] at hs1 hs2 hs3
  rw [s3] at hs2
  obtain ⟨h1, h2, h3, -⟩ := hessian_taylor lib.ad had tf.table _ _ _ had2 _ hs2
  have hfs : md.dynamic.length = pss.length := by rw [tf.rep.dynamicLength, hw.square, tf.len]
  obtain ⟨us, hfile, hwr⟩ := h.file
  obtain ⟨lang, name, hmade⟩ := h.made
  obtain ⟨sig, hsig, q1, q2, q3, q4⟩ := C118_shocks_partial h.chars hfile hwr hmade h.values hb hp hval
  have hsg : sg = sig := by
    have : (md.readSigma (r.env.second lib (1 / 2))).2 = .ok sig := congrArg Prod.snd hsig
    exact Except.ok.inj (hsg.symm.trans this)
  subst hsg
  have hst : StatesSigma r.env.ops r.sq r.env.sqrt (m.names "varexo") ρ b.shocks sg := ⟨q1, q2, q3, q4⟩
  have hj := read_plain h hw tf
  obtain ⟨q, ev, e1, e2, e3⟩ := hc.eigen
  obtain ⟨fs, hfs', hJ⟩ := hj.jacobian
  have hdy : dynamicFuncs r.env.ops r.env.okName (m.names "var") (m.names "varexo") md.indexes.toTyper σ
      ((equations m.stmts).map fun p => .bin .sub p.1 p.2) = .ok md.dynamic := by
    obtain ⟨_, _, hx, _⟩ := text_fresh h.chars hfile hwr hmade h.values
    have := (text_fresh h.chars hfile hwr hmade h.values).1.dynamic
    rwa [tf.rep.endog, tf.rep.stoch, tf.rep.scope, hx] at this
  refine ⟨σ, H, sg, so', q, ev, tf.vals, rfl, hst, ⟨⟨hj, s7, hs1, hc.verified, e1, e2, e3⟩, ⟨md.dynamic, hdy, hs2⟩, ?_, rfl, rfl,
    ?_, hs3⟩, hs2⟩
  · intro i hi
    exact h3 i (by rw [hfs, ← (buildLlx_spec tf.table).1]; exact hi)
  · intro j hj k hk
    obtain ⟨v, hv⟩ := sigma_values (sqrt := r.env.sqrt) (read_plain h hw tf).plain.shocks hp hval hpair
      ((m.names "varexo")[j]'hj) ((m.names "varexo")[k]'hk)
    have := hv (.refl _) (.refl _) hst j k (List.getElem?_eq_getElem hj) (List.getElem?_eq_getElem hk)
    exact this.1.trans this.2.symm

/-- **C168** (partial: for files whose shocks block the covariance matrix can represent, with equations that the
differentiation routine differentiates twice exactly, solved to second order, whose state spaces pass the check and have no
eigenvalue of modulus one).  Two model files that declare the same names and have the same equations and the same
statements about the shocks, in different order, for which the same steady state is reported, have the same second-order
solution: values of last period, shocks and present values, all given by name, are related by one, with the correction for
risk multiplied by any number `κ`, if and only if they are by the other. -/
theorem C168_reordered_partial {SS S : Type} (φ : V →+* ℂ) (r : ReadEnv V SS S) (lib lib' : Libs V) (ex : lib.la.Exact)
    (ex' : lib'.la.Exact) (had : lib.ad.Exact) (had' : lib'.ad.Exact) (hqz : GQZExact lib.qz) (hqz' : GQZExact lib'.qz)
    {text text' : List Char} {m m' : ModelFile V} (hre : Reordered m m') (hw : WellPosed m) {ρ ρ' : String → Option V}
    {md md₁ md' md₁' : MState V (ModelSpace V) ((Arr V × Arr V) × SecondNd V)}
    (h : ReadFrom (r.second lib (1 / 2)) text m ρ md) (h' : ReadFrom (r.second lib' (1 / 2)) text' m' ρ' md')
    (had2 : ∀ f ∈ md.dynamic,
      lib.ad.SecondExactAt f (linPoint md.indexes.toTyper (m.names "varexo").length md.statespace.steady))
    (had2' : ∀ f ∈ md'.dynamic,
      lib'.ad.SecondExactAt f (linPoint md'.indexes.toTyper (m'.names "varexo").length md'.statespace.steady))
    {b b' : Shocks V} (hb : m.actions.shocks = some b) (hb' : m'.actions.shocks = some b') (hbs : b'.shocks.Perm b.shocks)
    (hp : PlainShocks (m.names "varexo") b.shocks)
    (hval : ∀ s ∈ b.shocks, ∀ x, s.isVarOf x → ∃ v, SetsVar r.env.ops r.sq ρ s x v)
    (hpair : ∀ x y e, Shock.corr x y e ∈ b.shocks ∨ Shock.cov x y e ∈ b.shocks → ∃ v, Evals r.env.ops ρ e v)
    {gy gu gy' gu' : Arr V} {so so' : SecondNd V}
    (hsol : md.solve (r.env.second lib (1 / 2)) = (md₁, .ok ((gy, gu), so)))
    (hsol' : md'.solve (r.env.second lib' (1 / 2)) = (md₁', .ok ((gy', gu'), so')))
    (hc : PassesCheck φ lib.la md) (hc' : PassesCheck φ lib'.la md')
    (hss : SameByName (m.names "var") (m'.names "var") (vecEntry md.statespace.steady) (vecEntry md'.statespace.steady))
    (κ : V) (ym u y : String → V) :
    FollowsRisk md.indexes.toTyper (m.names "varexo").length so gy gu κ (byName (m.names "var") ym)
        (byName (m.names "varexo") u) (byName (m.names "var") y) ↔
      FollowsRisk md'.indexes.toTyper (m'.names "varexo").length so' gy' gu' κ (byName (m'.names "var") ym)
        (byName (m'.names "varexo") u) (byName (m'.names "var") y) := by
  have hρ : ρ' = ρ := by
    have a := h'.values
    rw [hre.params] at a
    exact exec_unique a h.values
  subst hρ
  have hp' : PlainShocks (m'.names "varexo") b'.shocks := hp.perm hbs (hre.names _)
  obtain ⟨σ, H, sig, so₀, q, ev, v1, rfl, v3, hm, -⟩ := read_second had hw h had2 hb hp hval hpair hsol hc
  obtain ⟨σ', H', sig', so₀', q', ev', v1', rfl, v3', hm', -⟩ := read_second had' (hre.posed hw) h' had2' hb' hp'
    (fun s hs => hval s (hbs.mem_iff.mp hs))
    (fun x y e he => hpair x y e (he.imp hbs.mem_iff.mp hbs.mem_iff.mp)) hsol' hc'
  obtain rfl : σ' = σ := hre.vals v1 v1'
  have pq := hre.equations.map fun p : Expr V × Expr V => Expr.bin .sub p.1 p.2
  have hsig : SameSquare (m.names "varexo") (m'.names "varexo")
      ⟨(m.names "varexo").length, (m.names "varexo").length, sig⟩
      ⟨(m'.names "varexo").length, (m'.names "varexo").length, sig'⟩ := by
    intro i i' j j' x y hi hi' hj hj'
    obtain ⟨v, hv⟩ := sigma_values (sqrt := r.env.sqrt) hm.plain.shocks hp hval hpair x y
    exact (hv (.refl _) (.refl _) v3 i j hi hj).1.trans (hv (hre.names _) hbs v3' i' j' hi' hj').1.symm
  have half : (2 : V) * (1 / 2) = 1 := by norm_num
  obtain ⟨-, hn, pss, -, hd⟩ := hm.toSolvedModel.determinate had
  obtain ⟨-, hn', pss', -, hd'⟩ := hm'.toSolvedModel.determinate had'
  have pe := hre.names "var"
  have px := hre.names "varexo"
  have hperm := (groups (hd.det ex).1.cur).perm
  have hperm' := (groups (hd'.det ex').1.cur).perm
  have c1 := C149_policy_partial φ r.env.ops r.env.okName r.env.okName lib.ad lib'.ad had had' lib.la lib'.la
    ex ex' _ _ _ _ _ _ _ _ _ _ _ _ _ _ _ _ _ _ _ _ _ _ _ hm.toSolvedModel hm'.toSolvedModel pe px pq hss
  have c2 := C154_second_partial φ r.env.ops r.env.okName r.env.okName lib.ad lib'.ad had had' lib.la lib'.la ex ex'
    lib.qz lib'.qz hqz hqz' (1 / 2) half _ _ _ _ _ _ _ _ _ _ _ _ _ _ _ _ _ _ _ _ _ _ _ _ _ _ _ _ _ hm hm' pe px pq hss
  have c3 := C154_risk_partial φ r.env.ops r.env.okName r.env.okName lib.ad lib'.ad had had' lib.la lib'.la ex ex'
    lib.qz lib'.qz hqz hqz' (1 / 2) half _ _ _ _ _ _ _ _ _ _ _ _ _ _ _ _ _ _ _ _ _ _ _ _ _ _ _ _ _ hm hm' pe px pq hss hsig
  exact ⟨followsRisk_relay hperm hperm' hn hn' hm.plain.distinct pe (fun y => (c1 ym u y).mp) (fun w => (c2 ym u w).mp)
      (fun c => (c3 c).mp),
    followsRisk_relay hperm' hperm hn' hn hm'.plain.distinct pe.symm (fun y => (c1 ym u y).mpr) (fun w => (c2 ym u w).mpr)
      (fun c => (c3 c).mpr)⟩

#print axioms C168_reordered_partial

end Pynare

import Verif.Lemmas.Whole
import Verif.Props.Linear
import Verif.Props.Derivs
import Verif.Props.Steady
/-!
# C159 and C160: from the text of a model file to the accuracy of its solution

`ReadFrom r text m ρ md` – the model `md` is made from a text of the file `m`; `md.solve` – what `solve` returns.
The hypotheses are met by the model of `Verif/Examples/WholeRun.lean`.
`GapIs ops m σ L l r w` – with the levels `L` of the variables in three adjacent periods, left minus right of the
equation `l = r`, as it is written in the file, has the value `w`.
-/

namespace Pynare

set_option linter.unusedSectionVars false

section
variable {V : Type} [Field V] [LinearOrder V] [IsStrictOrderedRing V]

/-- at rest the vector of arguments is the point where the equations are differentiated -/
theorem assembled_rest {pss : List (List Int)} {t : Llx} (ht : buildLlx pss = .ok t) (nExog : Nat) (ss : List V) :
    Assembled t nExog ss noDev (linPoint t.toTyper nExog ss) := by
  obtain ⟨vec, hv⟩ := assembled_exists ht nExog ss noDev
  have h0 : Near (linPoint t.toTyper nExog ss) 0 vec :=
    assembled_near ht hv (fun _ _ => by simp [noDev]) (fun _ _ => by simp [noDev]) (fun _ _ => by simp [noDev])
      (fun _ _ => by simp [noDev])
  have : vec = linPoint t.toTyper nExog ss := by
    refine List.ext_getElem h0.1 fun k h1 h2 => ?_
    have := h0.2 k h2
    have := sub_eq_zero.mp (abs_nonpos_iff.mp this)
    simpa [vecEntry, h1, h2] using this
  exact this ▸ hv

/-- **C159** (partial: what is excluded is as in C118; besides, every variable has to occur in the current period, there
have to be as many equations as variables, and the decomposition must not be cut through a pair of complex conjugates –
for models that pass the check of the state space and have no eigenvalue of modulus one it never is, see
`C46_checked_partial`).  Take a model made from the text of a file, and its first-order solution.  If the libraries are
exact, paths that follow the solution satisfy the equations as they are written in the file up to an error that is
small compared with the deviations: for every `ε` there is a `δ` such that whenever last period's deviations and the
shocks are no greater than `e ≤ δ`, left and right of every equation have values, and their difference differs from
that in the steady state by no more than `ε e`. -/
theorem C159_first_order_partial {SS S : Type} (r : ReadEnv V SS S) (lib : Libs V) (ex : lib.la.Exact) (had : lib.ad.Exact)
    (hsub : ∀ a b, r.env.ops.bin .sub a b = .ok (a - b)) {text : List Char} {m : ModelFile V} {ρ : String → Option V}
    {md md' : MState V (ModelSpace V) (Arr V × Arr V)} (h : ReadFrom (r.first lib) text m ρ md) (hw : WellPosed m)
    {gy gu : Arr V} (hsol : md.solve (r.env.first lib) = (md', .ok (gy, gu)))
    (hsep : md.statespace.space.parts.Separated) :
    ∃ σ, FileVals r.env.ops m ρ σ ∧
    (∀ l rr, (l, rr) ∈ equations m.stmts →
      ∃ w₀, GapIs r.env.ops m σ (levelsAt md.statespace.steady noDev) l rr w₀) ∧
    ∀ ε > 0, ∃ δ > 0, ∀ e, e ≤ δ → ∀ ym u y yE : Nat → V,
      (∀ c < (m.names "var").length, |ym c| ≤ e) → (∀ k < (m.names "varexo").length, |u k| ≤ e) →
      FollowsPolicy md.indexes.toTyper (m.names "varexo").length gy gu ym u y →
      FollowsPolicy md.indexes.toTyper (m.names "varexo").length gy gu y (fun _ => 0) yE →
      ∀ l rr, (l, rr) ∈ equations m.stmts →
        (∃ w, GapIs r.env.ops m σ (levelsAt md.statespace.steady ⟨ym, y, yE, u⟩) l rr w) ∧
        ∀ w w₀, GapIs r.env.ops m σ (levelsAt md.statespace.steady ⟨ym, y, yE, u⟩) l rr w →
          GapIs r.env.ops m σ (levelsAt md.statespace.steady noDev) l rr w₀ → |w - w₀| ≤ ε * e := by
  obtain ⟨σ, pss, tf⟩ := text_facts (lib := lib) rfl h
  obtain ⟨s1, s2, s3, s4, s5, s6, s7⟩ := modelSpace_ok tf.space
  obtain ⟨sg, hs, -⟩ := solve_fresh tf.fresh hsol
  have hs : solveFirstOrder lib.la md.statespace.indexes md.statespace.nExog md.statespace.space = .ok (gy, gu) := hs
  rw [s1, s2] at hs
  obtain ⟨j1, j2, j3⟩ := C109_jacobian lib.ad had tf.table _ _ _ _ s6
  have hps := tf.periods h.equations hw
  have hfs : md.dynamic.length = pss.length := by rw [tf.rep.dynamicLength, hw.square, tf.len]
  obtain ⟨hn, -⟩ := solved_facts ex hps tf.table s7 hs
  obtain ⟨v₀, hv₀, hacc⟩ := C110_first_order_accuracy lib.la ex pss md.indexes hps tf.table _ md.dynamic hfs
    md.statespace.steady md.statespace.jacobian (by rw [j1, hfs]) j3 _ gy gu s7 hsep hs
  have hlen := linPoint_length tf.table (m.names "varexo").length md.statespace.steady
  have hcall : ∀ vec : List V, vec.length = md.indexes.count + (m.names "varexo").length →
      dynamicCall md.indexes (m.names "varexo").length md.dynamic vec = callAll md.dynamic vec := by
    intro vec h; unfold dynamicCall; rw [if_pos h]
  rw [hcall _ hlen] at hv₀
  obtain ⟨l₀, g₀⟩ := callAll_get hv₀
  have hfun : ∀ l rr, (l, rr) ∈ equations m.stmts → ∃ (i : Nat) (f : ResFun V),
      (equations m.stmts)[i]? = some (l, rr) ∧ md.dynamic[i]? = some f := by
    intro l rr hlr
    obtain ⟨i, hi, e⟩ := List.getElem_of_mem hlr
    have : i < md.dynamic.length := by rw [tf.rep.dynamicLength]; exact hi
    exact ⟨i, _, by rw [List.getElem?_eq_getElem hi, e], List.getElem?_eq_getElem this⟩
  have hrest := assembled_rest tf.table (m.names "varexo").length md.statespace.steady
  refine ⟨σ, tf.vals, fun l rr hlr => ?_, fun ε hε => ?_⟩
  · obtain ⟨i, f, hi, hf⟩ := hfun l rr hlr
    obtain ⟨w, -, hw'⟩ := g₀ i f hf
    exact ⟨w, (tf.gap hsub h.equations hw hi hf hrest w).mp hw'⟩
  · obtain ⟨δ, hδ, hacc⟩ := hacc ε hε
    refine ⟨δ, hδ, fun e hle ym u y yE hym hu hy hyE l rr hlr => ?_⟩
    obtain ⟨vec, hvec⟩ := assembled_exists tf.table (m.names "varexo").length md.statespace.steady ⟨ym, y, yE, u⟩
    obtain ⟨v, hv, hvl, hb⟩ := hacc e hle ym u y yE (fun c hc => hym c (by rw [← tf.len]; omega)) hu hy hyE vec hvec
    rw [hcall _ hvec.len] at hv
    obtain ⟨l₁, g₁⟩ := callAll_get hv
    obtain ⟨i, f, hi, hf⟩ := hfun l rr hlr
    obtain ⟨w₁, a1, a2⟩ := g₁ i f hf
    obtain ⟨w₂, b1, b2⟩ := g₀ i f hf
    refine ⟨⟨w₁, (tf.gap hsub h.equations hw hi hf hvec w₁).mp a2⟩, fun w w₀ hg hg₀ => ?_⟩
    have e1 := (tf.gap hsub h.equations hw hi hf hvec w).mpr hg
    have e2 := (tf.gap hsub h.equations hw hi hf hrest w₀).mpr hg₀
    rw [a2] at e1
    rw [b2] at e2
    have := hb i (List.getElem?_eq_some_iff.mp a1).1
    unfold vecEntry at this
    rw [a1, b1] at this
    rw [← Except.ok.inj e1, ← Except.ok.inj e2]
    exact this

/-- the steady state of a model that has one, if the minimiser finds a minimum -/
theorem TextBase.foundAt {SS S : Type} {ops : Ops V} (hsub : ∀ a b, ops.bin .sub a b = .ok (a - b)) {lib : Libs V}
    (hopt : FindsMinimum lib.opt) {m : ModelFile V} {ρ σ : String → Option V} {md : MState V SS S}
    {pss : List (List Int)} (h : TextBase ops m ρ σ md pss) (hp : PlainParams m) (he : PlainEquations m)
    {ys : List V} (hy : ys.length = (m.names "var").length)
    (hrest : ∀ l r, (l, r) ∈ equations m.stmts → GapIs ops m σ (levelsAt ys noDev) l r 0) {ss : List V}
    (s5 : modelValues lib.opt "dynare" ⟨callAll md.steady, startValues lib.nan md.endog⟩ = .ok ss) :
    ss.length = (m.names "var").length ∧
    ∀ l r, (l, r) ∈ equations m.stmts → ∀ v, GapIs ops m σ (levelsAt ss noDev) l r v ↔ v = 0 := by
  obtain ⟨a, res, hr, hx⟩ := modelCompute_ok (opt := lib.opt) (lang := "dynare") (m := .none) s5
  obtain ⟨o1, w, hw, hmin⟩ := hopt a _ _ res hr
  rw [hx] at o1 hw
  have hst : (startValues lib.nan md.endog).length = (m.names "var").length := by
    rw [← h.rep.endog]; simp [startValues, MState.endogNames]
  simp only [hst] at o1 hmin
  have hfun : ∀ (i : Nat) f, md.steady[i]? = some f → ∃ l r, (equations m.stmts)[i]? = some (l, r) := by
    intro i f hf
    have : i < (equations m.stmts).length := by
      rw [← h.rep.steadyLength]; exact (List.getElem?_eq_some_iff.mp hf).1
    exact ⟨_, _, List.getElem?_eq_getElem this⟩
  obtain ⟨vs, c1, c2, c3⟩ := callAll_of (fs := md.steady) (vec := ys) (Q := fun _ v => v = 0) fun i f hf => by
    obtain ⟨l, r, hlr⟩ := hfun i f hf
    exact ⟨0, (h.rest hsub hp he hlr hf hy 0).mpr (hrest l r (List.mem_of_getElem? hlr)), rfl⟩
  obtain ⟨v, hv⟩ : ∃ v, leastSquares ⟨callAll md.steady, startValues lib.nan md.endog⟩ ys = .ok v := by
    unfold leastSquares
    show ∃ v, (callAll md.steady ys).bind _ = .ok v
    rw [c1]
    exact ⟨_, rfl⟩
  obtain ⟨-, vs', d1, d2⟩ := leastSquares_zero hv
  have e1 : vs' = vs := Except.ok.inj (d1.symm.trans c1)
  have hv0 : v = 0 := d2.mpr fun z hz => by
    rw [e1] at hz
    obtain ⟨i, hi, e⟩ := List.getElem_of_mem hz
    exact c3 i z (by rw [List.getElem?_eq_getElem hi, e])
  obtain ⟨f1, us, f2, f3⟩ := leastSquares_zero hw
  have hw0 : w = 0 := le_antisymm (hv0 ▸ hmin ys v hy hv) f1
  have hall := f3.mp hw0
  obtain ⟨-, g⟩ := callAll_get f2
  refine ⟨o1, ?_⟩
  intro l r hlr v
  obtain ⟨i, hi, e⟩ := List.getElem_of_mem hlr
  have hlr' : (equations m.stmts)[i]? = some (l, r) := by rw [List.getElem?_eq_getElem hi, e]
  have hf := List.getElem?_eq_getElem (l := md.steady) (i := i) (by rw [h.rep.steadyLength]; exact hi)
  obtain ⟨z, z1, z2⟩ := g i _ hf
  have hz := hall z (List.mem_of_getElem? z1)
  rw [← h.rest hsub hp he hlr' hf o1 v, z2, hz]
  exact ⟨fun h => (Except.ok.inj h).symm, fun h => by rw [h]⟩

/-- the steady state of a model that has one, if the minimiser finds a minimum -/
theorem TextFacts.found {S : Type} {ops : Ops V} (hsub : ∀ a b, ops.bin .sub a b = .ok (a - b)) {lib : Libs V}
    (hopt : FindsMinimum lib.opt) {m : ModelFile V} {ρ σ : String → Option V} {md : MState V (ModelSpace V) S}
    {pss : List (List Int)} (h : TextFacts ops lib m ρ σ md pss) (hp : PlainParams m) (he : PlainEquations m)
    {ys : List V} (hy : ys.length = (m.names "var").length)
    (hrest : ∀ l r, (l, r) ∈ equations m.stmts → GapIs ops m σ (levelsAt ys noDev) l r 0) :
    ∀ l r, (l, r) ∈ equations m.stmts → ∀ v, GapIs ops m σ (levelsAt md.statespace.steady noDev) l r v ↔ v = 0 := by
  obtain ⟨-, -, -, -, s5, -⟩ := modelSpace_ok h.space
  exact (h.toTextBase.foundAt hsub hopt hp he hy hrest s5).2

/-- **C159** (partial as above), for models that have a steady state: if the minimiser finds a minimum, the steady state
reported satisfies the equations of the file, and paths that follow the solution satisfy them up to an error that is
small compared with the deviations. -/
theorem C159_found_partial {SS S : Type} (r : ReadEnv V SS S) (lib : Libs V) (ex : lib.la.Exact) (had : lib.ad.Exact)
    (hopt : FindsMinimum lib.opt)
    (hsub : ∀ a b, r.env.ops.bin .sub a b = .ok (a - b)) {text : List Char} {m : ModelFile V} {ρ σ : String → Option V}
    (hσ : FileVals r.env.ops m ρ σ) {ys : List V} (hys : ys.length = (m.names "var").length)
    (hrest : ∀ l rr, (l, rr) ∈ equations m.stmts → GapIs r.env.ops m σ (levelsAt ys noDev) l rr 0)
    {md md' : MState V (ModelSpace V) (Arr V × Arr V)} (h : ReadFrom (r.first lib) text m ρ md) (hw : WellPosed m)
    {gy gu : Arr V} (hsol : md.solve (r.env.first lib) = (md', .ok (gy, gu)))
    (hsep : md.statespace.space.parts.Separated) :
    (∀ l rr, (l, rr) ∈ equations m.stmts → GapIs r.env.ops m σ (levelsAt md.statespace.steady noDev) l rr 0) ∧
    ∀ ε > 0, ∃ δ > 0, ∀ e, e ≤ δ → ∀ ym u y yE : Nat → V,
      (∀ c < (m.names "var").length, |ym c| ≤ e) → (∀ k < (m.names "varexo").length, |u k| ≤ e) →
      FollowsPolicy md.indexes.toTyper (m.names "varexo").length gy gu ym u y →
      FollowsPolicy md.indexes.toTyper (m.names "varexo").length gy gu y (fun _ => 0) yE →
      ∀ l rr, (l, rr) ∈ equations m.stmts →
        ∃ w, GapIs r.env.ops m σ (levelsAt md.statespace.steady ⟨ym, y, yE, u⟩) l rr w ∧ |w| ≤ ε * e := by
  obtain ⟨σ', pss, tf⟩ := text_facts (lib := lib) rfl h
  have : σ' = σ := exec_unique tf.vals.model hσ.model
  subst this
  have hf := tf.found hsub hopt h.params h.equations hys hrest
  obtain ⟨σ'', hv, -, hacc⟩ := C159_first_order_partial r lib ex had hsub h hw hsol hsep
  have : σ'' = σ' := exec_unique hv.model hσ.model
  subst this
  refine ⟨fun l rr hlr => (hf l rr hlr 0).mpr rfl, fun ε hε => ?_⟩
  obtain ⟨δ, hδ, hacc⟩ := hacc ε hε
  refine ⟨δ, hδ, fun e hle ym u y yE h1 h2 h3 h4 l rr hlr => ?_⟩
  obtain ⟨⟨w, hw'⟩, hb⟩ := hacc e hle ym u y yE h1 h2 h3 h4 l rr hlr
  refine ⟨w, hw', ?_⟩
  simpa using hb w 0 hw' ((hf l rr hlr 0).mpr rfl)

end

section
variable {V : Type} [Field V] [LinearOrder V] [IsStrictOrderedRing V]

/-- **C160** (partial as C159).  The same for second-order solutions, provided that differentiating twice at the steady state is exact too:
the error that paths make which follow the second-order solution is small compared with the square of the deviations.
(The correction for risk, which is constant, is left out of the paths; `C86_risk` is about it.) -/
theorem C160_second_order_partial {SS S : Type} (r : ReadEnv V SS S) (lib : Libs V) (ex : lib.la.Exact)
    (had : lib.ad.Exact) (hqz : GQZExact lib.qz)
    (hsub : ∀ a b, r.env.ops.bin .sub a b = .ok (a - b)) {text : List Char} {m : ModelFile V} {ρ : String → Option V}
    {md md' : MState V (ModelSpace V) ((Arr V × Arr V) × SecondNd V)} (h : ReadFrom (r.second lib (1 / 2)) text m ρ md)
    (had2 : ∀ f ∈ md.dynamic,
      lib.ad.SecondExactAt f (linPoint md.indexes.toTyper (m.names "varexo").length md.statespace.steady))
    (hw : WellPosed m) {gy gu : Arr V} {so : SecondNd V}
    (hsol : md.solve (r.env.second lib (1 / 2)) = (md', .ok ((gy, gu), so)))
    (hsep : md.statespace.space.parts.Separated) :
    ∃ σ, FileVals r.env.ops m ρ σ ∧
    (∀ l rr, (l, rr) ∈ equations m.stmts →
      ∃ w₀, GapIs r.env.ops m σ (levelsAt md.statespace.steady noDev) l rr w₀) ∧
    ∀ ε > 0, ∃ δ > 0, ∀ e, e ≤ δ → ∀ ym u y yE : Nat → V,
      (∀ c < (m.names "var").length, |ym c| ≤ e) → (∀ k < (m.names "varexo").length, |u k| ≤ e) →
      FollowsSecond md.indexes.toTyper (m.names "varexo").length so gy gu ym u y →
      FollowsSecond md.indexes.toTyper (m.names "varexo").length so gy gu y (fun _ => 0) yE →
      ∀ l rr, (l, rr) ∈ equations m.stmts →
        (∃ w, GapIs r.env.ops m σ (levelsAt md.statespace.steady ⟨ym, y, yE, u⟩) l rr w) ∧
        ∀ w w₀, GapIs r.env.ops m σ (levelsAt md.statespace.steady ⟨ym, y, yE, u⟩) l rr w →
          GapIs r.env.ops m σ (levelsAt md.statespace.steady noDev) l rr w₀ → |w - w₀| ≤ ε * (e * e) := by
  obtain ⟨σ, pss, tf⟩ := text_facts (lib := lib) rfl h
  obtain ⟨s1, s2, s3, s4, s5, s6, s7⟩ := modelSpace_ok tf.space
  obtain ⟨sg, hs, -⟩ := solve_fresh tf.fresh hsol
  have hs : secondSolution lib (1 / 2) md.statespace sg = .ok ((gy, gu), so) := hs
  unfold secondSolution at hs
  obtain ⟨⟨gy', gu'⟩, hs1, hs⟩ := Except.bind_eq_ok hs
  obtain ⟨H, hs2, hs⟩ := Except.bind_eq_ok hs
  obtain ⟨so', hs3, hs⟩ := Except.bind_eq_ok hs
  cases hs
  rw [s1, s2] at hs1 hs2 hs3
  rw [s3] at hs2
  obtain ⟨h1, h2, h3, J, h4, h5⟩ := hessian_taylor lib.ad had tf.table _ _ _ had2 _ hs2
  obtain rfl : md.statespace.jacobian = J := Except.ok.inj (s6.symm.trans h4)
  obtain ⟨j1, j2, j3⟩ := C109_jacobian lib.ad had tf.table _ _ _ _ s6
  have hps := tf.periods h.equations hw
  have hfs : md.dynamic.length = pss.length := by rw [tf.rep.dynamicLength, hw.square, tf.len]
  obtain ⟨hn, -⟩ := solved_facts ex hps tf.table s7 hs1
  obtain ⟨v₀, hv₀, hacc⟩ := C111_second_order_accuracy lib.la ex lib.qz hqz pss md.indexes hps tf.table _ md.dynamic hfs
    md.statespace.steady md.statespace.jacobian H _ (by rw [j1, hfs]) (by rw [h1, hfs])
    (fun i hi => h3 i (by omega)) ⟨rfl, rfl⟩ h5 _ gy gu s7 hsep hs1 so' hs3
  have hlen := linPoint_length tf.table (m.names "varexo").length md.statespace.steady
  have hcall : ∀ vec : List V, vec.length = md.indexes.count + (m.names "varexo").length →
      dynamicCall md.indexes (m.names "varexo").length md.dynamic vec = callAll md.dynamic vec := by
    intro vec h; unfold dynamicCall; rw [if_pos h]
  rw [hcall _ hlen] at hv₀
  obtain ⟨l₀, g₀⟩ := callAll_get hv₀
  have hfun : ∀ l rr, (l, rr) ∈ equations m.stmts → ∃ (i : Nat) (f : ResFun V),
      (equations m.stmts)[i]? = some (l, rr) ∧ md.dynamic[i]? = some f := by
    intro l rr hlr
    obtain ⟨i, hi, e⟩ := List.getElem_of_mem hlr
    have : i < md.dynamic.length := by rw [tf.rep.dynamicLength]; exact hi
    exact ⟨i, _, by rw [List.getElem?_eq_getElem hi, e], List.getElem?_eq_getElem this⟩
  have hrest := assembled_rest tf.table (m.names "varexo").length md.statespace.steady
  refine ⟨σ, tf.vals, fun l rr hlr => ?_, fun ε hε => ?_⟩
  · obtain ⟨i, f, hi, hf⟩ := hfun l rr hlr
    obtain ⟨w, -, hw'⟩ := g₀ i f hf
    exact ⟨w, (tf.gap hsub h.equations hw hi hf hrest w).mp hw'⟩
  · obtain ⟨δ, hδ, hacc⟩ := hacc ε hε
    refine ⟨δ, hδ, fun e hle ym u y yE hym hu hy hyE l rr hlr => ?_⟩
    obtain ⟨vec, hvec⟩ := assembled_exists tf.table (m.names "varexo").length md.statespace.steady ⟨ym, y, yE, u⟩
    obtain ⟨v, hv, hvl, hb⟩ := hacc e hle ym u y yE (fun c hc => hym c (by rw [← tf.len]; omega)) hu hy hyE vec hvec
    rw [hcall _ hvec.len] at hv
    obtain ⟨l₁, g₁⟩ := callAll_get hv
    obtain ⟨i, f, hi, hf⟩ := hfun l rr hlr
    obtain ⟨w₁, a1, a2⟩ := g₁ i f hf
    obtain ⟨w₂, b1, b2⟩ := g₀ i f hf
    refine ⟨⟨w₁, (tf.gap hsub h.equations hw hi hf hvec w₁).mp a2⟩, fun w w₀ hg hg₀ => ?_⟩
    have e1 := (tf.gap hsub h.equations hw hi hf hvec w).mpr hg
    have e2 := (tf.gap hsub h.equations hw hi hf hrest w₀).mpr hg₀
    rw [a2] at e1
    rw [b2] at e2
    have := hb i (List.getElem?_eq_some_iff.mp a1).1
    unfold vecEntry at this
    rw [a1, b1] at this
    rw [← Except.ok.inj e1, ← Except.ok.inj e2]
    exact this

end

/-- **C160** over the real numbers, where it is enough that each differentiation is exact. -/
theorem C160_real_partial {SS S : Type} (r : ReadEnv ℝ SS S) (lib : Libs ℝ) (ex : lib.la.Exact)
    (had : lib.ad.Exact) (hqz : GQZExact lib.qz)
    (hsub : ∀ a b, r.env.ops.bin .sub a b = .ok (a - b)) {text : List Char} {m : ModelFile ℝ} {ρ : String → Option ℝ}
    {md md' : MState ℝ (ModelSpace ℝ) ((Arr ℝ × Arr ℝ) × SecondNd ℝ)} (h : ReadFrom (r.second lib (1 / 2)) text m ρ md)
    (hw : WellPosed m) {gy gu : Arr ℝ} {so : SecondNd ℝ}
    (hsol : md.solve (r.env.second lib (1 / 2)) = (md', .ok ((gy, gu), so)))
    (hsep : md.statespace.space.parts.Separated) :
    ∃ σ, FileVals r.env.ops m ρ σ ∧
    (∀ l rr, (l, rr) ∈ equations m.stmts →
      ∃ w₀, GapIs r.env.ops m σ (levelsAt md.statespace.steady noDev) l rr w₀) ∧
    ∀ ε > 0, ∃ δ > 0, ∀ e, e ≤ δ → ∀ ym u y yE : Nat → ℝ,
      (∀ c < (m.names "var").length, |ym c| ≤ e) → (∀ k < (m.names "varexo").length, |u k| ≤ e) →
      FollowsSecond md.indexes.toTyper (m.names "varexo").length so gy gu ym u y →
      FollowsSecond md.indexes.toTyper (m.names "varexo").length so gy gu y (fun _ => 0) yE →
      ∀ l rr, (l, rr) ∈ equations m.stmts →
        (∃ w, GapIs r.env.ops m σ (levelsAt md.statespace.steady ⟨ym, y, yE, u⟩) l rr w) ∧
        ∀ w w₀, GapIs r.env.ops m σ (levelsAt md.statespace.steady ⟨ym, y, yE, u⟩) l rr w →
          GapIs r.env.ops m σ (levelsAt md.statespace.steady noDev) l rr w₀ → |w - w₀| ≤ ε * (e * e) :=
  C160_second_order_partial r lib ex had hqz hsub h (fun _ _ _ hj => autograd_taylor had hj) hw hsol hsep

#print axioms C159_first_order_partial
#print axioms C159_found_partial
#print axioms C160_second_order_partial
#print axioms C160_real_partial

end Pynare

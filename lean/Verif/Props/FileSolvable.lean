import Verif.Lemmas.FileSolvable
import Verif.Props.SolvableSecond
/-!
# C165, C166: the model files that are solved

`fromText r "dynare" name text` – the model made from a text (C118); `md.solve env` – `model.solve(order=1)`,
or `model.solve(order=2)` with `r.second`.
-/

namespace Pynare

variable {V : Type} [Field V] [LinearOrder V] [IsStrictOrderedRing V]

/-- the steady state is found -/
theorem TextBase.answered {SS S : Type} {ops : Ops V} (hsub : ∀ a b, ops.bin .sub a b = .ok (a - b)) {lib : Libs V}
    (hans : FindsIfAny lib.opt) {m : ModelFile V} {ρ σ : String → Option V} {md : MState V SS S}
    {pss : List (List Int)} (h : TextBase ops m ρ σ md pss) (hp : PlainParams m) (he : PlainEquations m)
    {ys : List V} (hy : ys.length = (m.names "var").length)
    (hrest : ∀ l r, (l, r) ∈ equations m.stmts → GapIs ops m σ (levelsAt ys noDev) l r 0) :
    ∃ ss, modelValues lib.opt "dynare" ⟨callAll md.steady, startValues lib.nan md.endog⟩ = .ok ss := by
  have hst : (startValues lib.nan md.endog).length = (m.names "var").length := by
    rw [← h.rep.endog]; simp [startValues, MState.endogNames]
  have hfun : ∀ (i : Nat) f, md.steady[i]? = some f → ∃ l r, (equations m.stmts)[i]? = some (l, r) := by
    intro i f hf
    have : i < (equations m.stmts).length := by
      rw [← h.rep.steadyLength]; exact (List.getElem?_eq_some_iff.mp hf).1
    exact ⟨_, _, List.getElem?_eq_getElem this⟩
  obtain ⟨vs, c1, c2, c3⟩ := callAll_of (fs := md.steady) (vec := ys) (Q := fun _ v => v = 0) fun i f hf => by
    obtain ⟨l, r, hlr⟩ := hfun i f hf
    exact ⟨0, (h.rest hsub hp he hlr hf hy 0).mpr (hrest l r (List.mem_of_getElem? hlr)), rfl⟩
  obtain ⟨v, hv⟩ : ∃ v, leastSquares ⟨callAll md.steady, startValues lib.nan md.endog⟩ ys = .ok v := by
    unfold leastSquares
    show ∃ v, (callAll md.steady ys).bind _ = .ok v
    rw [c1]
    exact ⟨_, rfl⟩
  obtain ⟨-, vs', d1, d2⟩ := leastSquares_zero hv
  have e1 : vs' = vs := Except.ok.inj (d1.symm.trans c1)
  have hv0 : v = 0 := d2.mpr fun z hz => by
    rw [e1] at hz
    obtain ⟨i, hi, e⟩ := List.getElem_of_mem hz
    exact c3 i z (by rw [List.getElem?_eq_getElem hi, e])
  obtain ⟨res, hres⟩ := hans .gradient (leastSquares ⟨callAll md.steady, startValues lib.nan md.endog⟩)
    (startValues lib.nan md.endog) ⟨ys, v, by rw [hy, hst], hv, fun y w _ hw => by
      rw [hv0]; exact (leastSquares_zero hw).1⟩
  refine ⟨res.x, ?_⟩
  simp only [modelValues, SteadyObj.values, SteadyObj.compute, selectAlgo, runAlgo, hres, if_true]

/-- what is read before the state space is made -/
theorem read_skeleton {S : Type} (r : ReadEnv V (ModelSpace V) S) (lib : Libs V) (hlib : r.env.mkSS = modelSpace lib)
    (ok : CharOk r.cfg) {us : List (Tok V)} {m : ModelFile V} (hf : FileOf r.pc us m) {text : List Char}
    (hwr : Written r.cfg us text []) {ρ σ : String → Option V} (hr : Readable r.env.ops r.sq r.env.okName m ρ σ)
    (name : String) :
    ∃ (o : Outline V) (md₀ : MState V (ModelSpace V) S) (pss : List (List Int)),
      createOutline r.env.ops r.sq m = .ok o ∧ TextBase r.env.ops m ρ σ md₀ pss ∧
      modelLlx (m.names "var") ((equations m.stmts).map fun p => .bin .sub p.1 p.2) = .ok md₀.indexes ∧
      dynamicFuncs r.env.ops r.env.okName (m.names "var") (m.names "varexo") md₀.indexes.toTyper σ
        ((equations m.stmts).map fun p => .bin .sub p.1 p.2) = .ok md₀.dynamic ∧
      fromText r "dynare" name text = Out.ofExcept (fromOutline r.env o "dynare" name) ∧
      fromOutline r.env o "dynare" name = (do
        let ss ← modelSpace lib md₀.endog (m.names "varexo").length md₀.indexes md₀.steady md₀.dynamic
        .ok { md₀ with statespace := ss }) := by
  obtain ⟨sp₀⟩ : Nonempty (ModelSpace V) :=
    ⟨⟨⟨⟨0, fun _ _ => none⟩, 0⟩, 0, [], [], Arr.zeros 0 0, ⟨Arr.zeros 0 0, Arr.zeros 0 0, Arr.zeros 0 0, ⟨[], Arr.zeros 0 0, Arr.zeros 0 0, Arr.zeros 0 0, Arr.zeros 0 0, Arr.zeros 0 0, Arr.zeros 0 0⟩⟩⟩⟩
  let env₀ : MEnv V (ModelSpace V) S := { r.env with mkSS := fun _ _ _ _ _ => .ok sp₀ }
  let r₀ : ReadEnv V (ModelSpace V) S := ⟨r.cfg, r.pc, r.sq, env₀⟩
  obtain ⟨o, endog, idx, steady, dyn, f, h1, h2, h3⟩ := fromOutline_decided (env := env₀) hr name
  have hm₀ : fromOutline env₀ o "dynare" name = .ok (f sp₀) := by rw [h2]; rfl
  have ht₀ : fromText r₀ "dynare" name text = .ok (f sp₀) := by
    rw [fromText_run (r := r₀) ok hf hwr h1, hm₀]; rfl
  have hread : ReadFrom r₀ text m ρ (f sp₀) :=
    ⟨ok, ⟨us, hf, hwr⟩, ⟨_, _, ht₀⟩, hr.vals.preamble, hr.params, hr.plain⟩
  obtain ⟨σ', pss, tb, hfr, hstoch⟩ := text_base hread
  obtain rfl : σ' = σ := exec_unique tb.vals.model hr.vals.model
  obtain ⟨-, -, hx₀, hc₀⟩ := text_fresh (r := r₀) ok hf hwr ht₀ hr.vals.preamble
  refine ⟨o, f sp₀, pss, h1, tb, ?_, ?_, fromText_run (r := r) ok hf hwr h1, ?_⟩
  · have := hfr.indexes
    rwa [tb.rep.endog, hx₀] at this
  · have := hfr.dynamic
    rwa [tb.rep.endog, tb.rep.stoch, tb.rep.scope, hx₀] at this
  · have := fromOutline_swap (env := r.env) (env₀ := env₀) rfl rfl hm₀
    rwa [hstoch, hlib] at this

/-- whether a model is made from a text and solved comes down to its state space and its solution -/
theorem text_solved_iff {S : Type} (r : ReadEnv V (ModelSpace V) S) (lib : Libs V) (hlib : r.env.mkSS = modelSpace lib)
    (hopt : FindsMinimum lib.opt) (hans : FindsIfAny lib.opt) (hsub : ∀ a b, r.env.ops.bin .sub a b = .ok (a - b))
    (ok : CharOk r.cfg) {us : List (Tok V)} {m : ModelFile V} (hf : FileOf r.pc us m) {text : List Char}
    (hwr : Written r.cfg us text []) {ρ σ : String → Option V} (hr : Readable r.env.ops r.sq r.env.okName m ρ σ)
    (hc : CorrelatedHaveVariance m) {a : String → V} (hrest : OneRest r.env.ops m σ a) {t : Llx} {J : Arr V}
    {fs : List (ResFun V)}
    (htab : modelLlx (m.names "var") ((equations m.stmts).map fun p => .bin .sub p.1 p.2) = .ok t)
    (hfs : dynamicFuncs r.env.ops r.env.okName (m.names "var") (m.names "varexo") t.toTyper σ
        ((equations m.stmts).map fun p => .bin .sub p.1 p.2) = .ok fs)
    (hJ : modelJacobian lib.ad t.toTyper (m.names "varexo").length fs ((m.names "var").map a) = .ok J) (name : String) :
    ∃ md₀ pss, TextBase (SS := ModelSpace V) (S := S) r.env.ops m ρ σ md₀ pss ∧ md₀.indexes = t ∧ md₀.dynamic = fs ∧
    ∃ sg, ((∃ md md' g, fromText r "dynare" name text = .ok md ∧ md.solve r.env = (md', .ok g)) ↔
      ∃ s g, Space.create lib.la t.toTyper J = .ok s ∧
        r.env.mkSol ⟨t, (m.names "varexo").length, fs, (m.names "var").map a, J, s⟩ sg = .ok g) := by
  obtain ⟨o, md₀, pss, h1, tb, i1, i2, htext, hswap⟩ := read_skeleton r lib hlib ok hf hwr hr name
  have hzero : ∀ l rr, (l, rr) ∈ equations m.stmts →
      GapIs r.env.ops m σ (levelsAt ((m.names "var").map a) noDev) l rr 0 := (hrest _ (by simp)).mpr rfl
  obtain rfl : md₀.indexes = t := Except.ok.inj (i1.symm.trans htab)
  obtain rfl : fs = md₀.dynamic := Except.ok.inj (hfs.symm.trans i2)
  obtain ⟨ss, hss⟩ := tb.answered hsub hans hr.params hr.plain (ys := (m.names "var").map a) (by simp) hzero
  obtain ⟨hl, hz⟩ := tb.foundAt hsub hopt hr.params hr.plain (ys := (m.names "var").map a) (by simp) hzero hss
  obtain rfl := (hrest _ hl).mp fun l rr hlr => (hz l rr hlr 0).mpr rfl
  have hn : md₀.indexes.n = (m.names "var").length := by rw [(buildLlx_spec tb.table).1, tb.len]
  have hms : modelSpace lib md₀.endog (m.names "varexo").length md₀.indexes md₀.steady md₀.dynamic =
      (Space.create lib.la md₀.indexes.toTyper J).bind fun s =>
        .ok ⟨md₀.indexes, (m.names "varexo").length, md₀.dynamic, (m.names "var").map a, J, s⟩ := by
    simp only [modelSpace, hss, exc_bind, hl, hn, ne_eq, not_true_eq_false, if_false, hJ]
    rfl
  obtain ⟨sg, hsg⟩ := outline_sigma hr hc h1 r.env.sqrt o.stoch
  refine ⟨md₀, pss, tb, rfl, rfl, sg, ?_⟩
  rw [hms] at hswap
  rw [htext]
  cases hcr : Space.create lib.la md₀.indexes.toTyper J with
  | error e =>
    rw [hcr] at hswap
    rw [hswap]
    constructor
    · rintro ⟨md, md', g, h, -⟩; cases h
    · rintro ⟨s, g, h, -⟩; cases h
  | ok s =>
    rw [hcr] at hswap
    have hswap : fromOutline r.env o "dynare" name = .ok { md₀ with
      statespace := ⟨md₀.indexes, (m.names "varexo").length, md₀.dynamic, (m.names "var").map a, J, s⟩ } := hswap
    obtain ⟨_, _, _, _, _, _, _, _, _, _, hbuild⟩ := fromOutline_inv hswap
    obtain ⟨hfr', ha', hn', _⟩ := create_fresh hbuild
    rw [← fromOutline_stoch hswap] at hsg
    rw [hswap]
    constructor
    · rintro ⟨md, md', g, hmd, hsol⟩
      cases hmd
      obtain ⟨sg', hs, hsg'⟩ := solve_fresh ha' hsol
      rw [readSigma_fresh hfr' ha' hn' hsg] at hsg'
      obtain rfl := Except.ok.inj hsg'
      exact ⟨s, g, rfl, hs⟩
    · rintro ⟨s', g, hs', hg⟩
      obtain rfl := Except.ok.inj hs'
      obtain ⟨md', hmd'⟩ := solve_fresh_ok hfr' ha' hn' hsg hg
      exact ⟨_, md', g, rfl, hmd'⟩

/-- **C165** (partial: for files whose equations are plain, C118; the libraries are exact and answer).  Let a text be
a model file that can be read, with as many equations as variables, every variable occurring in the current period,
at least one shock and a variance for every correlated shock; let it have exactly one point of rest `a`, and about it
exactly one bounded path of small deviations from every initial values.  Then the text is made into a model that can be
solved to first order if and only if some variable occurs with a lead, and either one occurs with a lag only or exactly
one occurs with both.  What is excluded: eigenvalues of modulus one or outside the unit circle with a real part of at
most one (`Answers`, C46, C73). -/
theorem C165_solved_iff_partial {SS S : Type} (φ : V →+* ℂ) (r : ReadEnv V SS S) (lib : Libs V) (ex : lib.la.Exact)
    (rk : lib.la.RankExact) (iv : lib.la.Inverts) (had : lib.ad.Exact) (hopt : FindsMinimum lib.opt)
    (hans : FindsIfAny lib.opt) (hsub : ∀ a b, r.env.ops.bin .sub a b = .ok (a - b)) (ok : CharOk r.cfg)
    {us : List (Tok V)} {m : ModelFile V} (hf : FileOf r.pc us m) {text : List Char} (hwr : Written r.cfg us text [])
    {ρ σ : String → Option V} (hr : Readable r.env.ops r.sq r.env.okName m ρ σ) (hw : WellPosed m)
    (hx : 0 < (m.names "varexo").length) (hc : CorrelatedHaveVariance m) {a : String → V}
    (hrest : OneRest r.env.ops m σ a) {t : Llx} {J : Arr V}
    (hj : JacobianOf r.env.ops r.env.okName lib.ad σ (m.names "var") (m.names "varexo")
      ((equations m.stmts).map fun p => .bin .sub p.1 p.2) ((m.names "var").map a) t J)
    (ans : lib.la.Answers φ t J) (hone : OneBoundedFilePath φ r.env.ops m σ ((m.names "var").map a)) (name : String) :
    (∃ md md' g, fromText (r.first lib) "dynare" name text = .ok md ∧ md.solve (r.env.first lib) = (md', .ok g)) ↔
      SupportedFile m := by
  obtain ⟨fs, hfs, hJ⟩ := hj.jacobian
  obtain ⟨md₀, pss, tb, rfl, rfl, sg, hiff₀⟩ := text_solved_iff (r.first lib) lib rfl hopt hans hsub ok hf hwr hr hc hrest
    hj.table hfs hJ name
  obtain ⟨k1, k2, -⟩ := C109_jacobian lib.ad had tb.table _ _ _ _ hJ
  have hJr : J.r = (m.names "var").length := by rw [k1, tb.rep.dynamicLength, hw.square]
  have hone' := (oneBounded_file φ hJr (tb.solves_iff hsub hr.plain hw had hJ ((hrest _ (by simp)).mpr rfl))).mp hone
  have hiff := C73_iff_partial φ lib.la ex rk iv pss (tb.periods hr.plain hw) md₀.indexes tb.table
    (m.names "varexo").length hx J (by rw [hJr, tb.len]) k2 ans hone'
  rw [← tb.mix, ← hiff]
  refine hiff₀.trans ⟨?_, ?_⟩
  · rintro ⟨s, ⟨gy, gu⟩, h1, h2⟩
    exact ⟨s, gy, gu, h1, h2⟩
  · rintro ⟨s, gy, gu, h1, h2⟩
    exact ⟨s, (gy, gu), h1, h2⟩

/-- **C166** (partial: as C165; the equations can be differentiated twice).  The text of a file as in C165 is made into a
model that can be solved to second order if and only if it can be solved to first order and the numbers of variables,
of variables with lags, of variables with leads and of shocks are supported. -/
theorem C166_solved_iff_partial {SS S : Type} (φ : V →+* ℂ) (r : ReadEnv V SS S) (lib : Libs V) (half : V)
    (ex : lib.la.Exact) (rk : lib.la.RankExact) (iv : lib.la.Inverts) (hqz : GQZExact lib.qz) (had : lib.ad.Exact)
    (hopt : FindsMinimum lib.opt)
    (hans : FindsIfAny lib.opt) (hsub : ∀ a b, r.env.ops.bin .sub a b = .ok (a - b)) (ok : CharOk r.cfg)
    {us : List (Tok V)} {m : ModelFile V} (hf : FileOf r.pc us m) {text : List Char} (hwr : Written r.cfg us text [])
    {ρ σ : String → Option V} (hr : Readable r.env.ops r.sq r.env.okName m ρ σ) (hw : WellPosed m)
    (hx : 0 < (m.names "varexo").length) (hc : CorrelatedHaveVariance m) {a : String → V}
    (hrest : OneRest r.env.ops m σ a) {t : Llx} {J H : Arr V}
    (hj : JacobianOf r.env.ops r.env.okName lib.ad σ (m.names "var") (m.names "varexo")
      ((equations m.stmts).map fun p => .bin .sub p.1 p.2) ((m.names "var").map a) t J)
    (hh : ∃ fs, dynamicFuncs r.env.ops r.env.okName (m.names "var") (m.names "varexo") t.toTyper σ
        ((equations m.stmts).map fun p => .bin .sub p.1 p.2) = .ok fs ∧
      modelHessian lib.ad t.toTyper (m.names "varexo").length fs ((m.names "var").map a) = .ok H)
    (ans : lib.la.Answers φ t J)
    (ans2 : ∀ s gy gu, Space.create lib.la t.toTyper J = .ok s →
      solveFirstOrder lib.la t (m.names "varexo").length s = .ok (gy, gu) → AnswersSecond lib.qz t.toTyper J gy)
    (hone : OneBoundedFilePath φ r.env.ops m σ ((m.names "var").map a)) (name : String) :
    (∃ md md' g, fromText (r.second lib half) "dynare" name text = .ok md ∧
        md.solve (r.env.second lib half) = (md', .ok g)) ↔
      SupportedFile m ∧ SupportedShape (m.names "var").length (countUsed m (-1)) (countUsed m 1)
        (m.names "varexo").length := by
  obtain ⟨fs, hfs, hJ⟩ := hj.jacobian
  obtain ⟨fs', hfs', hH⟩ := hh
  obtain rfl : fs = fs' := Except.ok.inj (hfs.symm.trans hfs')
  obtain ⟨md₀, pss, tb, rfl, rfl, sg, hiff₀⟩ := text_solved_iff (r.second lib half) lib rfl hopt hans hsub ok hf hwr hr hc
    hrest hj.table hfs hJ name
  obtain ⟨k1, k2, -⟩ := C109_jacobian lib.ad had tb.table _ _ _ _ hJ
  have hJr : J.r = (m.names "var").length := by rw [k1, tb.rep.dynamicLength, hw.square]
  have hHs : H.r = pss.length ∧ H.c = (md₀.indexes.count + (m.names "varexo").length) *
      (md₀.indexes.count + (m.names "varexo").length) := by
    obtain ⟨q1, q2⟩ := modelHessian_shape tb.table hH
    rw [q1, q2, pow_two, tb.rep.dynamicLength, hw.square, tb.len]
    exact ⟨rfl, rfl⟩
  have hone' := (oneBounded_file φ hJr (tb.solves_iff hsub hr.plain hw had hJ ((hrest _ (by simp)).mpr rfl))).mp hone
  have hiff := C73_iff_partial φ lib.la ex rk iv pss (tb.periods hr.plain hw) md₀.indexes tb.table
    (m.names "varexo").length hx J (by rw [hJr, tb.len]) k2 ans hone'
  have hsec := fun mix => C164_iff_partial φ lib.la ex rk iv lib.qz hqz half pss (tb.periods hr.plain hw) mix
    md₀.indexes tb.table (m.names "varexo").length hx J H
    ⟨(m.names "varexo").length, (m.names "varexo").length, sg⟩ (by rw [hJr, tb.len]) k2 hHs ⟨rfl, rfl⟩ ans ans2 hone'
  rw [← tb.mix, ← tb.len, ← tb.count _ (by decide), ← tb.count _ (by decide)]
  refine hiff₀.trans ⟨?_, ?_⟩
  · rintro ⟨s, g, h1, h2⟩
    have h2 : secondSolution lib half _ sg = .ok g := h2
    unfold secondSolution at h2
    obtain ⟨⟨gy, gu⟩, h3, h2⟩ := Except.bind_eq_ok h2
    obtain ⟨H', h4, h2⟩ := Except.bind_eq_ok h2
    obtain ⟨so, h5, -⟩ := Except.bind_eq_ok h2
    obtain rfl := Except.ok.inj (hH.symm.trans h4)
    have mix := hiff.mp ⟨s, gy, gu, h1, h3⟩
    obtain ⟨s', gy', gu', e1, -, e2, e3⟩ := hsec mix
    obtain rfl := Except.ok.inj (h1.symm.trans e1)
    have e := Except.ok.inj (h3.symm.trans e2)
    simp only [Prod.mk.injEq] at e
    obtain ⟨rfl, rfl⟩ := e
    exact ⟨mix, e3.mp ⟨so, h5⟩⟩
  · rintro ⟨mix, hshape⟩
    obtain ⟨s, gy, gu, e1, -, e2, e3⟩ := hsec mix
    obtain ⟨so, hso⟩ := e3.mpr hshape
    refine ⟨s, ((gy, gu), so.stored half), e1, ?_⟩
    show secondSolution lib half _ sg = _
    simp only [secondSolution, e2, exc_bind, hH, hso]

#print axioms C166_solved_iff_partial
#print axioms C165_solved_iff_partial

end Pynare

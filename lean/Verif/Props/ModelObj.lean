import Verif.Lemmas.ModelObj
import Verif.Props.Exprs
/-!
# C38 – C40, C42, C70, C71: model objects

`MState.create env a` – `Model(...)`; `MOp` – what a user does with a model afterwards (adding
variables, parameters, equations, shocks; reading what is derived; solving); `Reaches env m m'` – a
history of such operations, none of which raised, leads from `m` to `m'`; `MState.copy` – `copy()`;
`regimeModels` – `RegimeSwitchingModel(...)`; `CalibRef` – a calibration with its dictionary kept by
reference.
-/

namespace Pynare

variable {V SS S : Type}

/-! ### a concrete model: `x = rho*x(-1) + e` with `rho = 5` -/

/-- delegates; the "state space" is the residual of the first equation at (1, 1, 0), and the
"solution" is that number -/
def toyEnv : MEnv Int Int Int where
  ops := intOps
  okName := fun _ => true
  parse := fun _ => .ok (.bin .sub (.var "x") (.pvar "x" (-1)))
  sqrt := id
  mkSS := fun _ _ _ _ dy => match dy with
    | f :: _ => f [1, 1, 0]
    | [] => .error .indexError
  mkSol := fun ss _ => .ok ss

/-- the same with a "state space" that can always be made -/
def toyEnv2 : MEnv Int Int Int := { toyEnv with mkSS := fun _ _ _ _ _ => .ok 0 }

/-- `x = rho*x(-1) + e` -/
def eqAR : Expr Int :=
  .bin .sub (.var "x") (.bin .add (.bin .mul (.var "rho") (.pvar "x" (-1))) (.var "e"))

/-- arguments of the toy model -/
def toyArgs : MArgs Int :=
  { endog := ["x"], stoch := ["e"], params := [("rho", .num 5)], exprs := ⟨[eqAR], [""]⟩ }

/-! ### C38: derived quantities are never stale -/

section c38
variable [Zero V] [One V] [Mul V] {env : MEnv V SS S} {a : MArgs V} {m0 m : MState V SS S}

omit [Mul V] in
theorem create_build (h0 : MState.create env a = .ok m0) :
    ∃ params locals, Calibration.create env.ops a.params = .ok params ∧
      Calibration.create env.ops a.locals = .ok locals ∧
      MState.build env a params locals = .ok m0 := by
  simp only [MState.create, Except.bind_ok_iff] at h0
  obtain ⟨locals, h1, h2⟩ := h0
  split at h2
  · cases h2
  · simp only [Except.bind_ok_iff] at h2
    obtain ⟨params, h3, h4⟩ := h2
    exact ⟨params, locals, h3, h1, h4⟩

theorem inv_of_history (h0 : MState.create env a = .ok m0) (hr : Reaches env m0 m) :
    m.altered = false → Fresh env m := by
  obtain ⟨_, _, _, _, h⟩ := create_build h0
  exact reaches_inv hr fun _ => (create_fresh h).1

/-- **C38**, the part that holds for the lead/lag table: after any history in which nothing raised,
the table that is read is that of the current variables and equations. -/
theorem C38_indexes_partial (h0 : MState.create env a = .ok m0) (hr : Reaches env m0 m) {m' t}
    (h : m.readAttr env MState.indexes = (m', .ok t)) :
    modelLlx m.endogNames m.exprs.exprs = .ok t := by
  obtain ⟨h1, rfl⟩ := readAttr_ok h
  obtain ⟨f, s, _⟩ := refresh_ok (inv_of_history h0 hr) h1
  have := f.indexes
  rwa [s.names, s.exprs] at this

/-- **C38** for the steady residual functions. -/
theorem C38_steady_partial (h0 : MState.create env a = .ok m0) (hr : Reaches env m0 m) {m' fs}
    (h : m.readAttr env MState.steady = (m', .ok fs)) :
    steadyFuncs env.ops env.okName m.endogNames m.scope m.exprs.exprs = .ok fs := by
  obtain ⟨h1, rfl⟩ := readAttr_ok h
  obtain ⟨f, s, _⟩ := refresh_ok (inv_of_history h0 hr) h1
  have := f.steady
  rwa [s.names, s.exprs, s.scope] at this

/-- **C38** for the dynamic residual functions, which are made with the current table. -/
theorem C38_dynamic_partial (h0 : MState.create env a = .ok m0) (hr : Reaches env m0 m) {m' fs}
    (h : m.readAttr env MState.dynamic = (m', .ok fs)) :
    ∃ t, modelLlx m.endogNames m.exprs.exprs = .ok t ∧
      dynamicFuncs env.ops env.okName m.endogNames m.stochNames t.toTyper m.scope m.exprs.exprs =
        .ok fs := by
  obtain ⟨h1, rfl⟩ := readAttr_ok h
  obtain ⟨f, s, _⟩ := refresh_ok (inv_of_history h0 hr) h1
  have h2 := f.indexes
  have h3 := f.dynamic
  have hst : m'.stochNames = m.stochNames := by simp [MState.stochNames, s.stoch]
  rw [s.names, s.exprs] at h2
  rw [s.names, s.exprs, s.scope, hst] at h3
  exact ⟨_, h2, h3⟩

/-- **C38** for the state space: it was made from the current table, the current residual functions
and the variables with their current bounds. -/
theorem C38_statespace_partial (h0 : MState.create env a = .ok m0) (hr : Reaches env m0 m) {m' ss}
    (h : m.readAttr env MState.statespace = (m', .ok ss)) :
    ∃ es t st dy, modelLlx m.endogNames m.exprs.exprs = .ok t ∧
      steadyFuncs env.ops env.okName m.endogNames m.scope m.exprs.exprs = .ok st ∧
      dynamicFuncs env.ops env.okName m.endogNames m.stochNames t.toTyper m.scope m.exprs.exprs =
        .ok dy ∧
      es.map (fun e => (e.name, e.initial, e.terminal, e.historical)) =
        m.endog.map (fun e => (e.name, e.initial, e.terminal, e.historical)) ∧
      env.mkSS es m.stoch.length t st dy = .ok ss := by
  obtain ⟨h1, rfl⟩ := readAttr_ok h
  obtain ⟨f, s, _⟩ := refresh_ok (inv_of_history h0 hr) h1
  have h2 := f.indexes
  have h3 := f.dynamic
  have h4 := f.steady
  have hst : m'.stochNames = m.stochNames := by simp [MState.stochNames, s.stoch]
  rw [s.names, s.exprs] at h2
  rw [s.names, s.exprs, s.scope, hst] at h3
  rw [s.names, s.exprs, s.scope] at h4
  exact ⟨m'.endog, _, _, _, h2, h4, h3, s.endog, s.stoch ▸ f.space⟩

/-- **C38** for the covariance matrix of the shocks. -/
theorem C38_sigma_partial (h0 : MState.create env a = .ok m0) (hr : Reaches env m0 m) {m' sg}
    (h : m.readSigma env = (m', .ok sg)) : defineSigma env.sqrt m.stoch = .ok sg := by
  obtain ⟨f, s, _, h1⟩ := readSigma_ok (inv_of_history h0 hr) h
  have := f.sigma sg h1
  rwa [s.stoch] at this

/-- **C38** for an explicit call of `solve`: the solution is made from the current state space and
the current covariance matrix. -/
theorem C38_solve_partial (h0 : MState.create env a = .ok m0) (hr : Reaches env m0 m) {m' s}
    (h : m.solve env = (m', .ok s)) :
    ∃ sg t st dy ss, DerivedOf env m sg t st dy ss ∧ env.mkSol ss sg = .ok s := by
  obtain ⟨_, _, _, m2, sg, s2, f, hsg, rfl, hsol⟩ := solve_ok (inv_of_history h0 hr) h
  refine ⟨sg, m2.indexes, m2.steady, m2.dynamic, m2.statespace, ⟨?_, ?_, ?_, ?_, m2.endog, s2.endog, s2.stoch ▸ f.space⟩, hsol⟩
  · have := f.sigma sg hsg; rwa [s2.stoch] at this
  · have := f.indexes; rwa [s2.names, s2.exprs] at this
  · have := f.steady; rwa [s2.names, s2.exprs, s2.scope] at this
  · have := f.dynamic
    have hst : m2.stochNames = m.stochNames := by simp [MState.stochNames, s2.stoch]
    rwa [s2.names, s2.exprs, s2.scope, hst] at this

omit [One V] in
/-- **C38 is false of the solution**: once a solution is there, reading it returns it unchanged,
whatever the definition is by now. -/
theorem C38_solution_frozen (s : S) (h : m.sol = some s) : m.solution env = (m, .ok s) := by
  simp [MState.solution, h]

end c38

/-- hypotheses of the theorems above met by a history with an edit, with the values read -/
example : ∃ m0 m1 m2 m3 m4 fs, MState.create toyEnv toyArgs = .ok m0 ∧
    (MOp.readSpace).run toyEnv m0 = (m1, none) ∧
    (MOp.addParams [("rho", .num 7)]).run toyEnv m1 = (m2, none) ∧
    m0.statespace = -4 ∧
    m2.readAttr toyEnv MState.statespace = (m3, .ok (-6)) ∧
    m3.readAttr toyEnv MState.steady = (m4, .ok fs) :=
  ⟨_, _, _, _, _, _, rfl, rfl, rfl, rfl, rfl, rfl⟩

/-- **C38 is false**, first way: the solution read after a change of a parameter is that of the old
parameter, while `solve()` gives the new one. -/
theorem C38_solution_stale : ∃ m0 m1 m2 m3 m4, MState.create toyEnv toyArgs = .ok m0 ∧
    m0.solution toyEnv = (m1, .ok (-4)) ∧
    (MOp.addParams [("rho", .num 7)]).run toyEnv m1 = (m2, none) ∧
    m2.solution toyEnv = (m3, .ok (-4)) ∧
    m2.solve toyEnv = (m4, .ok (-6)) :=
  ⟨_, _, _, _, _, rfl, rfl, rfl, rfl, rfl⟩

/-- **C38 is false**, second way: a refresh that raises has cleared the flag already, so the next
read returns the old table (one variable) although the model has two variables by then. -/
theorem C38_stale_after_failed_update : ∃ m0 m1 m2 m3 t e, MState.create toyEnv toyArgs = .ok m0 ∧
    (MOp.addEndog ["z"] none none none).run toyEnv m0 = (m1, none) ∧
    m1.readAttr toyEnv MState.indexes = (m2, .error e) ∧
    m2.readAttr toyEnv MState.indexes = (m3, .ok t) ∧
    m2.endogNames = ["x", "z"] ∧ t.n = 1 :=
  ⟨_, _, _, _, _, _, rfl, rfl, rfl, rfl, rfl, rfl⟩

/-- **C38 is false**, third way: `add_params` that raises half way has changed parameters without
flagging the model. -/
theorem C38_stale_after_failed_edit : ∃ m0 m1 m2 e, MState.create toyEnv toyArgs = .ok m0 ∧
    m0.addParams toyEnv [("rho", .num 7), ("b", .ast (.fn .max (.num 1)))] = (m1, some e) ∧
    m1.scope "rho" = some 7 ∧
    m1.readAttr toyEnv MState.statespace = (m2, .ok (-4)) :=
  ⟨_, _, _, _, rfl, rfl, rfl, rfl⟩

/-! ### C39: copies -/

section c39
variable [Zero V] [One V] [Mul V] {env : MEnv V SS S} {a : MArgs V} {m0 m : MState V SS S}

/-- Parameters given as a dictionary (whose keys are distinct, as in every Python dictionary). -/
theorem defOk_of_history (hk : a.params.keys.Nodup) (h0 : MState.create env a = .ok m0)
    (hr : Reaches env m0 m) : DefOk env m ∧ m.locals = m0.locals := by
  obtain ⟨params, locals, h1, h2, h3⟩ := create_build h0
  exact reaches_defOk hr (fun _ => (create_fresh h3).1) (defOk_build (solved_create hk h1) h3).1

/-- **C39**, the part that holds: take a model made without local parameters, after any history in
which nothing raised and whose last edit has been followed by a refresh, with distinct names of
endogenous variables, of shocks and of deterministic variables.  Its copy is made without exception
and has the same name, variables with bounds, shocks, parameters, equations, table, residual
functions and state space; only the cached covariance matrix and solution are missing. -/
theorem C39_copy_partial (hk : a.params.keys.Nodup) (hl : a.locals = [])
    (h0 : MState.create env a = .ok m0) (hr : Reaches env m0 m) (ha : m.altered = false)
    (h1 : m.endogNames.Nodup) (h2 : m.stochNames.Nodup) (h3 : (m.determ.map Determ.name).Nodup)
    (h4 : ∀ x ∈ m.stochNames, x ∉ m.determ.map Determ.name) :
    m.copy env = .ok { m with sigma := none, sol := none } := by
  obtain ⟨hd, hloc⟩ := defOk_of_history hk h0 hr
  have f := inv_of_history h0 hr ha
  have hl0 : m.locals = ⟨[], []⟩ := by
    obtain ⟨params, locals, _, h2, h3⟩ := create_build h0
    rw [hl] at h2
    have : locals = ⟨[], []⟩ := (Except.ok.inj h2).symm
    rw [hloc, (defOk_build (solved_create hk ‹_›) h3).2, this]
  obtain ⟨d, hd1, hd2⟩ := f.ll
  have hendog : m.endogNames.map (fun x => Endog.create x (d.get? x)
      ((attrDict Endog.name Endog.initial m.endog).get? x)
      ((attrDict Endog.name Endog.terminal m.endog).get? x)
      ((attrDict Endog.name Endog.historical m.endog).get? x)) = m.endog := by
    unfold MState.endogNames
    rw [List.map_map]
    conv => rhs; rw [← List.map_id m.endog]
    apply List.map_congr_left
    intro e he
    simp only [Function.comp, id]
    rw [attrDict_mem _ h1 he, attrDict_mem _ h1 he, attrDict_mem _ h1 he, ← hd2 e he]
    exact Endog.recreate (hd.endog e he)
  have hsc : scopeOf m.params ⟨[], []⟩ = m.scope := by rw [MState.scope, hl0]
  have hsto : makeAll (makeStoch (determDict m.determ (stochDict m.stoch []))) m.stochNames =
    .ok m.stoch := makeAll_stoch h2 h4
  have hdet : makeAll (makeDeterm (determDict m.determ (stochDict m.stoch [])))
    (m.determ.map Determ.name) = .ok m.determ := makeAll_determ h3
  have hidx : buildLlx (m.endog.map fun e => e.leadLag.getD []) = .ok m.indexes := by
    have := f.indexes
    simp only [modelLlx, hd1, bind, Except.bind] at this
    rw [← this]
    congr 1
    unfold MState.endogNames
    rw [List.map_map]
    apply List.map_congr_left
    intro e he
    simp [hd2 e he]
  have hst : m.stoch.map Stoch.name = m.stochNames := rfl
  simp only [MState.copy, nest_eq hd.params, MState.build, MState.copyArgs, bind, Except.bind, hd1,
    hsc, f.steady, hendog, hsto, hdet, hidx, hst, f.dynamic, f.space]
  rw [← hl0, ← ha]

/-- **C39**, when the refresh is still due: whatever is copied without exception has the same
definition. -/
theorem C39_copy_definition_partial (hk : a.params.keys.Nodup) (hl : a.locals = [])
    (h0 : MState.create env a = .ok m0) (hr : Reaches env m0 m)
    (h1 : m.endogNames.Nodup) (h2 : m.stochNames.Nodup) (h3 : (m.determ.map Determ.name).Nodup)
    (h4 : ∀ x ∈ m.stochNames, x ∉ m.determ.map Determ.name) {c} (hc : m.copy env = .ok c) :
    c.name = m.name ∧
    c.endog.map (fun e => (e.name, e.initial, e.terminal, e.historical)) =
      m.endog.map (fun e => (e.name, e.initial, e.terminal, e.historical)) ∧
    c.params = m.params ∧ c.locals = m.locals ∧ c.exprs = m.exprs ∧ c.stoch = m.stoch ∧
    c.determ = m.determ ∧ c.altered = false ∧ Fresh env c := by
  obtain ⟨hd, hloc⟩ := defOk_of_history hk h0 hr
  have hl0 : m.locals = ⟨[], []⟩ := by
    obtain ⟨params, locals, _, h2, h3⟩ := create_build h0
    rw [hl] at h2
    have : locals = ⟨[], []⟩ := (Except.ok.inj h2).symm
    rw [hloc, (defOk_build (solved_create hk ‹_›) h3).2, this]
  have hsto : makeAll (makeStoch (determDict m.determ (stochDict m.stoch []))) m.stochNames =
    .ok m.stoch := makeAll_stoch h2 h4
  have hdet : makeAll (makeDeterm (determDict m.determ (stochDict m.stoch [])))
    (m.determ.map Determ.name) = .ok m.determ := makeAll_determ h3
  simp only [MState.copy, nest_eq hd.params] at hc
  have hf := create_fresh (env := env) hc
  simp only [MState.build, MState.copyArgs, hsto, hdet, Except.bind_ok_iff, Except.ok.injEq] at hc
  obtain ⟨pp, rfl, d, _, st, _, sto, rfl, det, rfl, idx, _, dy, _, ss, _, rfl⟩ := hc
  refine ⟨rfl, ?_, rfl, hl0.symm, rfl, rfl, rfl, rfl, hf.1⟩
  simp only [MState.endogNames, List.map_map]
  apply List.map_congr_left
  intro e he
  simp only [Function.comp]
  rw [attrDict_mem _ h1 he, attrDict_mem _ h1 he, attrDict_mem _ h1 he]
  have hw := hd.endog e he
  unfold Endog.create
  split
  · rename_i ht hh
    obtain ⟨i, hi⟩ := hw ht hh
    simp [hi, ht, hh]
  · rfl

omit [Zero V] [One V] [Mul V] in
/-- **C39**, the parameters of the copy: they are held in a calibration inside a calibration, which
after any history of assignments behaves as the calibration that was copied. -/
theorem C39_nested_parameters {ops : Ops V} {defs : Dict (Def V)} (hk : defs.keys.Nodup)
    {c : Calibration V} (h : Calibration.create ops defs = .ok c)
    (kds : List (String × Def V)) (k : String) (d : Def V) :
    let c' := kds.foldl (fun c p => (c.setItem ops p.1 p.2).1) c
    c'.nest ops = .ok c' ∧ c'.nestSet ops k d = c'.setItem ops k d := by
  have : ∀ (kds : List (String × Def V)) (c : Calibration V), Solved ops c →
      Solved ops (kds.foldl (fun c p => (c.setItem ops p.1 p.2).1) c) := by
    intro kds
    induction kds with
    | nil => intro c h; exact h
    | cons p kds ih => intro c h; exact ih _ (solved_setItem h p.1 p.2)
  have hs := this kds c (solved_create hk h)
  exact ⟨nest_eq hs, nestSet_eq hs k d⟩

end c39

/-- hypotheses of `C39_copy_partial` met, with a deterministic variable and a change of parameter -/
example : ∃ m0 m1 m, MState.create toyEnv { toyArgs with determ := ["g"] } = .ok m0 ∧
    (MOp.addParams [("rho", .num 7)]).run toyEnv m0 = (m1, none) ∧
    (MOp.readSpace).run toyEnv m1 = (m, none) ∧ m.altered = false ∧
    m.endogNames = ["x"] ∧ m.stochNames = ["e"] ∧ m.determ.map Determ.name = ["g"] :=
  ⟨_, _, _, rfl, rfl, rfl, rfl, rfl, rfl, rfl⟩

/-- **C39 is false** of a model with local parameters, which the copy loses: here the copy of a model
whose equation reads the local parameter `rho = 5` has steady residual 0 where the model has -4, and
so is a different model. -/
theorem C39_local_parameters_lost : ∃ (m0 c : MState Int Int Int) (f g : ResFun Int),
    MState.create toyEnv2
      { toyArgs with params := [], locals := [("rho", .num 5)] } = .ok m0 ∧
    m0.copy toyEnv2 = .ok c ∧
    m0.scope "rho" = some 5 ∧ c.scope "rho" = none ∧
    m0.steady = [f] ∧ c.steady = [g] ∧ f [1] = .ok (-4) ∧ g [1] = .ok 1 :=
  ⟨_, _, _, _, rfl, rfl, rfl, rfl, rfl, rfl, rfl, rfl⟩

/-! ### C40: looking up variables by name -/

theorem mem_nameLocs {names : List String} {x : String} {i : Nat} :
    i ∈ nameLocs names x ↔ names[i]? = some x := by
  simp only [nameLocs, List.mem_filter, List.mem_range, beq_iff_eq]
  constructor
  · exact fun h => h.2
  · intro h; exact ⟨(List.getElem?_eq_some_iff.mp h).1, h⟩

theorem nodup_nameLocs (names : List String) (x : String) : (nameLocs names x).Nodup :=
  List.Nodup.filter _ List.nodup_range

/-- **C40**, one name: the position is returned exactly when there is exactly one; no position is a
`KeyError`, several are a `ValueError`. -/
theorem C40_lookup_one (names : List String) (x : String) :
    (∀ i, getLoc1 names x = .ok i ↔
      names[i]? = some x ∧ ∀ j : Nat, names[j]? = some x → j = i) ∧
    (getLoc1 names x = .error .keyError ↔ x ∉ names) ∧
    (getLoc1 names x = .error .valueError ↔
      ∃ i j : Nat, i ≠ j ∧ names[i]? = some x ∧ names[j]? = some x) := by
  have hmem : x ∈ names ↔ ∃ i : Nat, names[i]? = some x := List.mem_iff_getElem?
  have hnd := nodup_nameLocs names x
  have hm : ∀ i, i ∈ nameLocs names x ↔ names[i]? = some x := fun i => mem_nameLocs
  unfold getLoc1
  rcases hl : nameLocs names x with _ | ⟨a, _ | ⟨b, l⟩⟩
  · rw [hl] at hm
    have hno : ∀ i : Nat, names[i]? ≠ some x := fun i h => by simpa using (hm i).mpr h
    refine ⟨fun i => ⟨fun h => by simp at h, fun h => absurd h.1 (hno i)⟩, ⟨fun _ h => ?_, fun _ => rfl⟩,
      ⟨fun h => by simp at h, ?_⟩⟩
    · obtain ⟨i, hi⟩ := hmem.mp h; exact hno i hi
    · rintro ⟨i, _, _, h, _⟩; exact absurd h (hno i)
  · rw [hl] at hm
    have ha : names[a]? = some x := (hm a).mp (by simp)
    have hu : ∀ j : Nat, names[j]? = some x → j = a := fun j h => by simpa using (hm j).mpr h
    refine ⟨fun i => ⟨fun h => ?_, fun h => ?_⟩, ⟨fun h => by simp at h, fun h => ?_⟩,
      ⟨fun h => by simp at h, ?_⟩⟩
    · have : a = i := Except.ok.inj h
      subst this; exact ⟨ha, hu⟩
    · rw [hu i h.1]
    · exact absurd (hmem.mpr ⟨a, ha⟩) h
    · rintro ⟨i, j, hij, hi, hj⟩; exact absurd ((hu i hi).trans (hu j hj).symm) hij
  · rw [hl] at hm hnd
    have ha : names[a]? = some x := (hm a).mp (by simp)
    have hb : names[b]? = some x := (hm b).mp (by simp)
    have hab : a ≠ b := by simp at hnd; exact hnd.1.1
    refine ⟨fun i => ⟨fun h => by simp at h, fun h => ?_⟩, ⟨fun h => by simp at h, fun h => ?_⟩,
      ⟨fun _ => ⟨a, b, hab, ha, hb⟩, fun _ => rfl⟩⟩
    · exact absurd ((h.2 a ha).trans (h.2 b hb).symm) hab
    · exact absurd (hmem.mpr ⟨a, ha⟩) h

example : getLoc1 ["c", "k", "z"] "k" = .ok 1 ∧ getLoc1 ["c", "k", "z"] "q" = .error .keyError :=
  ⟨rfl, rfl⟩

/-- **C40**, several names, the part that holds: with distinct names, the lookup succeeds exactly
when all names are there, and gives their positions in the order asked for. -/
theorem C40_lookup_partial (names : List String) (hn : names.Nodup) (keys : List String) :
    ((∃ is, getLoc names keys = .ok is) ↔ ∀ k ∈ keys, k ∈ names) ∧
    ((¬ ∃ is, getLoc names keys = .ok is) → getLoc names keys = .error .keyError) ∧
    ∀ is, getLoc names keys = .ok is → is.map (fun i => names[i]?) = keys.map some := by
  have hone : ∀ x, (x ∈ names → ∃ i, getLoc1 names x = .ok i) ∧
      (x ∉ names → getLoc1 names x = .error .keyError) := by
    intro x
    refine ⟨fun h => ?_, fun h => (C40_lookup_one names x).2.1.mpr h⟩
    obtain ⟨i, hi⟩ := List.mem_iff_getElem?.mp h
    refine ⟨i, ((C40_lookup_one names x).1 i).mpr ⟨hi, fun j hj => ?_⟩⟩
    obtain ⟨hi1, hi2⟩ := List.getElem?_eq_some_iff.mp hi
    obtain ⟨hj1, hj2⟩ := List.getElem?_eq_some_iff.mp hj
    exact (List.Nodup.getElem_inj_iff hn).mp (hj2.trans hi2.symm)
  induction keys with
  | nil => simp [getLoc]
  | cons k keys ih =>
    obtain ⟨ih1, ih2, ih3⟩ := ih
    by_cases hk : k ∈ names
    · obtain ⟨i, hi⟩ := (hone k).1 hk
      have hik := ((C40_lookup_one names k).1 i).mp hi
      by_cases hks : ∃ is, getLoc names keys = .ok is
      · obtain ⟨is, his⟩ := hks
        have hall := ih1.mp ⟨is, his⟩
        have heq : getLoc names (k :: keys) = .ok (i :: is) := by
          simp [getLoc, hi, his, bind, Except.bind]
        refine ⟨⟨fun _ => ?_, fun _ => ⟨_, heq⟩⟩, fun h => absurd ⟨_, heq⟩ h, ?_⟩
        · intro x hx
          rcases List.mem_cons.mp hx with rfl | hx
          · exact hk
          · exact hall x hx
        · intro js hjs
          rw [heq] at hjs
          have : i :: is = js := Except.ok.inj hjs
          subst this
          simp only [List.map_cons, hik.1, ih3 is his]
      · have herr := ih2 hks
        have heq : getLoc names (k :: keys) = .error .keyError := by
          simp [getLoc, hi, herr, bind, Except.bind]
        refine ⟨⟨?_, fun h => ?_⟩, fun _ => heq, ?_⟩
        · rintro ⟨is, h⟩; rw [heq] at h; cases h
        · exact absurd (ih1.mpr fun x hx => h x (List.mem_cons_of_mem _ hx)) hks
        · intro is h; rw [heq] at h; cases h
    · have heq : getLoc names (k :: keys) = .error .keyError := by
        simp [getLoc, (hone k).2 hk, bind, Except.bind]
      refine ⟨⟨?_, fun h => absurd (h k (List.mem_cons_self ..)) hk⟩, fun _ => heq, ?_⟩
      · rintro ⟨is, h⟩; rw [heq] at h; cases h
      · intro is h; rw [heq] at h; cases h

example : (["c", "k", "z"] : List String).Nodup ∧ getLoc ["c", "k", "z"] ["z", "c"] = .ok [2, 0] :=
  ⟨by decide, rfl⟩

/-- **C40 is false** with repeated names, which `add_endog` accepts: the variable cannot be looked up
any more. -/
theorem C40_repeated_name : ∃ m0 m1 : MState Int Int Int, MState.create toyEnv toyArgs = .ok m0 ∧
    (MOp.addEndog ["x"] none none none).run toyEnv m0 = (m1, none) ∧
    "x" ∈ m1.endogNames ∧ getLoc1 m1.endogNames "x" = .error .valueError :=
  ⟨_, _, rfl, rfl, by decide, rfl⟩

/-! ### C42: number of regimes -/

theorem makeAll_length {α β : Type} {f : α → Except Err β} : ∀ {xs : List α} {ys : List β},
    makeAll f xs = .ok ys → ys.length = xs.length := by
  intro xs
  induction xs with
  | nil => intro ys h; cases h; rfl
  | cons x xs ih =>
    intro ys h
    simp only [makeAll, Except.bind_ok_iff, Except.ok.injEq] at h
    obtain ⟨y, _, zs, h2, rfl⟩ := h
    simp [ih h2]

/-- **C42**, exactly when it holds: `len` of a regime-switching model is the number of its regimes if
and only if the alternatives were given as a sequence, or as a dictionary with one equation. -/
theorem C42_length_partial [Zero V] [One V] {env : MEnv V SS S} {m : MState V SS S} {arg : RegimeArg V}
    {ms} (h : regimeModels env m arg = .ok ms) :
    regimeLen arg = ms.length ↔ (∃ ds, arg = .seq ds) ∨ ∃ p, arg = .dict [p] := by
  cases arg with
  | dict d =>
    simp only [regimeModels] at h
    split at h
    · cases h
    · simp only [Except.bind_ok_iff, Except.ok.injEq] at h
      obtain ⟨mc, _, rfl⟩ := h
      simp only [regimeLen, List.length_cons, List.length_nil]
      constructor
      · intro h
        match d, h with
        | [p], _ => exact .inr ⟨p, rfl⟩
      · rintro (⟨ds, h⟩ | ⟨p, h⟩)
        · cases h
        · cases h; rfl
  | seq ds =>
    simp only [regimeModels] at h
    split at h
    · cases h
    · simp only [Except.bind_ok_iff, Except.ok.injEq] at h
      obtain ⟨b, _, ms', hms, rfl⟩ := h
      simp [regimeLen, makeAll_length hms]

/-- the toy model with two equations -/
def toyArgs2 : MArgs Int :=
  { toyArgs with endog := ["x", "y"], exprs := ⟨[eqAR, .bin .sub (.var "y") (.pvar "x" 1)], ["", ""]⟩ }

example : ∃ m0 ms, MState.create toyEnv2 toyArgs2 = .ok m0 ∧
    regimeModels toyEnv2 m0 (.seq [[(0, .text "x = x(-1)")], [(1, .tree (.var "y"))]]) = .ok ms ∧
    ms.length = 3 := ⟨_, _, rfl, rfl, rfl⟩

/-- **C42 is false**: one alternative regime that changes two equations makes two regimes and the
length 3. -/
theorem C42_length_wrong : ∃ m0 ms, MState.create toyEnv2 toyArgs2 = .ok m0 ∧
    regimeModels toyEnv2 m0 (.dict [(0, .text "x = x(-1)"), (1, .tree (.var "y"))]) = .ok ms ∧
    ms.length = 2 ∧
    regimeLen (.dict [(0, .text "x = x(-1)"), (1, .tree (.var "y"))] : RegimeArg Int) = 3 :=
  ⟨_, _, rfl, rfl, rfl, rfl⟩

/-! ### C71: alternative regimes -/

/-- Key `k` of a dictionary of equations refers to equation `j` of `n`. -/
def RefersTo (n : Nat) (k : Int) (j : Nat) : Prop :=
  j < n ∧ (k = j ∨ k = (j : Int) - n)

theorem refersTo_of_pyIndex {n i : Nat} {k : Int} (h : pyIndex n k = .ok i) (j : Nat) :
    RefersTo n k j ↔ j = i := by
  unfold pyIndex at h
  unfold RefersTo
  split at h
  · have := Except.ok.inj h; omega
  · split at h
    · have := Except.ok.inj h; omega
    · cases h

theorem replaceEqs_spec {parse : String → Except Err (Expr V)} : ∀ {d : List (Int × ExprArg V)}
    {x x' : ModelExprs V}, replaceEqs parse d x = .ok x' →
    x'.exprs.length = x.exprs.length ∧ ∀ j : Nat,
      ((∀ p ∈ d, ¬ RefersTo x.exprs.length p.1 j) → x'.exprs[j]? = x.exprs[j]?) ∧
      ∀ d1 k a d2, d = d1 ++ (k, a) :: d2 → RefersTo x.exprs.length k j →
        (∀ p ∈ d2, ¬ RefersTo x.exprs.length p.1 j) →
        ∃ e, a.parse parse = .ok e ∧ x'.exprs[j]? = some e := by
  intro d
  induction d with
  | nil =>
    intro x x' h
    have : x = x' := Except.ok.inj h
    subst this
    refine ⟨rfl, fun j => ⟨fun _ => rfl, ?_⟩⟩
    intro d1 k a d2 h
    simp at h
  | cons p d ih =>
    obtain ⟨k, a⟩ := p
    intro x x' h
    simp only [replaceEqs, ModelExprs.setItem, Except.bind_ok_iff, Except.ok.injEq] at h
    obtain ⟨x1, ⟨e, he, i, hi, i', hi', rfl⟩, h2⟩ := h
    obtain ⟨hlen, hj⟩ := ih h2
    simp only [List.length_set] at hlen hj
    have hit := refersTo_of_pyIndex hi
    have hil : i < x.exprs.length := ((hit i).mpr rfl).1
    refine ⟨hlen, fun j => ⟨fun hno => ?_, ?_⟩⟩
    · rw [(hj j).1 fun q hq => hno q (List.mem_cons_of_mem _ hq)]
      have hne : i ≠ j := fun h => hno (k, a) (List.mem_cons_self ..) ((hit j).mpr h.symm)
      rw [List.getElem?_set_ne hne]
    · intro d1 k' a' d2 hd hr hno
      cases d1 with
      | nil =>
        simp only [List.nil_append, List.cons.injEq, Prod.mk.injEq] at hd
        obtain ⟨⟨rfl, rfl⟩, rfl⟩ := hd
        refine ⟨e, he, ?_⟩
        rw [(hj j).1 hno]
        have : j = i := (hit j).mp hr
        subst this
        rw [List.getElem?_set_self hil]
      | cons q d1 =>
        simp only [List.cons_append, List.cons.injEq] at hd
        exact (hj j).2 d1 k' a' d2 hd.2 hr hno

section c71
variable [Zero V] [One V] [Mul V] {env : MEnv V SS S} {a : MArgs V} {m0 m : MState V SS S}

/-- **C71**, the part that holds: for a model as in C39, an alternative regime has the variables,
parameters, shocks and name of the baseline and as many equations; equation `j` is the last one given
for it, read as an equation, and that of the baseline if none is given; the alternative is due for a
refresh. -/
theorem C71_alternative_partial (hk : a.params.keys.Nodup) (hl : a.locals = [])
    (h0 : MState.create env a = .ok m0) (hr : Reaches env m0 m)
    (h1 : m.endogNames.Nodup) (h2 : m.stochNames.Nodup) (h3 : (m.determ.map Determ.name).Nodup)
    (h4 : ∀ x ∈ m.stochNames, x ∉ m.determ.map Determ.name)
    {d : List (Int × ExprArg V)} {c} (hc : altRegime env m d = .ok c) :
    c.name = m.name ∧
    c.endog.map (fun e => (e.name, e.initial, e.terminal, e.historical)) =
      m.endog.map (fun e => (e.name, e.initial, e.terminal, e.historical)) ∧
    c.params = m.params ∧ c.locals = m.locals ∧ c.stoch = m.stoch ∧ c.determ = m.determ ∧
    c.altered = true ∧
    c.exprs.exprs.length = m.exprs.exprs.length ∧
    ∀ j : Nat,
      ((∀ p ∈ d, ¬ RefersTo m.exprs.exprs.length p.1 j) → c.exprs.exprs[j]? = m.exprs.exprs[j]?) ∧
      ∀ d1 k x d2, d = d1 ++ (k, x) :: d2 → RefersTo m.exprs.exprs.length k j →
        (∀ p ∈ d2, ¬ RefersTo m.exprs.exprs.length p.1 j) →
        ∃ e, x.parse env.parse = .ok e ∧ c.exprs.exprs[j]? = some e := by
  simp only [altRegime, Except.bind_ok_iff, Except.ok.injEq] at hc
  obtain ⟨mc, hmc, x, hx, rfl⟩ := hc
  obtain ⟨e1, e2, e3, e4, e5, e6, e7, _, _⟩ :=
    C39_copy_definition_partial hk hl h0 hr h1 h2 h3 h4 hmc
  rw [e5] at hx
  obtain ⟨hlen, hj⟩ := replaceEqs_spec hx
  exact ⟨e1, e2, e3, e4, e6, e7, rfl, hlen, hj⟩

omit [One V] in
/-- **C71** with C38: what is read from an alternative regime belongs to its own equations. -/
theorem C71_alternative_refreshed [One V] {d : List (Int × ExprArg V)} {c c' : MState V SS S} {fs}
    (hc : altRegime env m d = .ok c) (hr : c.readAttr env MState.dynamic = (c', .ok fs)) :
    ∃ t, modelLlx c.endogNames c.exprs.exprs = .ok t ∧
      dynamicFuncs env.ops env.okName c.endogNames c.stochNames t.toTyper c.scope c.exprs.exprs =
        .ok fs := by
  have halt : c.altered = true := by
    simp only [altRegime, Except.bind_ok_iff, Except.ok.injEq] at hc
    obtain ⟨mc, _, x, _, rfl⟩ := hc
    rfl
  obtain ⟨h1, rfl⟩ := readAttr_ok hr
  obtain ⟨f, s, _⟩ := refresh_ok (fun h => by rw [halt] at h; cases h) h1
  have h2 := f.indexes
  have h3 := f.dynamic
  have hst : c'.stochNames = c.stochNames := by simp [MState.stochNames, s.stoch]
  rw [s.names, s.exprs] at h2
  rw [s.names, s.exprs, s.scope, hst] at h3
  exact ⟨_, h2, h3⟩

end c71

/-- hypotheses met, with the equations of the alternative -/
example : ∃ m0 c c' fs f g, MState.create toyEnv2 toyArgs2 = .ok m0 ∧ m0.endogNames = ["x", "y"] ∧
    altRegime toyEnv2 m0 [(-2, .tree (.bin .sub (.var "x") (.num 1)))] = .ok c ∧
    c.exprs.exprs = [.bin .sub (.var "x") (.num 1), .bin .sub (.var "y") (.pvar "x" 1)] ∧
    c.readAttr toyEnv2 MState.dynamic = (c', .ok fs) ∧
    fs = [f, g] ∧ f [20, 0, 0, 0] = .ok 19 :=
  ⟨_, _, _, _, _, _, rfl, rfl, rfl, rfl, rfl, rfl, rfl⟩

/-- **C71 is false** of a model with local parameters, which the alternative regime loses, in an
equation that is not replaced too. -/
theorem C71_local_parameters_lost : ∃ (m0 c : MState Int Int Int),
    MState.create toyEnv2
      { toyArgs2 with params := [], locals := [("rho", .num 5)] } = .ok m0 ∧
    altRegime toyEnv2 m0 [(1, .tree (.var "y"))] = .ok c ∧
    m0.exprs.exprs[0]? = c.exprs.exprs[0]? ∧
    m0.scope "rho" = some 5 ∧ c.scope "rho" = none :=
  ⟨_, _, rfl, rfl, rfl, rfl, rfl⟩

/-! ### C70: separately built models -/

/-- **C70**, the part that holds: an assignment to a parameter of one model leaves the parameters of
a model built from another dictionary as they are, and what is built from it. -/
theorem C70_separate_partial (ops : Ops V) (h : ParamHeap V) (c : CalibRef V) (k : String) (d : Def V)
    (addr : Nat) (hne : addr ≠ c.addr) :
    (c.setItem ops h k d).1 addr = h addr ∧
    CalibRef.create ops (c.setItem ops h k d).1 addr = CalibRef.create ops h addr := by
  have : (c.setItem ops h k d).1 addr = h addr := by
    unfold CalibRef.setItem
    simp only
    split <;> simp [hne]
  exact ⟨this, by simp [CalibRef.create, this]⟩

example : ∃ c, CalibRef.create intOps (fun a => if a = 1 then [("rho", .num 5)] else []) 1 = .ok c ∧
    2 ≠ c.addr := ⟨_, rfl, by decide⟩

/-- **C70 is false** of models built from the same dictionary: a parameter set in one model shows up
in every model made later from that dictionary ... -/
theorem C70_shared (ops : Ops V) (h : ParamHeap V) (c : CalibRef V) (k : String) (d : Def V) {h' c'}
    (hs : c.setItem ops h k d = (h', c', none)) : CalibRef.create ops h' c.addr = .ok c' := by
  unfold CalibRef.setItem at hs
  simp only at hs
  split at hs
  · rename_i calib hc
    simp only [Prod.mk.injEq, and_true] at hs
    obtain ⟨rfl, rfl⟩ := hs
    simp only [CalibRef.create, bind, Except.bind, hc]
  · simp at hs

/-- ... and `Model(...)` without `params` uses the same dictionary every time: a model made without
parameters comes into being with the parameter of another one. -/
theorem C70_default_shared : ∃ (h1 : ParamHeap Int) (c1 c1' c2 : CalibRef Int),
    CalibRef.create intOps (fun _ => []) 0 = .ok c1 ∧
    c1.setItem intOps (fun _ => []) "rho" (.num 5) = (h1, c1', none) ∧
    CalibRef.create intOps h1 0 = .ok c2 ∧ c2.calib = [("rho", .num 5)] :=
  ⟨_, _, _, _, rfl, rfl, rfl, rfl⟩

#print axioms C38_indexes_partial
#print axioms C38_steady_partial
#print axioms C38_dynamic_partial
#print axioms C38_statespace_partial
#print axioms C38_sigma_partial
#print axioms C38_solve_partial
#print axioms C38_solution_frozen
#print axioms C38_solution_stale
#print axioms C38_stale_after_failed_update
#print axioms C38_stale_after_failed_edit
#print axioms C39_copy_partial
#print axioms C39_copy_definition_partial
#print axioms C39_nested_parameters
#print axioms C39_local_parameters_lost
#print axioms C40_lookup_one
#print axioms C40_lookup_partial
#print axioms C40_repeated_name
#print axioms C42_length_partial
#print axioms C42_length_wrong
#print axioms C70_separate_partial
#print axioms C70_shared
#print axioms C70_default_shared
#print axioms C71_alternative_partial
#print axioms C71_alternative_refreshed
#print axioms C71_local_parameters_lost

end Pynare

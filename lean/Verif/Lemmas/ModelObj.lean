import Verif.Spec.ModelObj
import Verif.Lemmas.Exprs
import Verif.Lemmas.Calib
/-!
# Lemmas about model objects
-/

namespace Pynare

variable {V SS S : Type}

set_option linter.unusedSectionVars false

section upd
variable [Zero V] [Mul V] {env : MEnv V SS S}

/-- what is known of an object that is not flagged as altered -/
structure Fresh (env : MEnv V SS S) (m : MState V SS S) : Prop where
  ll : ∃ d, readLeadLags m.endogNames m.exprs.exprs = .ok d ∧
    ∀ e ∈ m.endog, e.leadLag = d.get? e.name
  indexes : modelLlx m.endogNames m.exprs.exprs = .ok m.indexes
  steady : steadyFuncs env.ops env.okName m.endogNames m.scope m.exprs.exprs = .ok m.steady
  dynamic : dynamicFuncs env.ops env.okName m.endogNames m.stochNames m.indexes.toTyper m.scope
    m.exprs.exprs = .ok m.dynamic
  space : env.mkSS m.endog m.stoch.length m.indexes m.steady m.dynamic = .ok m.statespace
  sigma : ∀ s, m.sigma = some s → defineSigma env.sqrt m.stoch = .ok s

/-- same definition -/
structure SameDef (m m' : MState V SS S) : Prop where
  name : m'.name = m.name
  endog : m'.endog.map (fun e => (e.name, e.initial, e.terminal, e.historical)) =
      m.endog.map (fun e => (e.name, e.initial, e.terminal, e.historical))
  params : m'.params = m.params
  locals : m'.locals = m.locals
  exprs : m'.exprs = m.exprs
  stoch : m'.stoch = m.stoch
  determ : m'.determ = m.determ
  sol : m'.sol = m.sol

theorem SameDef.refl (m : MState V SS S) : SameDef m m := ⟨rfl, rfl, rfl, rfl, rfl, rfl, rfl, rfl⟩

theorem SameDef.trans {a b c : MState V SS S} (h : SameDef a b) (g : SameDef b c) : SameDef a c :=
  ⟨g.name.trans h.name, g.endog.trans h.endog, g.params.trans h.params, g.locals.trans h.locals,
    g.exprs.trans h.exprs, g.stoch.trans h.stoch, g.determ.trans h.determ, g.sol.trans h.sol⟩

theorem SameDef.names {m m' : MState V SS S} (h : SameDef m m') : m'.endogNames = m.endogNames := by
  have := congrArg (List.map Prod.fst) h.endog
  simpa [MState.endogNames, List.map_map, Function.comp_def] using this

theorem SameDef.scope {m m' : MState V SS S} (h : SameDef m m') : m'.scope = m.scope := by
  simp [MState.scope, h.params, h.locals]

theorem modelLlx_of {es : List (Expr V)} {d : Dict (List Int)} {endog : List (Endog V)} {t : Llx}
    (h1 : readLeadLags (endog.map Endog.name) es = .ok d) (h2 : ∀ e ∈ endog, e.leadLag = d.get? e.name)
    (h3 : buildLlx (endog.map fun e => e.leadLag.getD []) = .ok t) :
    modelLlx (endog.map Endog.name) es = .ok t := by
  simp only [modelLlx, h1, bind, Except.bind]
  rw [List.map_map]
  have : endog.map ((fun x => (d.get? x).getD []) ∘ Endog.name) =
      endog.map fun e => e.leadLag.getD [] := by
    refine List.map_congr_left ?_
    intro e he
    simp [h2 e he]
  rw [this, h3]

theorem update_ok {m m' : MState V SS S} (h : m.update env = (m', none)) :
    Fresh env m' ∧ SameDef m m' ∧ m'.altered = false ∧ ∃ s, m'.sigma = some s := by
  unfold MState.update at h
  simp only [runStages, MState.setLeadLags] at h
  cases h1 : readLeadLags ({ m with altered := false } : MState V SS S).endogNames m.exprs.exprs with
  | error e => simp [h1, bind, Except.bind] at h
  | ok d =>
  simp only [h1, bind, Except.bind] at h
  simp only [MState.setSigma] at h
  cases h2 : defineSigma env.sqrt m.stoch with
  | error e => simp [h2, bind, Except.bind] at h
  | ok sg =>
  simp only [h2, bind, Except.bind] at h
  simp only [MState.setIndexes] at h
  cases h3 : buildLlx ((m.endog.map fun e => { e with leadLag := d.get? e.name }).map
      fun e => e.leadLag.getD []) with
  | error e => simp only [h3, bind, Except.bind] at h; simp at h
  | ok t =>
  simp only [h3, bind, Except.bind] at h
  have hnames : (m.endog.map fun e => { e with leadLag := d.get? e.name }).map Endog.name =
      m.endog.map Endog.name := by
    rw [List.map_map]; rfl
  simp only [MState.setSteady, MState.endogNames, MState.scope, hnames] at h
  cases h4 : steadyFuncs env.ops env.okName (m.endog.map Endog.name) (scopeOf m.params m.locals)
      m.exprs.exprs with
  | error e => simp [h4, bind, Except.bind] at h
  | ok st =>
  simp only [h4, bind, Except.bind] at h
  simp only [MState.setDynamic, MState.endogNames, MState.stochNames, MState.scope, hnames] at h
  cases h5 : dynamicFuncs env.ops env.okName (m.endog.map Endog.name) (m.stoch.map Stoch.name)
      t.toTyper (scopeOf m.params m.locals) m.exprs.exprs with
  | error e => simp [h5, bind, Except.bind] at h
  | ok dy =>
  simp only [h5, bind, Except.bind] at h
  simp only [MState.setSpace] at h
  cases h6 : env.mkSS (m.endog.map fun e => { e with leadLag := d.get? e.name }) m.stoch.length t st dy with
  | error e => simp [h6, bind, Except.bind] at h
  | ok ss =>
  simp only [h6, bind, Except.bind, Prod.mk.injEq, and_true] at h
  subst h
  have hll : ∀ e ∈ (m.endog.map fun e => { e with leadLag := d.get? e.name }),
      e.leadLag = d.get? e.name := by
    intro e he
    obtain ⟨e', _, rfl⟩ := List.mem_map.mp he
    rfl
  have h1' : readLeadLags ((m.endog.map fun e => { e with leadLag := d.get? e.name }).map Endog.name)
      m.exprs.exprs = .ok d := by rw [hnames]; exact h1
  refine ⟨⟨⟨d, h1', hll⟩, modelLlx_of h1' hll h3, ?_, ?_, h6, ?_⟩, ?_, rfl, sg, rfl⟩
  · simp only [MState.endogNames, MState.scope, hnames]; exact h4
  · simp only [MState.endogNames, MState.stochNames, MState.scope, hnames]; exact h5
  · intro s hs; cases hs; exact h2
  · refine ⟨rfl, ?_, rfl, rfl, rfl, rfl, rfl, rfl⟩
    simp [List.map_map, Function.comp_def]

theorem refresh_ok {m m' : MState V SS S} (hi : m.altered = false → Fresh env m)
    (h : m.refresh env = (m', none)) : Fresh env m' ∧ SameDef m m' ∧ m'.altered = false := by
  unfold MState.refresh at h
  split at h
  · obtain ⟨a, b, c, _⟩ := update_ok h; exact ⟨a, b, c⟩
  · rename_i ha
    simp only [Prod.mk.injEq, and_true] at h
    subst h
    have : m.altered = false := by simpa using ha
    exact ⟨hi this, .refl m, this⟩

theorem readAttr_ok {α : Type} {get : MState V SS S → α} {m m' : MState V SS S} {a : α}
    (h : m.readAttr env get = (m', .ok a)) : m.refresh env = (m', none) ∧ a = get m' := by
  unfold MState.readAttr at h
  split at h
  · rename_i x hx
    simp only [Prod.mk.injEq, Except.ok.injEq] at h
    obtain ⟨rfl, rfl⟩ := h
    exact ⟨hx, rfl⟩
  · simp at h

theorem readSigma_ok {m m' : MState V SS S} {s : Sig V} (hi : m.altered = false → Fresh env m)
    (h : m.readSigma env = (m', .ok s)) :
    Fresh env m' ∧ SameDef m m' ∧ m'.altered = false ∧ m'.sigma = some s := by
  unfold MState.readSigma at h
  split at h
  · rename_i x hx
    split at h
    · rename_i s' hs
      simp only [Prod.mk.injEq, Except.ok.injEq] at h
      obtain ⟨rfl, rfl⟩ := h
      split at hx
      · obtain ⟨a, b, c, _⟩ := update_ok hx; exact ⟨a, b, c, hs⟩
      · rename_i ha
        simp only [Prod.mk.injEq, and_true] at hx
        subst hx
        simp at ha
        exact ⟨hi ha.1, .refl _, ha.1, hs⟩
    · simp at h
  · simp at h

theorem solve_ok {m m' : MState V SS S} {s : S} (hi : m.altered = false → Fresh env m)
    (h : m.solve env = (m', .ok s)) :
    Fresh env m' ∧ m'.altered = false ∧ m'.sol = some s ∧
    ∃ m2 sg, SameDef m m2 ∧ Fresh env m2 ∧ m2.sigma = some sg ∧ m' = { m2 with sol := some s } ∧
      env.mkSol m2.statespace sg = .ok s := by
  unfold MState.solve at h
  split at h
  · simp at h
  · rename_i m1 ss h1
    obtain ⟨r1, rfl⟩ := readAttr_ok h1
    obtain ⟨f1, s1, a1⟩ := refresh_ok hi r1
    split at h
    · simp at h
    · rename_i m2 sg h2
      obtain ⟨f2, s2, a2, g2⟩ := readSigma_ok (fun _ => f1) h2
      split at h
      · rename_i s' h3
        simp only [Prod.mk.injEq, Except.ok.injEq] at h
        obtain ⟨rfl, rfl⟩ := h
        refine ⟨⟨f2.ll, f2.indexes, f2.steady, f2.dynamic, f2.space, f2.sigma⟩, a2, rfl, m2, sg,
          s1.trans s2, f2, g2, rfl, ?_⟩
        -- the state space read first is that of the final state
        have e1 := f1.indexes
        have e2 := f2.indexes
        rw [s2.names, s2.exprs, e1] at e2
        have hidx : m2.indexes = m1.indexes := (Except.ok.inj e2).symm
        have hss : m2.statespace = m1.statespace := by
          -- either nothing was updated, or the update recomputed the same
          unfold MState.readSigma at h2
          split at h2
          · rename_i x hx
            split at hx
            · obtain ⟨f3, s3, _, _⟩ := update_ok hx
              split at h2
              · simp only [Prod.mk.injEq] at h2
                obtain ⟨rfl, _⟩ := h2
                have st1 := f1.steady
                have st2 := f3.steady
                rw [s3.names, s3.exprs, s3.scope, st1] at st2
                have hst : x.steady = m1.steady := (Except.ok.inj st2).symm
                have dy1 := f1.dynamic
                have dy2 := f3.dynamic
                have hsn : x.stochNames = m1.stochNames := by simp [MState.stochNames, s3.stoch]
                rw [s3.names, s3.exprs, s3.scope, hsn, hidx, dy1] at dy2
                have hdy : x.dynamic = m1.dynamic := (Except.ok.inj dy2).symm
                have sp1 := f1.space
                have sp2 := f3.space
                obtain ⟨d1, l1, k1⟩ := f1.ll
                obtain ⟨d2, l2, k2⟩ := f3.ll
                rw [s3.names, s3.exprs, l1] at l2
                have hd : d2 = d1 := (Except.ok.inj l2).symm
                subst hd
                have hen : x.endog = m1.endog := by
                  have := s3.endog
                  have key : ∀ (as bs : List (Endog V)),
                      (∀ e ∈ as, e.leadLag = d2.get? e.name) → (∀ e ∈ bs, e.leadLag = d2.get? e.name) →
                      as.map (fun e => (e.name, e.initial, e.terminal, e.historical)) =
                      bs.map (fun e => (e.name, e.initial, e.terminal, e.historical)) → as = bs := by
                    intro as
                    induction as with
                    | nil => intro bs _ _ h; cases bs with
                      | nil => rfl
                      | cons => simp at h
                    | cons a as ih =>
                      intro bs ha hb h
                      cases bs with
                      | nil => simp at h
                      | cons b bs =>
                        simp only [List.map_cons, List.cons.injEq, Prod.mk.injEq] at h
                        rw [ih bs (fun e he => ha e (List.mem_cons_of_mem _ he))
                          (fun e he => hb e (List.mem_cons_of_mem _ he)) h.2]
                        have e1 := ha a (List.mem_cons_self ..)
                        have e2 := hb b (List.mem_cons_self ..)
                        obtain ⟨⟨h1, h2, h3, h4⟩, _⟩ := h
                        congr 1
                        cases a; cases b
                        simp_all
                  exact key _ _ k2 k1 this
                rw [hen, s3.stoch, hidx, hst, hdy, sp1] at sp2
                exact (Except.ok.inj sp2).symm
              · simp at h2
            · simp only [Prod.mk.injEq, and_true] at hx
              subst hx
              split at h2
              · simp only [Prod.mk.injEq] at h2
                obtain ⟨rfl, _⟩ := h2; rfl
              · simp at h2
          · simp at h2
        rw [hss]; exact h3
      · simp at h

end upd

theorem create_fresh [Zero V] [One V] [Mul V] {env : MEnv V SS S} {a : MArgs V} {params locals : Calibration V}
    {m : MState V SS S} (h : MState.build env a params locals = .ok m) :
    Fresh env m ∧ m.altered = false ∧ m.sigma = none ∧ m.sol = none := by
  simp only [MState.build, Except.bind_ok_iff, Except.ok.injEq] at h
  obtain ⟨ll, h1, st, h2, sto, h3, det, h4, idx, h5, dy, h6, ss, h7, rfl⟩ := h
  refine ⟨?_, rfl, rfl, rfl⟩
  have hname : ∀ x (l : Option (List Int)) (i t h : Option V), (Endog.create x l i t h).name = x ∧
      (Endog.create x l i t h).leadLag = l := by
    intro x l i t h
    unfold Endog.create
    split <;> exact ⟨rfl, rfl⟩
  have hn : (a.endog.map fun x => Endog.create x (ll.get? x) (a.initial.get? x) (a.terminal.get? x)
      (a.historical.get? x)).map Endog.name = a.endog := by
    rw [List.map_map]
    conv => rhs; rw [← List.map_id a.endog]
    exact List.map_congr_left fun x _ => (hname _ _ _ _ _).1
  have hll : ∀ e ∈ (a.endog.map fun x => Endog.create x (ll.get? x) (a.initial.get? x)
      (a.terminal.get? x) (a.historical.get? x)), e.leadLag = ll.get? e.name := by
    intro e he
    obtain ⟨x, _, rfl⟩ := List.mem_map.mp he
    rw [(hname _ _ _ _ _).1, (hname _ _ _ _ _).2]
  refine ⟨⟨ll, by simpa only [MState.endogNames, hn] using h1, hll⟩,
    modelLlx_of (by rw [hn]; exact h1) hll h5, ?_, ?_, h7, by simp⟩
  · simpa only [MState.endogNames, MState.scope, hn] using h2
  · simpa only [MState.endogNames, MState.stochNames, MState.scope, hn] using h6

theorem run_inv [Zero V] [One V] [Mul V] {env : MEnv V SS S} {m m' : MState V SS S}
    (hi : m.altered = false → Fresh env m) (op : MOp V) (h : op.run env m = (m', none)) :
    m'.altered = false → Fresh env m' := by
  have hread : ∀ {α : Type} (r : MState V SS S × Except Err α), dropResult r = (m', none) →
      ∃ a, r = (m', .ok a) := by
    rintro α ⟨x, y | y⟩ hr
    · simp [dropResult] at hr
    · simp [dropResult] at hr; subst hr; exact ⟨y, rfl⟩
  have hattr : ∀ {α : Type} (g : MState V SS S → α), dropResult (m.readAttr env g) = (m', none) →
      m'.altered = false → Fresh env m' := by
    intro α g hr _
    obtain ⟨a, ha⟩ := hread _ hr
    exact (refresh_ok hi (readAttr_ok ha).1).1
  cases op with
  | addEndog names i t h' =>
    simp only [MOp.run, MState.addEndog, Prod.mk.injEq, and_true] at h
    subst h; intro h; cases h
  | addParams kvs =>
    simp only [MOp.run, MState.addParams] at h
    split at h
    · simp only [Prod.mk.injEq, and_true] at h; subst h; intro h; cases h
    · simp at h
  | addExprs as =>
    simp only [MOp.run, MState.addExprs] at h
    split at h
    · simp only [Prod.mk.injEq, and_true] at h; subst h; intro h; cases h
    · simp at h
  | addStoch names shocks =>
    simp only [MOp.run, MState.addStoch] at h
    split at h
    · simp only [Prod.mk.injEq, and_true] at h; subst h; intro h; cases h
    · simp at h
  | addDeterm names shocks =>
    simp only [MOp.run, MState.addDeterm] at h
    split at h
    · simp only [Prod.mk.injEq, and_true] at h; subst h; intro h; cases h
    · simp at h
  | readIndexes => exact hattr _ h
  | readSteady => exact hattr _ h
  | readDynamic => exact hattr _ h
  | readSpace => exact hattr _ h
  | readSigma =>
    obtain ⟨a, ha⟩ := hread _ h
    intro _; exact (readSigma_ok hi ha).1
  | solve =>
    obtain ⟨a, ha⟩ := hread _ h
    intro _; exact (solve_ok hi ha).1
  | readSolution =>
    obtain ⟨a, ha⟩ := hread _ h
    simp only [MState.solution] at ha
    split at ha
    · simp only [Prod.mk.injEq, Except.ok.injEq] at ha
      obtain ⟨rfl, rfl⟩ := ha
      exact hi
    · intro _; exact (solve_ok hi ha).1

theorem reaches_inv [Zero V] [One V] [Mul V] {env : MEnv V SS S} {m m' : MState V SS S}
    (hr : Reaches env m m') (hi : m.altered = false → Fresh env m) :
    m'.altered = false → Fresh env m' := by
  induction hr with
  | refl => exact hi
  | step op h _ ih => exact ih (run_inv hi op h)

/-! ### calibrations of numbers -/

theorem rhsVars_nums : ∀ {d : Dict (Def V)}, (∀ p ∈ d, ∃ v, p.2 = .num v) →
    rhsVars d = .ok (d.map fun p => (p.1, ([] : List String))) := by
  intro d
  induction d with
  | nil => intro _; rfl
  | cons p d ih =>
    intro h
    obtain ⟨k, w⟩ := p
    obtain ⟨v, hv⟩ := h (k, w) (List.mem_cons_self ..)
    simp only at hv; subst hv
    simp [rhsVars, rhsOf, ih (fun q hq => h q (List.mem_cons_of_mem _ hq)), bind, Except.bind]

theorem set_same {α : Type} : ∀ {d : Dict α} {k : String} {v : α}, d.get? k = some v →
    d.set k v = d := by
  intro d
  induction d with
  | nil => intro k v h; cases h
  | cons p d ih =>
    intro k v h
    obtain ⟨k', w⟩ := p
    simp only [Dict.get?] at h
    simp only [Dict.set]
    split at h
    · rename_i e; rw [if_pos e]; cases h; rfl
    · rename_i e; rw [if_neg e, ih h]

theorem fillCalib_nums (ops : Ops V) {d : Dict (Def V)} (h : ∀ p ∈ d, ∃ v, p.2 = .num v) :
    ∀ ks : List String, (∀ k ∈ ks, ∃ w, d.get? k = some w) → fillCalib ops ks d = .ok d := by
  intro ks
  induction ks with
  | nil => intro _; rfl
  | cons k ks ih =>
    intro hk
    obtain ⟨w, hw⟩ := hk k (List.mem_cons_self ..)
    have hm : ∃ v, w = .num v := by
      clear ih hk
      induction d with
      | nil => cases hw
      | cons p d ih' =>
        simp only [Dict.get?] at hw
        split at hw
        · cases hw; exact h p (List.mem_cons_self ..)
        · exact ih' (fun q hq => h q (List.mem_cons_of_mem _ hq)) hw
    obtain ⟨v, rfl⟩ := hm
    simp only [fillCalib, hw, evalParam, bind, Except.bind]
    rw [set_same hw]
    exact ih fun k' hk' => hk k' (List.mem_cons_of_mem _ hk')

/-- solving numbers gives the numbers -/
theorem solveCalibration_nums (ops : Ops V) {d : Dict (Def V)} (h : ∀ p ∈ d, ∃ v, p.2 = .num v) :
    solveCalibration ops d = .ok d := by
  have hall : ∀ p ∈ initPrec (d.map fun p => (p.1, ([] : List String))), p.2 = 1 := by
    intro p hp
    simp only [initPrec, List.map_map, List.mem_map, Function.comp] at hp
    obtain ⟨q, _, rfl⟩ := hp
    rfl
  have hsum : ((initPrec (d.map fun p => (p.1, ([] : List String)))).map Prod.snd).sum =
      (initPrec (d.map fun p => (p.1, ([] : List String)))).length := by
    generalize initPrec (d.map fun p => (p.1, ([] : List String))) = q at hall
    induction q with
    | nil => rfl
    | cons a q ih =>
      simp only [List.map_cons, List.sum_cons, List.length_cons, hall a (List.mem_cons_self ..)]
      rw [ih fun p hp => hall p (List.mem_cons_of_mem _ hp)]; omega
  simp only [solveCalibration, rhsVars_nums h, bind, Except.bind]
  simp only [orderPrecedence, hsum, Nat.sub_self, Nat.zero_mul, Nat.zero_div, loopPrec, bind,
    Except.bind]
  rw [if_neg]
  · refine fillCalib_nums ops h _ ?_
    intro k hk
    have hk : k ∈ (initPrec (d.map fun p => (p.1, ([] : List String)))).keys :=
      (List.mem_insertionSort _).mp hk
    have : k ∈ d.keys := by
      simpa [Dict.keys, initPrec, List.map_map, Function.comp_def] using hk
    exact Dict.exists_get?_of_mem this
  · simp only [List.any_eq_true, not_exists]
    rintro x ⟨hx, h0⟩
    obtain ⟨p, hp, rfl⟩ := List.mem_map.mp hx
    rw [hall p hp] at h0
    simp at h0

end Pynare

namespace Pynare

variable {V SS S : Type}

/-! ### invariants of the definition -/

/-- a calibration as it is after a successful solution -/
structure Solved (ops : Ops V) (c : Calibration V) : Prop where
  keys : c.defs.keys.Nodup
  nums : ∀ p ∈ c.calib, ∃ v, p.2 = .num v

theorem nums_of_solve {ops : Ops V} {defs c : Dict (Def V)} (hn : defs.keys.Nodup)
    (h : solveCalibration ops defs = .ok c) : ∀ p ∈ c, ∃ v, p.2 = .num v := by
  obtain ⟨hk, hv, _⟩ := solve_sol hn h
  rintro ⟨k, w⟩ hp
  have hkn : k ∈ defs.keys := by rw [← hk]; exact List.mem_map.mpr ⟨(k, w), hp, rfl⟩
  obtain ⟨v, hv⟩ := hv k hkn
  have := Dict.get?_of_mem (hk ▸ hn) hp
  rw [hv] at this
  exact ⟨v, (Option.some.inj this).symm⟩

theorem solved_create {ops : Ops V} {defs : Dict (Def V)} {c : Calibration V}
    (hn : defs.keys.Nodup) (h : Calibration.create ops defs = .ok c) : Solved ops c := by
  simp only [Calibration.create, Except.bind_ok_iff, Except.ok.injEq] at h
  obtain ⟨c', h1, rfl⟩ := h
  exact ⟨hn, nums_of_solve hn h1⟩

theorem solved_setItem {ops : Ops V} {c : Calibration V} (hc : Solved ops c) (k : String)
    (d : Def V) : Solved ops (c.setItem ops k d).1 := by
  have hk : (c.defs.set k d).keys.Nodup := Dict.nodup_keys_set hc.keys _ _
  unfold Calibration.setItem
  simp only
  split
  · rename_i calib h; exact ⟨hk, nums_of_solve hk h⟩
  · exact ⟨hk, hc.nums⟩

theorem solved_paramLoop {ops : Ops V} : ∀ (kvs : List (String × Def V)) {c : Calibration V},
    Solved ops c → Solved ops (paramLoop ops kvs c).1 := by
  intro kvs
  induction kvs with
  | nil => intro c h; exact h
  | cons p kvs ih =>
    intro c h
    obtain ⟨k, d⟩ := p
    have hs := solved_setItem h k d
    unfold paramLoop
    split
    · rename_i c' hc'; rw [hc'] at hs; exact ih hs
    · rename_i c' e hc'; rw [hc'] at hs; exact hs

theorem nest_eq {ops : Ops V} {c : Calibration V} (h : Solved ops c) : c.nest ops = .ok c := by
  simp [Calibration.nest, solveCalibration_nums ops h.nums, bind, Except.bind]

theorem nestSet_eq {ops : Ops V} {c : Calibration V} (h : Solved ops c) (k : String) (d : Def V) :
    c.nestSet ops k d = c.setItem ops k d := by
  have hs := solved_setItem h k d
  unfold Calibration.nestSet
  have hset : ∃ c' o, c.setItem ops k d = (c', o) := ⟨_, _, rfl⟩
  obtain ⟨c', o, hset⟩ := hset
  rw [hset] at hs
  simp only [hset]
  cases o with
  | some e =>
    have : c'.calib = c.calib := by
      unfold Calibration.setItem at hset
      simp only at hset
      split at hset
      · simp at hset
      · simp only [Prod.mk.injEq] at hset; rw [← hset.1]
    simp only
    rw [← this]
  | none => simp only [solveCalibration_nums ops hs.nums]

/-- the bounds of an endogenous variable as the constructor leaves them -/
def Endog.WF (e : Endog V) : Prop :=
  e.terminal = none → e.historical = none → ∃ i, e.initial = some i

theorem Endog.create_wf [Zero V] (x : String) (ll : Option (List Int)) (i t h : Option V) :
    (Endog.create x ll i t h).WF := by
  unfold Endog.create Endog.WF
  split
  · intro _ _; exact ⟨_, rfl⟩
  · rename_i hn
    intro h1 h2
    exact absurd h2 (by intro h2; simp only at h1; exact hn h1 h2)

theorem Endog.recreate [Zero V] {e : Endog V} (h : e.WF) :
    Endog.create e.name e.leadLag e.initial e.terminal e.historical = e := by
  unfold Endog.create
  split
  · rename_i h1 h2
    obtain ⟨i, hi⟩ := h h1 h2
    cases e; simp_all
  · rfl

/-- the definition of a model object as built and edited -/
structure DefOk (env : MEnv V SS S) (m : MState V SS S) : Prop where
  params : Solved env.ops m.params
  endog : ∀ e ∈ m.endog, e.WF

theorem wf_of_bounds {as bs : List (Endog V)}
    (h : as.map (fun e => (e.name, e.initial, e.terminal, e.historical)) =
      bs.map (fun e => (e.name, e.initial, e.terminal, e.historical)))
    (hb : ∀ e ∈ bs, e.WF) : ∀ e ∈ as, e.WF := by
  intro e he
  have : (e.name, e.initial, e.terminal, e.historical) ∈
      bs.map (fun e => (e.name, e.initial, e.terminal, e.historical)) :=
    h ▸ List.mem_map.mpr ⟨e, he, rfl⟩
  obtain ⟨b, hbm, hbe⟩ := List.mem_map.mp this
  simp only [Prod.mk.injEq] at hbe
  have := hb b hbm
  unfold Endog.WF at this ⊢
  rw [← hbe.2.1, ← hbe.2.2.1, ← hbe.2.2.2]; exact this

theorem DefOk.same {env : MEnv V SS S} {m m' : MState V SS S} (h : DefOk env m)
    (s : SameDef m m') : DefOk env m' :=
  ⟨s.params ▸ h.params, wf_of_bounds s.endog h.endog⟩

theorem defOk_build [Zero V] [One V] {env : MEnv V SS S} {a : MArgs V} {params locals : Calibration V}
    {m : MState V SS S} (hp : Solved env.ops params)
    (h : MState.build env a params locals = .ok m) : DefOk env m ∧ m.locals = locals := by
  simp only [MState.build, Except.bind_ok_iff, Except.ok.injEq] at h
  obtain ⟨ll, h1, st, h2, sto, h3, det, h4, idx, h5, dy, h6, ss, h7, rfl⟩ := h
  refine ⟨⟨hp, ?_⟩, rfl⟩
  intro e he
  obtain ⟨x, _, rfl⟩ := List.mem_map.mp he
  exact Endog.create_wf (V := V) _ _ _ _ _

theorem run_defOk [Zero V] [One V] [Mul V] {env : MEnv V SS S} {m m' : MState V SS S}
    (hi : m.altered = false → Fresh env m) (hd : DefOk env m) (op : MOp V)
    (h : op.run env m = (m', none)) : DefOk env m' ∧ m'.locals = m.locals := by
  have hread : ∀ {α : Type} (r : MState V SS S × Except Err α), dropResult r = (m', none) →
      ∃ a, r = (m', .ok a) := by
    rintro α ⟨x, y | y⟩ hr
    · simp [dropResult] at hr
    · simp [dropResult] at hr; subst hr; exact ⟨y, rfl⟩
  have hattr : ∀ {α : Type} (g : MState V SS S → α), dropResult (m.readAttr env g) = (m', none) →
      DefOk env m' ∧ m'.locals = m.locals := by
    intro α g hr
    obtain ⟨a, ha⟩ := hread _ hr
    have s := (refresh_ok hi (readAttr_ok ha).1).2.1
    exact ⟨hd.same s, s.locals⟩
  have hsolve : ∀ s, m.solve env = (m', .ok s) → DefOk env m' ∧ m'.locals = m.locals := by
    intro s hs
    obtain ⟨_, _, _, m2, sg, s2, _, _, rfl, _⟩ := solve_ok hi hs
    have := hd.same s2
    exact ⟨⟨this.params, this.endog⟩, s2.locals⟩
  cases op with
  | addEndog names i t h' =>
    simp only [MOp.run, MState.addEndog, Prod.mk.injEq, and_true] at h
    subst h
    refine ⟨⟨hd.params, ?_⟩, rfl⟩
    intro e he
    rcases List.mem_append.mp he with he | he
    · exact hd.endog e he
    · obtain ⟨x, _, rfl⟩ := List.mem_map.mp he
      exact Endog.create_wf (V := V) _ _ _ _ _
  | addParams kvs =>
    have hs := solved_paramLoop kvs hd.params
    simp only [MOp.run, MState.addParams] at h
    split at h
    · rename_i c hc
      rw [hc] at hs
      simp only [Prod.mk.injEq, and_true] at h; subst h; exact ⟨⟨hs, hd.endog⟩, rfl⟩
    · simp at h
  | addExprs as =>
    simp only [MOp.run, MState.addExprs] at h
    split at h
    · simp only [Prod.mk.injEq, and_true] at h; subst h; exact ⟨⟨hd.params, hd.endog⟩, rfl⟩
    · simp at h
  | addStoch names shocks =>
    simp only [MOp.run, MState.addStoch] at h
    split at h
    · simp only [Prod.mk.injEq, and_true] at h; subst h; exact ⟨⟨hd.params, hd.endog⟩, rfl⟩
    · simp at h
  | addDeterm names shocks =>
    simp only [MOp.run, MState.addDeterm] at h
    split at h
    · simp only [Prod.mk.injEq, and_true] at h; subst h; exact ⟨⟨hd.params, hd.endog⟩, rfl⟩
    · simp at h
  | readIndexes => exact hattr _ h
  | readSteady => exact hattr _ h
  | readDynamic => exact hattr _ h
  | readSpace => exact hattr _ h
  | readSigma =>
    obtain ⟨a, ha⟩ := hread _ h
    have s := (readSigma_ok hi ha).2.1
    exact ⟨hd.same s, s.locals⟩
  | solve =>
    obtain ⟨a, ha⟩ := hread _ h
    exact hsolve a ha
  | readSolution =>
    obtain ⟨a, ha⟩ := hread _ h
    simp only [MState.solution] at ha
    split at ha
    · simp only [Prod.mk.injEq, Except.ok.injEq] at ha
      obtain ⟨rfl, rfl⟩ := ha
      exact ⟨hd, rfl⟩
    · exact hsolve a ha

theorem reaches_defOk [Zero V] [One V] [Mul V] {env : MEnv V SS S} {m m' : MState V SS S}
    (hr : Reaches env m m') (hi : m.altered = false → Fresh env m) (hd : DefOk env m) :
    DefOk env m' ∧ m'.locals = m.locals := by
  induction hr with
  | refl => exact ⟨hd, rfl⟩
  | step op h _ ih =>
    obtain ⟨a, b⟩ := run_defOk hi hd op h
    obtain ⟨c, d⟩ := ih (run_inv hi op h) a
    exact ⟨c, d.trans b⟩

/-! ### dictionaries made from attributes -/

theorem attrFold_other {α β : Type} (nm : α → String) (f : α → Option β) (xs : List α) :
    ∀ (d : Dict β) (x : String), x ∉ xs.map nm →
    (xs.foldl (fun d e => match f e with | some v => d.set (nm e) v | none => d) d).get? x =
      d.get? x := by
  induction xs with
  | nil => intro d x _; rfl
  | cons e xs ih =>
    intro d x hx
    simp only [List.map_cons, List.mem_cons, not_or] at hx
    rw [List.foldl_cons, ih _ x hx.2]
    cases f e with
    | none => rfl
    | some v => exact Dict.get?_set_ne _ (Ne.symm hx.1) _

theorem attrFold_mem {α β : Type} (nm : α → String) (f : α → Option β) (xs : List α) :
    ∀ (d : Dict β), (xs.map nm).Nodup → (∀ e ∈ xs, d.get? (nm e) = none) → ∀ e ∈ xs,
    (xs.foldl (fun d e => match f e with | some v => d.set (nm e) v | none => d) d).get? (nm e) =
      f e := by
  induction xs with
  | nil => intro d _ _ e he; cases he
  | cons a xs ih =>
    intro d hn hd e he
    simp only [List.map_cons, List.nodup_cons] at hn
    rw [List.foldl_cons]
    rcases List.mem_cons.mp he with rfl | he
    · rw [attrFold_other nm f xs _ _ hn.1]
      cases hf : f e with
      | none => exact hd e (List.mem_cons_self ..)
      | some v => exact Dict.get?_set_self ..
    · refine ih _ hn.2 ?_ e he
      intro e' he'
      have hne : nm a ≠ nm e' := fun h => hn.1 (h ▸ List.mem_map.mpr ⟨e', he', rfl⟩)
      cases f a with
      | none => exact hd e' (List.mem_cons_of_mem _ he')
      | some v =>
        show (d.set (nm a) v).get? (nm e') = none
        rw [Dict.get?_set_ne _ hne]
        exact hd e' (List.mem_cons_of_mem _ he')

theorem attrDict_mem {α β : Type} {nm : α → String} (f : α → Option β) {xs : List α}
    (hn : (xs.map nm).Nodup) {e : α} (he : e ∈ xs) : (attrDict nm f xs).get? (nm e) = f e :=
  attrFold_mem nm f xs [] hn (fun _ _ => rfl) e he

theorem setFold_other {α β : Type} (nm : α → String) (g : α → β) (xs : List α) :
    ∀ (d : Dict β) (x : String), x ∉ xs.map nm →
    (xs.foldl (fun d e => d.set (nm e) (g e)) d).get? x = d.get? x := by
  induction xs with
  | nil => intro d x _; rfl
  | cons e xs ih =>
    intro d x hx
    simp only [List.map_cons, List.mem_cons, not_or] at hx
    rw [List.foldl_cons, ih _ x hx.2]
    exact Dict.get?_set_ne _ (Ne.symm hx.1) _

theorem setFold_mem {α β : Type} (nm : α → String) (g : α → β) (xs : List α) :
    ∀ (d : Dict β), (xs.map nm).Nodup → ∀ e ∈ xs,
    (xs.foldl (fun d e => d.set (nm e) (g e)) d).get? (nm e) = some (g e) := by
  induction xs with
  | nil => intro d _ e he; cases he
  | cons a xs ih =>
    intro d hn e he
    simp only [List.map_cons, List.nodup_cons] at hn
    rw [List.foldl_cons]
    rcases List.mem_cons.mp he with rfl | he
    · rw [setFold_other nm g xs _ _ hn.1]; exact Dict.get?_set_self ..
    · exact ih _ hn.2 e he

theorem makeAll_map {α : Type} (nm : α → String) (f : String → Except Err α) :
    ∀ (xs : List α), (∀ e ∈ xs, f (nm e) = .ok e) → makeAll f (xs.map nm) = .ok xs := by
  intro xs
  induction xs with
  | nil => intro _; rfl
  | cons a xs ih =>
    intro h
    simp [makeAll, h a (List.mem_cons_self ..), ih fun e he => h e (List.mem_cons_of_mem _ he),
      bind, Except.bind]

theorem makeAll_stoch [One V] {ss : List (Stoch V)} {ds : List (Determ V)}
    (h1 : (ss.map Stoch.name).Nodup) (h3 : ∀ x ∈ ss.map Stoch.name, x ∉ ds.map Determ.name) :
    makeAll (makeStoch (determDict ds (stochDict ss []))) (ss.map Stoch.name) = .ok ss := by
  refine makeAll_map Stoch.name _ ss ?_
  intro e he
  have : (determDict ds (stochDict ss [])).get? e.name = some
      { other := some e.other, variance := e.variance, corr := e.corr, cov := e.cov } := by
    unfold determDict
    rw [setFold_other Determ.name _ ds _ _ (h3 _ (List.mem_map.mpr ⟨e, he, rfl⟩))]
    exact setFold_mem Stoch.name _ ss _ h1 e he
  simp [makeStoch, this]

theorem makeAll_determ [One V] {ss : List (Stoch V)} {ds : List (Determ V)}
    (h2 : (ds.map Determ.name).Nodup) :
    makeAll (makeDeterm (determDict ds (stochDict ss []))) (ds.map Determ.name) = .ok ds := by
  refine makeAll_map Determ.name _ ds ?_
  intro e he
  have : (determDict ds (stochDict ss [])).get? e.name = some
      { periods := e.periods, values := e.values } :=
    setFold_mem Determ.name _ ds _ h2 e he
  simp [makeDeterm, this]

end Pynare

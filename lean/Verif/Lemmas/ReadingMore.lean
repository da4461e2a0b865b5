import Verif.Lemmas.Reading
import Verif.Props.Factory
import Verif.Props.Sigma
import Verif.Props.Exprs
import Verif.Props.FileGram
import Verif.Lemmas.SemanticsParse
/-!
# Lemmas: from a parsed file to the model
-/

namespace Pynare

variable {V SS S : Type}

/-! ### the outline -/

theorem locals_distinct {m : ModelFile V} (acc : Accepted m) : ((localsOf m.stmts).map Prod.fst).Nodup := by
  have key : ∀ (ss pre : List (Stmt V)), m.stmts = pre ++ ss →
      ((localsOf ss).map Prod.fst).Nodup ∧ ∀ x e, (x, e) ∈ localsOf ss → ∀ s ∈ pre, ¬ s.defines x := by
    intro ss
    induction ss with
    | nil => intro pre _; simp [localsOf]
    | cons s ss ih =>
      intro pre hp
      obtain ⟨a, b⟩ := ih (pre ++ [s]) (by simp [hp])
      cases s with
      | eqn l r t => exact ⟨a, fun x e hx s hs => b x e hx s (by simp [hs])⟩
      | loc x e =>
        obtain ⟨_, _, _, h4⟩ := acc.localNew pre x e ss hp
        refine ⟨?_, ?_⟩
        · simp only [localsOf, List.map_cons, List.nodup_cons]
          refine ⟨?_, a⟩
          intro hm
          obtain ⟨⟨y, e'⟩, hy, rfl⟩ := List.mem_map.mp hm
          exact b y e' hy (.loc y e) (by simp) ⟨e, rfl⟩
        · intro y e' hy s hs
          simp only [localsOf, List.mem_cons, Prod.mk.injEq] at hy
          rcases hy with ⟨rfl, _⟩ | hy
          · exact h4 s hs
          · exact b y e' hy s (by simp [hs])
  exact (key m.stmts [] rfl).1

/-- what an outline has -/
structure OutlineOf (ops : Ops V) (m : ModelFile V) (ρ : String → Option V) (o : Outline V) : Prop where
  endog : o.endog = m.names "var"
  stoch : o.stoch = m.names "varexo"
  determ : o.determ = m.names "varexo_det"
  exprs : o.exprs = (equations m.stmts).map fun p => .bin .sub p.1 p.2
  noCmp : ∀ e ∈ o.exprs, e.hasCmp = false
  locals : (∀ p ∈ o.locals, p.2 ≠ none) → Exec ops (m.paramVals ρ) (localsOf m.stmts)
    fun x => match o.locals.get? x with
      | some (some v) => some v
      | _ => m.paramVals ρ x
  keys : o.params.keys.Nodup

theorem outline_of {ops : Ops V} {sq : V → Except Err V} {m : ModelFile V} (hk : ∀ p ∈ m.decls, p.2 ∈ varTypes)
    {o : Outline V} (h : createOutline ops sq m = .ok o) {ρ : String → Option V} (hρ : Exec ops noValues m.params ρ) :
    OutlineOf ops m ρ o := by
  obtain ⟨h0, o1, s, st, o2, b, d, h1, h2, h3, h4, _, _, rfl⟩ := createOutline_inv h
  have acc := (verify_iff m hk).mp h0
  have hd := facDecls_inv declInv_nil h1
  simp only [List.nil_append] at hd
  have hi : FacInv ⟨o1, [], []⟩ := facInv_start hd
  obtain ⟨hs, hkeys, hinv, _, _⟩ := facAssigns_params hi h2
  have hst := facStmts_spec _ h3
  have hb := facBounds_spec h4
  have hm : memLookup [s.file, s.model] = ρ :=
    facAssigns_exec hi h2 (by rw [memLookup_empty]; exact hρ)
  have he : o2.exprs = (equations m.stmts).map fun p => .bin .sub p.1 p.2 := by
    rw [hb.2.2.2.2.2.2.2.2.2.1, hst.1, hs.2.2.2.2.2.1, hd.rest.2.1, residuals_eq]; rfl
  have hmod : memLookup [s.model] = m.paramVals ρ := by
    rw [model_memory (m := m) hinv, hm]
    intro x
    rw [← hd.params x]
    show _ ↔ ∃ e, o1.params.get? x = some e
    rw [← Option.isSome_iff_exists, Dict.get?_isSome_iff, ← hkeys, ← Dict.get?_isSome_iff, ne_eq,
      ← Option.isNone_iff_eq_none, Bool.not_eq_true, Option.isNone_eq_false_iff]
  have hl : o2.locals = st.2 := by
    rw [hb.2.2.2.2.2.2.2.2.1]
    refine facStmts_locals _ h3 ?_
    rw [hs.2.2.2.2.1]; exact hd.rest.1
  refine ⟨?_, ?_, ?_, he, ?_, ?_, ?_⟩
  · show o2.endog = _
    rw [hb.2.2.2.2.1, hst.2.2.2.2.1, hs.1, hd.endog]; rfl
  · show o2.stoch = _
    rw [hb.2.2.2.2.2.2.1, hst.2.2.2.2.2.1, hs.2.2.1, hd.stoch]; rfl
  · show o2.determ = _
    rw [hb.2.2.2.2.2.2.2.1, hst.2.2.2.2.2.2.1, hs.2.2.2.1, hd.determ]; rfl
  · intro e hm0
    have hm1 : e ∈ o2.exprs := hm0
    rw [he] at hm1
    obtain ⟨⟨l, r⟩, hm2, rfl⟩ := List.mem_map.mp hm1
    obtain ⟨tags, hm⟩ : ∃ tags, Stmt.eqn l r tags ∈ m.stmts := by
      clear * - hm2
      revert hm2
      generalize m.stmts = ss
      intro hm
      induction ss with
      | nil => simp [equations] at hm
      | cons s ss ih =>
        cases s with
        | loc x e =>
          obtain ⟨t, h⟩ := ih hm
          exact ⟨t, List.mem_cons_of_mem _ h⟩
        | eqn l' r' t =>
          simp only [equations, List.mem_cons] at hm
          rcases hm with hm | hm
          · cases hm; exact ⟨t, by simp⟩
          · obtain ⟨t, h⟩ := ih hm
            exact ⟨t, List.mem_cons_of_mem _ h⟩
    obtain ⟨pre, post, hpp⟩ := List.append_of_mem hm
    have a1 := (acc.eqnExpr pre l r tags post hpp l (Or.inl rfl)).noCmp
    have a2 := (acc.eqnExpr pre l r tags post hpp r (Or.inr rfl)).noCmp
    simp [Expr.hasCmp, a1, a2]
  · intro hv
    have hv : ∀ p ∈ st.2, p.2 ≠ none := by rw [← hl]; exact hv
    have hx := facStmts_exec _ h3 (locals_distinct acc) (by
      intro x _ hn
      exact hv _ (Dict.mem_of_get? hn) rfl)
    have e1 : memLookup [([] : Mem V), s.model] = m.paramVals ρ := by
      rw [← hmod]; funext x; simp [memLookup, Dict.get?]
    have e2 : memLookup [st.2, s.model] = fun x => match o2.locals.get? x with
        | some (some v) => some v
        | _ => m.paramVals ρ x := by
      funext x
      rw [hl, ← hmod, memLookup_two, memLookup_one]
      cases Dict.get? st.2 x with
      | none => rfl
      | some w => cases w <;> rfl
    rw [e1, e2] at hx
    exact hx
  · show o2.params.keys.Nodup
    rw [hb.2.2.2.1, hst.2.2.2.1]; exact hinv.nodup

theorem fromOutline_inv [Zero V] [One V] {env : MEnv V SS S} {o : Outline V} {lang name : String}
    {md : MState V SS S} (h : fromOutline env o lang name = .ok md) :
    lang = "dynare" ∧ ∃ ls ps, ∃ params locals : Calibration V, localDefs o.locals = .ok ls ∧ locals.calib = ls ∧
      outlineDefs o.params = .ok ps ∧ Calibration.create env.ops ps = .ok params ∧
      outlineCalib env.ops o = .ok params.calib ∧
      MState.build env (outlineArgs o name) params locals = .ok md := by
  simp only [fromOutline, Except.bind_ok_iff] at h
  obtain ⟨ls, h1, locals, h2, h⟩ := h
  split at h
  · cases h
  · rename_i hl
    simp only [Except.bind_ok_iff] at h
    obtain ⟨ps, h3, params, h4, h5⟩ := h
    simp only [Calibration.create, Except.bind_ok_iff, Except.ok.injEq] at h2
    obtain ⟨c, hc, rfl⟩ := h2
    rw [solveCalibration_nums env.ops (localDefs_ok h1).1] at hc
    cases hc
    refine ⟨by simpa using hl, ls, ps, params, _, h1, rfl, h3, h4, ?_, h5⟩
    simp only [Calibration.create, Except.bind_ok_iff, Except.ok.injEq] at h4
    obtain ⟨c, hc, rfl⟩ := h4
    simp [outlineCalib, h3, hc, bind, Except.bind]

/-- parameters and local variables have their values -/
theorem scope_of [Zero V] [One V] {env : MEnv V SS S} {sq : V → Except Err V} {m : ModelFile V}
    (hk : ∀ p ∈ m.decls, p.2 ∈ varTypes) {o : Outline V} (h : createOutline env.ops sq m = .ok o)
    {ρ : String → Option V} (hρ : Exec env.ops noValues m.params ρ) (hp : PlainParams m) {ls : Dict (Def V)}
    (h1 : localDefs o.locals = .ok ls) {params locals : Calibration V} (h2 : locals.calib = ls)
    (h3 : outlineCalib env.ops o = .ok params.calib) :
    scopeOf params locals = fun x => match o.locals.get? x with
      | some (some v) => some v
      | _ => m.paramVals ρ x := by
  obtain ⟨c, hc, hck, hcv⟩ := C25_execution_partial hk h hρ hp.all hp.last
  rw [h3] at hc
  have hc := Except.ok.inj hc
  subst hc
  obtain ⟨_, _, hg⟩ := localDefs_ok h1
  funext x
  have hpv : params.val x = m.paramVals ρ x := by
    unfold ModelFile.paramVals
    split
    · rename_i hx
      obtain ⟨v, a, b⟩ := hcv x hx
      rw [a]; exact b
    · rename_i hx
      have : params.calib.get? x = none := (Dict.get?_eq_none_iff _ _).mpr fun hm => hx ((hck x).mp hm)
      simp [Calibration.val, this]
  simp only [scopeOf, hpv]
  have hlv : locals.val x = match o.locals.get? x with
      | some (some v) => some v
      | _ => none := by
    simp only [Calibration.val, h2, hg x]
    cases o.locals.get? x with
    | none => rfl
    | some w => cases w <;> rfl
  rw [hlv]
  cases o.locals.get? x with
  | none => rfl
  | some w => cases w <;> rfl

theorem Endog.create_name [Zero V] (x : String) (l : Option (List Int)) (i t h : Option V) :
    (Endog.create x l i t h).name = x ∧ (Endog.create x l i t h).leadLag = l := by
  unfold Endog.create
  split <;> exact ⟨rfl, rfl⟩

theorem makeAll_names {α β : Type} (nm : β → α) (f : α → Except Err β) (hf : ∀ x y, f x = .ok y → nm y = x) :
    ∀ {xs : List α} {ys : List β}, makeAll f xs = .ok ys → ys.map nm = xs
  | [], ys, h => by simp [makeAll] at h; subst h; rfl
  | x :: xs, ys, h => by
    simp only [makeAll, Except.bind_ok_iff, Except.ok.injEq] at h
    obtain ⟨y, h1, zs, h2, rfl⟩ := h
    simp [hf x y h1, makeAll_names nm f hf h2]

theorem mem_names {m : ModelFile V} {x k : String} : x ∈ m.names k ↔ m.DeclaredAs x k := by
  simp [ModelFile.names, ModelFile.DeclaredAs]

theorem outline_represents [Zero V] [One V] {env : MEnv V SS S} {sq : V → Except Err V} {m : ModelFile V}
    (hk : ∀ p ∈ m.decls, p.2 ∈ varTypes) {o : Outline V} (h : createOutline env.ops sq m = .ok o)
    {ρ : String → Option V} (hρ : Exec env.ops noValues m.params ρ) (hp : PlainParams m) (he : PlainEquations m)
    {lang name : String} {md : MState V SS S} (hm : fromOutline env o lang name = .ok md) :
    ∃ σ, FileVals env.ops m ρ σ ∧ Represents env.ops m ρ σ md := by
  obtain ⟨_, ls, ps, params, locals, h1, h2, h3, h4, h5, h6⟩ := fromOutline_inv hm
  have hs := scope_of hk h hρ hp h1 h2 h5
  have ho := outline_of hk h hρ
  have hx := ho.locals (localDefs_ok h1).2.1
  rw [← hs] at hx
  refine ⟨scopeOf params locals, ⟨hρ, hx⟩, ?_⟩
  obtain ⟨hiv, htv, hhv⟩ := C23_initial_terminal_partial h hρ
  have hdef := exec_defined hx
  simp only [MState.build, Except.bind_ok_iff, Except.ok.injEq] at h6
  obtain ⟨ll, g1, steady, g2, sto, g3, det, g4, idx, g5, dyn, g6, ss, g7, rfl⟩ := h6
  simp only [outlineArgs] at g1 g2 g3 g4 g5 g6 g7
  have hen : (o.endog.map fun x => Endog.create x (ll.get? x) ((dropNone o.initial).get? x)
      ((dropNone o.terminal).get? x) ((dropNone o.historical).get? x)).map Endog.name = o.endog := by
    rw [List.map_map]
    conv => rhs; rw [← List.map_id o.endog]
    exact List.map_congr_left fun x _ => (Endog.create_name _ _ _ _ _).1
  have hsn : sto.map Stoch.name = o.stoch := by
    refine makeAll_names Stoch.name _ ?_ g3
    intro x y hxy
    unfold makeStoch at hxy
    split at hxy
    · cases hxy; rfl
    · split at hxy
      · cases hxy
      · cases hxy; rfl
  have hdn : det.map Determ.name = o.determ := by
    refine makeAll_names Determ.name _ ?_ g4
    intro x y hxy
    unfold makeDeterm at hxy
    split at hxy
    · cases hxy; rfl
    · split at hxy
      · cases hxy
      · cases hxy; rfl
  have hllx : modelLlx o.endog o.exprs = .ok idx := by
    have := llx_of (by rw [hen]; exact g1) (by
      intro e hm
      obtain ⟨x, _, rfl⟩ := List.mem_map.mp hm
      rw [(Endog.create_name _ _ _ _ _).1, (Endog.create_name _ _ _ _ _).2]) g5
    rwa [hen] at this
  obtain ⟨sl, sg⟩ := steadyFuncs_at g2
  obtain ⟨dl, dg⟩ := dynamicFuncs_get g6
  have hexpr : ∀ (i : Nat) l r, (equations m.stmts)[i]? = some (l, r) → o.exprs[i]? = some (.bin .sub l r) := by
    intro i l r hi
    rw [ho.exprs]; simp [hi]
  have hvars : ∀ l r, (l, r) ∈ equations m.stmts → ∀ x, x ∈ l.vars ∨ x ∈ r.vars →
      scopeOf params locals x ≠ none ∨ x ∈ o.endog ∨ x ∈ o.stoch := by
    intro l r hlr x hx'
    rcases he.vars l r hlr x hx' with h | h | h | ⟨e, h⟩
    · exact .inr (.inl (by rw [ho.endog]; exact mem_names.mpr h))
    · exact .inr (.inr (by rw [ho.stoch]; exact mem_names.mpr h))
    · refine .inl (hdef x (.inl ?_))
      have hp' : m.paramVals ρ x = ρ x := if_pos h
      rw [hp']
      obtain ⟨e, hm⟩ := hp.all x h
      exact exec_defined hρ x (.inr ⟨e, hm⟩)
    · exact .inl (hdef x (.inr ⟨e, h⟩))
  refine ⟨?_, ?_, ?_, rfl, ?_, ?_, ?_, ?_, ?_, ?_, ?_⟩
  · show List.map Endog.name _ = _
    rw [← ho.endog]; exact hen
  · show List.map Stoch.name _ = _
    rw [← ho.stoch]; exact hsn
  · show List.map Determ.name _ = _
    rw [← ho.determ]; exact hdn
  · show steady.length = _
    rw [sl]; show o.exprs.length = _; rw [ho.exprs]; simp
  · intro i l r f hi hf ss' hss v
    obtain ⟨f', a, b⟩ := sg i _ (hexpr i l r hi)
    rw [hf] at a; cases a
    rw [← ho.endog] at hss ⊢
    exact C34_steady_residual _ _ _ _ l r b hss v
  · show dyn.length = _
    rw [dl]; show o.exprs.length = _; rw [ho.exprs]; simp
  · intro i l r f hi hf vec hvec v
    obtain ⟨f', a, b⟩ := dg i _ (hexpr i l r hi)
    rw [hf] at a; cases a
    have hmem := List.mem_of_getElem? hi
    rw [hsn] at b
    rw [← ho.endog, ← ho.stoch]
    rw [← ho.stoch] at hvec
    refine C33_dynamic_residual_partial env.ops env.okName o.endog o.stoch o.exprs idx _ hllx ho.noCmp ?_
      (List.mem_of_getElem? (hexpr i l r hi)) (hvars l r hmem) ?_ b hvec v
    · intro x _ q e hm' ho'
      rw [ho.exprs] at hm'
      obtain ⟨⟨l', r'⟩, hlr, rfl⟩ := List.mem_map.mp hm'
      rcases ho' with ⟨h, _⟩ | h
      · exact .inr (.inl h)
      · simp only [Expr.pvars, List.mem_append] at h
        rcases (he.pvars l' r' hlr x q h).2 with h | h
        · exact .inl h
        · exact .inr (.inr h)
    · intro x q hx'
      obtain ⟨a1, a2⟩ := he.pvars l r hmem x q hx'
      exact ⟨by rw [ho.endog]; exact mem_names.mpr a1, a2⟩
  · intro pre x e post hv hl v hev en hen' hn
    obtain ⟨y, _, rfl⟩ := List.mem_map.mp hen'
    rw [(Endog.create_name _ _ _ _ _).1] at hn; subst hn
    have := dropNone_some (hiv.2 pre y e post hv hl v hev)
    simp only [outlineArgs, this, Endog.create]
    split <;> rfl
  · intro pre x e post hv hl v hev en hen' hn
    obtain ⟨y, _, rfl⟩ := List.mem_map.mp hen'
    rw [(Endog.create_name _ _ _ _ _).1] at hn; subst hn
    have := dropNone_some (htv.2 pre y e post hv hl v hev)
    simp only [outlineArgs, this, Endog.create]
  · intro en hen' hni hnt hnh
    obtain ⟨y, _, rfl⟩ := List.mem_map.mp hen'
    rw [(Endog.create_name _ _ _ _ _).1] at hni hnt
    have a1 : (dropNone o.initial).get? y = none := dropNone_none
      ((Dict.get?_eq_none_iff _ _).mpr fun hm => by
        obtain ⟨e, h⟩ := (hiv.1 y).mp hm; exact hni e h)
    have a2 : (dropNone o.terminal).get? y = none := dropNone_none
      ((Dict.get?_eq_none_iff _ _).mpr fun hm => by
        obtain ⟨e, h⟩ := (htv.1 y).mp hm; exact hnt e h)
    have a3 : (dropNone o.historical).get? y = none := by rw [hhv hnh]; rfl
    simp [outlineArgs, a1, a2, a3, Endog.create]

/-! ### when reading succeeds -/

theorem outline_total {ops : Ops V} {sq : V → Except Err V} {okName : String → Bool} {m : ModelFile V}
    {ρ σ : String → Option V} (hr : Readable ops sq okName m ρ σ) :
    ∃ o b, createOutline ops sq m = .ok o ∧ (∀ p ∈ o.locals, p.2 ≠ none) ∧ m.actions.shocks = some b ∧
      facShocks ops sq ρ [] b.shocks = .ok o.shocks := by
  have hk : ∀ p ∈ m.decls, p.2 ∈ varTypes := by
    rintro ⟨x, k⟩ hp
    rcases hr.kinds x k hp with rfl | rfl | rfl | rfl <;> simp [varTypes]
  have hv := (verify_iff m hk).mpr hr.accepted
  obtain ⟨o1, h1⟩ := facDecls_total ({} : Outline V) (ds := m.decls) fun p hp => hr.kinds p.1 p.2 hp
  have hd := facDecls_inv declInv_nil h1
  simp only [List.nil_append] at hd
  have hi : FacInv ⟨o1, [], []⟩ := facInv_start hd
  have hx : Exec ops (memLookup [(⟨o1, [], []⟩ : Fac V).file, (⟨o1, [], []⟩ : Fac V).model]) m.params ρ := by
    show Exec ops (memLookup [([] : Mem V), []]) m.params ρ
    rw [memLookup_empty]; exact hr.vals.preamble
  obtain ⟨s, h2⟩ := facAssigns_total hi hx
  have hm : memLookup [s.file, s.model] = ρ := facAssigns_exec hi h2 hx
  obtain ⟨hs, hkeys, hinv, _, _⟩ := facAssigns_params hi h2
  have hmod : memLookup [s.model] = m.paramVals ρ := by
    rw [model_memory (m := m) hinv, hm]
    intro x
    rw [← hd.params x]
    show _ ↔ ∃ e, o1.params.get? x = some e
    rw [← Option.isSome_iff_exists, Dict.get?_isSome_iff, ← hkeys, ← Dict.get?_isSome_iff, ne_eq,
      ← Option.isNone_iff_eq_none, Bool.not_eq_true, Option.isNone_eq_false_iff]
  have hl0 : s.out.locals = [] := by rw [hs.2.2.2.2.1]; exact hd.rest.1
  obtain ⟨st, h3, hn⟩ := facStmts_total (ops := ops) (model := s.model) (ss := m.stmts) (st := (s.out, [])) (σ := σ) (by
      have e1 : memLookup [([] : Mem V), s.model] = m.paramVals ρ := by
        rw [← hmod]; funext x; simp [memLookup, Dict.get?]
      show Exec ops (memLookup [([] : Mem V), s.model]) _ _
      rw [e1]; exact hr.vals.model) (by
      intro l r t hmem
      obtain ⟨pre, post, hpp⟩ := List.append_of_mem hmem
      exact ⟨(hr.accepted.eqnExpr pre l r t post hpp l (.inl rfl)).noCmp,
        (hr.accepted.eqnExpr pre l r t post hpp r (.inr rfl)).noCmp⟩) (by simp)
  obtain ⟨o2, h4⟩ := facBounds_total (ops := ops) (look := memLookup [s.file, s.model]) st.1 (by rw [hm]; exact hr.bounds)
    hr.hist
  obtain ⟨b, hb⟩ := hr.accepted.shocks
  obtain ⟨d, h5⟩ := facShocks_total (ops := ops) (sq := sq) (look := memLookup [s.file, s.model]) [] (ss := b.shocks)
    (by rw [hm]; exact fun t ht => (hr.shocks b hb t ht).1)
  refine ⟨{ o2 with shocks := d }, b, ?_, ?_, hb, by rw [← hm]; exact h5⟩
  · simp only [createOutline, hv, h1, h2, h3, h4, hb, h5, bind, Except.bind]
  · show ∀ p ∈ o2.locals, p.2 ≠ none
    have hb := facBounds_spec h4
    rw [hb.2.2.2.2.2.2.2.2.1, facStmts_locals _ h3 hl0]
    exact hn

theorem steadyFuncs_total [Zero V] {ops : Ops V} {okName : String → Bool} {endo : List String} {σ : String → Option V} :
    ∀ {es : List (Expr V)}, (∀ e ∈ es, ∃ f, steadyFunc ops okName endo σ e = .ok f) →
    ∃ fs, steadyFuncs ops okName endo σ es = .ok fs
  | [], _ => ⟨_, rfl⟩
  | e :: es, h => by
    obtain ⟨f, hf⟩ := h e (by simp)
    obtain ⟨fs, hfs⟩ := steadyFuncs_total (es := es) fun e' he => h e' (List.mem_cons_of_mem _ he)
    exact ⟨f :: fs, by simp [steadyFuncs, hf, hfs, bind, Except.bind]⟩

theorem dynamicFuncs_total {ops : Ops V} {okName : String → Bool} {endo exo : List String} {t : Typer}
    {σ : String → Option V} : ∀ {es : List (Expr V)}, (∀ e ∈ es, ∃ f, dynamicFunc ops okName endo exo t σ e = .ok f) →
    ∃ fs, dynamicFuncs ops okName endo exo t σ es = .ok fs
  | [], _ => ⟨_, rfl⟩
  | e :: es, h => by
    obtain ⟨f, hf⟩ := h e (by simp)
    obtain ⟨fs, hfs⟩ := dynamicFuncs_total (es := es) fun e' he => h e' (List.mem_cons_of_mem _ he)
    exact ⟨f :: fs, by simp [dynamicFuncs, hf, hfs, bind, Except.bind]⟩

theorem makeAll_total {α β : Type} {f : α → Except Err β} : ∀ {xs : List α}, (∀ x ∈ xs, ∃ y, f x = .ok y) →
    ∃ ys, makeAll f xs = .ok ys
  | [], _ => ⟨_, rfl⟩
  | x :: xs, h => by
    obtain ⟨y, hy⟩ := h x (by simp)
    obtain ⟨ys, hys⟩ := makeAll_total (xs := xs) fun z hz => h z (List.mem_cons_of_mem _ hz)
    exact ⟨y :: ys, by simp [makeAll, hy, hys, bind, Except.bind]⟩

theorem append_suffix_inj {x y : String} : (x ++ "m1" = y ++ "m1" → x = y) ∧ (x ++ "p1" = y ++ "p1" → x = y) ∧
    x ++ "m1" ≠ y ++ "p1" := by
  refine ⟨?_, ?_, ?_⟩
  · intro h
    have := congrArg String.toList h
    simp at this
    exact String.toList_inj.mp this
  · intro h
    have := congrArg String.toList h
    simp at this
    exact String.toList_inj.mp this
  · intro h
    have := congrArg (fun s => s.toList.reverse) h
    simp at this

/-- the names of the arguments of the residual functions are legal and different -/
theorem dynVars_good {okName : String → Bool} {endo exo : List String} (hn : (endo ++ exo).Nodup)
    (hlen : ∀ x, (x ∈ endo → okName x = true ∧ okName (x ++ "m1") = true ∧ okName (x ++ "p1") = true) ∧
      (x ∈ exo → okName x = true))
    (hap : ∀ x y, x ∈ endo → y ∈ endo ∨ y ∈ exo → y ≠ x ++ "m1" ∧ y ≠ x ++ "p1") {t : Typer} (ht : t.n = endo.length) :
    (∀ x ∈ dynVars endo exo t, okName x = true) ∧ (dynVars endo exo t).Nodup := by
  obtain ⟨n1, n2, n3⟩ := List.nodup_append.mp hn
  have hplace : ∀ p ∈ t.places, ∃ x, endo[p.2]? = some x ∧ x ∈ endo ∧ (p.1 = 0 ∨ p.1 = 1 ∨ p.1 = 2) := by
    rintro ⟨r, c⟩ hp
    obtain ⟨h1, h2, _⟩ := mem_places.mp hp
    rw [ht] at h2
    exact ⟨endo[c], List.getElem?_eq_getElem h2, List.getElem_mem h2, by simp only; omega⟩
  have hsuf : ∀ x, suffixName 0 x = x ++ "m1" ∧ suffixName 1 x = x ∧ suffixName 2 x = x ++ "p1" := by
    intro x; exact ⟨rfl, suffixName_one x, rfl⟩
  constructor
  · intro z hz
    rcases List.mem_append.mp hz with hz | hz
    · obtain ⟨p, hp, rfl⟩ := List.mem_map.mp hz
      obtain ⟨x, hx, hm, hr⟩ := hplace p hp
      obtain ⟨a, b, c⟩ := (hlen x).1 hm
      rw [hx]
      rcases hr with hr | hr | hr <;> rw [hr]
      · exact b
      · show okName (suffixName 1 x) = true; rw [(hsuf x).2.1]; exact a
      · exact c
    · exact (hlen z).2 hz
  · unfold dynVars
    rw [List.nodup_append]
    refine ⟨?_, n2, ?_⟩
    · rw [List.nodup_iff_pairwise_ne, List.pairwise_map]
      refine List.Pairwise.imp_of_mem ?_ (places_sorted t)
      intro p q hp hq hlt heq
      obtain ⟨x, hx, hm, hr⟩ := hplace p hp
      obtain ⟨y, hy, hm', hr'⟩ := hplace q hq
      rw [hx, hy] at heq
      simp only [Option.getD_some] at heq
      have hxy : x = y → p.2 = q.2 := by
        rintro rfl
        exact getElem?_inj_of_nodup n1 hx hy
      obtain ⟨i1, i2, i3⟩ := append_suffix_inj (x := x) (y := y)
      have i4 := (append_suffix_inj (x := y) (y := x)).2.2
      have k1 := hap x y hm (.inl hm')
      have k2 := hap y x hm' (.inl hm)
      rcases hr with hr | hr | hr <;> rcases hr' with hr' | hr' | hr' <;> rw [hr, hr'] at heq hlt <;>
        simp only [(hsuf x).1, (hsuf x).2.1, (hsuf x).2.2, (hsuf y).1, (hsuf y).2.1, (hsuf y).2.2] at heq
      · have := hxy (i1 heq); omega
      · exact k1.1 heq.symm
      · exact i3 heq
      · exact k2.1 heq
      · have := hxy heq; omega
      · exact k2.2 heq
      · exact i4 heq.symm
      · exact k1.2 heq.symm
      · have := hxy (i2 heq); omega
    · intro a ha b hb hab
      subst hab
      obtain ⟨p, hp, rfl⟩ := List.mem_map.mp ha
      obtain ⟨x, hx, hm, hr⟩ := hplace p hp
      rw [hx] at hb
      simp only [Option.getD_some] at hb
      rcases hr with hr | hr | hr <;> rw [hr] at hb
      · exact (hap x _ hm (.inr hb)).1 rfl
      · rw [(hsuf x).2.1] at hb; exact n3 x hm x hb rfl
      · exact (hap x _ hm (.inr hb)).2 rfl

theorem names_nodup {m : ModelFile V} (acc : Accepted m) : (m.names "var" ++ m.names "varexo").Nodup := by
  have hsub : ∀ k, (m.names k).Sublist (m.decls.map Prod.fst) := fun k =>
    List.Sublist.map _ List.filter_sublist
  rw [List.nodup_append]
  refine ⟨acc.declNodup.sublist (hsub _), acc.declNodup.sublist (hsub _), ?_⟩
  rintro x hx y hy rfl
  have h1 : (x, "var") ∈ m.decls := mem_names.mp hx
  have h2 : (x, "varexo") ∈ m.decls := mem_names.mp hy
  have := List.inj_on_of_nodup_map acc.declNodup h1 h2 rfl
  simp at this

theorem fromOutline_decided [Zero V] [One V] {env : MEnv V SS S} {sq : V → Except Err V} {m : ModelFile V}
    {ρ σ : String → Option V} (hr : Readable env.ops sq env.okName m ρ σ) (name : String) :
    ∃ o endog idx steady dyn, ∃ f : SS → MState V SS S, createOutline env.ops sq m = .ok o ∧
      (fromOutline env o "dynare" name = do
        let ss ← env.mkSS endog (m.names "varexo").length idx steady dyn
        .ok (f ss)) ∧
      ∀ ss, (f ss).statespace = ss ∧ (f ss).name = name ∧ (f ss).endog = endog ∧ (f ss).indexes = idx ∧
        (f ss).steady = steady ∧ (f ss).dynamic = dyn := by
  have hk : ∀ p ∈ m.decls, p.2 ∈ varTypes := by
    rintro ⟨x, k⟩ hp
    rcases hr.kinds x k hp with rfl | rfl | rfl | rfl <;> simp [varTypes]
  obtain ⟨o, b, h, hn, hb, hsh⟩ := outline_total hr
  have ho := outline_of hk h hr.vals.preamble
  obtain ⟨ls, h1⟩ := localDefs_total hn
  have h2 : Calibration.create env.ops ls = .ok ⟨ls, ls⟩ := by
    simp [Calibration.create, solveCalibration_nums env.ops (localDefs_ok h1).1, bind, Except.bind]
  obtain ⟨c, h3, _, _⟩ := C25_execution_partial hk h hr.vals.preamble hr.params.all hr.params.last
  have h3' := h3
  simp only [outlineCalib, Except.bind_ok_iff] at h3
  obtain ⟨ps, h4, h5⟩ := h3
  have h6 : Calibration.create env.ops ps = .ok ⟨ps, c⟩ := by
    simp [Calibration.create, h5, bind, Except.bind]
  have hnd := names_nodup hr.accepted
  obtain ⟨ll, g1, gk, gr⟩ := readLeadLags_spec o.endog o.exprs ho.noCmp
  obtain ⟨steady, g2⟩ := steadyFuncs_total (ops := env.ops) (okName := env.okName) (endo := o.endog)
    (σ := scopeOf ⟨ps, c⟩ ⟨ls, ls⟩) (es := o.exprs) (fun e he => (C34_construction _ _ _ _ e (ho.noCmp e he)).mpr ⟨by
      intro x hx
      rw [ho.endog] at hx
      exact ((hr.legal x).1 (mem_names.mp hx)).1, by
      rw [ho.endog]; exact (List.nodup_append.mp hnd).1⟩)
  let endog : List (Endog V) := o.endog.map fun x => Endog.create x (ll.get? x) ((dropNone o.initial).get? x)
      ((dropNone o.terminal).get? x) ((dropNone o.historical).get? x)
  obtain ⟨sto, g3⟩ := makeAll_total (f := makeStoch (o.shocks.map fun p => (p.1, p.2.moments))) (xs := o.stoch) (by
    intro x _
    unfold makeStoch
    split
    · exact ⟨_, rfl⟩
    · rename_i d hd
      have : d.periods = none ∧ d.values = none := by
        obtain ⟨q, hq, he⟩ := List.mem_map.mp (Dict.mem_of_get? hd)
        cases he; exact ⟨rfl, rfl⟩
      simp [this])
  obtain ⟨det, g4⟩ := makeAll_total (f := makeDeterm (o.shocks.map fun p => (p.1, p.2.moments))) (xs := o.determ) (by
    intro x hx
    rw [ho.determ] at hx
    have hno : o.shocks.get? x = none := by
      rw [(facShocks_keep x b.shocks hsh).2.2.1 fun s hs => (hr.shocks b hb s hs).2 x (mem_names.mp hx)]
      rfl
    have : Dict.get? (o.shocks.map fun p => (p.1, p.2.moments)) x = none := by
      rw [Dict.get?_eq_none_iff] at hno ⊢
      simpa [Dict.keys, List.map_map, Function.comp_def] using hno
    simp only [makeDeterm, this]
    exact ⟨_, rfl⟩)
  have hstoch : sto.map Stoch.name = o.stoch := by
    refine makeAll_names Stoch.name _ ?_ g3
    intro x y hxy
    unfold makeStoch at hxy
    split at hxy
    · cases hxy; rfl
    · split at hxy
      · cases hxy
      · cases hxy; rfl
  have hlist : ∀ x ∈ o.endog, ∃ l, ll.get? x = some l ∧ l ≠ [] ∧ ∀ p ∈ l, p = -1 ∨ p = 0 ∨ p = 1 := by
    intro x hx
    obtain ⟨l, hl⟩ := Dict.exists_get?_of_mem ((gk x).mpr hx)
    refine ⟨l, hl, ?_, ?_⟩
    · rintro rfl
      have hx' : m.DeclaredAs x "var" := by rw [ho.endog] at hx; exact mem_names.mp hx
      obtain ⟨l, r, p, hlr, hocc⟩ := hr.occurs x hx'
      have : Rec ll x p := (gr x p).mpr ⟨hx, .bin .sub l r, by
        rw [ho.exprs]; exact List.mem_map.mpr ⟨_, hlr, rfl⟩, by
        rcases hocc with (⟨a, b⟩ | b) | (⟨a, b⟩ | b)
        · exact .inl ⟨a, by simp [Expr.vars, b]⟩
        · exact .inr (by simp [Expr.pvars, b])
        · exact .inl ⟨a, by simp [Expr.vars, b]⟩
        · exact .inr (by simp [Expr.pvars, b])⟩
      obtain ⟨s, hs, hm⟩ := this
      rw [hl] at hs; cases hs; simp at hm
    · intro p hp
      obtain ⟨_, e, he, hocc⟩ := (gr x p).mp ⟨l, hl, hp⟩
      rw [ho.exprs] at he
      obtain ⟨⟨l', r'⟩, hlr, rfl⟩ := List.mem_map.mp he
      rcases hocc with ⟨h, _⟩ | h
      · exact .inr (.inl h)
      · simp only [Expr.pvars, List.mem_append] at h
        rcases (hr.plain.pvars l' r' hlr x p h).2 with h | h
        · exact .inl h
        · exact .inr (.inr h)
  obtain ⟨idx, g5⟩ := buildLlx_ok (pss := endog.map fun e => e.leadLag.getD []) (by
    intro ps' hps
    obtain ⟨e, he, rfl⟩ := List.mem_map.mp hps
    obtain ⟨x, hx, rfl⟩ := List.mem_map.mp he
    obtain ⟨l, hl, hne, hp⟩ := hlist x hx
    rw [(Endog.create_name _ _ _ _ _).2, hl]
    exact ⟨_, varRows_std hne hp⟩)
  have hidx : idx.n = o.endog.length := by
    rw [(buildLlx_spec g5).1]; simp [endog]
  have hgood := dynVars_good (okName := env.okName) (endo := o.endog) (exo := o.stoch) (t := idx.toTyper)
    (by rw [ho.endog, ho.stoch]; exact hnd) (by
      rw [ho.endog, ho.stoch]
      exact fun x => ⟨fun hx => (hr.legal x).1 (mem_names.mp hx), fun hx => (hr.legal x).2 (mem_names.mp hx)⟩) (by
      rw [ho.endog, ho.stoch]
      intro x y hx hy
      refine hr.apart x y (mem_names.mp hx) ?_
      rcases hy with hy | hy
      · exact .inl (mem_names.mp hy)
      · exact .inr (mem_names.mp hy)) hidx
  obtain ⟨dyn, g6⟩ := dynamicFuncs_total (ops := env.ops) (okName := env.okName) (endo := o.endog) (exo := o.stoch)
    (t := idx.toTyper) (σ := scopeOf ⟨ps, c⟩ ⟨ls, ls⟩) (es := o.exprs)
    (fun e he => ((C36_construction _ _ _ _ _ _ e (ho.noCmp e he)).1).mpr hgood)
  refine ⟨o, endog, idx, steady, dyn, fun ss =>
    { name := name, endog := endog, params := ⟨ps, c⟩, locals := ⟨ls, ls⟩,
      exprs := ⟨o.exprs, o.exprs.map fun _ => ""⟩, stoch := sto, determ := det, altered := false, sigma := none,
      indexes := idx, steady := steady, dynamic := dyn, statespace := ss, sol := none }, h, ?_,
    fun ss => ⟨rfl, rfl, rfl, rfl, rfl, rfl⟩⟩
  simp only [fromOutline, h1, h2, h4, h6, bind, Except.bind, MState.build, outlineArgs, g1, g2, g3, g4, hstoch]
  simp only [endog] at g5
  have hsl : sto.length = (m.names "varexo").length := by rw [← ho.stoch, ← hstoch, List.length_map]
  simp only [g5, g6, ne_eq, not_true_eq_false, if_false, hsl]
  rfl

/-! ### from the text -/

theorem ofExcept_ok {α : Type} {x : Except Err α} {a : α} : Out.ofExcept x = .ok a ↔ x = .ok a := by
  cases x <;> simp [Out.ofExcept]

theorem text_kinds {cfg : LexCfg V} (ok : CharOk cfg) {pc : PCfg V} {us : List (Tok V)} {mf : ModelFile V}
    (hf : FileOf pc us mf) {text : List Char} (hw : Written cfg us text []) : ∀ p ∈ mf.decls, p.2 ∈ varTypes := by
  have h := C84_text ok pc us mf hf text hw
  rw [Out.bind_ok_iff] at h
  obtain ⟨ts, _, h⟩ := h
  exact parseModel_kinds pc ts mf h

theorem readModel_text {r : ReadEnv V SS S} (ok : CharOk r.cfg) {us : List (Tok V)} {mf : ModelFile V}
    (hf : FileOf r.pc us mf) {text : List Char} (hw : Written r.cfg us text []) :
    readModel r "dynare" text = Out.ofExcept (createOutline r.env.ops r.sq mf) := by
  have h := C84_text ok r.pc us mf hf text hw
  rw [Out.bind_ok_iff] at h
  obtain ⟨ts, h1, h2⟩ := h
  simp only [readModel, if_true, h1, Out.ok_bind, h2]

theorem fromText_inv [Zero V] [One V] {r : ReadEnv V SS S} (ok : CharOk r.cfg) {us : List (Tok V)} {mf : ModelFile V}
    (hf : FileOf r.pc us mf) {text : List Char} (hw : Written r.cfg us text []) {lang name : String}
    {md : MState V SS S} (h : fromText r lang name text = .ok md) :
    lang = "dynare" ∧ ∃ o, createOutline r.env.ops r.sq mf = .ok o ∧ fromOutline r.env o "dynare" name = .ok md := by
  by_cases hl : lang = "dynare"
  · subst hl
    simp only [fromText, readModel_text ok hf hw, Out.bind_ok_iff, ofExcept_ok] at h
    exact ⟨rfl, h⟩
  · simp [fromText, readModel, hl, bind, Out.bind] at h

theorem fromText_run [Zero V] [One V] {r : ReadEnv V SS S} (ok : CharOk r.cfg) {us : List (Tok V)} {mf : ModelFile V}
    (hf : FileOf r.pc us mf) {text : List Char} (hw : Written r.cfg us text []) {name : String} {o : Outline V}
    (h : createOutline r.env.ops r.sq mf = .ok o) :
    fromText r "dynare" name text = Out.ofExcept (fromOutline r.env o "dynare" name) := by
  simp only [fromText, readModel_text ok hf hw, h, Out.ofExcept, Out.ok_bind]

theorem fromOutline_name [Zero V] [One V] {env : MEnv V SS S} {o : Outline V} {lang name : String}
    {md : MState V SS S} (h : fromOutline env o lang name = .ok md) : md.name = name := by
  obtain ⟨_, _, _, _, _, _, _, _, _, _, h⟩ := fromOutline_inv h
  simp only [MState.build, Except.bind_ok_iff, Except.ok.injEq] at h
  obtain ⟨ll, h1, st, h2, sto, h3, det, h4, idx, h5, dy, h6, ss, h7, rfl⟩ := h
  rfl

/-! ### the covariance matrix -/

theorem makeAll_pure {α β : Type} {f : α → Except Err β} {g : α → β} : ∀ {xs : List α}, (∀ x ∈ xs, f x = .ok (g x)) →
    makeAll f xs = .ok (xs.map g)
  | [], _ => rfl
  | x :: xs, h => by
    simp [makeAll, h x (by simp), makeAll_pure (xs := xs) fun y hy => h y (List.mem_cons_of_mem _ hy), bind,
      Except.bind]

theorem makeStoch_outline [One V] (d : Dict (ShockDict V)) (x : String) :
    makeStoch (d.map fun p => (p.1, p.2.moments)) x = .ok (createStoch d x) := by
  have : Dict.get? (d.map fun p => (p.1, p.2.moments)) x = (d.get? x).map ShockDict.moments := by
    induction d with
    | nil => rfl
    | cons p d ih =>
      obtain ⟨k, v⟩ := p
      simp only [List.map_cons, Dict.get?]
      split
      · rfl
      · exact ih
  unfold makeStoch createStoch
  rw [this]
  cases d.get? x <;> rfl

theorem fromOutline_stoch [Zero V] [One V] {env : MEnv V SS S} {o : Outline V} {lang name : String}
    {md : MState V SS S} (h : fromOutline env o lang name = .ok md) : md.stoch = createStochs o.shocks o.stoch := by
  obtain ⟨_, _, _, _, _, _, _, _, _, _, h⟩ := fromOutline_inv h
  simp only [MState.build, Except.bind_ok_iff, Except.ok.injEq] at h
  obtain ⟨ll, h1, st, h2, sto, h3, det, h4, idx, h5, dy, h6, ss, h7, rfl⟩ := h
  rw [show (outlineArgs o name).shocks = o.shocks.map fun p => (p.1, p.2.moments) from rfl,
    show (outlineArgs o name).stoch = o.stoch from rfl,
    makeAll_pure fun x _ => makeStoch_outline o.shocks x] at h3
  exact (Except.ok.inj h3).symm

theorem setLeadLags_fresh [Zero V] [Mul V] {env : MEnv V SS S} {m : MState V SS S} (hf : Fresh env m) :
    m.setLeadLags = .ok m := by
  obtain ⟨d, h1, h2⟩ := hf.ll
  simp only [MState.setLeadLags, h1, bind, Except.bind]
  have : (m.endog.map fun e => ({ e with leadLag := d.get? e.name } : Endog V)) = m.endog := by
    conv => rhs; rw [← List.map_id m.endog]
    exact List.map_congr_left fun e he => by rw [← h2 e he]; rfl
  rw [this]

theorem setIndexes_fresh [Zero V] [Mul V] {env : MEnv V SS S} {m : MState V SS S} (hf : Fresh env m) :
    m.setIndexes = .ok m := by
  have h := hf.indexes
  obtain ⟨d, h1, h2⟩ := hf.ll
  simp only [modelLlx, h1, bind, Except.bind] at h
  have : (m.endog.map fun e => e.leadLag.getD []) = m.endogNames.map fun x => (d.get? x).getD [] := by
    rw [MState.endogNames, List.map_map]
    exact List.map_congr_left fun e he => by simp [h2 e he]
  simp only [MState.setIndexes, this, h, bind, Except.bind]

theorem readSigma_fresh [Zero V] [One V] [Mul V] {env : MEnv V SS S} {m : MState V SS S} (hf : Fresh env m)
    (ha : m.altered = false) (hs : m.sigma = none) {s : Sig V} (hd : defineSigma env.sqrt m.stoch = .ok s) :
    m.readSigma env = ({ m with sigma := some s }, .ok s) := by
  have h0 : ({ m with altered := false } : MState V SS S) = m := by cases m; simp_all
  have hm : ({ m with sigma := some s } : MState V SS S).altered = m.altered := rfl
  have hf' : Fresh env ({ m with sigma := some s } : MState V SS S) :=
    ⟨hf.ll, hf.indexes, hf.steady, hf.dynamic, hf.space, fun s' h => by cases h; exact hd⟩
  have hu : m.update env = ({ m with sigma := some s }, none) := by
    unfold MState.update
    rw [h0]
    simp only [runStages, setLeadLags_fresh hf, MState.setSigma, hd, bind, Except.bind, setIndexes_fresh hf',
      MState.setSteady, MState.setDynamic, MState.setSpace]
    have h1 := hf'.steady
    have h2 := hf'.dynamic
    have h3 := hf'.space
    simp only [h1, h2, h3]
  simp [MState.readSigma, ha, hs, hu]

/-! ### local variables -/

theorem outlineDefs_keys : ∀ {ps : Dict (Option (Expr V))} {ds : Dict (Def V)}, outlineDefs ps = .ok ds →
    ds.keys = ps.keys
  | [], ds, h => by simp [outlineDefs] at h; subst h; rfl
  | (x, none) :: ps, ds, h => by simp [outlineDefs] at h
  | (x, some e) :: ps, ds, h => by
    simp only [outlineDefs, Except.bind_ok_iff, Except.ok.injEq] at h
    obtain ⟨ds', h1, rfl⟩ := h
    have := outlineDefs_keys h1
    simp only [Dict.keys, List.map_cons] at this ⊢
    rw [this]

theorem mem_localsOf {x : String} {e : Expr V} : ∀ {ss : List (Stmt V)}, (x, e) ∈ localsOf ss →
    ∃ pre post, ss = pre ++ .loc x e :: post
  | [], h => by simp [localsOf] at h
  | .eqn l r t :: ss, h => by
    obtain ⟨pre, post, rfl⟩ := mem_localsOf (ss := ss) h
    exact ⟨.eqn l r t :: pre, post, rfl⟩
  | .loc y f :: ss, h => by
    simp only [localsOf, List.mem_cons, Prod.mk.injEq] at h
    rcases h with ⟨rfl, rfl⟩ | h
    · exact ⟨[], ss, rfl⟩
    · obtain ⟨pre, post, rfl⟩ := mem_localsOf (ss := ss) h
      exact ⟨.loc y f :: pre, post, rfl⟩

theorem exec_split {ops : Ops V} {ρ ρ' : String → Option V} : ∀ {as bs : List (String × Expr V)} {x : String}
    {e : Expr V}, Exec ops ρ (as ++ (x, e) :: bs) ρ' → ∃ ρ1 v, Exec ops ρ as ρ1 ∧ Evals ops ρ1 e v
  | [], bs, x, e, h => by
    cases h with
    | cons he _ => exact ⟨ρ, _, .nil, he⟩
  | a :: as, bs, x, e, h => by
    cases h with
    | cons he hx =>
      obtain ⟨ρ1, v, h1, h2⟩ := exec_split (as := as) hx
      exact ⟨ρ1, v, .cons he h1, h2⟩

theorem exec_support {ops : Ops V} {ρ ρ' : String → Option V} {as : List (String × Expr V)}
    (h : Exec ops ρ as ρ') : ∀ x, ρ' x ≠ none → ρ x ≠ none ∨ ∃ e, (x, e) ∈ as := by
  induction h with
  | nil => exact fun x hx => .inl hx
  | @cons ρ ρ' y e v as he hx ih =>
    intro x h
    rcases ih x h with h | ⟨e', h⟩
    · by_cases hyx : y = x
      · subst hyx; exact .inr ⟨e, by simp⟩
      · simp [hyx] at h; exact .inl h
    · exact .inr ⟨e', List.mem_cons_of_mem _ h⟩

theorem evals_pvars {ops : Ops V} {ρ : String → Option V} {e : Expr V} {v : V} (h : Evals ops ρ e v) :
    e.pvars = [] := by
  induction h <;> simp_all [Expr.pvars]

/-- the values of the names of a model read from an outline -/
theorem scope_read [Zero V] [One V] {env : MEnv V SS S} {sq : V → Except Err V} {m : ModelFile V}
    (hk : ∀ p ∈ m.decls, p.2 ∈ varTypes) {o : Outline V} (h : createOutline env.ops sq m = .ok o)
    {ρ : String → Option V} (hρ : Exec env.ops noValues m.params ρ) (hp : PlainParams m)
    {lang name : String} {md : MState V SS S} (hm : fromOutline env o lang name = .ok md) :
    Exec env.ops (m.paramVals ρ) (localsOf m.stmts) md.scope ∧
      ∀ x e, (x, e) ∈ localsOf m.stmts → ∃ v, md.locals.val x = some v := by
  obtain ⟨_, ls, ps, params, locals, h1, h2, h3, h4, h5, h6⟩ := fromOutline_inv hm
  have hs := scope_of hk h hρ hp h1 h2 h5
  have ho := outline_of hk h hρ
  have hx := ho.locals (localDefs_ok h1).2.1
  rw [← hs] at hx
  have hsc : md.scope = scopeOf params locals ∧ md.locals = locals := by
    simp only [MState.build, Except.bind_ok_iff, Except.ok.injEq] at h6
    obtain ⟨ll, h1, st, h2, sto, h3, det, h4, idx, h5, dy, h6, ss, h7, rfl⟩ := h6
    exact ⟨rfl, rfl⟩
  rw [hsc.1, hsc.2]
  refine ⟨hx, fun x e hxe => ?_⟩
  obtain ⟨h0, _⟩ := createOutline_inv h
  have acc := (verify_iff m hk).mp h0
  obtain ⟨pre, post, hsp⟩ := mem_localsOf hxe
  obtain ⟨hnd, _⟩ := acc.localNew pre x e post hsp
  have hd := exec_defined hx x (.inr ⟨e, hxe⟩)
  cases hv : locals.val x with
  | some v => exact ⟨v, rfl⟩
  | none =>
    exfalso
    apply hd
    have hnone : m.paramVals ρ x = none := by
      simp only [ModelFile.paramVals]
      rw [if_neg]
      intro hc
      exact hnd ⟨_, hc⟩
    have hn : o.locals.get? x = none ∨ o.locals.get? x = some none := by
      cases hg : o.locals.get? x with
      | none => exact .inl rfl
      | some w =>
        cases w with
        | none => exact .inr rfl
        | some w =>
          have := (localDefs_ok h1).2.2 x
          subst h2
          simp_all [Calibration.val]
    rw [hs]
    rcases hn with hn | hn <;> simp [hn, hnone]

/-- the local variables of a model read from an outline never change -/
theorem locals_frozen [Zero V] [One V] [Mul V] {env : MEnv V SS S} {sq : V → Except Err V} {m : ModelFile V}
    (hk : ∀ p ∈ m.decls, p.2 ∈ varTypes) {o : Outline V} (h : createOutline env.ops sq m = .ok o)
    {ρ : String → Option V} (hρ : Exec env.ops noValues m.params ρ)
    {lang name : String} {md md' : MState V SS S} (hm : fromOutline env o lang name = .ok md)
    (hr : Reaches env md md') : md'.locals = md.locals := by
  obtain ⟨_, ls, ps, params, locals, h1, h2, h3, h4, h5, h6⟩ := fromOutline_inv hm
  have ho := outline_of hk h hρ
  exact (reaches_defOk hr (fun _ => (create_fresh h6).1)
    (defOk_build (solved_create (by rw [outlineDefs_keys h3]; exact ho.keys) h4) h6).1).2

end Pynare

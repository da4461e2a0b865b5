import Verif.Lemmas.RenamedFuncs
/-! # Lemmas about model objects in other names -/

namespace Pynare

variable {V SS S : Type} {φ : String → String} {N : String → Prop}

/-- a model and the same model in other names -/
def RenM (φ : String → String) (N : String → Prop) (m m' : MState V SS S) : Prop := RenamedModel φ m m' ∧ ModelIn N m

theorem create_rename [Zero V] (x : String) (ll : Option (List Int)) (i t h : Option V) :
    Endog.create (φ x) ll i t h = (Endog.create x ll i t h).rename φ := by
  unfold Endog.create
  cases t <;> cases h <;> rfl

theorem leadLag_rename (es : List (Endog V)) :
    (es.map (Endog.rename φ)).map (fun e => e.leadLag.getD []) = es.map fun e => e.leadLag.getD [] := by
  simp [Function.comp_def, Endog.rename]

theorem create_name [Zero V] (x : String) (ll : Option (List Int)) (i t h : Option V) : (Endog.create x ll i t h).name = x := by
  unfold Endog.create
  cases t <;> cases h <;> rfl

theorem build_rename [Zero V] [One V] {env : MEnv V SS S} (hb : Blind env) (hk : KeepsApart φ N env.okName) {a a' : MArgs V}
    (ha : ArgsIn N a) (hr : RenamedArgs φ a a') {p p' l l' : Calibration V} (hp : RenCalib φ N p p') (hl : RenCalib φ N l l') :
    SameOutcome (RenM φ N) (MState.build env a p l) (MState.build env a' p' l') := by
  have hi := hk.inj
  have hσ : ∀ x, N x → scopeOf p' l' (φ x) = scopeOf p l x := fun x hx => scopeOf_rename hi hp hl hx
  unfold MState.build
  rw [hr.endog, hr.stoch, hr.determ, hr.exprs, hr.shocks]
  refine (readLeadLags_rename hi ha.endog ha.exprs).bind fun ll ll' _ _ hll => ?_
  rw [steadyFuncs_rename hk ha.endog hσ ha.exprs]
  refine (SameOutcome.of_eq rfl).bind fun st st' _ _ hst => ?_
  subst hst
  have hE : ((a.endog.map φ).map fun x => Endog.create x (ll'.get? x) (a'.initial.get? x) (a'.terminal.get? x)
      (a'.historical.get? x)) = (a.endog.map fun x => Endog.create x (ll.get? x) (a.initial.get? x) (a.terminal.get? x)
      (a.historical.get? x)).map (Endog.rename φ) := by
    rw [List.map_map, List.map_map]
    refine List.map_congr_left fun x hx => ?_
    have hx := ha.endog x hx
    simp only [Function.comp_apply, hll.get hi hx, hr.initial, hr.terminal, hr.historical,
      Dict.get?_rename hi id ha.initial hx, Dict.get?_rename hi id ha.terminal hx,
      Dict.get?_rename hi id ha.historical hx, Option.map_id, id, create_rename]
  simp only [hE]
  refine (makeAll_rename fun x hx => makeStoch_rename hk ha.shocks (ha.stoch x hx)).bind fun so so' _ _ hso => ?_
  refine (makeAll_rename fun x hx => makeDeterm_rename hk ha.shocks (ha.determ x hx)).bind fun de de' _ _ hde => ?_
  obtain ⟨rfl, hso'⟩ := forall₂_rename hso
  obtain ⟨rfl, hde'⟩ := forall₂_determ hde
  rw [leadLag_rename]
  refine (SameOutcome.of_eq rfl).bind fun t t' _ _ ht => ?_
  subst ht
  have hn : (so.map (Stoch.rename φ)).map Stoch.name = (so.map Stoch.name).map φ := by
    simp [Function.comp_def, Stoch.rename]
  rw [hn, dynamicFuncs_rename hk ha.endog (by
    intro x hx; obtain ⟨s, hs, rfl⟩ := List.mem_map.mp hx; exact (hso' s hs).1) hσ ha.exprs]
  refine (SameOutcome.of_eq rfl).bind fun dy dy' _ _ hdy => ?_
  subst hdy
  rw [hb, List.length_map]
  refine (SameOutcome.of_eq rfl).bind fun sp sp' _ _ hsp => ?_
  subst hsp
  refine .ok ⟨⟨rfl, rfl, rfl, hp.1, hl.1, hr.exprs, rfl, rfl, rfl, rfl, rfl, rfl, rfl⟩,
    ⟨?_, hso', hde', ⟨hp.2.1, hl.2.1⟩, ⟨hp.2.2, hl.2.2⟩, ha.exprs⟩⟩
  intro e he
  obtain ⟨x, hx, rfl⟩ := List.mem_map.mp he
  rw [create_name]; exact ha.endog x hx

theorem model_create_rename [Zero V] [One V] {env : MEnv V SS S} (hb : Blind env) (hk : KeepsApart φ N env.okName)
    {a a' : MArgs V} (ha : ArgsIn N a) (hr : RenamedArgs φ a a') :
    SameOutcome (RenM φ N) (MState.create env a) (MState.create env a') := by
  unfold MState.create
  rw [hr.locals, hr.params, hr.language]
  refine (calibration_create_rename hk.inj ha.locals).bind fun l l' _ _ hl => ?_
  split
  · exact .error
  · exact (calibration_create_rename hk.inj ha.params).bind fun p p' _ _ hp => build_rename hb hk ha hr hp hl

/-! ### update -/

/-- the names of the variables -/
theorem RenM.names {m m' : MState V SS S} (h : RenM φ N m m') : m'.endogNames = m.endogNames.map φ := by
  simp [MState.endogNames, h.1.endog, Function.comp_def, Endog.rename]

theorem RenM.stochNames {m m' : MState V SS S} (h : RenM φ N m m') : m'.stochNames = m.stochNames.map φ := by
  simp [MState.stochNames, h.1.stoch, Function.comp_def, Stoch.rename]

theorem RenM.names_in {m m' : MState V SS S} (h : RenM φ N m m') : ∀ x ∈ m.endogNames, N x := by
  intro x hx
  obtain ⟨e, he, rfl⟩ := List.mem_map.mp hx
  exact h.2.endog e he

theorem RenM.stoch_in {m m' : MState V SS S} (h : RenM φ N m m') : ∀ x ∈ m.stochNames, N x := by
  intro x hx
  obtain ⟨e, he, rfl⟩ := List.mem_map.mp hx
  exact (h.2.stoch e he).1

theorem RenM.params {m m' : MState V SS S} (h : RenM φ N m m') : RenCalib φ N m.params m'.params :=
  ⟨h.1.params, h.2.defs.1, h.2.calib.1⟩

theorem RenM.locals {m m' : MState V SS S} (h : RenM φ N m m') : RenCalib φ N m.locals m'.locals :=
  ⟨h.1.locals, h.2.defs.2, h.2.calib.2⟩

theorem RenM.scope (hi : InjOn φ N) {m m' : MState V SS S} (h : RenM φ N m m') : ∀ x, N x → m'.scope (φ x) = m.scope x :=
  fun _ hx => scopeOf_rename hi h.params h.locals hx

/-- the same step in other names -/
def SameStep (φ : String → String) (N : String → Prop) (f : MState V SS S → Except Err (MState V SS S)) : Prop :=
  ∀ m m', RenM φ N m m' → SameOutcome (RenM φ N) (f m) (f m')

theorem setLeadLags_rename (hi : InjOn φ N) : SameStep φ N (MState.setLeadLags (V := V) (SS := SS) (S := S)) := by
  intro m m' h
  unfold MState.setLeadLags
  rw [h.names, h.1.exprs]
  refine (readLeadLags_rename hi h.names_in h.2.exprs).bind fun d d' _ _ hd => ?_
  refine .ok ⟨{ h.1 with endog := ?_ }, { h.2 with endog := ?_ }⟩
  · show m'.endog.map _ = List.map _ (m.endog.map _)
    rw [h.1.endog, List.map_map, List.map_map]
    refine List.map_congr_left fun e he => ?_
    simp only [Function.comp_apply, Endog.rename, hd.get hi (h.2.endog e he)]
  · intro e he
    obtain ⟨e', he', rfl⟩ := List.mem_map.mp he
    exact h.2.endog e' he'

theorem setSigma_rename [Zero V] [Mul V] (hi : InjOn φ N) (env : MEnv V SS S) : SameStep φ N (MState.setSigma env) := by
  intro m m' h
  unfold MState.setSigma
  have e : defineSigma env.sqrt m'.stoch = defineSigma env.sqrt m.stoch := by
    rw [h.1.stoch, defineSigma_rename hi h.2.stoch]
  rw [e]
  refine (SameOutcome.of_eq rfl).bind fun s s' _ _ hs => .ok ?_
  subst hs
  exact ⟨{ h.1 with sigma := rfl }, { h.2 with }⟩

theorem setIndexes_rename : SameStep φ N (MState.setIndexes (V := V) (SS := SS) (S := S)) := by
  intro m m' h
  unfold MState.setIndexes
  have e : m'.endog.map (fun e => e.leadLag.getD []) = m.endog.map fun e => e.leadLag.getD [] := by
    rw [h.1.endog, leadLag_rename]
  rw [e]
  refine (SameOutcome.of_eq rfl).bind fun s s' _ _ hs => .ok ?_
  subst hs
  exact ⟨{ h.1 with indexes := rfl }, { h.2 with }⟩

theorem setSteady_rename [Zero V] {env : MEnv V SS S} (hk : KeepsApart φ N env.okName) :
    SameStep φ N (MState.setSteady env) := by
  intro m m' h
  unfold MState.setSteady
  rw [h.names, h.1.exprs, steadyFuncs_rename hk h.names_in (h.scope hk.inj) h.2.exprs]
  refine (SameOutcome.of_eq rfl).bind fun s s' _ _ hs => .ok ?_
  subst hs
  exact ⟨{ h.1 with steady := rfl }, { h.2 with }⟩

theorem setDynamic_rename {env : MEnv V SS S} (hk : KeepsApart φ N env.okName) : SameStep φ N (MState.setDynamic env) := by
  intro m m' h
  unfold MState.setDynamic
  have e : dynamicFuncs env.ops env.okName m'.endogNames m'.stochNames m'.indexes.toTyper m'.scope m'.exprs.exprs =
      dynamicFuncs env.ops env.okName m.endogNames m.stochNames m.indexes.toTyper m.scope m.exprs.exprs := by
    rw [h.names, h.stochNames, h.1.exprs, h.1.indexes,
      dynamicFuncs_rename hk h.names_in h.stoch_in (h.scope hk.inj) h.2.exprs]
  rw [e]
  refine (SameOutcome.of_eq rfl).bind fun s s' _ _ hs => .ok ?_
  subst hs
  exact ⟨{ h.1 with dynamic := rfl }, { h.2 with }⟩

theorem setSpace_rename {env : MEnv V SS S} (hb : Blind env) : SameStep φ N (MState.setSpace env) := by
  intro m m' h
  unfold MState.setSpace
  have e : env.mkSS m'.endog m'.stoch.length m'.indexes m'.steady m'.dynamic =
      env.mkSS m.endog m.stoch.length m.indexes m.steady m.dynamic := by
    rw [h.1.endog, h.1.stoch, h.1.indexes, h.1.steady, h.1.dynamic, hb, List.length_map]
  rw [e]
  refine (SameOutcome.of_eq rfl).bind fun s s' _ _ hs => .ok ?_
  subst hs
  exact ⟨{ h.1 with statespace := rfl }, { h.2 with }⟩

theorem runStages_rename : ∀ {fs : List (MState V SS S → Except Err (MState V SS S))}, (∀ f ∈ fs, SameStep φ N f) →
    ∀ {m m' : MState V SS S}, RenM φ N m m' →
    RenM φ N (runStages fs m).1 (runStages fs m').1 ∧ (runStages fs m').2 = (runStages fs m).2
  | [], _, m, m', h => ⟨h, rfl⟩
  | f :: fs, hf, m, m', h => by
    have h1 := hf f (by simp) m m' h
    unfold runStages
    revert h1
    generalize f m = x
    generalize f m' = y
    intro h1
    cases h1 with
    | error => exact ⟨h, rfl⟩
    | ok h1 => exact runStages_rename (fun g hg => hf g (by simp [hg])) h1

theorem update_rename [Zero V] [Mul V] {env : MEnv V SS S} (hb : Blind env) (hk : KeepsApart φ N env.okName)
    {m m' : MState V SS S} (h : RenM φ N m m') :
    RenM φ N (m.update env).1 (m'.update env).1 ∧ (m'.update env).2 = (m.update env).2 := by
  unfold MState.update
  refine runStages_rename (fun f hf => ?_) ⟨{ h.1 with altered := rfl }, { h.2 with }⟩
  simp only [List.mem_cons, List.not_mem_nil, or_false] at hf
  rcases hf with rfl | rfl | rfl | rfl | rfl | rfl
  · exact setLeadLags_rename hk.inj
  · exact setSigma_rename hk.inj env
  · exact setIndexes_rename
  · exact setSteady_rename hk
  · exact setDynamic_rename hk
  · exact setSpace_rename hb

theorem refresh_rename [Zero V] [Mul V] {env : MEnv V SS S} (hb : Blind env) (hk : KeepsApart φ N env.okName)
    {m m' : MState V SS S} (h : RenM φ N m m') :
    RenM φ N (m.refresh env).1 (m'.refresh env).1 ∧ (m'.refresh env).2 = (m.refresh env).2 := by
  unfold MState.refresh
  rw [h.1.altered]
  split
  · exact update_rename hb hk h
  · exact ⟨h, rfl⟩

/-- a model and a result, in other names -/
def RenR {α : Type} (φ : String → String) (N : String → Prop) (x y : MState V SS S × α) : Prop :=
  RenM φ N x.1 y.1 ∧ y.2 = x.2

theorem readAttr_rename [Zero V] [Mul V] {env : MEnv V SS S} (hb : Blind env) (hk : KeepsApart φ N env.okName) {α : Type}
    {get : MState V SS S → α} (hg : ∀ m m', RenamedModel φ m m' → get m' = get m) {m m' : MState V SS S}
    (h : RenM φ N m m') : RenR φ N (m.readAttr env get) (m'.readAttr env get) := by
  have h1 := refresh_rename hb hk h
  unfold MState.readAttr
  revert h1
  generalize m.refresh env = x
  generalize m'.refresh env = y
  obtain ⟨x1, x2⟩ := x
  obtain ⟨y1, y2⟩ := y
  rintro ⟨h1, h2⟩
  simp only at h1 h2
  subst h2
  cases y2 with
  | none => exact ⟨h1, by simp only [hg _ _ h1.1]⟩
  | some e => exact ⟨h1, rfl⟩

theorem readSigma_rename [Zero V] [Mul V] {env : MEnv V SS S} (hb : Blind env) (hk : KeepsApart φ N env.okName)
    {m m' : MState V SS S} (h : RenM φ N m m') : RenR φ N (m.readSigma env) (m'.readSigma env) := by
  have h1 : RenM φ N (if m.altered || m.sigma.isNone then m.update env else (m, none)).1
      (if m'.altered || m'.sigma.isNone then m'.update env else (m', none)).1 ∧
      (if m'.altered || m'.sigma.isNone then m'.update env else (m', none)).2 =
      (if m.altered || m.sigma.isNone then m.update env else (m, none)).2 := by
    rw [h.1.altered, h.1.sigma]
    split
    · exact update_rename hb hk h
    · exact ⟨h, rfl⟩
  unfold MState.readSigma
  revert h1
  generalize (if m.altered || m.sigma.isNone then m.update env else (m, none)) = x
  generalize (if m'.altered || m'.sigma.isNone then m'.update env else (m', none)) = y
  obtain ⟨x1, x2⟩ := x
  obtain ⟨y1, y2⟩ := y
  rintro ⟨h1, h2⟩
  simp only at h1 h2
  subst h2
  cases y2 with
  | some e => exact ⟨h1, rfl⟩
  | none =>
    simp only [h1.1.sigma]
    cases x1.sigma with
    | none => exact ⟨h1, rfl⟩
    | some s => exact ⟨h1, rfl⟩

theorem solve_rename [Zero V] [Mul V] {env : MEnv V SS S} (hb : Blind env) (hk : KeepsApart φ N env.okName)
    {m m' : MState V SS S} (h : RenM φ N m m') : RenR φ N (m.solve env) (m'.solve env) := by
  have h1 := readAttr_rename hb hk (get := MState.statespace) (fun _ _ h => h.statespace) h
  unfold MState.solve
  revert h1
  generalize m.readAttr env MState.statespace = x
  generalize m'.readAttr env MState.statespace = y
  obtain ⟨x1, x2⟩ := x
  obtain ⟨y1, y2⟩ := y
  rintro ⟨h1, h2⟩
  simp only at h1 h2
  subst h2
  cases y2 with
  | error e => exact ⟨h1, rfl⟩
  | ok sp =>
    have h2 := readSigma_rename hb hk h1
    simp only
    revert h2
    generalize x1.readSigma env = x
    generalize y1.readSigma env = y
    obtain ⟨x1, x2⟩ := x
    obtain ⟨y1, y2⟩ := y
    rintro ⟨h1, h2⟩
    simp only at h1 h2
    subst h2
    cases y2 with
    | error e => exact ⟨h1, rfl⟩
    | ok sg =>
      simp only
      cases env.mkSol sp sg with
      | error e => exact ⟨h1, rfl⟩
      | ok s => exact ⟨⟨{ h1.1 with sol := rfl }, { h1.2 with }⟩, rfl⟩

theorem solution_rename [Zero V] [Mul V] {env : MEnv V SS S} (hb : Blind env) (hk : KeepsApart φ N env.okName)
    {m m' : MState V SS S} (h : RenM φ N m m') : RenR φ N (m.solution env) (m'.solution env) := by
  unfold MState.solution
  rw [h.1.sol]
  cases m.sol with
  | none => exact solve_rename hb hk h
  | some s => exact ⟨h, rfl⟩

/-! ### edits -/

theorem addEndog_rename [Zero V] {m m' : MState V SS S} (h : RenM φ N m m') {ns : List String} (hn : ∀ x ∈ ns, N x)
    (i t g : Option V) : RenR φ N (m.addEndog ns i t g) (m'.addEndog (ns.map φ) i t g) := by
  refine ⟨⟨{ h.1 with endog := ?_, altered := rfl }, { h.2 with endog := ?_ }⟩, rfl⟩
  · show m'.endog ++ List.map _ (ns.map φ) = List.map _ (m.endog ++ ns.map _)
    rw [h.1.endog, List.map_append, List.map_map, List.map_map]
    congr 1
    exact List.map_congr_left fun x _ => create_rename x none i t g
  · intro e he
    rcases List.mem_append.mp he with he | he
    · exact h.2.endog e he
    · obtain ⟨x, hx, rfl⟩ := List.mem_map.mp he
      rw [create_name]; exact hn x hx

theorem addParams_rename (hi : InjOn φ N) (env : MEnv V SS S) {m m' : MState V SS S} (h : RenM φ N m m')
    {kvs : List (String × Def V)} (hd : DefsIn N kvs) :
    RenR φ N (m.addParams env kvs) (m'.addParams env (Dict.rename φ (Def.rename φ) kvs)) := by
  have h1 := paramLoop_rename hi (ops := env.ops) kvs hd _ _ h.params
  unfold MState.addParams
  revert h1
  generalize paramLoop env.ops kvs m.params = x
  generalize paramLoop env.ops (Dict.rename φ (Def.rename φ) kvs) m'.params = y
  obtain ⟨x1, x2⟩ := x
  obtain ⟨y1, y2⟩ := y
  rintro ⟨h1, h2⟩
  simp only at h1 h2
  subst h2
  cases y2 with
  | none =>
    exact ⟨⟨{ h.1 with params := h1.1, altered := rfl }, { h.2 with
      defs := ⟨h1.2.1, h.2.defs.2⟩, calib := ⟨h1.2.2, h.2.calib.2⟩ }⟩, rfl⟩
  | some e =>
    exact ⟨⟨{ h.1 with params := h1.1 }, { h.2 with
      defs := ⟨h1.2.1, h.2.defs.2⟩, calib := ⟨h1.2.2, h.2.calib.2⟩ }⟩, rfl⟩

/-- equations in other names -/
def RenExprs (φ : String → String) (N : String → Prop) (x y : ModelExprs V) : Prop :=
  y.exprs = x.exprs.map (Expr.rename φ) ∧ ∀ e ∈ x.exprs, ∀ z ∈ e.names, N z

theorem RenamedArg.parse {parse : String → Except Err (Expr V)} {a a' : ExprArg V} (h : RenamedArg φ N parse a a') :
    SameOutcome (fun e e' => e' = e.rename φ ∧ ∀ x ∈ e.names, N x) (a.parse parse) (a'.parse parse) := by
  cases h with
  | tree h => exact .ok ⟨rfl, h⟩
  | text h1 h2 h3 => simp only [ExprArg.parse, h1, h3]; exact .ok ⟨rfl, h2⟩
  | wrong h1 h2 => simp only [ExprArg.parse, h1, h2]; exact .error
  | other => exact .error

theorem append_rename {parse : String → Except Err (Expr V)} {a a' : ExprArg V} (h : RenamedArg φ N parse a a')
    {x y : ModelExprs V} (hx : RenExprs φ N x y) :
    SameOutcome (RenExprs φ N) (x.append parse a) (y.append parse a') := by
  unfold ModelExprs.append ModelExprs.insert
  refine h.parse.bind fun e e' _ _ he => .ok ?_
  have hp : ∀ (l : List (Expr V)) (b : Expr V), pyInsert l (l.length : Int) b = l ++ [b] := by
    intro l b; simp [pyInsert, pyInsertPos]
  refine ⟨?_, ?_⟩
  · simp only [hp]
    rw [hx.1, he.1, List.map_append]; rfl
  · simp only [hp]
    intro f hf
    rcases List.mem_append.mp hf with hf | hf
    · exact hx.2 f hf
    · simp only [List.mem_singleton] at hf; subst hf; exact he.2

theorem exprLoop_rename {parse : String → Except Err (Expr V)} {as as' : List (ExprArg V)}
    (h : List.Forall₂ (RenamedArg φ N parse) as as') : ∀ {x y : ModelExprs V}, RenExprs φ N x y →
    RenExprs φ N (exprLoop parse as x).1 (exprLoop parse as' y).1 ∧ (exprLoop parse as' y).2 = (exprLoop parse as x).2 := by
  induction h with
  | nil => exact fun hx => ⟨hx, rfl⟩
  | cons h1 _ ih =>
    intro x y hx
    have h2 := append_rename h1 hx
    unfold exprLoop
    revert h2
    generalize ModelExprs.append parse x _ = u
    generalize ModelExprs.append parse y _ = v
    intro h2
    cases h2 with
    | error => exact ⟨hx, rfl⟩
    | ok h2 => exact ih h2

theorem addExprs_rename (env : MEnv V SS S) {m m' : MState V SS S} (h : RenM φ N m m') {as as' : List (ExprArg V)}
    (ha : List.Forall₂ (RenamedArg φ N env.parse) as as') :
    RenR φ N (m.addExprs env as) (m'.addExprs env as') := by
  have h1 := exprLoop_rename ha (x := m.exprs) (y := m'.exprs) ⟨h.1.exprs, h.2.exprs⟩
  unfold MState.addExprs
  revert h1
  generalize exprLoop env.parse as m.exprs = x
  generalize exprLoop env.parse as' m'.exprs = y
  obtain ⟨x1, x2⟩ := x
  obtain ⟨y1, y2⟩ := y
  rintro ⟨h1, h2⟩
  simp only at h1 h2
  subst h2
  cases y2 with
  | none => exact ⟨⟨{ h.1 with exprs := h1.1, altered := rfl }, { h.2 with exprs := h1.2 }⟩, rfl⟩
  | some e => exact ⟨⟨{ h.1 with exprs := h1.1 }, { h.2 with exprs := h1.2 }⟩, rfl⟩

theorem addStoch_rename [One V] {ok : String → Bool} (hk : KeepsApart φ N ok) {m m' : MState V SS S} (h : RenM φ N m m')
    {ns : List String} (hn : ∀ x ∈ ns, N x) {d : Dict (Moments V)} (hd : MomentsIn N d) :
    RenR φ N (m.addStoch ns d) (m'.addStoch (ns.map φ) (d.rename φ (Moments.rename φ))) := by
  have h1 := makeAll_rename (xs := ns) fun x hx => makeStoch_rename hk hd (hn x hx)
  unfold MState.addStoch
  revert h1
  generalize makeAll (makeStoch d) ns = x
  generalize makeAll (makeStoch (d.rename φ (Moments.rename φ))) (ns.map φ) = y
  intro h1
  cases h1 with
  | error => exact ⟨h, rfl⟩
  | ok h1 =>
    obtain ⟨rfl, h2⟩ := forall₂_rename h1
    refine ⟨⟨{ h.1 with stoch := ?_, altered := rfl }, { h.2 with stoch := ?_ }⟩, rfl⟩
    · simp only [h.1.stoch, List.map_append]
    · intro s hs
      rcases List.mem_append.mp hs with hs | hs
      · exact h.2.stoch s hs
      · exact h2 s hs

theorem addDeterm_rename [One V] {ok : String → Bool} (hk : KeepsApart φ N ok) {m m' : MState V SS S} (h : RenM φ N m m')
    {ns : List String} (hn : ∀ x ∈ ns, N x) {d : Dict (Moments V)} (hd : MomentsIn N d) :
    RenR φ N (m.addDeterm ns d) (m'.addDeterm (ns.map φ) (d.rename φ (Moments.rename φ))) := by
  have h1 := makeAll_rename (xs := ns) fun x hx => makeDeterm_rename hk hd (hn x hx)
  unfold MState.addDeterm
  revert h1
  generalize makeAll (makeDeterm d) ns = x
  generalize makeAll (makeDeterm (d.rename φ (Moments.rename φ))) (ns.map φ) = y
  intro h1
  cases h1 with
  | error => exact ⟨h, rfl⟩
  | ok h1 =>
    obtain ⟨rfl, h2⟩ := forall₂_determ h1
    refine ⟨⟨{ h.1 with determ := ?_, altered := rfl }, { h.2 with determ := ?_ }⟩, rfl⟩
    · simp only [h.1.determ, List.map_append]
    · intro s hs
      rcases List.mem_append.mp hs with hs | hs
      · exact h.2.determ s hs
      · exact h2 s hs

theorem dropResult_rename {α : Type} {x y : MState V SS S × Except Err α} (h : RenR φ N x y) :
    RenR φ N (dropResult x) (dropResult y) := by
  obtain ⟨x1, x2⟩ := x
  obtain ⟨y1, y2⟩ := y
  obtain ⟨h1, h2⟩ := h
  simp only at h1 h2
  subst h2
  cases y2 <;> exact ⟨h1, rfl⟩

theorem run_rename [Zero V] [One V] [Mul V] {env : MEnv V SS S} (hb : Blind env) (hk : KeepsApart φ N env.okName)
    {m m' : MState V SS S} (h : RenM φ N m m') {o o' : MOp V} (ho : RenamedOp φ N env.parse o o') :
    RenR φ N (o.run env m) (o'.run env m') := by
  cases ho with
  | addEndog hn => exact addEndog_rename h hn _ _ _
  | addParams hd => exact addParams_rename hk.inj env h hd
  | addExprs ha => exact addExprs_rename env h ha
  | addStoch hn hd => exact addStoch_rename hk h hn hd
  | addDeterm hn hd => exact addDeterm_rename hk h hn hd
  | readIndexes => exact dropResult_rename (readAttr_rename hb hk (fun _ _ h => h.indexes) h)
  | readSteady => exact dropResult_rename (readAttr_rename hb hk (fun _ _ h => h.steady) h)
  | readDynamic => exact dropResult_rename (readAttr_rename hb hk (fun _ _ h => h.dynamic) h)
  | readSpace => exact dropResult_rename (readAttr_rename hb hk (fun _ _ h => h.statespace) h)
  | readSigma => exact dropResult_rename (readSigma_rename hb hk h)
  | solve => exact dropResult_rename (solve_rename hb hk h)
  | readSolution => exact dropResult_rename (solution_rename hb hk h)

/-! ### copies -/

theorem attrDict_rename {α : Type} (hi : InjOn φ N) {nm : α → String} {r : α → α} {f : α → Option V} (hr : ∀ a, nm (r a) = φ (nm a))
    (hf : ∀ a, f (r a) = f a) {xs : List α} (hx : ∀ a ∈ xs, N (nm a)) :
    RenTable φ N (attrDict nm f xs) (attrDict nm f (xs.map r)) := by
  unfold attrDict
  rw [List.foldl_map]
  suffices ∀ d d' : Dict V, RenTable φ N d d' →
      RenTable φ N (xs.foldl (fun d e => match f e with | some v => d.set (nm e) v | none => d) d)
        (xs.foldl (fun d e => match f (r e) with | some v => d.set (nm (r e)) v | none => d) d') from
    this [] [] ⟨rfl, by simp [Dict.keys]⟩
  induction xs with
  | nil => exact fun d d' h => h
  | cons x xs ih =>
    intro d d' h
    refine ih (fun y hy => hx y (by simp [hy])) _ _ ?_
    simp only [hf, hr]
    cases f x with
    | none => exact h
    | some v => exact h.set hi (hx x (by simp)) v

/-- moments in other names -/
def RenMoments (φ : String → String) (N : String → Prop) (d d' : Dict (Moments V)) : Prop :=
  d' = d.rename φ (Moments.rename φ) ∧ MomentsIn N d

theorem MomentsIn.set {d : Dict (Moments V)} (h : MomentsIn N d) {k : String} (hk : N k) {x : Moments V}
    (hx : ∀ y, x.other = some y → N y) : MomentsIn N (d.set k x) := by
  induction d with
  | nil => intro p hp; simp only [Dict.set, List.mem_singleton] at hp; subst hp; exact ⟨hk, hx⟩
  | cons q d ih =>
    obtain ⟨j, w⟩ := q
    have hq := h (j, w) (by simp)
    have ih := ih fun p hp => h p (by simp [hp])
    intro p hp
    simp only [Dict.set] at hp
    split at hp
    · rcases List.mem_cons.mp hp with rfl | hp
      · exact ⟨hq.1, hx⟩
      · exact h p (by simp [hp])
    · rcases List.mem_cons.mp hp with rfl | hp
      · exact hq
      · exact ih p hp

theorem RenMoments.set (hi : InjOn φ N) {d d' : Dict (Moments V)} (h : RenMoments φ N d d') {k : String} (hk : N k)
    {x : Moments V} (hx : ∀ y, x.other = some y → N y) : RenMoments φ N (d.set k x) (d'.set (φ k) (x.rename φ)) :=
  ⟨by rw [h.1, Dict.set_rename hi _ h.2.keys hk], h.2.set hk hx⟩

theorem stochDict_rename (hi : InjOn φ N) {ss : List (Stoch V)} (hs : ∀ s ∈ ss, N s.name ∧ N s.other) :
    ∀ d d' : Dict (Moments V), RenMoments φ N d d' →
    RenMoments φ N (stochDict ss d) (stochDict (ss.map (Stoch.rename φ)) d') := by
  unfold stochDict
  simp only [List.foldl_map]
  induction ss with
  | nil => exact fun d d' h => h
  | cons s ss ih =>
    intro d d' h
    have h1 := hs s (by simp)
    exact ih (fun y hy => hs y (by simp [hy])) _ _
      (h.set hi h1.1 (x := { other := some s.other, variance := s.variance, corr := s.corr, cov := s.cov }) (by
        intro y hy; simp only [Option.some.injEq] at hy; rw [← hy]; exact h1.2))

theorem determDict_rename (hi : InjOn φ N) {ss : List (Determ V)} (hs : ∀ s ∈ ss, N s.name) :
    ∀ d d' : Dict (Moments V), RenMoments φ N d d' →
    RenMoments φ N (determDict ss d) (determDict (ss.map (Determ.rename φ)) d') := by
  unfold determDict
  simp only [List.foldl_map]
  induction ss with
  | nil => exact fun d d' h => h
  | cons s ss ih =>
    intro d d' h
    have h1 := hs s (by simp)
    exact ih (fun y hy => hs y (by simp [hy])) _ _
      (h.set hi h1 (x := { periods := s.periods, values := s.values }) (by intro y hy; simp at hy))

theorem nest_rename (hi : InjOn φ N) {ops : Ops V} {c c' : Calibration V} (h : RenCalib φ N c c') :
    SameOutcome (RenCalib φ N) (c.nest ops) (c'.nest ops) := by
  unfold Calibration.nest
  rw [h.1]
  refine (solveCalibration_rename hi h.2.2).bind fun a b _ _ hab => .ok ?_
  exact ⟨by simp only [Calibration.rename, hab.1], h.2.1, hab.2⟩

theorem copy_rename [Zero V] [One V] {env : MEnv V SS S} (hb : Blind env) (hk : KeepsApart φ N env.okName)
    {m m' : MState V SS S} (h : RenM φ N m m') : SameOutcome (RenM φ N) (m.copy env) (m'.copy env) := by
  have hi := hk.inj
  have hat : ∀ f : Endog V → Option V, (∀ a, f (Endog.rename φ a) = f a) →
      RenTable φ N (attrDict Endog.name f m.endog) (attrDict Endog.name f m'.endog) := by
    intro f hf
    rw [h.1.endog]
    exact attrDict_rename hi (nm := Endog.name) (r := Endog.rename φ) (fun _ => rfl) hf h.2.endog
  have hsh : RenMoments φ N (determDict m.determ (stochDict m.stoch [])) (determDict m'.determ (stochDict m'.stoch [])) := by
    rw [h.1.determ, h.1.stoch]
    exact determDict_rename hi h.2.determ _ _ (stochDict_rename hi h.2.stoch [] [] ⟨rfl, fun p hp => by simp at hp⟩)
  have h1 := hat Endog.initial fun _ => rfl
  have h2 := hat Endog.terminal fun _ => rfl
  have h3 := hat Endog.historical fun _ => rfl
  unfold MState.copy
  refine (nest_rename hi h.params).bind fun p p' _ _ hp => ?_
  refine build_rename hb hk (a := m.copyArgs) (a' := m'.copyArgs) ?_ ?_ hp
    ⟨rfl, fun q hq => by simp at hq, fun q hq => by simp at hq⟩
  · refine ⟨h.names_in, h.stoch_in, ?_, fun q hq => by simp [MState.copyArgs] at hq,
      fun q hq => by simp [MState.copyArgs] at hq, hsh.2, h.2.exprs, h1.2, h2.2, h3.2⟩
    intro x hx
    obtain ⟨d, hd, rfl⟩ := List.mem_map.mp hx
    exact h.2.determ d hd
  · refine ⟨h.names, h.stochNames, ?_, rfl, rfl, hsh.1, h.1.exprs, h1.1, h2.1, h3.1, rfl⟩
    show m'.determ.map _ = (m.determ.map _).map φ
    rw [h.1.determ]
    simp [Function.comp_def, Determ.rename]

end Pynare
